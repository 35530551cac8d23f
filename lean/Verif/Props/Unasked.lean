import Verif.Props.Listing
import Verif.Spec.Unasked

/-!
# C124: headers that no client asks for do not matter

If the requests of a history ask for some names of headers only, workers may declare any other headers,
as long as they do so whenever they introduce themselves.
-/

namespace Broker

open Spec

variable {Q : Type} [QueueManager Q]

theorem asksOnly_within {N : String → Prop} {m : Msg} (ha : AsksOnly N m) :
    m.key = "clients" → m.data.head? = some "eval" →
    ∀ x, evalHeaders (m.data.drop 2) [] [] = .ok (some x) → NamedWithin N x.1 := by
  obtain ⟨k, i, d⟩ := m
  rintro rfl hd x hx
  match d with
  | [] => cases hd
  | [_] => cases hx
  | c :: j :: fs =>
    obtain rfl : c = "eval" := Option.some.inj hd
    intro e he
    obtain ⟨-, -, hall⟩ := evalHeaders_some _ _ _ _ hx
    rcases (hall e).1 he with h | ⟨f, hf, hm, rfl⟩
    · cases h
    · exact ha i j fs rfl f hf hm

theorem relistedFor_retold {N : String → Prop} {f : String → List String → List String}
    (hf : ∀ i, ListingFor N (f i)) {m m' : Msg} (h : RelistedFor N f m m') :
    Retold id Eq (ListedAs f) (NamedWithin N) m m' := by
  cases h with
  | other m h ha =>
    have h := Retold.same (ν := id) (τ := Eq) (κ := ListedAs f) (ψ := NamedWithin N) m
      (fun h1 h2 => absurd ⟨h1, h2⟩ h) (asksOnly_within ha)
    rwa [nameInp_id] at h
  | short i => exact .intro i (.one _)
  | @intro i g hs hs' t e hh hh' hn hn' h ht =>
    have h1 := initHeaders_fst_append hs t hh ht []
    have h2 := initHeaders_fst_append hs' t hh' ht []
    refine .intro i (.more ?_ ?_ ?_ ?_)
    · rw [h1.1, h2.1, (headers_eq_iff _ _).2 h]
      exact ⟨hs, hh, rfl, rfl⟩
    · rw [h1.1, h2.1]
      refine sameOffer_of_mem (numeric_declared hn) (numeric_declared hn') fun k hN v => ?_
      rw [h k, (hf i).mem hs hh k hN]
    · rw [h1.2, h2.2]
    · rw [h1.2, h2.2]

theorem transcript_unasked [Carries Q] [LayoutQM Q] (cfg : HConfig) {env : Env}
    (he : LayoutQM.EnvR Q True env env) {N : String → Prop} {f : String → List String → List String}
    (hf : ∀ i, ListingFor N (f i)) {ms ms' : List Msg} (h : List.Forall₂ (RelistedFor N f) ms ms') :
    ∀ {s s' : HState Q}, ToldEq id True Eq (ListedAs f) (NamedWithin N) s s' →
      transcript cfg env s' ms' = transcript cfg env s ms := by
  induction h with
  | nil => intro s s' _; rfl
  | @cons m m' ms ms' hm _ ih =>
    intro s s' hs
    have hr := step_retold cfg he (relistedFor_retold hf hm) hs
    unfold transcript
    generalize step cfg env m s = x at hr
    generalize step cfg env m' s' = x' at hr
    cases hr with
    | ok ho h2 =>
      have ho := forall2_named_id (ho.imp fun _ _ => told_named)
      simp only [ho, ih h2]
    | error e ho =>
      have ho := forall2_named_id (ho.imp fun _ _ => told_named)
      simp only [ho]

theorem within_nil (N : String → Prop) : NamedWithin N [] := fun _ h => by cases h

/-- **C124 (multi-queue manager).** If requests ask for headers with some names only and workers keep the
    values of these names, the broker answers every message in the same way, and ends in the same way if
    it ends, whatever else workers declare. -/
theorem C124_multi (cfg : HConfig) (env : Env) {N : String → Prop}
    {f : String → List String → List String} (hf : ∀ i, ListingFor N (f i)) {ms ms' : List Msg}
    (h : List.Forall₂ (RelistedFor N f) ms ms') :
    observed Multi cfg env ms' = observed Multi cfg env ms :=
  transcript_unasked (Q := Multi) cfg (env := env) trivial hf h
    (ToldEq.init (fun h => h) _ _ (ListedAs.alike fun i => (hf i).same) (within_nil N))

/-- **C124 (single-queue manager).** As for the multi-queue manager, for any memory allocator, clock and
    sorting algorithm. -/
theorem C124_single (cfg : HConfig) (env : Env) {N : String → Prop}
    {f : String → List String → List String} (hf : ∀ i, ListingFor N (f i)) {ms ms' : List Msg}
    (h : List.Forall₂ (RelistedFor N f) ms ms') :
    observed Single cfg env ms' = observed Single cfg env ms :=
  have he : LayoutQM.EnvR Single True env env := ⟨rfl, rfl, .inr ⟨trivial, rfl⟩⟩
  transcript_unasked (Q := Single) cfg he hf h
    (ToldEq.init (fun h => h) _ _ (ListedAs.alike fun i => (hf i).same) (within_nil N))

/-! ## With regard to the introductions of the history -/

/-- Headers of a worker in corresponding introductions of two histories. -/
def DeclaredIn (ps : List (Msg × Msg)) (i : String) (h h' : Headers) : Prop :=
  ∃ g g' hs hs',
    ((⟨"workers", i, "init" :: g :: hs⟩, ⟨"workers", i, "init" :: g' :: hs'⟩) : Msg × Msg) ∈ ps ∧
    h = (initHeaders hs []).1 ∧ h' = (initHeaders hs' []).1

theorem DeclaredIn.alike {ms ms' : List Msg} (hr : SameRepeats ms ms') {i : String}
    {h k h' k' : Headers} (e1 : DeclaredIn (ms.zip ms') i h h') (e2 : DeclaredIn (ms.zip ms') i k k') :
    h = k ↔ h' = k' := by
  obtain ⟨g1, g1', hs, hs', m1, rfl, rfl⟩ := e1
  obtain ⟨g2, g2', ks, ks', m2, rfl, rfl⟩ := e2
  rw [headers_eq_iff, headers_eq_iff]
  exact hr i g1 g1' g2 g2' hs hs' ks ks' m1 m2

theorem sameAsked_retold {N : String → Prop} {ps : List (Msg × Msg)} {m m' : Msg}
    (h : SameAsked N m m') (hp : (m, m') ∈ ps) :
    Retold id Eq (DeclaredIn ps) (NamedWithin N) m m' := by
  cases h with
  | other m h ha =>
    have h := Retold.same (ν := id) (τ := Eq) (κ := DeclaredIn ps) (ψ := NamedWithin N) m
      (fun h1 h2 => absurd ⟨h1, h2⟩ h) (asksOnly_within ha)
    rwa [nameInp_id] at h
  | short i => exact .intro i (.one _)
  | @intro i g hs hs' t e hh hh' hn hn' h ht =>
    have h1 := initHeaders_fst_append hs t hh ht []
    have h2 := initHeaders_fst_append hs' t hh' ht []
    refine .intro i (.more ⟨g, g, _, _, hp, rfl, rfl⟩ ?_ ?_ ?_)
    · rw [h1.1, h2.1]
      exact sameOffer_of_mem (numeric_declared hn) (numeric_declared hn') h
    · rw [h1.2, h2.2]
    · rw [h1.2, h2.2]

theorem transcript_sameAsked [Carries Q] [LayoutQM Q] (cfg : HConfig) {env : Env}
    (he : LayoutQM.EnvR Q True env env) {N : String → Prop} {ps : List (Msg × Msg)}
    {ms ms' : List Msg} (h : List.Forall₂ (SameAsked N) ms ms') (hp : ∀ p ∈ ms.zip ms', p ∈ ps) :
    ∀ {s s' : HState Q}, ToldEq id True Eq (DeclaredIn ps) (NamedWithin N) s s' →
      transcript cfg env s' ms' = transcript cfg env s ms := by
  induction h with
  | nil => intro s s' _; rfl
  | @cons m m' ms ms' hm _ ih =>
    intro s s' hs
    have hr := step_retold cfg he (sameAsked_retold hm (hp _ (.head _))) hs
    unfold transcript
    generalize step cfg env m s = x at hr
    generalize step cfg env m' s' = x' at hr
    cases hr with
    | ok ho h2 =>
      have ho := forall2_named_id (ho.imp fun _ _ => told_named)
      simp only [ho, ih (fun p h => hp p (.tail _ h)) h2]
    | error e ho =>
      have ho := forall2_named_id (ho.imp fun _ _ => told_named)
      simp only [ho]

/-- **C124 with regard to the introductions of the history (multi-queue manager).** Workers may declare
    anything under names that no request asks for, if introductions that repeat an earlier one still do
    and others still do not. -/
theorem C124_multi_here (cfg : HConfig) (env : Env) {N : String → Prop} {ms ms' : List Msg}
    (h : List.Forall₂ (SameAsked N) ms ms') (hr : SameRepeats ms ms') :
    observed Multi cfg env ms' = observed Multi cfg env ms :=
  transcript_sameAsked (Q := Multi) cfg (env := env) trivial h (fun _ hp => hp)
    (ToldEq.init (fun h => h) _ _ (DeclaredIn.alike hr) (within_nil N))

/-- **C124 with regard to the introductions of the history (single-queue manager).** -/
theorem C124_single_here (cfg : HConfig) (env : Env) {N : String → Prop} {ms ms' : List Msg}
    (h : List.Forall₂ (SameAsked N) ms ms') (hr : SameRepeats ms ms') :
    observed Single cfg env ms' = observed Single cfg env ms :=
  have he : LayoutQM.EnvR Single True env env := ⟨rfl, rfl, .inr ⟨trivial, rfl⟩⟩
  transcript_sameAsked (Q := Single) cfg he h (fun _ hp => hp)
    (ToldEq.init (fun h => h) _ _ (DeclaredIn.alike hr) (within_nil N))

/-! ## Additional headers -/

/-- Additional headers with other names. -/
theorem listingFor_more {N : String → Prop} {more : List String} (hm : ∀ x ∈ more, x ≠ "")
    (hN : ∀ x ∈ more, ¬ N (frameKey x)) : ListingFor N fun hs => hs ++ more := by
  have h (hs : List String) (hn : ∀ x ∈ hs, x ≠ "") (k : String) :
      declared k (hs ++ more) = declared k hs ++ declared k more := by
    have hall : ∀ x ∈ hs ++ more, x ≠ "" := fun x hx =>
      (List.mem_append.1 hx).elim (hn x) (hm x)
    rw [declared_plain hn, declared_plain hm, declared_plain hall]; simp
  constructor
  · intro hs hn k hk v
    have he : declared k more = [] := by
      rw [declared_plain hm, List.map_eq_nil_iff, List.filter_eq_nil_iff]
      intro x hx e
      rw [beq_iff_eq] at e
      exact hN x hx (e ▸ hk)
    rw [h hs hn, he, List.append_nil]
  · intro hs ks hn hk
    simp only [SameDeclared, h hs hn, h ks hk, List.append_cancel_right_eq]

/-- **C124, additional headers.** Every worker may declare headers of its own in addition, if no request
    asks for a header with such a name. -/
theorem C124_more (cfg : HConfig) (env : Env) {N : String → Prop} {more : String → List String}
    (hm : ∀ i, ∀ x ∈ more i, x ≠ "") (hn : ∀ i, Numeric (more i))
    (hN : ∀ i, ∀ x ∈ more i, ¬ N (frameKey x)) {ms ms' : List Msg} (ha : ∀ m ∈ ms, AsksOnly N m)
    (h : List.Forall₂ (WithMore more) ms ms') :
    observed Multi cfg env ms' = observed Multi cfg env ms ∧
    observed Single cfg env ms' = observed Single cfg env ms := by
  have hf : ∀ i, ListingFor N fun hs => hs ++ more i := fun i => listingFor_more (hm i) (hN i)
  have h' : List.Forall₂ (RelistedFor N fun i hs => hs ++ more i) ms ms' := by
    induction h with
    | nil => exact .nil
    | @cons m m' _ _ h1 _ ih =>
      refine .cons ?_ (ih fun x hx => ha x (.tail _ hx))
      cases h1 with
      | other _ h => exact .other _ h (ha _ (.head _))
      | short i => exact .short i
      | @intro i g hs t e hh hn1 ht =>
        refine .intro i g hh ?_ hn1 ?_ (fun _ => rfl) ht
        · exact fun x hx => (List.mem_append.1 hx).elim (hh x) (hm i x)
        · exact fun x hx hk => (List.mem_append.1 hx).elim (fun hx => hn1 x hx hk)
            (fun hx => hn i x hx hk)
  exact ⟨C124_multi cfg env hf h', C124_single cfg env hf h'⟩

/-! ## Examples -/

/-- Every worker declares its rack. -/
def racks (i : String) : List String := ["rack" ++ "=" ++ i, "rack=any"]

/-- Two workers introduce themselves, one of them twice and then with other headers; clients ask for
    hardware groups and for `x`. -/
def rackMsgs (more : String → List String) : List Msg :=
  [⟨"workers", "A", "init" :: "g" :: (["x=1"] ++ more "A" ++ [])⟩,
   ⟨"workers", "B", "init" :: "h" :: (["x=1", "x=2"] ++ more "B" ++ ["", "description=b"])⟩,
   fromC "C" ["eval", "J", "x=2", "meta.rack=7", "", "url"],
   ⟨"workers", "A", "init" :: "g" :: (["x=1"] ++ more "A" ++ [])⟩,
   fromC "C" ["eval", "K", "x=1", "hwgroup=g", "", "url"],
   ⟨"workers", "A", "init" :: "g" :: (["x=3"] ++ more "A" ++ [])⟩,
   fromC "C" ["eval", "L", "x=4", "", "url"]]

/-- The names the clients ask for. -/
def rackNames (k : String) : Prop := k = "x" ∨ k = "hwgroup"

theorem rackMsgs_more : List.Forall₂ (WithMore racks) (rackMsgs fun _ => []) (rackMsgs racks) := by
  have hc (d : List String) : WithMore racks (fromC "C" d) (fromC "C" d) := .other _ (by simp [fromC])
  have hn {hs : List String} (h : ∀ x ∈ hs, frameKey x ≠ "threads") : Numeric hs :=
    fun x hx hk => absurd hk (h x hx)
  have hA {hs : List String} (hh : ∀ x ∈ hs, x ≠ "") (hk : ∀ x ∈ hs, frameKey x ≠ "threads") :
      WithMore racks ⟨"workers", "A", "init" :: "g" :: (hs ++ [] ++ [])⟩
        ⟨"workers", "A", "init" :: "g" :: (hs ++ racks "A" ++ [])⟩ := by
    rw [List.append_nil hs]; exact .intro "A" "g" hh (hn hk) .none
  have hB : WithMore racks
      ⟨"workers", "B", "init" :: "h" :: (["x=1", "x=2"] ++ [] ++ ["", "description=b"])⟩
      ⟨"workers", "B", "init" :: "h" :: (["x=1", "x=2"] ++ racks "B" ++ ["", "description=b"])⟩ :=
    .intro "B" "h" (hs := ["x=1", "x=2"]) (by decide) (hn (by decide +kernel)) (.some _)
  exact .cons (hA (by decide) (by decide +kernel)) (.cons hB (.cons (hc _)
    (.cons (hA (by decide) (by decide +kernel)) (.cons (hc _)
      (.cons (hA (by decide) (by decide +kernel)) (.cons (hc _) .nil))))))

theorem racks_key {i x : String} (h : x ∈ racks i) : frameKey x = "rack" := by
  simp only [racks, List.mem_cons, List.not_mem_nil, or_false] at h
  rcases h with rfl | rfl
  · exact frameKey_encode (by decide)
  · decide +kernel

example : (∀ i, ∀ x ∈ racks i, x ≠ "") ∧ (∀ i, Numeric (racks i)) ∧
    (∀ i, ∀ x ∈ racks i, ¬ rackNames (frameKey x)) ∧
    (∀ m ∈ rackMsgs fun _ => [], AsksOnly rackNames m) := by
  refine ⟨fun i x hx e => ?_, fun i x hx hk => ?_, fun i x hx hN => ?_, ?_⟩
  · have := racks_key hx
    rw [e] at this
    exact absurd this (by decide +kernel)
  · rw [racks_key hx] at hk; exact absurd hk (by decide)
  · rw [racks_key hx] at hN
    rcases hN with h | h <;> exact absurd h (by decide)
  · have hw (i : String) (d : List String) : AsksOnly rackNames ⟨"workers", i, d⟩ := by
      intro i j fs e
      have e : "workers" = "clients" := congrArg Msg.key e
      exact absurd e (by decide)
    have hc {j' : String} {fs' : List String}
        (h : ∀ x ∈ headerFrames fs', isMeta x = false → frameKey x = "x" ∨ frameKey x = "hwgroup") :
        AsksOnly rackNames (fromC "C" ("eval" :: j' :: fs')) := by
      intro i j fs e
      have e : "eval" :: j' :: fs' = "eval" :: j :: fs := congrArg Msg.data e
      simp only [List.cons.injEq, true_and] at e
      rw [← e.2]; exact h
    intro m hm
    simp only [rackMsgs, List.mem_cons, List.not_mem_nil, or_false] at hm
    rcases hm with rfl | rfl | rfl | rfl | rfl | rfl | rfl
    · exact hw _ _
    · exact hw _ _
    · exact hc (by decide +kernel)
    · exact hw _ _
    · exact hc (by decide +kernel)
    · exact hw _ _
    · exact hc (by decide +kernel)

/-- What the broker sends. -/
def rackOuts : List Msg :=
  [⟨"clients", "C", ["ack"]⟩, ⟨"workers", "B", ["eval", "J", "url"]⟩, ⟨"clients", "C", ["accept"]⟩,
   ⟨"clients", "C", ["ack"]⟩, ⟨"workers", "A", ["eval", "K", "url"]⟩, ⟨"clients", "C", ["accept"]⟩,
   ⟨"status_notifier", "", ["type", "error", "message",
     "Received two different INIT messages from the same worker (41)"]⟩,
   ⟨"clients", "C", ["ack"]⟩, ⟨"clients", "C", ["reject", "No worker available for given headers: x=4; "]⟩,
   ⟨"monitor", "recodex-monitor", ["L", "FAILED"]⟩]

example : (observed Multi cfg0 env0 (rackMsgs racks)).flatMap (·.1) = rackOuts := by decide +kernel

example : (observed Single cfg0 env0 (rackMsgs racks)).flatMap (·.1) = rackOuts := by decide +kernel

/-- A worker introduces itself twice with a rack and then with another rack and another `x`, or without
    racks. -/
def dropMsgs (a b : List String) : List Msg :=
  [⟨"workers", "A", "init" :: "g" :: (("x=1" :: a) ++ [])⟩,
   ⟨"workers", "A", "init" :: "g" :: (("x=1" :: a) ++ [])⟩,
   ⟨"workers", "A", "init" :: "g" :: (("x=2" :: b) ++ [])⟩,
   fromC "C" ["eval", "J", "x=2", "", "url"]]

example : List.Forall₂ (SameAsked (· = "x")) (dropMsgs ["rack=1"] ["rack=2"]) (dropMsgs [] []) ∧
    SameRepeats (dropMsgs ["rack=1"] ["rack=2"]) (dropMsgs [] []) := by
  have hn {hs : List String} (h : ∀ x ∈ hs, frameKey x ≠ "threads") : Numeric hs :=
    fun x hx hk => absurd hk (h x hx)
  have hi {hs hs' : List String} (h1 : ∀ x ∈ hs, x ≠ "") (h2 : ∀ x ∈ hs', x ≠ "")
      (h3 : ∀ x ∈ hs, frameKey x ≠ "threads") (h4 : ∀ x ∈ hs', frameKey x ≠ "threads")
      (h5 : declared "x" hs' = declared "x" hs) : SameAsked (· = "x")
        ⟨"workers", "A", "init" :: "g" :: (hs ++ [])⟩ ⟨"workers", "A", "init" :: "g" :: (hs' ++ [])⟩ :=
    .intro "A" "g" h1 h2 (hn h3) (hn h4) (by rintro k rfl v; rw [h5]) .none
  refine ⟨.cons (hi ?_ ?_ ?_ ?_ ?_) (.cons (hi ?_ ?_ ?_ ?_ ?_) (.cons (hi ?_ ?_ ?_ ?_ ?_)
    (.cons (.other _ (by simp [fromC]) ?_) .nil))), ?_⟩
  all_goals try decide +kernel
  · intro i j fs e
    have e : ["eval", "J", "x=2", "", "url"] = "eval" :: j :: fs := congrArg Msg.data e
    simp only [List.cons.injEq, true_and] at e
    rw [← e.2]
    decide +kernel
  · intro i g1 g1' g2 g2' hs hs' ks ks' m1 m2
    have key : ∀ {hs hs' : List String} {g g' : String},
        ((⟨"workers", i, "init" :: g :: hs⟩, ⟨"workers", i, "init" :: g' :: hs'⟩) : Msg × Msg) ∈
          (dropMsgs ["rack=1"] ["rack=2"]).zip (dropMsgs [] []) →
        (hs = ["x=1", "rack=1"] ∧ hs' = ["x=1"]) ∨ (hs = ["x=2", "rack=2"] ∧ hs' = ["x=2"]) := by
      intro hs hs' g g' h
      simp only [dropMsgs, fromC, List.zip_cons_cons, List.zip_nil_right, List.mem_cons, Prod.mk.injEq,
        Msg.mk.injEq, List.cons.injEq, List.not_mem_nil, or_false, List.append_nil, true_and] at h
      rcases h with ⟨⟨-, -, h1⟩, -, -, h2⟩ | ⟨⟨-, -, h1⟩, -, -, h2⟩ | ⟨⟨-, -, h1⟩, -, -, h2⟩ | h
      · exact .inl ⟨h1, h2⟩
      · exact .inl ⟨h1, h2⟩
      · exact .inr ⟨h1, h2⟩
      · exact absurd h.1.1 (by decide)
    have hne {a b : List String} (h : (initHeaders a []).1 ≠ (initHeaders b []).1) :
        ¬ SameDeclared a b := fun e => h ((headers_eq_iff a b).2 e)
    rcases key m1 with ⟨rfl, rfl⟩ | ⟨rfl, rfl⟩ <;> rcases key m2 with ⟨rfl, rfl⟩ | ⟨rfl, rfl⟩
    · exact ⟨fun _ _ => rfl, fun _ _ => rfl⟩
    · exact ⟨fun h => absurd h (hne (by decide +kernel)), fun h => absurd h (hne (by decide +kernel))⟩
    · exact ⟨fun h => absurd h (hne (by decide +kernel)), fun h => absurd h (hne (by decide +kernel))⟩
    · exact ⟨fun _ _ => rfl, fun _ _ => rfl⟩

/-- **C124, asked.** A header that a client asks for does matter. -/
theorem C124_asked_needed : ∃ m : Msg,
    observed Multi cfg0 env0 [listedIntro ["x=1", "rack=1"], m] ≠
      observed Multi cfg0 env0 [listedIntro ["x=1"], m] ∧
    observed Single cfg0 env0 [listedIntro ["x=1", "rack=1"], m] ≠
      observed Single cfg0 env0 [listedIntro ["x=1"], m] :=
  ⟨fromC "C" ["eval", "J", "rack=1", "", "url"], by decide +kernel, by decide +kernel⟩

/-- **C124, numbers.** A number of threads that is not a number ends the broker, also if no client asks
    for threads. -/
theorem C124_numeric_needed :
    observed Multi cfg0 env0 [listedIntro ["x=1", "threads=many"]] ≠
      observed Multi cfg0 env0 [listedIntro ["x=1"]] ∧
    observed Single cfg0 env0 [listedIntro ["x=1", "threads=many"]] ≠
      observed Single cfg0 env0 [listedIntro ["x=1"]] :=
  ⟨by decide +kernel, by decide +kernel⟩

/-- **C124, always.** A worker that declares an additional header in one of two introductions only is
    taken for another one. -/
theorem C124_always_needed :
    observed Multi cfg0 env0 [listedIntro ["x=1"], listedIntro ["x=1", "rack=1"]] ≠
      observed Multi cfg0 env0 [listedIntro ["x=1"], listedIntro ["x=1"]] ∧
    observed Single cfg0 env0 [listedIntro ["x=1"], listedIntro ["x=1", "rack=1"]] ≠
      observed Single cfg0 env0 [listedIntro ["x=1"], listedIntro ["x=1"]] :=
  ⟨by decide +kernel, by decide +kernel⟩

end Broker
