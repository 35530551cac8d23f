import Verif.Props.Titles
import Verif.Proof.Fatal
import Verif.Spec.Listing

/-!
# C123: how a worker lists its headers does not matter

A worker may repeat its headers, and it may send them in another order, as long as it does so whenever it
introduces itself.
-/

namespace Broker

open Spec

variable {Q : Type} [QueueManager Q]

theorem mem_headers (hs : List String) (k v : String) :
    (k, v) ∈ (initHeaders hs []).1 ↔ v ∈ declared k hs := by
  rw [← mem_mmRange, mmRange_initHeaders _ _ _ List.Pairwise.nil]
  simp [mmRange]

theorem headers_eq_iff (hs ks : List String) :
    (initHeaders hs []).1 = (initHeaders ks []).1 ↔ SameDeclared hs ks := by
  have h (l : List String) (k : String) : mmRange k (initHeaders l []).1 = declared k l := by
    rw [mmRange_initHeaders _ _ _ List.Pairwise.nil]; simp [mmRange]
  constructor
  · intro e k; rw [← h, ← h, e]
  · intro e
    refine mmap_ext (initHeaders_sorted _ _ List.Pairwise.nil)
      (initHeaders_sorted _ _ List.Pairwise.nil) fun k => ?_
    rw [h, h, e k]

theorem outcome_ext {x y : Except Exn Bool} (h1 : ∀ e, x = .error e ↔ y = .error e)
    (h2 : x = .ok true ↔ y = .ok true) : x = y := by
  cases x with
  | error e => exact ((h1 e).1 rfl).symm
  | ok b =>
    cases y with
    | error e => exact absurd ((h1 e).2 rfl) (by simp)
    | ok c => cases b <;> cases c <;> simp_all

theorem create_counts {a : Nat} {i g d : String} {hs : List String}
    (hn : ∀ v ∈ declared "threads" hs, ∃ n, IsCount v n) :
    ∃ w, Worker.create a i g (initHeaders hs []).1 d = .ok w := by
  cases h : Worker.create a i g (initHeaders hs []).1 d with
  | ok w => exact ⟨w, rfl⟩
  | error x =>
    obtain ⟨pre, v, post, e, -, hb⟩ := create_error_iff.1 h
    obtain ⟨n, hv⟩ := hn v (by rw [e]; simp)
    have h1 := (stoul_iff v n).2 hv
    rw [(stoul_error_iff v x).2 hb] at h1
    cases h1

/-- Requirements with these names only. -/
def NamedWithin (N : String → Prop) (rs : Headers) : Prop := ∀ e ∈ rs, N e.1

/-- Workers of the same group with the same values under some names meet the same requirements with
    these names. -/
theorem sameOffer_of_mem {N : String → Prop} {g : String} {hs hs' : List String}
    (hn : ∀ v ∈ declared "threads" hs, ∃ n, IsCount v n)
    (hn' : ∀ v ∈ declared "threads" hs', ∃ n, IsCount v n)
    (hm : ∀ k, N k → ∀ v, v ∈ declared k hs' ↔ v ∈ declared k hs) :
    SameOffer (NamedWithin N) g g (initHeaders hs []).1 (initHeaders hs' []).1 := by
  intro a b i j d d'
  obtain ⟨w, hw⟩ := create_counts (a := a) (i := i) (g := g) (d := d) hn
  obtain ⟨w', hw'⟩ := create_counts (a := b) (i := j) (g := g) (d := d') (hs := hs') hn'
  rw [hw, hw']
  obtain ⟨-, -, hg, hh, -⟩ := Worker.create_fields hw
  obtain ⟨-, -, hg', hh', -⟩ := Worker.create_fields hw'
  have h1 : ∀ k v, N k → w'.checkHeader k v = w.checkHeader k v := by
    intro k v hN
    have hmem : ∀ v, (k, v) ∈ w'.headers ↔ (k, v) ∈ w.headers := by
      intro v; rw [hh, hh', mem_headers, mem_headers, hm k hN]
    refine outcome_ext (fun x => ?_) ?_
    · by_cases hk : k = "threads"
      · subst hk
        rw [checkHeader_threads_error (Worker.create_wf hw), matchers_threads hw,
          checkHeader_threads_error (Worker.create_wf hw'), matchers_threads hw']
        simp only [hmem]
      · obtain ⟨c, hc⟩ := checkHeader_other_total (Worker.create_wf hw) hk v
        obtain ⟨c', hc'⟩ := checkHeader_other_total (Worker.create_wf hw') hk v
        rw [hc, hc']; simp
    · rw [offers_iff hw, offers_iff hw']
      unfold Spec.Offers
      by_cases hk : k = "threads"
      · subst hk; simp only [hmem, hg, hg']
      · simp only [hmem, hg, hg', hk, false_and]
  refine .ok fun rs => ?_
  induction rs with
  | nil => intro _; rfl
  | cons p t ih =>
    intro hN
    simp only [Worker.checkHeaders, h1 p.1 p.2 (hN p (.head _)), ih fun e he => hN e (.tail _ he)]

/-- Headers listed in two ways. -/
def ListedAs (f : String → List String → List String) (i : String) (h h' : Headers) : Prop :=
  ∃ hs : List String, (∀ x ∈ hs, x ≠ "") ∧ h = (initHeaders hs []).1 ∧ h' = (initHeaders (f i hs) []).1

theorem ListedAs.alike {f : String → List String → List String}
    (hf : ∀ i hs ks, (∀ x ∈ hs, x ≠ "") → (∀ x ∈ ks, x ≠ "") →
      (SameDeclared (f i hs) (f i ks) ↔ SameDeclared hs ks)) {i : String}
    {h k h' k' : Headers} (e1 : ListedAs f i h h') (e2 : ListedAs f i k k') : h = k ↔ h' = k' := by
  obtain ⟨hs, n1, rfl, rfl⟩ := e1
  obtain ⟨ks, n2, rfl, rfl⟩ := e2
  rw [headers_eq_iff, headers_eq_iff, hf i hs ks n1 n2]

theorem numeric_declared {hs : List String} (hn : Numeric hs) :
    ∀ v ∈ declared "threads" hs, ∃ n, IsCount v n := by
  intro v hv
  simp only [declared, List.mem_map, List.mem_filter, beq_iff_eq] at hv
  obtain ⟨x, ⟨hx, hk⟩, rfl⟩ := hv
  exact hn x ((List.takeWhile_sublist _).subset hx) hk

theorem relisted_retold {f : String → List String → List String} (hf : ∀ i, Listing (f i)) {m m' : Msg}
    (h : Relisted f m m') : Retold id Eq (ListedAs f) (fun _ => True) m m' := by
  cases h with
  | other m h =>
    have h := Retold.same (ν := id) (τ := Eq) (κ := ListedAs f) (ψ := fun _ => True) m
      (fun h1 h2 => absurd ⟨h1, h2⟩ h) fun _ _ _ _ => trivial
    rwa [nameInp_id] at h
  | short i => exact .intro i (.one _)
  | @intro i g hs hs' t e hh hh' hn h ht =>
    have h1 := initHeaders_fst_append hs t hh ht []
    have h2 := initHeaders_fst_append hs' t hh' ht []
    refine .intro i (.more ?_ ?_ ?_ ?_)
    · rw [h1.1, h2.1, (headers_eq_iff _ _).2 h]
      exact ⟨hs, hh, rfl, rfl⟩
    · rw [h1.1, h2.1]
      have hm : ∀ k v, v ∈ declared k hs' ↔ v ∈ declared k hs := fun k v => by
        rw [h k, (hf i).mem hs hh]
      have hd := numeric_declared hn
      exact (sameOffer_of_mem (N := fun _ => True) hd (fun v hv => hd v ((hm _ v).1 hv))
        fun k _ v => hm k v).mono fun _ _ _ _ => trivial
    · rw [h1.2, h2.2]
    · rw [h1.2, h2.2]

theorem transcript_listed [Carries Q] [LayoutQM Q] (cfg : HConfig) {env : Env}
    (he : LayoutQM.EnvR Q True env env) {f : String → List String → List String}
    (hf : ∀ i, Listing (f i)) {ms ms' : List Msg} (h : List.Forall₂ (Relisted f) ms ms') :
    ∀ {s s' : HState Q}, ToldEq id True Eq (ListedAs f) (fun _ => True) s s' →
      transcript cfg env s' ms' = transcript cfg env s ms := by
  induction h with
  | nil => intro s s' _; rfl
  | @cons m m' ms ms' hm _ ih =>
    intro s s' hs
    have hr := step_retold cfg he (relisted_retold hf hm) hs
    unfold transcript
    generalize step cfg env m s = x at hr
    generalize step cfg env m' s' = x' at hr
    cases hr with
    | ok ho h2 =>
      have ho := forall2_named_id (ho.imp fun _ _ => told_named)
      simp only [ho, ih h2]
    | error e ho =>
      have ho := forall2_named_id (ho.imp fun _ _ => told_named)
      simp only [ho]

/-- **C123 (multi-queue manager).** If workers list their headers in another way whenever they
    introduce themselves, each of them in its own way, the broker answers every message in the same way, and ends in the same way if
    it ends. -/
theorem C123_multi (cfg : HConfig) (env : Env) {f : String → List String → List String}
    (hf : ∀ i, Listing (f i)) {ms ms' : List Msg} (h : List.Forall₂ (Relisted f) ms ms') :
    observed Multi cfg env ms' = observed Multi cfg env ms :=
  transcript_listed (Q := Multi) cfg (env := env) trivial hf h
    (ToldEq.init (fun h => h) _ _ (ListedAs.alike fun i => (hf i).same) trivial)

/-- **C123 (single-queue manager).** As for the multi-queue manager, for any memory allocator, clock and
    sorting algorithm. -/
theorem C123_single (cfg : HConfig) (env : Env) {f : String → List String → List String}
    (hf : ∀ i, Listing (f i)) {ms ms' : List Msg} (h : List.Forall₂ (Relisted f) ms ms') :
    observed Single cfg env ms' = observed Single cfg env ms :=
  have he : LayoutQM.EnvR Single True env env := ⟨rfl, rfl, .inr ⟨trivial, rfl⟩⟩
  transcript_listed (Q := Single) cfg he hf h (ToldEq.init (fun h => h) _ _ (ListedAs.alike fun i => (hf i).same) trivial)

/-! ## Examples -/

theorem declared_plain {hs : List String} (h : ∀ x ∈ hs, x ≠ "") (k : String) :
    declared k hs = (hs.filter fun x => frameKey x == k).map frameValue := by
  unfold declared headerFrames
  have e : hs.takeWhile (· != "") = hs := by
    induction hs with
    | nil => rfl
    | cons x t ih =>
      rw [List.takeWhile_cons, if_pos (by simpa using h x (by simp)),
        ih fun y hy => h y (by simp [hy])]
  rw [e]

/-- In the opposite order. -/
theorem listing_reverse : Listing List.reverse := by
  have h (hs : List String) (hn : ∀ x ∈ hs, x ≠ "") (k : String) :
      declared k hs.reverse = (declared k hs).reverse := by
    rw [declared_plain hn, declared_plain (by simpa using hn)]; simp
  constructor
  · intro hs hn k v; rw [h hs hn]; simp
  · intro hs ks hn hk
    simp only [SameDeclared, h hs hn, h ks hk, List.reverse_inj]

/-- Every header twice. -/
theorem listing_twice : Listing fun hs => hs ++ hs := by
  have h (hs : List String) (hn : ∀ x ∈ hs, x ≠ "") (k : String) :
      declared k (hs ++ hs) = declared k hs ++ declared k hs := by
    rw [declared_plain hn, declared_plain (by simpa using hn)]; simp
  constructor
  · intro hs hn k v; rw [h hs hn]; simp
  · intro hs ks hn hk
    simp only [SameDeclared, h hs hn, h ks hk]
    refine forall_congr' fun k => ⟨fun e => ?_, fun e => by rw [e]⟩
    refine (List.append_inj e ?_).1
    have := congrArg List.length e
    simp only [List.length_append] at this
    omega

/-- The same order; headers with different names may still change places. -/
theorem listing_id : Listing id := ⟨fun _ _ _ _ => Iff.rfl, fun _ _ _ _ => Iff.rfl⟩

/-- A worker introduces itself three times, the third time with other headers, and gets a job each
    time. -/
def listedMsgs (f : List String → List String) : List Msg :=
  [⟨"workers", "A", "init" :: "g" :: (f ["threads=2", "x=1", "threads=8", "x=2"] ++ [])⟩,
   fromC "C" ["eval", "J", "x=2", "threads=4", "", "url"],
   ⟨"workers", "A", "init" :: "g" :: (f ["threads=2", "x=1", "threads=8", "x=2"] ++ [])⟩,
   fromW "A" ["done", "J", "OK"],
   ⟨"workers", "A", "init" :: "g" :: (f ["y=3", "x=1"] ++ [])⟩,
   fromC "C" ["eval", "K", "y=3", "", "url"], fromC "C" ["eval", "L", "y=4", "", "url"]]

theorem listedMsgs_relisted {f : String → List String → List String} {g : List String → List String}
    (hg : ∀ hs, (∀ x ∈ hs, x ≠ "") → (∀ x ∈ g hs, x ≠ "") ∧ SameDeclared (g hs) (f "A" hs)) :
    List.Forall₂ (Relisted f) (listedMsgs id) (listedMsgs g) := by
  have hc (d : List String) : Relisted f (fromC "C" d) (fromC "C" d) := .other _ (by simp [fromC])
  have hw (d : List String) (hd : d.head? ≠ some "init") : Relisted f (fromW "A" d) (fromW "A" d) :=
    .other _ (by simp [fromW, hd])
  have hi (hs : List String) (hh : ∀ x ∈ hs, x ≠ "") (hn : Numeric hs) : Relisted f
      ⟨"workers", "A", "init" :: "g" :: (id hs ++ [])⟩ ⟨"workers", "A", "init" :: "g" :: (g hs ++ [])⟩ :=
    .intro "A" "g" hh (hg hs hh).1 hn (hg hs hh).2 .none
  have n1 : Numeric ["threads=2", "x=1", "threads=8", "x=2"] := by
    intro x hx hk
    simp only [List.mem_cons, List.not_mem_nil, or_false] at hx
    rcases hx with rfl | rfl | rfl | rfl
    · exact ⟨2, (stoul_iff _ _).1 (by decide +kernel)⟩
    · exact absurd hk (by decide +kernel)
    · exact ⟨8, (stoul_iff _ _).1 (by decide +kernel)⟩
    · exact absurd hk (by decide +kernel)
  have n2 : Numeric ["y=3", "x=1"] := by
    intro x hx hk
    simp only [List.mem_cons, List.not_mem_nil, or_false] at hx
    rcases hx with rfl | rfl <;> exact absurd hk (by decide +kernel)
  exact .cons (hi _ (by decide) n1) (.cons (hc _) (.cons (hi _ (by decide) n1) (.cons (hw _ (by decide))
    (.cons (hi _ (by decide) n2) (.cons (hc _) (.cons (hc _) .nil))))))

example : List.Forall₂ (Relisted fun _ => List.reverse) (listedMsgs id) (listedMsgs List.reverse) :=
  listedMsgs_relisted fun hs hn => ⟨by simpa using hn, fun _ => rfl⟩

example : List.Forall₂ (Relisted fun _ hs => hs ++ hs) (listedMsgs id) (listedMsgs fun hs => hs ++ hs) :=
  listedMsgs_relisted fun hs hn => ⟨by simpa using hn, fun _ => rfl⟩

example : listedMsgs id ≠ listedMsgs List.reverse := by decide

/-- Two workers, each with its own way of listing headers. -/
example : List.Forall₂ (Relisted fun i => if i = "A" then List.reverse else fun hs => hs ++ hs)
    [⟨"workers", "A", "init" :: "g" :: (["x=1", "x=2"] ++ ["", "description=a"])⟩,
     ⟨"workers", "B", "init" :: "g" :: (["x=1", "x=2"] ++ [])⟩]
    [⟨"workers", "A", "init" :: "g" :: (["x=2", "x=1"] ++ ["", "description=a"])⟩,
     ⟨"workers", "B", "init" :: "g" :: (["x=1", "x=2", "x=1", "x=2"] ++ [])⟩] := by
  have hn : Numeric ["x=1", "x=2"] := by
    intro x hx hk
    simp only [List.mem_cons, List.not_mem_nil, or_false] at hx
    rcases hx with rfl | rfl <;> exact absurd hk (by decide +kernel)
  exact .cons (.intro "A" "g" (by decide) (by decide) hn (fun _ => rfl) (.some _))
    (.cons (.intro "B" "g" (by decide) (by decide) hn (fun _ => rfl) .none) .nil)

example : ∀ i : String, Listing (if i = "A" then List.reverse else fun hs => hs ++ hs) := by
  intro i; split
  · exact listing_reverse
  · exact listing_twice

/-- What the broker sends. -/
def listedOuts : List Msg :=
  [⟨"clients", "C", ["ack"]⟩, ⟨"workers", "A", ["eval", "J", "url"]⟩, ⟨"clients", "C", ["accept"]⟩,
   ⟨"status_notifier", "", ["type", "job-status", "id", "J", "status", "OK"]⟩,
   ⟨"status_notifier", "", ["type", "error", "message",
     "Received two different INIT messages from the same worker (41)"]⟩,
   ⟨"clients", "C", ["ack"]⟩, ⟨"workers", "A", ["eval", "K", "url"]⟩, ⟨"clients", "C", ["accept"]⟩,
   ⟨"clients", "C", ["ack"]⟩, ⟨"clients", "C", ["reject", "No worker available for given headers: y=4; "]⟩,
   ⟨"monitor", "recodex-monitor", ["L", "FAILED"]⟩]

example : (observed Multi cfg0 env0 (listedMsgs List.reverse)).flatMap (·.1) = listedOuts := by
  decide +kernel

example : (observed Single cfg0 env0 (listedMsgs fun hs => hs ++ hs)).flatMap (·.1) = listedOuts := by
  decide +kernel

/-- A worker that introduces itself with these headers. -/
def listedIntro (hs : List String) : Msg := ⟨"workers", "A", "init" :: "g" :: (hs ++ [])⟩

/-- **C123, always.** A worker that lists the same headers in another way when it introduces itself again
    is taken for another one. -/
theorem C123_always_needed : ∃ f hs, Listing f ∧ Relisted (fun _ => f) (listedIntro hs) (listedIntro (f hs)) ∧
    observed Multi cfg0 env0 [listedIntro hs, listedIntro (f hs)] ≠
      observed Multi cfg0 env0 [listedIntro hs, listedIntro hs] ∧
    observed Single cfg0 env0 [listedIntro hs, listedIntro (f hs)] ≠
      observed Single cfg0 env0 [listedIntro hs, listedIntro hs] := by
  refine ⟨List.reverse, ["x=1", "x=2"], listing_reverse, ?_, by decide +kernel, by decide +kernel⟩
  refine .intro "A" "g" (by decide) (by decide) ?_ (fun _ => rfl) .none
  intro x hx hk
  simp only [List.mem_cons, List.not_mem_nil, or_false] at hx
  rcases hx with rfl | rfl <;> exact absurd hk (by decide +kernel)

/-- **C123, numbers.** If a worker declares several numbers of threads that are not numbers, the order
    tells how the broker ends. -/
theorem C123_numeric_needed : ∃ f hs, Listing f ∧ (∀ x ∈ hs, x ≠ "") ∧
    (observed Multi cfg0 env0 [listedIntro (f hs)]).map (·.2) ≠
      (observed Multi cfg0 env0 [listedIntro hs]).map (·.2) ∧
    (observed Single cfg0 env0 [listedIntro (f hs)]).map (·.2) ≠
      (observed Single cfg0 env0 [listedIntro hs]).map (·.2) :=
  ⟨List.reverse, ["threads=many", "threads=99999999999999999999"], listing_reverse, by decide,
    by decide +kernel, by decide +kernel⟩

/-- **C123, headers with different names.** Every introduction may list headers with different names in
    another order, also if the next one does not. -/
theorem C123_names (cfg : HConfig) (env : Env) {ms ms' : List Msg}
    (h : List.Forall₂ (Relisted fun _ => id) ms ms') :
    observed Multi cfg env ms' = observed Multi cfg env ms ∧
    observed Single cfg env ms' = observed Single cfg env ms :=
  ⟨C123_multi cfg env (fun _ => listing_id) h, C123_single cfg env (fun _ => listing_id) h⟩

example : List.Forall₂ (Relisted fun _ => id) [listedIntro ["x=1", "y=2", "x=3"], listedIntro ["x=1", "y=2", "x=3"]]
    [listedIntro ["x=1", "x=3", "y=2"], listedIntro ["y=2", "x=1", "x=3"]] := by
  have hn : Numeric ["x=1", "y=2", "x=3"] := by
    intro x hx hk
    simp only [List.mem_cons, List.not_mem_nil, or_false] at hx
    rcases hx with rfl | rfl | rfl <;> exact absurd hk (by decide +kernel)
  have hd (a b : List String) (h : (initHeaders a []).1 = (initHeaders b []).1) : SameDeclared a b :=
    (headers_eq_iff a b).1 h
  exact .cons (.intro "A" "g" (by decide) (by decide) hn (hd _ _ (by decide +kernel)) .none)
    (.cons (.intro "A" "g" (by decide) (by decide) hn (hd _ _ (by decide +kernel)) .none) .nil)

end Broker
