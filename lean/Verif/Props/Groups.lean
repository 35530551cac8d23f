import Verif.Props.Unasked
import Verif.Spec.Groups

/-!
# C125: hardware groups matter only as far as requests tell them apart

A worker may introduce itself with another hardware group if every request of the history allows both of
them or none.
-/

namespace Broker

open Spec

variable {Q : Type} [QueueManager Q]

/-- Requirements with these hardware groups only. -/
def GroupsWithin (V : String → Prop) (rs : Headers) : Prop := ∀ e ∈ rs, e.1 = "hwgroup" → V e.2

theorem asksGroups_within {V : String → Prop} {m : Msg} (ha : AsksGroups V m) :
    m.key = "clients" → m.data.head? = some "eval" →
    ∀ x, evalHeaders (m.data.drop 2) [] [] = .ok (some x) → GroupsWithin V x.1 := by
  obtain ⟨k, i, d⟩ := m
  rintro rfl hd x hx
  match d with
  | [] => cases hd
  | [_] => cases hx
  | c :: j :: fs =>
    obtain rfl : c = "eval" := Option.some.inj hd
    intro e he hk
    obtain ⟨-, -, hall⟩ := evalHeaders_some _ _ _ _ hx
    rcases (hall e).1 he with h | ⟨f, hf, hm, rfl⟩
    · cases h
    · exact ha i j fs rfl f hf hk

/-- Workers with the same headers in groups that are not told apart meet the same requirements. -/
theorem sameOffer_group {V : String → Prop} {g g' : String} (hg : SameGroup V g g')
    (hs : List String) :
    SameOffer (GroupsWithin V) g g' (initHeaders hs []).1 (initHeaders hs []).1 := by
  intro a b i j d d'
  cases hw : Worker.create a i g (initHeaders hs []).1 d with
  | error x =>
    rw [create_error_iff.2 (create_error_iff.1 hw)]
    exact .error x
  | ok w =>
    cases hw' : Worker.create b j g' (initHeaders hs []).1 d' with
    | error x =>
      rw [create_error_iff.2 (create_error_iff.1 hw')] at hw
      cases hw
    | ok w' =>
      obtain ⟨-, -, e1, hh, -⟩ := Worker.create_fields hw
      obtain ⟨-, -, e2, hh', -⟩ := Worker.create_fields hw'
      have hmem : w'.headers = w.headers := by rw [hh, hh']
      have h1 : ∀ k v, (k = "hwgroup" → V v) → w'.checkHeader k v = w.checkHeader k v := by
        intro k v hV
        refine outcome_ext (fun x => ?_) ?_
        · by_cases hk : k = "threads"
          · subst hk
            rw [checkHeader_threads_error (Worker.create_wf hw), matchers_threads hw,
              checkHeader_threads_error (Worker.create_wf hw'), matchers_threads hw', hmem]
          · obtain ⟨c, hc⟩ := checkHeader_other_total (Worker.create_wf hw) hk v
            obtain ⟨c', hc'⟩ := checkHeader_other_total (Worker.create_wf hw') hk v
            rw [hc, hc']; simp
        · rw [offers_iff hw, offers_iff hw']
          unfold Spec.Offers
          rw [hmem, e1, e2]
          exact or_congr (and_congr_right fun hk => (hg v (hV hk)).symm) Iff.rfl
      refine .ok fun rs => ?_
      induction rs with
      | nil => intro _; rfl
      | cons p t ih =>
        intro hV
        simp only [Worker.checkHeaders, h1 p.1 p.2 (hV p (.head _)), ih fun e he => hV e (.tail _ he)]

theorem regrouped_retold {V : String → Prop} {m m' : Msg} (h : Regrouped V m m') :
    Retold id Eq (fun _ => Eq) (GroupsWithin V) m m' := by
  cases h with
  | other m h ha =>
    have h := Retold.same (ν := id) (τ := Eq) (κ := fun _ => Eq) (ψ := GroupsWithin V) m
      (fun h1 h2 => absurd ⟨h1, h2⟩ h) (asksGroups_within ha)
    rwa [nameInp_id] at h
  | short i => exact .intro i (.one _)
  | intro i rest h => exact .intro i (.more rfl (sameOffer_group h rest) rfl rfl)

theorem transcript_regrouped [Carries Q] [LayoutQM Q] (cfg : HConfig) {env : Env}
    (he : LayoutQM.EnvR Q True env env) {V : String → Prop} {ms ms' : List Msg}
    (h : List.Forall₂ (Regrouped V) ms ms') :
    ∀ {s s' : HState Q}, ToldEq id True Eq (fun _ => Eq) (GroupsWithin V) s s' →
      transcript cfg env s' ms' = transcript cfg env s ms := by
  induction h with
  | nil => intro s s' _; rfl
  | @cons m m' ms ms' hm _ ih =>
    intro s s' hs
    have hr := step_retold cfg he (regrouped_retold hm) hs
    unfold transcript
    generalize step cfg env m s = x at hr
    generalize step cfg env m' s' = x' at hr
    cases hr with
    | ok ho h2 =>
      have ho := forall2_named_id (ho.imp fun _ _ => told_named)
      simp only [ho, ih h2]
    | error e ho =>
      have ho := forall2_named_id (ho.imp fun _ _ => told_named)
      simp only [ho]

/-- **C125 (multi-queue manager).** If workers introduce themselves with other hardware groups that the
    requests of the history do not tell apart from the old ones, the broker answers every message in the
    same way, and ends in the same way if it ends. -/
theorem C125_multi (cfg : HConfig) (env : Env) {V : String → Prop} {ms ms' : List Msg}
    (h : List.Forall₂ (Regrouped V) ms ms') : observed Multi cfg env ms' = observed Multi cfg env ms :=
  transcript_regrouped (Q := Multi) cfg (env := env) trivial h
    (ToldEq.init (fun h => h) _ _ same_headers fun _ h => by cases h)

/-- **C125 (single-queue manager).** As for the multi-queue manager, for any memory allocator, clock and
    sorting algorithm. -/
theorem C125_single (cfg : HConfig) (env : Env) {V : String → Prop} {ms ms' : List Msg}
    (h : List.Forall₂ (Regrouped V) ms ms') : observed Single cfg env ms' = observed Single cfg env ms :=
  have he : LayoutQM.EnvR Single True env env := ⟨rfl, rfl, .inr ⟨trivial, rfl⟩⟩
  transcript_regrouped (Q := Single) cfg he h
    (ToldEq.init (fun h => h) _ _ same_headers fun _ h => by cases h)

/-! ## Examples -/

/-- Workers in groups; the group of `A` is another one when it introduces itself again. -/
def regroupMsgs (g1 g2 g3 : String) : List Msg :=
  [⟨"workers", "A", "init" :: g1 :: ["x=1"]⟩, ⟨"workers", "B", "init" :: g2 :: ["x=1", "hwgroup=k"]⟩,
   fromC "C" ["eval", "J", "hwgroup=g|h", "", "url"], fromC "C" ["eval", "K", "hwgroup=k", "", "url"],
   ⟨"workers", "A", "init" :: g3 :: ["x=1"]⟩]

/-- The groups the clients ask for. -/
def askedGroups (v : String) : Prop := v = "g|h" ∨ v = "k"

theorem sameGroup_gh : SameGroup askedGroups "g" "h" := by
  have h : ∀ g v, IsAlternative g v ↔ multiMatch g v = true := fun g v => (multiMatch_iff g v).symm
  rintro v (rfl | rfl) <;> rw [h, h] <;> decide +kernel

theorem sameGroup_other : SameGroup askedGroups "p" "q" := by
  have h : ∀ g v, IsAlternative g v ↔ multiMatch g v = true := fun g v => (multiMatch_iff g v).symm
  rintro v (rfl | rfl) <;> rw [h, h] <;> decide +kernel

example : List.Forall₂ (Regrouped askedGroups) (regroupMsgs "g" "p" "g") (regroupMsgs "h" "q" "g") := by
  have hc {j' : String} {fs' : List String}
      (h : ∀ x ∈ headerFrames fs', frameKey x = "hwgroup" → frameValue x = "g|h" ∨ frameValue x = "k") :
      Regrouped askedGroups (fromC "C" ("eval" :: j' :: fs')) (fromC "C" ("eval" :: j' :: fs')) := by
    refine .other _ (by simp [fromC]) ?_
    intro i j fs e
    have e : "eval" :: j' :: fs' = "eval" :: j :: fs := congrArg Msg.data e
    simp only [List.cons.injEq, true_and] at e
    rw [← e.2]; exact h
  exact .cons (.intro "A" _ sameGroup_gh) (.cons (.intro "B" _ sameGroup_other)
    (.cons (hc (by decide +kernel)) (.cons (hc (by decide +kernel))
      (.cons (.intro "A" _ fun _ _ => Iff.rfl) .nil))))

/-- What the broker sends. -/
def regroupOuts : List Msg :=
  [⟨"clients", "C", ["ack"]⟩, ⟨"workers", "A", ["eval", "J", "url"]⟩, ⟨"clients", "C", ["accept"]⟩,
   ⟨"clients", "C", ["ack"]⟩, ⟨"workers", "B", ["eval", "K", "url"]⟩, ⟨"clients", "C", ["accept"]⟩]

example : (observed Multi cfg0 env0 (regroupMsgs "h" "q" "g")).flatMap (·.1) = regroupOuts := by
  decide +kernel

example : (observed Single cfg0 env0 (regroupMsgs "h" "q" "g")).flatMap (·.1) = regroupOuts := by
  decide +kernel

/-- **C125, asked.** A hardware group that a request tells apart does matter. -/
theorem C125_asked_needed : ∃ ms : String → List Msg,
    observed Multi cfg0 env0 (ms "g") ≠ observed Multi cfg0 env0 (ms "h") ∧
    observed Single cfg0 env0 (ms "g") ≠ observed Single cfg0 env0 (ms "h") :=
  ⟨fun g => [⟨"workers", "A", "init" :: g :: ["x=1"]⟩, fromC "C" ["eval", "J", "hwgroup=g", "", "url"]],
    by decide +kernel, by decide +kernel⟩

end Broker
