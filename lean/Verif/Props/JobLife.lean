import Verif.Proof.JobLife

/-!
# C107: the life of a job
-/

set_option linter.unusedSectionVars false

namespace Broker

open QueueManager LawfulQM Spec

variable {Q : Type} [QueueManager Q] [LawfulQM Q]

/-- Job `j` is at the place `l`: with a registered worker that is processing it, held by the broker
    but with no worker, or not held. -/
def Where (j : String) (s : HState Q) : Loc → Prop
  | .away => j ∉ heldJobs s
  | .waiting => j ∈ heldJobs s ∧ ∀ i, ¬ WorksOn i j s
  | .at i => WorksOn i j s

theorem where_iff {s : HState Q} (h : HInv s) {j : String} {p : Option Pos}
    (hp : poss j (ls s 0) = (p.toList : Multiset Pos)) (l : Loc) :
    Where j s l ↔ l = locOf p := by
  have hno := no_hand s j hp
  have hc : (heldJobs s).count j = p.toList.length := by rw [← poss_card, hp]; simp
  have hm : j ∈ heldJobs s ↔ p ≠ none := by
    rw [← Multiset.count_pos, hc]
    cases p <;> simp
  have hw : ∀ i, WorksOn i j s ↔ p = some (.at i) := by
    intro i
    rw [worksOn_iff h, hp]
    cases p <;> simp [eq_comm]
  cases l with
  | away =>
    simp only [Where, hm]
    rcases p with _ | (_ | _ | _) <;> simp_all [locOf]
  | waiting =>
    simp only [Where, hm, hw]
    rcases p with _ | (_ | _ | _) <;> simp_all [locOf]
  | «at» i =>
    simp only [Where, hw]
    rcases p with _ | (_ | _ | _) <;> simp_all [locOf, eq_comm]

theorem once_card {cfg : HConfig} {env : Env} {h : List (Tr Q)} {s : HState Q}
    (hr : Run cfg env h s) {j : String} (ho : OneAtATime j h) : (heldJobs s).count j ≤ 1 := by
  have h1 := C01_job_accounting hr j
  have h2 := ho h [] (by simp)
  omega

/-- **C107, the place.** A job that is in the broker at most once at a time is at exactly one place
    at every point of every history. -/
theorem C107_place {cfg : HConfig} {env : Env} {h : List (Tr Q)} {s : HState Q}
    (hr : Run cfg env h s) {j : String} (ho : OneAtATime j h) : ∃! l, Where j s l := by
  have hc := once_card hr ho
  obtain ⟨p, hp⟩ := opt_of_card (s := poss j (ls s 0)) (by rw [poss_card]; exact hc)
  exact ⟨locOf p, (where_iff hr.inv.1 hp _).2 rfl, fun l hl => (where_iff hr.inv.1 hp l).1 hl⟩

/-- **C107, the moves.** Whenever a message is handled, such a job moves as `Moves` says, and what
    the broker says about it is exactly what belongs to these moves. -/
theorem C107_moves {cfg : HConfig} {env : Env} {h : List (Tr Q)} {s : HState Q}
    (hr : Run cfg env h s) {j : String} (ho : OneAtATime j h) {t : Tr Q} (ht : t ∈ h) {l l' : Loc}
    (hl : Where j t.pre l) (hl' : Where j t.post l') : Moves j t l (notes j t.outs) l' := by
  obtain ⟨h1, h2, rfl⟩ := List.append_of_mem ht
  obtain ⟨hr1, hs, hr2⟩ := hr.prefix
  have ho1 : OneAtATime j h1 := fun a b hab => ho a (b ++ t :: h2) (by rw [hab]; simp)
  have ho2 : OneAtATime j (h1 ++ [t]) := fun a b hab => ho a (b ++ h2) (by
    rw [← List.append_assoc, ← hab]; simp)
  obtain ⟨evs, hi⟩ := step_info hr1.inv.1 hs
  have hc1 := once_card hr1 ho1
  have hc2 := once_card hr2 ho2
  obtain ⟨p, hp⟩ := opt_of_card (s := poss j (ls t.pre 0)) (by rw [poss_card]; exact hc1)
  have hent : (poss j (ls t.pre 0)).card + entering j evs ≤ 1 := by
    have h3 := entering_eq hi j
    have h4 := C01_job_accounting hr1 j
    have h5 := ho2 (h1 ++ [t]) [] (by simp)
    have h6 := C01_job_accounting hr2 j
    have h7 : emitted (h1 ++ [t]) = emitted h1 ++ t.outs := by simp [emitted]
    rw [poss_card]
    simp only [List.countP_append, List.countP_singleton, h7] at h5 h6
    by_cases he : entering j evs = 0
    · omega
    · -- no final notification is sent with a message by which a request enters
      have hfin : t.outs.countP (isFinal j) = 0 := by
        show t.post.outs.countP (isFinal j) = 0
        rw [hi.outs, countP_msgsOf, sum_map_congr (g := fun _ => 0)]
        · clear * -; induction evs <;> simp_all
        · intro e hm
          rw [final_msgs (hi.script.shape e hm) j]
          have := enter_no_leave hi (j := j) he e hm
          rw [this]; rfl
      have h8 : (⟨t.pre, t.msg, t.post⟩ : Tr Q) = t := rfl
      rw [h8] at h3
      omega
  obtain ⟨p', hp', hst⟩ := hi.steps.pos hp hent
  rw [(where_iff hr1.inv.1 hp l).1 hl, (where_iff hi.inv hp' l').1 hl']
  show Moves j t _ (notes j t.post.outs) _
  rw [notes_eq hr1 hi j]
  exact step_moves hi (no_hand _ j hp) (no_hand _ j hp') hst

/-! ## The whole story -/

/-- **C107, the story.** What the broker says about a job that entered it at most once: it gives it
    to workers, one after the other, and then tells the frontend at most once how it ended.  Nothing
    is said before it entered, and after the final notification nothing more. -/
theorem C107_story {cfg : HConfig} {env : Env} {h : List (Tr Q)} {s : HState Q}
    (hr : Run cfg env h s) {j : String}
    (hn : h.countP (accepts j) + h.countP (adopts j) ≤ 1) :
    ∃ is : List String, notes j (emitted h) = is.map .given ∨
      notes j (emitted h) = is.map .given ++ [.ok] ∨
      ∃ text, notes j (emitted h) = is.map .given ++ [.failed text] := by
  have key : ∃ l, Where j s l ∧ ((l = .away ∧ notes j (emitted h) = []) ∨
      (1 ≤ h.countP (accepts j) + h.countP (adopts j) ∧ ∃ is : List String,
        (l ≠ .away ∧ notes j (emitted h) = is.map .given) ∨
        (l = .away ∧ ∃ f, Note.final f = true ∧ notes j (emitted h) = is.map .given ++ [f]))) := by
    induction hr with
    | nil =>
      refine ⟨.away, ?_, Or.inl ⟨rfl, rfl⟩⟩
      simp [Where, heldJobs, HState.init, busy_empty, que_empty]
    | @snoc h s m s' hr hs ih =>
      have hrun := hr.snoc hs
      have ho := OneAtATime.of_le hn
      obtain ⟨l', hl', _⟩ := C107_place hrun ho
      simp only [List.countP_append, List.countP_singleton] at hn
      obtain ⟨l, hl, hcase⟩ := ih (by omega)
      have hmv := C107_moves hrun ho (t := ⟨s, m, s'⟩) (by simp) hl hl'
      have hem : notes j (emitted (h ++ [⟨s, m, s'⟩]))
          = notes j (emitted h) ++ notes j (Tr.outs (⟨s, m, s'⟩ : Tr Q)) := by
        simp [emitted, notes]
      refine ⟨l', hl', ?_⟩
      simp only [List.countP_append, List.countP_singleton, hem]
      rcases hcase with ⟨rfl, h0⟩ | ⟨h1, is, ⟨h2, h3⟩ | ⟨rfl, f, hf, h3⟩⟩
      · rcases hmv.from_away with ⟨h4, h5⟩ | ⟨h4, h5, is, h6⟩
        · exact Or.inl ⟨h4, by rw [h0, h5]; rfl⟩
        · refine Or.inr ⟨?_, is, Or.inl ⟨h5, by rw [h0, h6]; rfl⟩⟩
          rcases h4 with h4 | h4 <;> simp only [h4, if_true] <;> omega
      · obtain ⟨is', ⟨h4, h5⟩ | ⟨h4, f, hf, h5⟩⟩ := hmv.from_there h2
        · exact Or.inr ⟨by omega, is ++ is', Or.inl ⟨h4, by rw [h3, h5]; simp⟩⟩
        · exact Or.inr ⟨by omega, is ++ is', Or.inr ⟨h4, f, hf, by rw [h3, h5]; simp⟩⟩
      · rcases hmv.from_away with ⟨h4, h5⟩ | ⟨h4, h5, is', h6⟩
        · exact Or.inr ⟨by omega, is, Or.inr ⟨h4, f, hf, by rw [h3, h5]; simp⟩⟩
        · rcases h4 with h4 | h4 <;> simp only [h4, if_true] at hn <;> omega
  obtain ⟨l, _, ⟨_, h0⟩ | ⟨_, is, ⟨_, h1⟩ | ⟨_, f, hf, h1⟩⟩⟩ := key
  · exact ⟨[], Or.inl h0⟩
  · exact ⟨is, Or.inl h1⟩
  · cases f with
    | given i => simp [Note.final] at hf
    | ok => exact ⟨is, Or.inr (Or.inl h1)⟩
    | failed text => exact ⟨is, Or.inr (Or.inr ⟨text, h1⟩)⟩

/-! ## Non-vacuity -/

/-- Two workers; the first one returns `J1`, the second one falls silent. -/
def lifeMsgs : List Msg :=
  [fromW "w1" ["init", "g", "env=c"], fromW "w1" ["ping"],
   fromC "client" ["eval", "J1", "env=c", ""],
   fromW "w2" ["init", "g", "env=c"], fromW "w2" ["ping"],
   fromW "w1" ["done", "J1", "INTERNAL_ERROR", "disk"],
   fromC "client" ["eval", "J2", "env=c", ""],
   tick "1500", fromW "w1" ["ping"], tick "3000", fromW "w1" ["ping"], tick "1500",
   fromW "w1" ["ping"], tick "1500", fromW "w1" ["ping"], tick "1500",
   fromW "w1" ["done", "J2", "OK"], fromW "w1" ["done", "J1", "OK"]]

example : ∃ h s, Run (Q := Multi) cfg0 env0 h s ∧
    (h.countP (accepts "J1") + h.countP (adopts "J1") == 1 &&
      notes "J1" (emitted h) == [.given "w1", .given "w2", .given "w1", .ok] &&
      notes "J2" (emitted h) == [.given "w1", .ok]) = true :=
  exists_run lifeMsgs (fun h _ => h.countP (accepts "J1") + h.countP (adopts "J1") == 1 &&
      notes "J1" (emitted h) == [.given "w1", .given "w2", .given "w1", .ok] &&
      notes "J2" (emitted h) == [.given "w1", .ok]) (by decide +kernel)

example : ∃ h s, Run (Q := Single) cfg0 env0 h s ∧
    (h.countP (accepts "J2") + h.countP (adopts "J2") == 1 &&
      notes "J1" (emitted h) == [.given "w1", .given "w1", .ok] &&
      notes "J2" (emitted h) == [.given "w2", .given "w1"]) = true :=
  exists_run lifeMsgs (fun h _ => h.countP (accepts "J2") + h.countP (adopts "J2") == 1 &&
      notes "J1" (emitted h) == [.given "w1", .given "w1", .ok] &&
      notes "J2" (emitted h) == [.given "w2", .given "w1"]) (by decide +kernel)

/-- The identities of the workers processing job `j`. -/
def workingIds (j : String) (s : HState Q) : List String :=
  (s.workers.filter (fun w => (currentRequest s.queue w).1.map (·.jobId) == some j)).map
    (·.identity)

theorem worksOn_of_mem {i j : String} {s : HState Q} (h : i ∈ workingIds j s) : WorksOn i j s := by
  obtain ⟨w, hw, hi⟩ := List.mem_map.1 h
  obtain ⟨hw, hc⟩ := List.mem_filter.1 hw
  exact ⟨w, hw, hi, by simpa using hc⟩

/-- The assumption is needed: the broker accepts the same job twice, and then it is with two workers
    at once. -/
theorem C107_refuted_twice : ∃ (h : List (Tr Multi)) (s : HState Multi), Run cfg0 env0 h s ∧
    Where "J1" s (.at "w1") ∧ Where "J1" s (.at "w2") := by
  obtain ⟨h, s, hr, hc⟩ := exists_run (Q := Multi) (cfg := cfg0) (env := env0)
    [fromW "w1" ["init", "g", "env=c"], fromW "w2" ["init", "g", "env=c"],
     fromC "client" ["eval", "J1", "env=c", ""], fromC "client" ["eval", "J1", "env=c", ""]]
    (fun _ s => decide ("w1" ∈ workingIds "J1" s ∧ "w2" ∈ workingIds "J1" s)) (by decide +kernel)
  have hc := of_decide_eq_true hc
  exact ⟨h, s, hr, worksOn_of_mem hc.1, worksOn_of_mem hc.2⟩

end Broker
