import Verif.Proof.LoopFrames

/-!
# Where messages go in the reactor with any handlers
-/

set_option linter.unusedSectionVars false

namespace Broker.Reactor

variable {α : Type} [DecidableEq α] {S : Setup α}

/-! ## Calls -/

/-- The calls of a handler with a message that a frame still has to make. -/
def Frame.owes (a : α) (m : Msg) : Frame S → Nat
  | .loop m' todo => if m' = m then todo.count a else 0
  | _ => 0

def owed (s : St S) (a : α) (m : Msg) : Nat := (s.stack.map (Frame.owes a m)).sum

/-- The calls of a handler with a message. -/
def given (s : St S) (a : α) (m : Msg) : Nat :=
  s.calls.count (a, m) + ((s.posted a).map (·.1)).count m

structure CInv (s : St S) : Prop where
  sync : ∀ a, S.isAsync a = false → s.posted a = []
  async : ∀ p ∈ s.calls, S.isAsync p.1 = false
  le : ∀ a m, given s a m + owed s a m ≤ s.processed.count m * (mmRange m.key S.wiring.handlers).count a
  eq : s.place ≠ .halt → ∀ a m,
    given s a m + owed s a m = s.processed.count m * (mmRange m.key S.wiring.handlers).count a

theorem CInv.congr {s s' : St S} (h : CInv s) (h1 : s'.posted = s.posted) (h2 : s'.calls = s.calls)
    (h3 : s'.processed = s.processed) (h4 : ∀ a m, owed s' a m = owed s a m)
    (h5 : s'.place ≠ .halt → s.place ≠ .halt) : CInv s' := by
  constructor
  · rw [h1]; exact h.sync
  · rw [h2]; exact h.async
  · intro a m; unfold given; rw [h1, h2, h3, h4]; exact h.le a m
  · intro hp a m; unfold given; rw [h1, h2, h3, h4]; exact h.eq (h5 hp) a m

theorem CInv.process {s : St S} (h : CInv s) (m0 : Msg) : CInv (St.process m0 s) := by
  have ho : ∀ a m, owed (St.process m0 s) a m
      = (if m0 = m then (mmRange m0.key S.wiring.handlers).count a else 0) + owed s a m := by
    intro a m; simp [owed, St.process, Frame.owes]
  have hc : ∀ m, (St.process m0 s).processed.count m = s.processed.count m + if m0 = m then 1 else 0 := by
    intro m; simp [St.process, List.count_append, List.count_singleton]
  have hg : ∀ a m, given (St.process m0 s) a m = given s a m := fun _ _ => rfl
  constructor
  · exact h.sync
  · exact h.async
  · intro a m
    have := h.le a m
    rw [ho, hc, hg]
    split
    · rename_i he; subst he; rw [Nat.add_mul]; omega
    · simpa using this
  · intro hp a m
    have := h.eq hp a m
    rw [ho, hc, hg]
    split
    · rename_i he; subst he; rw [Nat.add_mul]; omega
    · simpa using this

theorem CInv.send {s : St S} (h : CInv s) (m0 : Msg) : CInv (St.send m0 s) := by
  unfold St.send
  split
  · exact h.congr rfl rfl rfl (fun _ _ => rfl) id
  · refine CInv.process ?_ _
    exact h.congr rfl rfl rfl (fun _ _ => rfl) id

theorem Exec.counted {evs : List (Ev α)} {s : St S} (hr : Exec S evs s) : CInv s := by
  refine Exec.induct (P := fun _ s => CInv s) ?_ ?_ hr
  · exact ⟨fun _ _ => rfl, by simp [St.init], by simp [given, owed, St.init], by simp [given, owed, St.init]⟩
  · intro evs s s' ev _ hi hm
    cases hm with
    | arrive => exact hi.congr rfl rfl rfl (fun _ _ => rfl) id
    | poll h1 h2 => exact hi.congr rfl rfl rfl (fun _ _ => rfl) (fun _ => by rw [h2]; simp)
    | socket h1 h2 h3 =>
      refine CInv.process ?_ _
      exact hi.congr rfl rfl rfl (fun _ _ => rfl) (fun _ => by rw [h2]; simp)
    | internal h1 h2 h3 h4 =>
      refine CInv.send ?_ _
      exact hi.congr rfl rfl rfl (fun _ _ => rfl) (fun _ => by rw [h2]; simp)
    | timer h1 h2 =>
      refine CInv.process ?_ _
      exact hi.congr rfl rfl rfl (fun _ _ => rfl) (fun _ => by rw [h2]; simp)
    | ret h1 =>
      exact hi.congr rfl rfl rfl (fun a m => by simp [owed, h1, Frame.owes]) id
    | @post s x pick m0 a0 as st h1 h2 =>
      have ho : ∀ a m, owed s a m = owed (St.post a0 m0 { s with stack := .loop m0 as :: st }) a m
          + if a0 = a ∧ m0 = m then 1 else 0 := by
        intro a m
        simp only [owed, h1, St.post, List.map_cons, List.sum_cons, Frame.owes, List.count_cons,
          beq_iff_eq]
        split
        · rename_i hm; subst hm; simp; split <;> omega
        · rename_i hm; simp [hm]
      have hg : ∀ a m, given (St.post a0 m0 { s with stack := .loop m0 as :: st }) a m
          = given s a m + if a0 = a ∧ m0 = m then 1 else 0 := by
        intro a m
        simp only [given, St.post]
        by_cases ha : a = a0
        · subst ha
          simp [List.count_append, List.count_singleton]
          split <;> omega
        · simp [Function.update_of_ne ha, Ne.symm ha]
      have hp : ∀ m, (St.post a0 m0 { s with stack := .loop m0 as :: st }).processed.count m
        = s.processed.count m := fun _ => rfl
      constructor
      · intro a ha
        have : a ≠ a0 := by rintro rfl; rw [h2] at ha; cases ha
        simpa [St.post, Function.update_of_ne this] using hi.sync a ha
      · exact hi.async
      · intro a m
        have h3 := hi.le a m
        rw [hp, hg]; rw [ho] at h3; omega
      · intro hpl a m
        have h3 := hi.eq hpl a m
        rw [hp, hg]; rw [ho] at h3; omega
    | @call s x pick m0 a0 as st h1 h2 =>
      have key : ∀ (s' : St S), s'.stack = .body a0 ((S.obj a0).onRequest x m0 (s.obj a0)) :: .loop m0 as :: st →
          s'.calls = s.calls ++ [(a0, m0)] → s'.posted = s.posted → s'.processed = s.processed →
          s'.place = s.place → CInv s' := by
        intro s' e1 e2 e3 e4 e5
        have hc : ∀ a m, given s' a m + owed s' a m = given s a m + owed s a m := by
          intro a m
          simp only [given, owed, e1, e2, e3, h1, List.map_cons, List.sum_cons, Frame.owes,
            List.count_cons, List.count_append, List.count_nil,
            beq_iff_eq, Prod.mk.injEq]
          by_cases hm : m0 = m
          · subst hm
            by_cases ha : a0 = a <;> simp [ha] <;> omega
          · simp [hm]
        constructor
        · rw [e3]; exact hi.sync
        · rw [e2]
          intro p hp
          rcases List.mem_append.1 hp with hp | hp
          · exact hi.async p hp
          · simp only [List.mem_singleton] at hp; subst hp; exact h2
        · intro a m; rw [hc, e4]; exact hi.le a m
        · intro hp a m; rw [hc, e4]; exact hi.eq (e5 ▸ hp) a m
      exact key _ rfl rfl rfl rfl rfl
    | done h1 =>
      exact hi.congr rfl rfl rfl (fun a m => by simp [owed, h1, Frame.owes]) id
    | throw h1 =>
      refine ⟨hi.sync, hi.async, fun a m => ?_, fun h => absurd rfl h⟩
      have := hi.le a m
      refine Nat.le_trans ?_ this
      simp [given, owed]
    | respond h1 =>
      refine CInv.send ?_ _
      exact hi.congr rfl rfl rfl (fun a m => by simp [owed, h1, Frame.owes]) id
    | resume h1 =>
      exact hi.congr rfl rfl rfl (fun a m => by simp [owed, h1, Frame.owes]) id
    | connect => exact hi.congr rfl rfl rfl (fun _ _ => rfl) id
    | stop => exact hi.congr rfl rfl rfl (fun _ _ => rfl) id
    | skip => exact hi.congr rfl rfl rfl (fun _ _ => rfl) id
    | take => exact hi.congr rfl rfl rfl (fun _ _ => rfl) id
    | tdone => exact hi.congr rfl rfl rfl (fun _ _ => rfl) id
    | tthrow => exact hi.congr rfl rfl rfl (fun _ _ => rfl) id
    | reply => exact hi.congr rfl rfl rfl (fun _ _ => rfl) id

/-! ## Sockets -/

def isSocket (S : Setup α) (k : String) : Bool := S.wiring.sockets.any (fun e => e.1 == k)

theorem isSocket_iff {k : String} : isSocket S k = true ↔ k ∈ S.wiring.order := by
  simp [isSocket, Wiring.order]

structure RInv (evs : List (Ev α)) (s : St S) : Prop where
  known : ∀ k, s.inbox k ≠ [] → isSocket S k = true
  sent : s.sent = s.asked.filter (fun m => isSocket S m.key)
  passed : ∀ k, isSocket S k = false → k ≠ keyTimer →
    s.processed.filter (fun m => m.key == k) = s.asked.filter (fun m => m.key == k)
  fifo : ∀ k, isSocket S k = true → k ≠ keyTimer →
    arrivals k evs = (s.processed.filter (fun m => m.key == k)).map (fun m => (m.identity, m.data))
      ++ s.inbox k
  back : ∀ a, (s.returned a).Sublist s.asked

theorem RInv.congr {evs : List (Ev α)} {s s' : St S} (h : RInv evs s) (h1 : s'.inbox = s.inbox)
    (h2 : s'.sent = s.sent) (h3 : s'.asked = s.asked) (h4 : s'.processed = s.processed)
    (h5 : s'.returned = s.returned) : RInv evs s' := by
  constructor
  · rw [h1]; exact h.known
  · rw [h2, h3]; exact h.sent
  · rw [h3, h4]; exact h.passed
  · rw [h1, h4]; exact h.fifo
  · rw [h3, h5]; exact h.back

theorem RInv.send {evs : List (Ev α)} {s : St S} (h : RInv evs s) (m : Msg) :
    RInv evs (St.send m s) := by
  unfold St.send
  split
  · rename_i hk
    have hk : isSocket S m.key = true := hk
    refine ⟨h.known, by simp [h.sent, hk], ?_, h.fifo, fun a => (h.back a).trans (List.sublist_append_left _ _)⟩
    intro k h1 h2
    have : m.key ≠ k := by rintro rfl; rw [h1] at hk; cases hk
    simpa [this] using h.passed k h1 h2
  · rename_i hk
    have hk : isSocket S m.key = false := by simpa only [isSocket, Bool.not_eq_true] using hk
    refine ⟨h.known, by simp [St.process, h.sent, hk], ?_, ?_, fun a => (h.back a).trans (List.sublist_append_left _ _)⟩
    · intro k h1 h2
      simp only [St.process, List.filter_append, h.passed k h1 h2]
    · intro k h1 h2
      have : m.key ≠ k := by rintro rfl; rw [h1] at hk; cases hk
      simpa [St.process, this] using h.fifo k h1 h2

theorem arrivals_snoc {k : String} {evs : List (Ev α)} {ev : Ev α}
    (h : ∀ k i d, ev ≠ .arrive k i d) : arrivals k (evs ++ [ev]) = arrivals k evs := by
  unfold arrivals
  rw [List.filterMap_append]
  cases ev <;> simp at h ⊢

theorem RInv.snoc {evs : List (Ev α)} {s : St S} {ev : Ev α} (h : RInv evs s)
    (hev : ∀ k i d, ev ≠ .arrive k i d) : RInv (evs ++ [ev]) s :=
  ⟨h.known, h.sent, h.passed, fun k h1 h2 => by rw [arrivals_snoc hev]; exact h.fifo k h1 h2, h.back⟩

theorem Exec.routed {evs : List (Ev α)} {s : St S} (hr : Exec S evs s) : RInv evs s := by
  refine Exec.induct (P := fun evs s => RInv evs s) ?_ ?_ hr
  · exact ⟨by simp [St.init], by simp [St.init], by simp [St.init], by simp [St.init, arrivals],
      by simp [St.init]⟩
  · intro evs s s' ev _ hi hm
    cases hm with
    | @arrive s k i d hk hd =>
      refine ⟨fun k' h => ?_, hi.sent, hi.passed, fun k' h1 h2 => ?_, hi.back⟩
      · by_cases hk' : k' = k
        · subst hk'; exact isSocket_iff.2 hk
        · exact hi.known k' (by simpa [Function.update_of_ne hk'] using h)
      · have := hi.fifo k' h1 h2
        unfold arrivals at this ⊢
        rw [List.filterMap_append, this]
        by_cases hk' : k = k'
        · subst hk'; simp
        · simp [hk', Function.update_of_ne (Ne.symm hk')]
    | poll => refine RInv.snoc (hi.congr rfl rfl rfl rfl rfl) ?_; simp
    | @socket s x pick k i d rest ks el h1 h2 h3 =>
      have hks : isSocket S k = true := hi.known k (by rw [h3]; simp)
      refine ⟨fun k' h => ?_, hi.sent, fun k' h4 h5 => ?_, fun k' h4 h5 => ?_, hi.back⟩
      · by_cases hk' : k' = k
        · subst hk'; exact hks
        · exact hi.known k' (by simpa [St.process, Function.update_of_ne hk'] using h)
      · have : k ≠ k' := by rintro rfl; rw [hks] at h4; cases h4
        simpa [St.process, this] using hi.passed k' h4 h5
      · rw [arrivals_snoc (by simp)]
        have hh := hi.fifo k' h4 h5
        by_cases hk' : k = k'
        · subst hk'; simp [St.process, hh, h3]
        · simpa [St.process, hk', Function.update_of_ne (Ne.symm hk')] using hh
    | @internal s x a fs rest ks el m r h1 h2 h3 h4 =>
      refine RInv.snoc ?_ (by simp)
      have hj := RInv.send (hi.congr (s' := { s with
        place := .serve ks el
        thr := Function.update s.thr a
          { s.thr a with dealer := { (s.thr a).dealer with out := rest } } }) rfl rfl rfl rfl rfl) m
      have key : ∀ (r : α → List Msg) (s1 : St S), s1.returned = s.returned →
          (∀ b, (r b).Sublist (s1.asked ++ [m])) → RInv evs (St.send m s1) →
          RInv evs (St.send m { s1 with returned := r }) := by
        intro r s1 e1 e2 e3
        have e4 : St.send m { s1 with returned := r } = { St.send m s1 with returned := r } := by
          unfold St.send St.process; split <;> rfl
        rw [e4]
        refine ⟨e3.known, e3.sent, e3.passed, e3.fifo, fun b => ?_⟩
        have : (St.send m s1).asked = s1.asked ++ [m] := send_asked m s1
        show (r b).Sublist (St.send m s1).asked
        rw [this]; exact e2 b
      refine key _ { s with
        place := .serve ks el
        thr := Function.update s.thr a
          { s.thr a with dealer := { (s.thr a).dealer with out := rest } } } rfl (fun b => ?_) hj
      by_cases hb : b = a
      · subst hb; simpa using (hi.back b).append (List.Sublist.refl [m])
      · rw [Function.update_of_ne hb]; exact (hi.back b).trans (List.sublist_append_left _ _)
    | @timer s x pick el h1 h2 =>
      refine ⟨hi.known, hi.sent, fun k' h4 h5 => ?_, fun k' h4 h5 => ?_, hi.back⟩
      · simpa [St.process, timerMsg, Ne.symm h5] using hi.passed k' h4 h5
      · rw [arrivals_snoc (by simp)]
        simpa [St.process, timerMsg, Ne.symm h5] using hi.fifo k' h4 h5
    | ret => refine RInv.snoc (hi.congr rfl rfl rfl rfl rfl) ?_; simp
    | post => refine RInv.snoc (hi.congr rfl rfl rfl rfl rfl) ?_; simp
    | call => refine RInv.snoc (hi.congr rfl rfl rfl rfl rfl) ?_; simp
    | done => refine RInv.snoc (hi.congr rfl rfl rfl rfl rfl) ?_; simp
    | throw => refine RInv.snoc (hi.congr rfl rfl rfl rfl rfl) ?_; simp
    | respond =>
      refine RInv.snoc (RInv.send ?_ _) ?_
      · exact hi.congr rfl rfl rfl rfl rfl
      · simp
    | resume => refine RInv.snoc (hi.congr rfl rfl rfl rfl rfl) ?_; simp
    | connect => refine RInv.snoc (hi.congr rfl rfl rfl rfl rfl) ?_; simp
    | stop => refine RInv.snoc (hi.congr rfl rfl rfl rfl rfl) ?_; simp
    | skip => refine RInv.snoc (hi.congr rfl rfl rfl rfl rfl) ?_; simp
    | take => refine RInv.snoc (hi.congr rfl rfl rfl rfl rfl) ?_; simp
    | tdone => refine RInv.snoc (hi.congr rfl rfl rfl rfl rfl) ?_; simp
    | tthrow => refine RInv.snoc (hi.congr rfl rfl rfl rfl rfl) ?_; simp
    | reply => refine RInv.snoc (hi.congr rfl rfl rfl rfl rfl) ?_; simp

end Broker.Reactor
