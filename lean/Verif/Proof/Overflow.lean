import Verif.Proof.Time
import Verif.Proof.Registry

/-!
# The range of the timers of the workers
-/

set_option linter.unusedSectionVars false

namespace Broker

variable {Q : Type} [QueueManager Q] [LawfulQM Q]

/-- All values of the map have the property. -/
def WMap.All {V : Type} (P : V → Prop) (m : WMap V) : Prop := ∀ p ∈ m, P p.2

theorem WMap.All.put {V : Type} {P : V → Prop} {m : WMap V} (h : m.All P) (w : Worker) {v : V} (hv : P v) :
    (m.put w v).All P := by
  induction m with
  | nil => intro p hp; rw [List.mem_singleton.1 hp]; exact hv
  | cons x t ih =>
    obtain ⟨x, u⟩ := x
    have ht : WMap.All P t := fun p hp => h p (List.mem_cons_of_mem _ hp)
    have hx : P u := h (x, u) (by simp)
    intro p hp
    unfold WMap.put at hp
    split at hp
    · rcases List.mem_cons.1 hp with rfl | hp
      · exact hv
      · exact ht p hp
    · split at hp
      · rcases List.mem_cons.1 hp with rfl | hp
        · exact hv
        · exact h p hp
      · rcases List.mem_cons.1 hp with rfl | hp
        · exact hx
        · exact ih ht p hp

theorem WMap.All.emplace {V : Type} {P : V → Prop} {m : WMap V} (h : m.All P) (w : Worker) {v : V}
    (hv : P v) : (m.emplace w v).All P := by
  induction m with
  | nil => intro p hp; rw [List.mem_singleton.1 hp]; exact hv
  | cons x t ih =>
    obtain ⟨x, u⟩ := x
    have ht : WMap.All P t := fun p hp => h p (List.mem_cons_of_mem _ hp)
    have hx : P u := h (x, u) (by simp)
    intro p hp
    unfold WMap.emplace at hp
    split at hp
    · exact h p hp
    · split at hp
      · rcases List.mem_cons.1 hp with rfl | hp
        · exact hv
        · exact h p hp
      · rcases List.mem_cons.1 hp with rfl | hp
        · exact hx
        · exact ih ht p hp

theorem WMap.All.getD {V : Type} {P : V → Prop} {m : WMap V} (h : m.All P) (w : Worker) {d : V}
    (hd : P d) : P (m.getD w d) := by
  induction m with
  | nil => exact hd
  | cons x t ih =>
    obtain ⟨x, u⟩ := x
    have ht : WMap.All P t := fun p hp => h p (List.mem_cons_of_mem _ hp)
    have hx : P u := h (x, u) (by simp)
    unfold WMap.getD WMap.find
    split
    · exact hx
    · exact ih ht

/-- The timer is between zero and the time that has passed. -/
def Within (T t : Int) : Prop := 0 ≤ t ∧ t ≤ T

theorem WMap.All.mono {T T' : Int} {m : WMap Int} (h : m.All (Within T)) (hT : T ≤ T') :
    m.All (Within T') := fun p hp => ⟨(h p hp).1, Int.le_trans (h p hp).2 hT⟩

theorem tick_timers {cfg : HConfig} {time T : Int} (h0 : 0 ≤ time) (hT : 0 ≤ T) :
    ∀ (ws : List Worker) (p : RState), (ws.map (·.addr)).Nodup → p.timers.All (Within (T + time)) →
      (∀ w ∈ ws, Within T (p.timers.getD w 0)) →
      (p.tick cfg time ws).2.timers.All (Within (T + time)) := by
  have hz : Within (T + time) 0 := ⟨Int.le_refl _, by omega⟩
  intro ws
  induction ws with
  | nil => intro p _ h _; exact h
  | cons w ws ih =>
    intro p hn h hb
    rw [List.map_cons, List.nodup_cons] at hn
    obtain ⟨h1, h2⟩ := hb w (by simp)
    have hrest : ∀ v : Int, ∀ x ∈ ws, Within T ((p.timers.put w v).getD x 0) := by
      intro v x hx
      have hne : x.addr ≠ w.addr := fun he => hn.1 (he ▸ List.mem_map_of_mem hx)
      have : (p.timers.put w v).getD x 0 = p.timers.getD x 0 := by
        unfold WMap.getD; rw [WMap.find_put_of_ne hne]
      rw [this]
      exact hb x (by simp [hx])
    refine ih _ hn.2 ?_ ?_
    · unfold RState.tick1
      split
      · exact h.put w hz
      · exact h.put w ⟨by omega, by omega⟩
    · unfold RState.tick1
      split
      · exact hrest _
      · exact hrest _

theorem step_timers {cfg : HConfig} {env : Env} {m : Msg} {p : RState} {T : Int} (hT : 0 ≤ T)
    (hn : (p.workers.map (·.addr)).Nodup) (h : p.timers.All (Within T)) :
    (m.key ≠ keyTimer → (p.step cfg env m).timers.All (Within T)) ∧
    ∀ x, Spec.IsTick m x → 0 ≤ x → (p.step cfg env m).timers.All (Within (T + x)) := by
  have hz : Within T 0 := ⟨Int.le_refl _, hT⟩
  have hh : ∀ i, (p.heard cfg i).timers.All (Within T) := by
    intro i
    unfold RState.heard
    split
    · exact h
    · exact h.put _ hz
  have hreg : ∀ (p : RState) i g hs x, p.timers.All (Within T) →
      (p.register env i g hs x).timers.All (Within T) := by
    intro p i g hs x h
    unfold RState.register
    split
    · exact h
    · exact h.emplace _ hz
  constructor
  · intro hk
    unfold RState.step
    split
    · split
      · have h := hh m.identity
        unfold RState.init'
        split
        · split
          · split
            · exact h
            · exact hreg _ _ _ _ _ h
          · exact hreg _ _ _ _ _ h
        · exact h
      · exact hh _
    · split
      · split
        · exact h
        · split
          · exact h
          · exact h
      · simpa [hk] using h
  · rintro x ⟨hk, f, t, hd, hs⟩ hx
    have hk : m.key = keyTimer := hk
    have h1 : m.key ≠ keyWorkers := by rw [hk]; decide
    have h2 : m.key ≠ keyClients := by rw [hk]; decide
    unfold RState.step
    rw [if_neg h1, if_neg h2, if_pos hk]
    unfold RState.timer
    rw [hd]
    simp only [(stoll_iff _ _).2 hs]
    exact tick_timers hx hT _ _ hn (h.mono (by omega)) (fun w _ => h.getD w hz)

/-- The timers are bounded by the time reported. -/
theorem Run.timers {cfg : HConfig} {env : Env} {h : List (Tr Q)} {s : HState Q} (hr : Run cfg env h s)
    (hm : ∀ t ∈ h, ∀ x, Spec.IsTick t.msg x → 0 ≤ x) {T : Int} (hT : Spec.Elapsed (h.map (·.msg)) T) :
    0 ≤ T ∧ WMap.All (Within T) s.timers := by
  induction hr generalizing T with
  | nil => exact ⟨Int.le_of_eq (Eq.symm hT), fun p hp => by cases hp⟩
  | @snoc h s m s' hr hs ih =>
    have h1 : s'.timers = (s.rs.step cfg env m).timers := congrArg RState.timers (step_rs hs)
    rw [h1]
    rw [List.map_append] at hT
    obtain ⟨T1, hT1, hcase⟩ := elapsed_snoc hT
    obtain ⟨g1, g2⟩ := ih (fun t ht => hm t (by simp [ht])) hT1
    obtain ⟨k1, k2⟩ := step_timers (cfg := cfg) (env := env) (m := m) (p := s.rs) g1 hr.inv.1.addr_nodup g2
    rcases hcase with ⟨hk, rfl⟩ | ⟨x, hx, rfl⟩
    · exact ⟨g1, k1 hk⟩
    · have := hm ⟨s, m, s'⟩ (by simp) x hx
      exact ⟨by omega, k2 x hx this⟩

end Broker
