import Verif.Proof.Registry
import Verif.Proof.Layout

/-!
# How many entries `worker_timers_` has
-/

set_option linter.unusedSectionVars false

namespace Broker

variable {Q : Type} [QueueManager Q] [LawfulQM Q]

/-- Registered workers have a timer. -/
structure RState.Timed (p : RState) : Prop where
  sorted : p.timers.Sorted
  mem : ∀ w ∈ p.workers, w ∈ p.timers.map (·.1)

theorem WMap.put_keys {V : Type} {m : WMap V} {w : Worker} (hs : m.Sorted) (hw : w ∈ m.map (·.1))
    (v : V) : (m.put w v).map (·.1) = m.map (·.1) := by
  obtain ⟨u, l, r, h1, _, h3, _⟩ := WMap.split hs hw
  rw [h3, h1]; simp

theorem RState.Timed.put {p : RState} (h : p.Timed) {w : Worker} (hw : w ∈ p.workers) (v : Int)
    (l : Nat → Nat) :
    RState.Timed { p with live := l, timers := p.timers.put w v } ∧
      (p.timers.put w v).length = p.timers.length := by
  have hk := WMap.put_keys h.sorted (h.mem w hw) v
  refine ⟨⟨h.sorted.of_keys hk, fun x hx => by show x ∈ (p.timers.put w v).map (·.1); rw [hk]; exact h.mem x hx⟩, ?_⟩
  have := congrArg List.length hk
  simpa using this

theorem RState.Timed.heard {p : RState} (h : p.Timed) (cfg : HConfig) (i : String) :
    (p.heard cfg i).Timed ∧ (p.heard cfg i).timers.length = p.timers.length := by
  unfold RState.heard
  split
  · exact ⟨h, rfl⟩
  · rename_i w hw
    exact h.put (List.mem_of_find?_eq_some hw) 0 _

theorem RState.heard_workers (p : RState) (cfg : HConfig) (i : String) :
    (p.heard cfg i).workers = p.workers := by
  unfold RState.heard
  split <;> rfl

theorem RState.Timed.tick1 {p : RState} (h : p.Timed) (cfg : HConfig) (time : Int) {w : Worker}
    (hw : w ∈ p.workers) :
    (p.tick1 cfg time w).2.Timed ∧ (p.tick1 cfg time w).2.timers.length = p.timers.length ∧
      (p.tick1 cfg time w).2.workers = p.workers := by
  unfold RState.tick1
  split
  · exact ⟨(h.put hw _ _).1, (h.put hw _ p.live).2, rfl⟩
  · exact ⟨(h.put hw _ p.live).1, (h.put hw _ p.live).2, rfl⟩

theorem RState.Timed.tick (cfg : HConfig) (time : Int) : ∀ (ws : List Worker) {p : RState}, p.Timed →
    (∀ w ∈ ws, w ∈ p.workers) → (p.tick cfg time ws).2.Timed ∧
      (p.tick cfg time ws).2.timers.length = p.timers.length ∧
      (p.tick cfg time ws).2.workers = p.workers
  | [], _, h, _ => ⟨h, rfl, rfl⟩
  | w :: ws, p, h, hw => by
    obtain ⟨h1, h2, h3⟩ := h.tick1 cfg time (hw w (by simp))
    obtain ⟨i1, i2, i3⟩ := RState.Timed.tick cfg time ws h1
      (fun x hx => by rw [h3]; exact hw x (by simp [hx]))
    exact ⟨i1, i2.trans h2, i3.trans h3⟩

theorem regRemove_le (w : Worker) : ∀ l : List Worker, (regRemove w l).Sublist l
  | [] => .slnil
  | x :: t => by
    unfold regRemove
    split
    · exact List.sublist_cons_self _ _
    · exact (regRemove_le w t).cons_cons _

theorem regRemoves_le : ∀ (ws l : List Worker), (ws.foldl (fun l w => regRemove w l) l).Sublist l
  | [], _ => List.Sublist.refl _
  | w :: ws, l => (regRemoves_le ws (regRemove w l)).trans (regRemove_le w l)

/-- What a message does to the number of timers: nothing, or one more for a worker that is new. -/
def RState.Counts (p p' : RState) : Prop :=
  p'.Timed ∧ ((p'.timers.length = p.timers.length ∧ p'.workers.Sublist p.workers) ∨
    (p'.timers.length = p.timers.length + 1 ∧ ∃ w, p'.workers = p.workers ++ [w] ∧ w ∉ p.workers))

theorem RState.Timed.register {env : Env} {p : RState} (h : p.Timed) (i g : String) (hs : Headers)
    (x : List String) : p.Counts (p.register env i g hs x) := by
  unfold RState.register
  split
  · exact ⟨h, .inl ⟨rfl, List.Sublist.refl _⟩⟩
  · rename_i w hw
    have ha : w.addr = env.alloc p.allocs p.addrs := (Worker.create_fields hw).1
    have hf : w.addr ∉ p.addrs := ha ▸ env.alloc_fresh _ _
    have hft : w.addr ∉ p.timers.map (·.1.addr) := fun hm => hf (List.mem_append.2 (.inr hm))
    obtain ⟨l, r, h1, _, _, h4, h5⟩ := WMap.split_fresh h.sorted hft
    refine ⟨⟨h.sorted.emplace w 0, ?_⟩, .inr ⟨?_, w, rfl, ?_⟩⟩
    · intro y hy
      show y ∈ (p.timers.emplace w 0).map (·.1)
      rw [h4]
      rcases List.mem_append.1 hy with hy | hy
      · have := h.mem y hy
        rw [h1] at this
        simp only [List.map_append, List.map_cons, List.mem_append, List.mem_cons] at this ⊢
        rcases this with h | h <;> simp [h]
      · rw [List.mem_singleton.1 hy]; simp
    · show (p.timers.emplace w 0).length = _
      rw [h4]
      conv => rhs; rw [h1]
      simp; omega
    · exact fun hm => hf (List.mem_append.2 (.inl (List.mem_map_of_mem hm)))

theorem RState.Timed.step {cfg : HConfig} {env : Env} {p : RState} (h : p.Timed) (m : Msg) :
    p.Counts (p.step cfg env m) := by
  have same : p.Counts p := ⟨h, .inl ⟨rfl, List.Sublist.refl _⟩⟩
  obtain ⟨hh, hl⟩ := h.heard cfg m.identity
  have hw := p.heard_workers cfg m.identity
  have heard : p.Counts (p.heard cfg m.identity) := ⟨hh, .inl ⟨hl, by rw [hw]⟩⟩
  have reg : ∀ g hs x, p.Counts ((p.heard cfg m.identity).register env m.identity g hs x) := by
    intro g hs x
    obtain ⟨r1, r2⟩ := hh.register (env := env) m.identity g hs x
    rw [hl, hw] at r2
    exact ⟨r1, r2⟩
  unfold RState.step
  split
  · split
    · unfold RState.init'
      split
      · split
        · split
          · exact heard
          · exact reg _ _ _
        · exact reg _ _ _
      · exact heard
    · exact heard
  · split
    · split
      · exact ⟨⟨h.sorted, h.mem⟩, .inl ⟨rfl, List.Sublist.refl _⟩⟩
      · split
        · exact ⟨⟨h.sorted, h.mem⟩, .inl ⟨rfl, List.Sublist.refl _⟩⟩
        · exact same
    · split
      · unfold RState.timer
        split
        · exact same
        · split
          · exact same
          · rename_i time _
            obtain ⟨t1, t2, t3⟩ := RState.Timed.tick cfg time p.workers h (fun _ hx => hx)
            have hsub := regRemoves_le (p.tick cfg time p.workers).1
              (p.tick cfg time p.workers).2.workers
            refine ⟨⟨t1.sorted, fun x hx => t1.mem x (hsub.subset hx)⟩, .inl ⟨t2, ?_⟩⟩
            rw [t3] at hsub
            show List.Sublist (List.foldl _ (p.tick cfg time p.workers).2.workers _) _
            rw [t3]; exact hsub
      · exact same

theorem Run.timed {cfg : HConfig} {env : Env} {h : List (Tr Q)} {s : HState Q}
    (hr : Run cfg env h s) : s.rs.Timed := by
  induction hr with
  | nil => exact ⟨List.Pairwise.nil, fun w hw => by cases hw⟩
  | snoc hr hs ih => rw [step_rs hs]; exact (ih.step _).1

/-- A step and the number of timers. -/
theorem step_counts {cfg : HConfig} {env : Env} {h : List (Tr Q)} {s s' : HState Q} {m : Msg}
    (hr : Run cfg env h s) (hs : step cfg env m s = .ok () s') : s.rs.Counts s'.rs := by
  rw [step_rs hs]; exact hr.timed.step m

end Broker
