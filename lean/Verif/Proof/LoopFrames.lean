import Verif.Proof.LoopMoves
import Verif.Spec.Loop
import Verif.Proof.Framing

/-!
# Invariants of the reactor with any handlers
-/

set_option linter.unusedSectionVars false

namespace Broker.Reactor

variable {α : Type} [DecidableEq α] {S : Setup α}

theorem Exec.induct {P : List (Ev α) → St S → Prop} (h0 : P [] (St.init S))
    (hs : ∀ {evs : List (Ev α)} {s s' : St S} {ev : Ev α}, Exec S evs s → P evs s → Move S ev s s' →
      P (evs ++ [ev]) s') : ∀ {evs : List (Ev α)} {s : St S}, Exec S evs s → P evs s := by
  intro evs s hr
  induction hr with
  | nil => exact h0
  | snoc hr h ih => exact hs hr ih (move_of_next h)

/-! ## Histories only grow -/

theorem send_posted (m : Msg) (s : St S) : (St.send m s).posted = s.posted := by
  unfold St.send St.process; split <;> rfl
theorem send_replied (m : Msg) (s : St S) : (St.send m s).replied = s.replied := by
  unfold St.send St.process; split <;> rfl
theorem send_taken (m : Msg) (s : St S) : (St.send m s).taken = s.taken := by
  unfold St.send St.process; split <;> rfl
theorem send_returned (m : Msg) (s : St S) : (St.send m s).returned = s.returned := by
  unfold St.send St.process; split <;> rfl
theorem send_inproc (m : Msg) (s : St S) : (St.send m s).inproc = s.inproc := by
  unfold St.send St.process; split <;> rfl
theorem send_thr (m : Msg) (s : St S) : (St.send m s).thr = s.thr := by
  unfold St.send St.process; split <;> rfl
theorem send_place (m : Msg) (s : St S) : (St.send m s).place = s.place := by
  unfold St.send St.process; split <;> rfl
theorem send_calls (m : Msg) (s : St S) : (St.send m s).calls = s.calls := by
  unfold St.send St.process; split <;> rfl
theorem send_inbox (m : Msg) (s : St S) : (St.send m s).inbox = s.inbox := by
  unfold St.send St.process; split <;> rfl
theorem send_asked (m : Msg) (s : St S) : (St.send m s).asked = s.asked ++ [m] := by
  unfold St.send St.process; split <;> rfl
theorem send_obj (m : Msg) (s : St S) : (St.send m s).obj = s.obj := by
  unfold St.send St.process; split <;> rfl
theorem send_reentered (m : Msg) (s : St S) : (St.send m s).reentered = s.reentered := by
  unfold St.send St.process; split <;> rfl

theorem prefix_update {β : Type} (f : α → List β) (a b : α) (x : β) :
    f b <+: Function.update f a (f a ++ [x]) b := by
  by_cases h : b = a
  · subst h; simp
  · simp [Function.update_of_ne h]

theorem Move.posted {ev : Ev α} {s s' : St S} (h : Move S ev s s') (a : α) :
    s.posted a <+: s'.posted a := by
  cases h <;> first
    | exact List.prefix_rfl
    | (rw [send_posted]; exact List.prefix_rfl)
    | exact prefix_update _ _ _ _

theorem Move.replied {ev : Ev α} {s s' : St S} (h : Move S ev s s') (a : α) :
    s.replied a <+: s'.replied a := by
  cases h <;> first
    | exact List.prefix_rfl
    | (rw [send_replied]; exact List.prefix_rfl)
    | exact prefix_update _ _ _ _

/-! ## Framing -/

/-- The frames of a message on the internal socket. -/
def wire (m : Msg) : List String := m.key :: m.identity :: m.data

theorem Framed.back {ev : Ev α} {s s' : St S} (h : Move S ev s s') (hf : Framed s') : Framed s :=
  ⟨fun a p hp => hf.posted a p ((h.posted a).subset hp),
   fun a m hm => hf.replied a m ((h.replied a).subset hm)⟩

structure FInv (s : St S) : Prop where
  closed : s.inproc.cur = none
  pipes : ∀ a, ∃ ms, (s.thr a).pipe = ms.map wire ∧
    ((s.posted a).filter (·.2)).map (·.1) = s.taken a ++ ms
  dealers : ∀ a, (s.thr a).dealer.cur = [] ∧
    ∃ ms, (s.thr a).dealer.out = ms.map wire ∧ s.replied a = s.returned a ++ ms

theorem dealer_data {d : List String} (hd : d ≠ []) (x : Dealer) :
    (dataFrames d).foldl Dealer.send x = ⟨[], x.out ++ [x.cur ++ d]⟩ := by
  induction d generalizing x with
  | nil => exact absurd rfl hd
  | cons f t ih =>
    cases t with
    | nil => simp [dataFrames, Dealer.send]
    | cons g t => simp only [dataFrames, List.foldl_cons]; rw [ih (by simp)]; simp [Dealer.send]

theorem dealer_response {m : Msg} (hd : m.data ≠ []) {x : Dealer} (hx : x.cur = []) :
    (responseFrames m).foldl Dealer.send x = ⟨[], x.out ++ [wire m]⟩ := by
  simp only [responseFrames, List.foldl_cons]
  rw [dealer_data hd]
  simp [Dealer.send, hx, wire]

theorem recvAsync_wire {m : Msg} (hd : m.data ≠ []) (u : String) :
    recvAsync (recvFrames (u :: wire m)) = some (m, []) := by
  obtain ⟨k, i, d⟩ := m
  cases d with
  | nil => exact absurd rfl hd
  | cons f t =>
    simp only [wire, recvFrames, dataFrames, recvAsync]
    have := recvMore_data (f :: t) (by simp) []
    simp only [List.append_nil] at this
    rw [this]

theorem FInv.posts {s : St S} (hi : FInv s) (hu : Function.Injective S.uid) {a : α} {m : Msg}
    (hd : m.data ≠ []) (st : List (Frame S)) : FInv (St.post a m { s with stack := st }) := by
  have hs : s.inproc.sendAll (asyncFrames (S.uid a) m) = ⟨none, s.inproc.sent ++ [(S.uid a, wire m)]⟩ :=
    sendAll_async hd hi.closed _
  constructor
  · simp [St.post, hs]
  · intro b
    obtain ⟨ms, h1, h2⟩ := hi.pipes b
    have hdr : St.drops { s with stack := st } b = s.drops b := rfl
    by_cases hb : b = a
    · subst hb
      simp only [St.post, hs, St.arriveAt, hdr, List.drop_left, Function.update_self,
        List.filter_append, List.map_append, h2]
      cases s.drops b with
      | true => exact ⟨ms, by simpa using h1, by simp⟩
      | false => exact ⟨ms ++ [m], by simp [h1], by simp⟩
    · have hne : S.uid a ≠ S.uid b := fun h => hb (hu h).symm
      simp only [St.post, hs, St.arriveAt, hdr, List.drop_left, Function.update_of_ne hb]
      refine ⟨ms, ?_, h2⟩
      cases s.drops b <;> simp [h1, hne]
  · intro b
    simp only [St.post, St.arriveAt]
    split <;> exact hi.dealers b

theorem Exec.framing (hu : Function.Injective S.uid) {evs : List (Ev α)} {s : St S}
    (hr : Exec S evs s) (hf : Framed s) : FInv s := by
  revert hf
  refine Exec.induct (P := fun _ s => Framed s → FInv s) ?_ ?_ hr
  · intro _
    exact ⟨rfl, fun a => ⟨[], rfl, rfl⟩, fun a => ⟨rfl, [], rfl, rfl⟩⟩
  · intro evs s s' ev _ ih hm hf'
    have hi := ih (hf'.back hm)
    have hf := hf'.back hm
    cases hm with
    | arrive => exact ⟨hi.closed, hi.pipes, hi.dealers⟩
    | poll => exact ⟨hi.closed, hi.pipes, hi.dealers⟩
    | socket => exact ⟨hi.closed, hi.pipes, hi.dealers⟩
    | @internal s x a fs rest ks el m r h1 h2 h3 h4 =>
      refine ⟨by rw [send_inproc]; exact hi.closed, fun b => ?_, fun b => ?_⟩
      · simp only [send_thr, send_posted, send_taken]
        by_cases hb : b = a
        · subst hb; simpa using hi.pipes b
        · simpa [Function.update_of_ne hb] using hi.pipes b
      · simp only [send_thr, send_replied, send_returned]
        by_cases hb : b = a
        · subst hb
          obtain ⟨g1, ms, g2, g3⟩ := hi.dealers b
          cases ms with
          | nil => rw [h3] at g2; cases g2
          | cons m' ms =>
            rw [h3, List.map_cons] at g2
            obtain ⟨rfl, rfl⟩ := List.cons.inj g2
            have hd : m'.data ≠ [] := hf.replied b m' (by rw [g3]; simp)
            rw [recvAsync_wire hd] at h4
            cases h4
            refine ⟨by simpa using g1, ms, by simp, by simp [g3]⟩
        · simpa [Function.update_of_ne hb] using hi.dealers b
    | timer => exact ⟨hi.closed, hi.pipes, hi.dealers⟩
    | ret => exact ⟨hi.closed, hi.pipes, hi.dealers⟩
    | @post s x pick m a as st h1 h2 =>
      refine hi.posts hu (hf'.posted a (m, !s.drops a) ?_).1 _
      simp [St.post, St.drops]
    | call => exact ⟨hi.closed, hi.pipes, hi.dealers⟩
    | done => exact ⟨hi.closed, hi.pipes, hi.dealers⟩
    | throw => exact ⟨hi.closed, hi.pipes, hi.dealers⟩
    | respond =>
      refine ⟨by rw [send_inproc]; exact hi.closed, fun b => ?_, fun b => ?_⟩
      · simp only [send_thr, send_posted, send_taken]; exact hi.pipes b
      · simp only [send_thr, send_replied, send_returned]; exact hi.dealers b
    | resume => exact ⟨hi.closed, hi.pipes, hi.dealers⟩
    | @connect s a h1 h2 =>
      refine ⟨hi.closed, fun b => ?_, fun b => ?_⟩
      · by_cases hb : b = a
        · subst hb; simpa using hi.pipes b
        · simpa [Function.update_of_ne hb] using hi.pipes b
      · by_cases hb : b = a
        · subst hb; simpa using hi.dealers b
        · simpa [Function.update_of_ne hb] using hi.dealers b
    | @stop s a x fs rest r h1 h2 h3 h4 =>
      exfalso
      obtain ⟨ms, g1, g2⟩ := hi.pipes a
      cases ms with
      | nil => rw [h3] at g1; cases g1
      | cons m ms =>
        rw [h3, List.map_cons] at g1
        obtain ⟨rfl, rfl⟩ := List.cons.inj g1
        have hm : m ∈ ((s.posted a).filter (·.2)).map (·.1) := by rw [g2]; simp
        obtain ⟨p, hp, rfl⟩ := List.mem_map.1 hm
        have := (hf.posted a p (List.mem_filter.1 hp).1).2
        have ht := threadTurn_frames this []
        simp only [List.append_nil] at ht
        rw [wire, ht] at h4
        cases h4
    | @skip s a x fs rest r h1 h2 h3 h4 =>
      exfalso
      obtain ⟨ms, g1, g2⟩ := hi.pipes a
      cases ms with
      | nil => rw [h3] at g1; cases g1
      | cons m ms =>
        rw [h3, List.map_cons] at g1
        obtain ⟨rfl, rfl⟩ := List.cons.inj g1
        have hm : m ∈ ((s.posted a).filter (·.2)).map (·.1) := by rw [g2]; simp
        obtain ⟨p, hp, rfl⟩ := List.mem_map.1 hm
        have := (hf.posted a p (List.mem_filter.1 hp).1).2
        have ht := threadTurn_frames this []
        simp only [List.append_nil] at ht
        rw [wire, ht] at h4
        cases h4
    | @take s a x fs rest m0 r h1 h2 h3 h4 =>
      refine ⟨hi.closed, fun b => ?_, fun b => ?_⟩
      · by_cases hb : b = a
        · subst hb
          obtain ⟨ms, g1, g2⟩ := hi.pipes b
          cases ms with
          | nil => rw [h3] at g1; cases g1
          | cons m ms =>
            rw [h3, List.map_cons] at g1
            obtain ⟨rfl, rfl⟩ := List.cons.inj g1
            have hm : m ∈ ((s.posted b).filter (·.2)).map (·.1) := by rw [g2]; simp
            obtain ⟨p, hp, rfl⟩ := List.mem_map.1 hm
            have := (hf.posted b p (List.mem_filter.1 hp).1).2
            have ht := threadTurn_frames this []
            simp only [List.append_nil] at ht
            rw [wire, ht] at h4
            cases h4
            exact ⟨ms, by simp, by simp [g2]⟩
        · simpa [Function.update_of_ne hb] using hi.pipes b
      · by_cases hb : b = a
        · subst hb; simpa using hi.dealers b
        · simpa [Function.update_of_ne hb] using hi.dealers b
    | @tdone s a v h1 =>
      refine ⟨hi.closed, fun b => ?_, fun b => ?_⟩
      · by_cases hb : b = a
        · subst hb; simpa using hi.pipes b
        · simpa [Function.update_of_ne hb] using hi.pipes b
      · by_cases hb : b = a
        · subst hb; simpa using hi.dealers b
        · simpa [Function.update_of_ne hb] using hi.dealers b
    | @tthrow s a v h1 =>
      refine ⟨hi.closed, fun b => ?_, fun b => ?_⟩
      · by_cases hb : b = a
        · subst hb; simpa using hi.pipes b
        · simpa [Function.update_of_ne hb] using hi.pipes b
      · by_cases hb : b = a
        · subst hb; simpa using hi.dealers b
        · simpa [Function.update_of_ne hb] using hi.dealers b
    | @reply s a v m k h1 =>
      refine ⟨hi.closed, fun b => ?_, fun b => ?_⟩
      · by_cases hb : b = a
        · subst hb; simpa using hi.pipes b
        · simpa [Function.update_of_ne hb] using hi.pipes b
      · by_cases hb : b = a
        · subst hb
          obtain ⟨g1, ms, g2, g3⟩ := hi.dealers b
          have hd : m.data ≠ [] := hf'.replied b m (by simp)
          simp only [Function.update_self]
          rw [dealer_response hd g1]
          exact ⟨rfl, ms ++ [m], by simp [g2], by simp [g3]⟩
        · simpa [Function.update_of_ne hb] using hi.dealers b

end Broker.Reactor
