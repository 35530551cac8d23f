import Verif.Proof.LoopLayers
import Verif.Props.Reactor

/-!
# C90: the reactor with any sockets and any handlers
-/

namespace Broker.Reactor

variable {α : Type} [DecidableEq α] {S : Setup α} {rs : List (Spec.Reg α)}

omit [DecidableEq α] in
theorem subscribers_eq (hS : S.wiring = Spec.registered rs) (k : String) :
    mmRange k S.wiring.handlers = Spec.subscribers k rs := by
  obtain ⟨_, h2⟩ := registered_spec k rs Wiring.empty (by simp [Wiring.empty, MMap.Sorted])
  rw [hS]
  exact h2.trans (by simp [Wiring.empty, mmRange])

omit [DecidableEq α] in
theorem hasSocket_iff (hS : S.wiring = Spec.registered rs) (k : String) :
    isSocket S k = true ↔ Spec.hasSocket k rs := by
  obtain ⟨h1, _⟩ := registered_spec k rs Wiring.empty (by simp [Wiring.empty, MMap.Sorted])
  rw [isSocket, hS]
  exact h1.trans (by simp [Wiring.empty, Spec.hasSocket])

/-- **C90, sockets.** The messages that arrive at a socket are processed once each, in order of
    arrival, with the name of the socket as key; those not processed yet are still waiting. -/
theorem C90_sockets (hS : S.wiring = Spec.registered rs) {evs : List (Ev α)} {s : St S}
    (hr : Exec S evs s) {k : String} (hk : Spec.hasSocket k rs) (ht : k ≠ "timer") :
    arrivals k evs = Spec.addressed k s.processed ++ s.inbox k :=
  hr.routed.fifo k ((hasSocket_iff hS k).2 hk) ht

/-- **C90, routing.** The messages handlers pass to the response callback, directly or from a thread:
    those with the name of a socket as key are sent on that socket, once each and in order, and
    nothing else is; the others are processed, once each and in order, and apart from the timer
    nothing else is. -/
theorem C90_routing (hS : S.wiring = Spec.registered rs) {evs : List (Ev α)} {s : St S}
    (hr : Exec S evs s) (k : String) :
    (Spec.hasSocket k rs → s.sent.filter (fun m => m.key == k) = s.asked.filter (fun m => m.key == k)) ∧
    (¬ Spec.hasSocket k rs → s.sent.filter (fun m => m.key == k) = []) ∧
    (¬ Spec.hasSocket k rs → k ≠ "timer" →
      s.processed.filter (fun m => m.key == k) = s.asked.filter (fun m => m.key == k)) := by
  have hi := hr.routed
  refine ⟨fun h => ?_, fun h => ?_, fun h1 h2 => hi.passed k ?_ h2⟩
  · rw [hi.sent, List.filter_filter]
    refine List.filter_congr fun m _ => ?_
    by_cases hm : m.key = k
    · subst hm; simp [(hasSocket_iff hS _).2 h]
    · simp [hm]
  · rw [hi.sent, List.filter_filter, List.filter_eq_nil_iff]
    intro m _ hm
    simp only [Bool.and_eq_true, beq_iff_eq] at hm
    exact h ((hasSocket_iff hS k).1 (hm.1 ▸ hm.2))
  · exact Bool.eq_false_iff.2 fun h => h1 ((hasSocket_iff hS k).1 h)

/-- **C90, calls.** When the main thread is in its loop and no handler has thrown, every handler has
    been called with every processed message as often as it was registered for its key (that is,
    normally once or not at all); asynchronous handlers are not called by the main thread but have
    been sent the message as often.  At all times these are upper bounds. -/
theorem C90_calls (hS : S.wiring = Spec.registered rs) {evs : List (Ev α)} {s : St S}
    (hr : Exec S evs s) (a : α) (m : Msg) :
    (S.isAsync a = false → s.posted a = [] ∧
      s.calls.count (a, m) ≤ s.processed.count m * (Spec.subscribers m.key rs).count a ∧
      (s.stack = [] → s.place ≠ .halt →
        s.calls.count (a, m) = s.processed.count m * (Spec.subscribers m.key rs).count a)) ∧
    (S.isAsync a = true → s.calls.count (a, m) = 0 ∧
      ((s.posted a).map (·.1)).count m ≤ s.processed.count m * (Spec.subscribers m.key rs).count a ∧
      (s.stack = [] → s.place ≠ .halt →
        ((s.posted a).map (·.1)).count m
          = s.processed.count m * (Spec.subscribers m.key rs).count a)) := by
  have hi := hr.counted
  have hsub := subscribers_eq hS m.key
  have hle := hi.le a m
  have heq := fun h => hi.eq h a m
  rw [hsub] at hle
  simp only [hsub] at heq
  unfold given at hle heq
  have how : s.stack = [] → owed s a m = 0 := fun h => by simp [owed, h]
  refine ⟨fun ha => ?_, fun ha => ?_⟩
  · have hp := hi.sync a ha
    rw [hp] at hle heq
    refine ⟨hp, by simp at hle; omega, fun h1 h2 => ?_⟩
    have := heq h2
    rw [how h1] at this
    simpa using this
  · have hc : s.calls.count (a, m) = 0 := by
      rw [List.count_eq_zero]
      intro h
      have := hi.async _ h
      rw [ha] at this; cases this
    rw [hc] at hle heq
    refine ⟨hc, by omega, fun h1 h2 => ?_⟩
    have := heq h2
    rw [how h1] at this
    simpa using this

/-- **C90, asynchronous handlers are not mixed up.** If the messages have frames and none has the
    reserved key: every asynchronous handler is called with exactly the messages that were passed to
    it and not dropped, in order and intact, apart from those still on their way; and its responses
    come back to the loop once each, in order and intact, apart from those still on their way; they
    are treated like those of other handlers. -/
theorem C90_async (hu : Function.Injective S.uid) {evs : List (Ev α)} {s : St S} (hr : Exec S evs s)
    (hf : Framed s) (a : α) :
    (∃ coming, accepted s a = s.taken a ++ coming ∧ coming.length = (s.thr a).pipe.length) ∧
    (∃ going, s.replied a = s.returned a ++ going ∧ going.length = (s.thr a).dealer.out.length) ∧
    (s.returned a).Sublist s.asked := by
  have hi := hr.framing hu hf
  obtain ⟨ms, h1, h2⟩ := hi.pipes a
  obtain ⟨_, ms', h3, h4⟩ := hi.dealers a
  exact ⟨⟨ms, h2, by simp [h1]⟩, ⟨ms', h4, by simp [h3]⟩, hr.routed.back a⟩

omit [DecidableEq α] in
theorem layered_ok (hS : S.wiring = Spec.registered rs) {layer : α → Nat} (hl : Layered S rs layer) :
    ∀ a, S.isAsync a = false → ∀ x m v, ((S.obj a).onRequest x m v).Sends (Ok S layer a) := by
  have hmono : ∀ {σ : Type} {P P' : Msg → Prop}, (∀ m, P m → P' m) → ∀ p : Prog σ, p.Sends P → p.Sends P' := by
    intro σ P P' h p
    induction p with
    | done => intro _; trivial
    | throw => intro _; trivial
    | respond v m k ih => exact fun hp => ⟨h m hp.1, fun v => ih v (hp.2 v)⟩
  intro a ha x m v
  refine hmono ?_ _ (hl a ha x m v)
  rintro m' (h | h)
  · exact .inl ((hasSocket_iff hS _).2 h)
  · exact .inr (by rw [subscribers_eq hS]; exact h)

/-- **C90, no re-entrance.** In a layered reactor no handler is called while it handles a message. -/
theorem C90_not_reentrant (hS : S.wiring = Spec.registered rs) {layer : α → Nat}
    (hl : Layered S rs layer) {evs : List (Ev α)} {s : St S} (hr : Exec S evs s) :
    s.reentered = false := (hr.layers (layered_ok hS hl)).2

/-- **C90, the loop goes on.** In a layered reactor the main thread always gets back to its loop: in
    every infinite execution in which it makes infinitely many steps, from every point on there is a
    moment when it is in no handler. -/
theorem C90_returns (hS : S.wiring = Spec.registered rs) {layer : α → Nat} (hl : Layered S rs layer)
    {evs : List (Ev α)} {f : Nat → St S} {ev : Nat → Ev α} (h0 : Exec S evs (f 0))
    (hs : ∀ n, (f n).next (ev n) = some (f (n + 1))) (hm : ∀ n, ∃ k, n ≤ k ∧ (ev k).isMain)
    (n : Nat) : ∃ k, n ≤ k ∧ (f k).stack = [] := by
  have hex : ∀ n, ∃ evs, Exec S evs (f n) := by
    intro n
    induction n with
    | zero => exact ⟨_, h0⟩
    | succ n ih => obtain ⟨evs, h⟩ := ih; exact ⟨_, h.snoc (hs n)⟩
  obtain ⟨evs', hr⟩ := hex n
  exact comes_back hs hm (back_stk (layered_ok hS hl) _ (hr.layers (layered_ok hS hl)).1 _ rfl) n rfl

/-! ## Concrete reactors -/

/-- Executions by evaluation. -/
def play (S : Setup α) (evs : List (Ev α)) : Option (St S) :=
  evs.foldlM (fun s ev => St.next ev s) (St.init S)

theorem exec_of_play {evs : List (Ev α)} {s : St S} (h : play S evs = some s) : Exec S evs s := by
  have key : ∀ (evs2 evs1 : List (Ev α)) (s1 : St S), Exec S evs1 s1 →
      evs2.foldlM (fun s ev => St.next ev s) s1 = some s → Exec S (evs1 ++ evs2) s := by
    intro evs2
    induction evs2 with
    | nil => intro evs1 s1 h1 h2; cases h2; simpa using h1
    | cons ev t ih =>
      intro evs1 s1 h1 h2
      rw [List.foldlM_cons] at h2
      obtain ⟨s2, h3, h4⟩ := Option.bind_eq_some_iff.1 h2
      simpa using ih (evs1 ++ [ev]) s2 (h1.snoc h3) h4
  simpa using key evs [] _ .nil h

theorem exists_exec (evs : List (Ev α)) (p : St S → Bool) (h : (play S evs).any p = true) :
    ∃ s, Exec S evs s ∧ p s = true := by
  cases hp : play S evs with
  | none => rw [hp] at h; cases h
  | some s => rw [hp] at h; exact ⟨s, exec_of_play hp, h⟩

/-- Three wrappers: a handler that is called directly, and two with their own threads. -/
inductive Three where
  | front | left | right
  deriving DecidableEq

def threeRegs : List (Spec.Reg Three) :=
  [.socket "s", .handler ["s"] .front, .handler ["left"] .left, .handler ["right"] .right]

def objOf (f : Msg → List Msg) : Obj where
  σ := Nat
  init := 0
  onRequest _ m v := (f m).foldr (fun o p => .respond (v + 1) o (fun _ => p)) (.done (v + 1))

/-- The first handler passes the frames on to the other two; these answer on the socket. -/
def three (toLeft toRight : List String → List String) : Setup Three where
  wiring := Spec.registered threeRegs
  isAsync a := a != .front
  obj a := match a with
    | .front => objOf fun m => [⟨"left", m.identity, toLeft m.data⟩, ⟨"right", m.identity, toRight m.data⟩]
    | .left => objOf fun m => [⟨"s", m.identity, "left" :: m.data⟩]
    | .right => objOf fun m => [⟨"s", m.identity, "right" :: m.data⟩]
  uid a := match a with
    | .front => "0" | .left => "1" | .right => "2"
  full _ _ _ := false

def mains (n : Nat) : List (Ev Three) := List.replicate n (.main (fun _ => false) none)

def threeEvs : List (Ev Three) :=
  [.connect .left, .connect .right, .arrive "s" "peer" ["hello"], .poll 0 0] ++ mains 14 ++
  [.take .right (fun _ => false), .thread .right, .thread .right,
   .take .left (fun _ => false), .thread .left, .thread .left] ++
  [.poll 0 0, .main (fun _ => false) (some .right)]

/-- The handlers of this reactor are in layers (the first one only calls asynchronous ones). -/
example (f g : List String → List String) : Layered (three f g) threeRegs (fun _ => 0) := by
  intro a ha x m v
  cases a with
  | front =>
    refine ⟨?_, fun _ => ⟨?_, fun _ => trivial⟩⟩
    · right
      intro b hb
      have : Spec.subscribers "left" threeRegs = [.left] := by decide
      rw [this] at hb
      simp only [List.mem_singleton] at hb; subst hb; exact .inl rfl
    · right
      intro b hb
      have : Spec.subscribers "right" threeRegs = [.right] := by decide
      rw [this] at hb
      simp only [List.mem_singleton] at hb; subst hb; exact .inl rfl
  | left => cases ha
  | right => cases ha

/-- One message goes to both threads, both answer, and the loop reads one of the answers and sends it
    on the socket. -/
example : ∃ s, Exec (three id id) threeEvs s ∧ Framed s ∧
    s.taken .left = [⟨"left", "peer", ["hello"]⟩] ∧ s.taken .right = [⟨"right", "peer", ["hello"]⟩] ∧
    s.sent = [⟨"s", "peer", ["right", "hello"]⟩] ∧ s.stack = [] ∧
    (s.thr .left).dealer.out.length = 1 := by
  obtain ⟨s, hr, hp⟩ := exists_exec (S := three id id) threeEvs
    (fun s => decide ((∀ a ∈ [Three.front, .left, .right], (∀ p ∈ s.posted a, p.1.data ≠ [] ∧
        p.1.key ≠ "TERMINATE") ∧ ∀ m ∈ s.replied a, m.data ≠ []) ∧
      s.taken .left = [⟨"left", "peer", ["hello"]⟩] ∧ s.taken .right = [⟨"right", "peer", ["hello"]⟩] ∧
      s.sent = [⟨"s", "peer", ["right", "hello"]⟩] ∧ s.stack.length = 0 ∧
      (s.thr .left).dealer.out.length = 1)) (by decide +kernel)
  obtain ⟨h1, h2, h3, h4, h5, h6⟩ := of_decide_eq_true hp
  exact ⟨s, hr, ⟨fun a => (h1 a (by cases a <;> simp)).1, fun a => (h1 a (by cases a <;> simp)).2⟩,
    h2, h3, h4, List.length_eq_zero_iff.1 h5, h6⟩

/-- **C90, messages without frames mix up the handlers.** If a handler sends a message without frames
    to an asynchronous handler, the next message for another asynchronous handler becomes part of it:
    the first handler gets it, the second one does not. -/
theorem C90_mixed_up : ∃ (S : Setup Three) (evs : List (Ev Three)) (s : St S), Exec S evs s ∧
    Function.Injective S.uid ∧ s.posted .right = [(⟨"right", "peer", ["hello"]⟩, true)] ∧
    s.taken .right = [] ∧ (s.thr .right).pipe = [] ∧
    s.taken .left = [⟨"left", "peer", ["2", "right", "peer", "hello"]⟩] := by
  obtain ⟨s, hr, hp⟩ := exists_exec (S := three (fun _ => []) id)
    ([.connect .left, .connect .right, .arrive "s" "peer" ["hello"], .poll 0 0] ++ mains 12 ++
      [.take .left (fun _ => false)])
    (fun s => decide (s.posted .right = [(⟨"right", "peer", ["hello"]⟩, true)] ∧
    s.taken .right = [] ∧ (s.thr .right).pipe = [] ∧
    s.taken .left = [⟨"left", "peer", ["2", "right", "peer", "hello"]⟩])) (by decide +kernel)
  refine ⟨_, _, s, hr, ?_, of_decide_eq_true hp⟩
  intro a b h
  cases a <;> cases b <;> first | rfl | (exact absurd h (by decide))

/-- A handler that answers with messages it is itself registered for. -/
def echo : Setup Unit where
  wiring := Spec.registered [.socket "s", .handler ["s", "again"] ()]
  isAsync _ := false
  obj _ := objOf fun m => [⟨"again", m.identity, m.data⟩]
  uid _ := ""
  full _ _ _ := false

/-- **C90, layers are needed.** A handler that answers with messages it is itself registered for is
    entered again and again and never left: the stack grows without bound. -/
theorem C90_recursion (n : Nat) : ∃ evs s, Exec echo evs s ∧ n < s.stack.length ∧
    (0 < n → s.reentered = true) := by
  have step : ∀ n, ∃ evs, ∃ s : St echo, Exec echo evs s ∧
      (∃ st, s.stack = .loop ⟨"again", "", ["x"]⟩ [()] :: st ∧ 2 * n < st.length ∧
        () ∈ st.filterMap Frame.owner) ∧ (0 < n → s.reentered = true) := by
    intro n
    induction n with
    | zero =>
      obtain ⟨s, hr, hp⟩ := exists_exec (S := echo)
        [.arrive "s" "" ["x"], .poll 0 0, .main (fun _ => false) none, .main (fun _ => false) none,
          .main (fun _ => false) none]
        (fun s => match s.stack with
          | .loop m [()] :: st => decide (m = ⟨"again", "", ["x"]⟩ ∧ 0 < st.length ∧
              () ∈ st.filterMap Frame.owner)
          | _ => false) (by decide +kernel)
      refine ⟨_, s, hr, ?_, by simp⟩
      split at hp
      · rename_i m st hst
        obtain ⟨rfl, h2, h3⟩ := of_decide_eq_true hp
        exact ⟨st, hst, by simpa using h2, h3⟩
      · cases hp
    | succ n ih =>
      obtain ⟨evs, s, hr, ⟨st, h1, h2, h3⟩, h4⟩ := ih
      have hr1 := hr.snoc (ev := .main (fun _ => false) none) (s' := _)
        (by simp only [St.next, h1, St.inCall]; rfl)
      have hr2 := hr1.snoc (ev := .main (fun _ => false) none) (s' := _)
        (by simp only [St.next, St.inCall]; rfl)
      refine ⟨_, _, hr2, ⟨_, rfl, ?_, ?_⟩, ?_⟩
      · simp; omega
      · simp [Frame.owner]
      · intro _
        show (s.reentered || decide (() ∈ st.filterMap Frame.owner)) = true
        rw [decide_eq_true h3]; simp
  obtain ⟨evs, s, hr, ⟨st, h1, h2, _⟩, h4⟩ := step n
  exact ⟨evs, s, hr, by rw [h1]; simp; omega, h4⟩

end Broker.Reactor
