import Verif.Proof.System
import Verif.Spec.Faults

/-!
# Executions with failing ZeroMQ calls
-/

set_option linter.unusedSectionVars false

namespace Broker

variable {Q : Type} [QueueManager Q]

/-! ## Reading -/

/-- What is read before `recv` number `n` fails. -/
def readPart : Nat → String → List String → String × List String
  | 0, _, _ => ("", [])
  | n + 1, i, d => (i, d.take n)

/-- What is left in the socket. -/
def leftPart : Nat → String → List String → List String
  | 0, i, d => i :: d
  | n + 1, _, d => d.drop n

theorem recvMoreFails_eq : ∀ (n : Nat) (d : List String), n ≤ d.length →
    recvMoreFails n (!d.isEmpty) (recvFrames d) = (d.take n, recvFrames (d.drop n)) := by
  intro n
  induction n with
  | zero => intro d _; cases d <;> simp [recvMoreFails]
  | succ n ih =>
    intro d h
    cases d with
    | nil => simp at h
    | cons f t =>
      have := ih t (by simpa using h)
      cases t with
      | nil =>
        have h0 : n = 0 := by simpa using h
        subst h0
        simp [recvMoreFails, recvFrames, dataFrames]
      | cons g t =>
        simp only [List.isEmpty_cons, Bool.not_false] at this
        simp only [recvFrames, dataFrames, List.isEmpty_cons, Bool.not_false, recvMoreFails]
        simp only [recvFrames] at this
        rw [this]
        simp

theorem recvFrames_map (d : List String) : (recvFrames d).map (·.1) = d := by
  induction d with
  | nil => rfl
  | cons f t ih =>
    cases t with
    | nil => rfl
    | cons g t =>
      simp only [recvFrames] at ih
      simp [recvFrames, dataFrames, ih]

theorem receiveFails_eq (k : String) {n : Nat} {i : String} {d : List String} (h : n ≤ d.length) :
    receiveFails k n (recvFrames (i :: d)) =
      (⟨k, (readPart n i d).1, (readPart n i d).2⟩, recvFrames (leftPart n i d)) := by
  cases n with
  | zero => simp [receiveFails, readPart, leftPart]
  | succ n =>
    cases d with
    | nil => simp at h
    | cons f t =>
      have := recvMoreFails_eq n (f :: t) (by omega)
      simp only [List.isEmpty_cons, Bool.not_false] at this
      simp only [recvFrames, dataFrames, receiveFails, readPart, leftPart]
      simp only [recvFrames] at this
      rw [this]

theorem leftPart_ne_nil {n : Nat} {i : String} {d : List String} (h : n ≤ d.length) :
    leftPart n i d ≠ [] := by
  cases n with
  | zero => simp [leftPart]
  | succ n =>
    intro h0
    have := congrArg List.length h0
    simp [leftPart] at this
    omega

theorem parts_frames {n : Nat} {i : String} {d : List String} :
    (n = 0 ∧ readPart n i d = ("", []) ∧ leftPart n i d = i :: d) ∨
    ((readPart n i d).1 :: (readPart n i d).2) ++ leftPart n i d = i :: d := by
  cases n with
  | zero => exact .inl ⟨rfl, rfl, rfl⟩
  | succ n => right; simp [readPart, leftPart]

/-- The socket `k` with the message at its head in two parts. -/
def Sys.cut (s : Sys Q) (k : String) (a b : String × List String) (rest : List (String × List String)) :
    Sys Q :=
  { s with inbox := fun x => if x = k then a :: b :: rest else s.inbox x }

/-! ## Transitions by cases -/

/-- Transitions with failures, in the situations that can occur. -/
inductive FStep (cfg : HConfig) (env : Env) (e : SysEnv) (s : Sys Q) : FEv → Sys Q → Prop
  | ok {ev : SysEv} {s' : Sys Q} (h : SStep cfg env e s ev s') : FStep cfg env e s (.ok ev) s'
  | recv {n : Nat} {k i f : String} {d t : List String} {rest : List (String × List String)}
      {ks : List String} {el : Int} {s' : Sys Q} (ht : s.todo = [])
      (hpc : s.pc = .serve (k :: ks) el) (hin : s.inbox k = (i, d) :: rest) (hn : n ≤ d.length)
      (hl : leftPart n i d = f :: t)
      (h : SStep cfg env e (s.cut k (readPart n i d) (f, t) rest) .main s')
      (he : s' = Sys.process cfg env e ⟨k, (readPart n i d).1, (readPart n i d).2⟩
        { s with pc := .serve ks el
                 inbox := fun x => if x = k then (f, t) :: rest else s.inbox x }) :
    FStep cfg env e s (.recvFails n) s'
  | send {n : Nat} {m : Msg} {t : List Msg} (ht : s.todo = m :: t)
      (hk : m.key ∈ brokerWiring.order) (hn : n ≤ m.data.length) :
    FStep cfg env e s (.sendFails n)
      { s with todo := t, routed := s.routed ++ [m]
               socks := fun x => if x = m.key then (s.socks m.key).sendFails n m else s.socks x }

theorem SInv.cut {s : Sys Q} (hi : SInv s) (k : String) (a b : String × List String)
    (rest : List (String × List String)) : SInv (s.cut k a b rest) := by
  refine ⟨hi.shapes, hi.split, ?_, hi.closed, hi.pipe, hi.alive, hi.flat⟩
  intro ks el hpc
  obtain ⟨h1, h2⟩ := hi.ready ks el hpc
  refine ⟨h1, fun k' hk' => ?_⟩
  show (if k' = k then _ else _) ≠ _
  split
  · simp
  · exact h2 k' hk'

theorem fnext_cases {cfg : HConfig} {env : Env} {e : SysEnv} {s s' : Sys Q} {ev : FEv}
    (hi : SInv s) (h : s.fnext cfg env e ev = some s') : FStep cfg env e s ev s' := by
  cases ev with
  | ok ev => exact .ok (next_cases hi h)
  | recvFails n =>
    simp only [Sys.fnext, Sys.recvFails] at h
    split at h
    · rename_i k ks el ht hpc
      split at h
      · cases h
      · rename_i i d rest hin
        split at h
        · rename_i hn
          obtain ⟨f, t, hl⟩ := List.exists_cons_of_ne_nil (leftPart_ne_nil (i := i) hn)
          rw [receiveFails_eq k hn] at h
          simp only [recvFrames_map, hl] at h
          have h' := (Option.some.inj h).symm
          refine .recv ht hpc hin hn hl ?_ h'
          rw [h']
          have hsrc : Source (s.cut k (readPart n i d) (f, t) rest)
              ⟨k, (readPart n i d).1, (readPart n i d).2⟩ _ :=
            .recv (k := k) (i := (readPart n i d).1) (d := (readPart n i d).2)
              (rest := (f, t) :: rest) hpc (by simp [Sys.cut])
          have := SStep.of_process (cfg := cfg) (env := env) (e := e) (hi.cut k _ _ _) ht hsrc
          have hf : (fun x => if x = k then (f, t) :: rest
              else (s.cut k (readPart n i d) (f, t) rest).inbox x) =
              fun x => if x = k then (f, t) :: rest else s.inbox x := by
            funext x
            by_cases hx : x = k <;> simp [Sys.cut, hx]
          rw [hf] at this
          exact this
        · cases h
    · cases h
  | sendFails n =>
    simp only [Sys.fnext, Sys.sendFails] at h
    split at h
    · cases h
    · rename_i m t ht
      split at h
      · rename_i hc
        cases h
        exact .send ht hc.1 hc.2
      · cases h

theorem SInv.fstep {cfg : HConfig} {env : Env} {e : SysEnv} {s s' : Sys Q} {ev : FEv}
    (hi : SInv s) (h : FStep cfg env e s ev s') : SInv s' := by
  cases h with
  | ok h => exact hi.step h
  | recv ht hpc hin hn hl h he => exact (hi.cut _ _ _ _).step h
  | send ht hk hn =>
    exact ⟨hi.shapes, by rw [hi.split, ht]; simp, hi.ready, hi.closed, hi.pipe, hi.alive, hi.flat⟩

theorem FRun.inv {cfg : HConfig} {env : Env} {e : SysEnv} {evs : List FEv} {s : Sys Q}
    (hr : FRun cfg env e evs s) : SInv s := by
  induction hr with
  | nil => exact SInv.init
  | snoc hr hs ih => exact ih.fstep (fnext_cases ih hs)

theorem FRun.induct {cfg : HConfig} {env : Env} {e : SysEnv} {P : List FEv → Sys Q → Prop}
    (h0 : P [] (Sys.init Q))
    (h1 : ∀ {evs s ev s'}, FRun cfg env e evs s → P evs s → SInv s → FStep cfg env e s ev s' →
      P (evs ++ [ev]) s')
    {evs : List FEv} {s : Sys Q} (hr : FRun cfg env e evs s) : P evs s := by
  induction hr with
  | nil => exact h0
  | snoc hr hs ih => exact h1 hr ih hr.inv (fnext_cases hr.inv hs)

/-- Run a list of events. -/
def Sys.fexec (cfg : HConfig) (env : Env) (e : SysEnv) : List FEv → Sys Q → Option (Sys Q)
  | [], s => some s
  | ev :: t, s => (s.fnext cfg env e ev).bind (Sys.fexec cfg env e t)

theorem FRun.exec {cfg : HConfig} {env : Env} {e : SysEnv} : ∀ {evs2 evs1 : List FEv} {s s' : Sys Q},
    FRun cfg env e evs1 s → Sys.fexec cfg env e evs2 s = some s' →
    FRun cfg env e (evs1 ++ evs2) s' := by
  intro evs2
  induction evs2 with
  | nil => intro evs1 s s' hr h; cases h; simpa using hr
  | cons ev t ih =>
    intro evs1 s s' hr h
    simp only [Sys.fexec, Option.bind_eq_some_iff] at h
    obtain ⟨s1, h1, h2⟩ := h
    have := ih (FRun.snoc hr h1) h2
    simpa using this

theorem exists_frun {cfg : HConfig} {env : Env} {e : SysEnv} (evs : List FEv) (p : Sys Q → Bool)
    (h : (Sys.fexec cfg env e evs (Sys.init Q)).any p = true) :
    ∃ s : Sys Q, FRun cfg env e evs s ∧ p s = true := by
  cases hx : Sys.fexec cfg env e evs (Sys.init Q) with
  | none => rw [hx] at h; simp at h
  | some s =>
    rw [hx] at h
    refine ⟨s, ?_, by simpa using h⟩
    have := FRun.exec (FRun.nil (cfg := cfg) (env := env) (e := e) (Q := Q)) hx
    simpa using this

/-! ## The handler -/

theorem FRun.refines {cfg : HConfig} {env : Env} {e : SysEnv} {evs : List FEv} {s : Sys Q}
    (hr : FRun cfg env e evs s) : Refines cfg env s := by
  refine FRun.induct (P := fun _ s => Refines cfg env s) refines_init ?_ hr
  intro evs s ev s' hr ih hi hst
  cases hst with
  | ok h => exact refines_step ih h
  | recv ht hpc hin hn hl h he =>
    exact refines_step (s := s.cut _ _ _ _) (refines_same ih rfl rfl rfl rfl rfl) h
  | send => exact refines_same ih rfl rfl rfl rfl rfl

/-- Without failures nothing is new. -/
theorem FRun.all_ok {cfg : HConfig} {env : Env} {e : SysEnv} {evs : List FEv} {s : Sys Q}
    (hr : FRun cfg env e evs s) : ∀ {l : List SysEv}, evs = l.map .ok → SRun cfg env e l s := by
  induction hr with
  | nil =>
    intro l h
    cases l with
    | nil => exact .nil
    | cons => cases h
  | @snoc evs s s' ev hr hs ih =>
    intro l h
    rcases List.eq_nil_or_concat l with rfl | ⟨l', x, rfl⟩
    · simp at h
    · rw [List.concat_eq_append, List.map_append, List.map_singleton] at h
      obtain ⟨h1, h2⟩ := List.append_inj' h rfl
      obtain rfl := List.singleton_inj.1 h2
      rw [List.concat_eq_append]
      exact .snoc (ih h1) hs

theorem SRun.with_failures {cfg : HConfig} {env : Env} {e : SysEnv} {evs : List SysEv} {s : Sys Q}
    (hr : SRun cfg env e evs s) : FRun cfg env e (evs.map .ok) s := by
  induction hr with
  | nil => exact .nil
  | @snoc evs s s' ev hr hs ih =>
    rw [List.map_append]
    exact .snoc (ev := .ok ev) ih hs

/-! ## Frames -/

/-- What a step does with the frames in the sockets; `P`: messages may be taken in part. -/
inductive Took (P : Prop) (s s' : Sys Q) : Prop
  | none (hin : s'.inbox = s.inbox) (ha : s'.arrived = s.arrived)
      (hh : s'.handled = s.handled ∨ ∃ el, s'.handled = s.handled ++ [timerMsg el])
  | arrive {k i : String} {d : List String}
      (hin : s'.inbox = fun x => if x = k then s.inbox k ++ [(i, d)] else s.inbox x)
      (ha : s'.arrived = s.arrived ++ [(k, i, d)]) (hh : s'.handled = s.handled)
  | whole {k i : String} {d : List String} {rest : List (String × List String)}
      (h0 : s.inbox k = (i, d) :: rest)
      (hin : s'.inbox = fun x => if x = k then rest else s.inbox x)
      (ha : s'.arrived = s.arrived) (hh : s'.handled = s.handled ++ [⟨k, i, d⟩])
  | part {n : Nat} {k i f : String} {d t : List String} {rest : List (String × List String)}
      (hp : P) (h0 : s.inbox k = (i, d) :: rest) (hn : n ≤ d.length) (hl : leftPart n i d = f :: t)
      (hin : s'.inbox = fun x => if x = k then (f, t) :: rest else s.inbox x)
      (ha : s'.arrived = s.arrived)
      (hh : s'.handled = s.handled ++ [⟨k, (readPart n i d).1, (readPart n i d).2⟩])

theorem SStep.took {cfg : HConfig} {env : Env} {e : SysEnv} {s s' : Sys Q} {ev : SysEv}
    (h : SStep cfg env e s ev s') : Took False s s' := by
  cases h with
  | arrive hk hd => exact .arrive rfl rfl rfl
  | poll => exact .none rfl rfl (.inl rfl)
  | sock => exact .none rfl rfl (.inl rfl)
  | @post m t ht hk =>
    obtain ⟨_, _, _, c4, _, _, _, c8, c9, _⟩ :=
      post_frame e m { s with todo := t, routed := s.routed ++ [m] }
    exact .none c8 c9 (.inl c4)
  | idle ht hsrc hk =>
    cases hsrc with
    | recv hpc hin => exact .whole hin rfl rfl rfl
    | timer hpc => exact .none rfl rfl (.inr ⟨_, rfl⟩)
  | handle ht hsrc hk hs =>
    cases hsrc with
    | recv hpc hin => exact .whole hin rfl rfl rfl
    | timer hpc => exact .none rfl rfl (.inr ⟨_, rfl⟩)
  | fail ht hsrc hk hs =>
    cases hsrc with
    | recv hpc hin => exact .whole hin rfl rfl rfl
    | timer hpc => exact .none rfl rfl (.inr ⟨_, rfl⟩)
  | connect => exact .none rfl rfl (.inl rfl)
  | take => exact .none rfl rfl (.inl rfl)

theorem Took.mono {s s' : Sys Q} (h : Took False s s') : Took True s s' := by
  cases h with
  | none a b c => exact .none a b c
  | arrive a b c => exact .arrive a b c
  | whole a b c d => exact .whole a b c d
  | part hp => exact hp.elim

theorem process_frame (cfg : HConfig) (env : Env) (e : SysEnv) (m : Msg) (s : Sys Q)
    (hk : m.key = "clients" ∨ m.key = "workers" ∨ m.key = "monitor") :
    (Sys.process cfg env e m s).inbox = s.inbox ∧
    (Sys.process cfg env e m s).arrived = s.arrived ∧
    (Sys.process cfg env e m s).handled = s.handled ++ [m] := by
  unfold Sys.process
  by_cases hm : m.key = keyMonitor
  · rw [process_monitor hm]
    exact ⟨rfl, rfl, rfl⟩
  · rw [process_broker (by rcases hk with h | h | h; exacts [.inl h, .inr (.inl h), absurd h hm])]
    simp only [List.foldl_cons, List.foldl_nil, Sys.deliver, Sys.call, Bool.false_eq_true, if_false]
    split <;> exact ⟨rfl, rfl, rfl⟩

theorem FStep.took {cfg : HConfig} {env : Env} {e : SysEnv} {s s' : Sys Q} {ev : FEv} (hi : SInv s)
    (h : FStep cfg env e s ev s') : Took True s s' := by
  cases h with
  | ok h => exact h.took.mono
  | @recv n k i f d t rest ks el _ ht hpc hin hn hl h he =>
    have hk := order_cases (((hi.ready _ _ hpc).1.subset) List.mem_cons_self)
    obtain ⟨a, b, c⟩ := process_frame cfg env e ⟨k, (readPart n i d).1, (readPart n i d).2⟩
      { s with pc := .serve ks el
               inbox := fun x => if x = k then (f, t) :: rest else s.inbox x } hk
    rw [← he] at a b c
    exact .part trivial hin hn hl a b c
  | send => exact .none rfl rfl (.inl rfl)

theorem addressed_snoc (k : String) (l : List Msg) (m : Msg) :
    Spec.addressed k (l ++ [m]) = Spec.addressed k l ++ if m.key = k then [(m.identity, m.data)] else [] := by
  unfold Spec.addressed
  by_cases h : m.key = k <;> simp [h]

/-- No frame is lost, invented or moved. -/
def FrameInv (k : String) (s : Sys Q) : Prop :=
  ∃ ps : List (String × List String), ps.Sublist (Spec.addressed k s.handled) ∧
    ps.filter (· ≠ ("", [])) = (Spec.addressed k s.handled).filter (· ≠ ("", [])) ∧
    Spec.frames ps ++ Spec.frames (s.inbox k) = Spec.frames (Spec.received k s)

theorem frames_append (a b : List (String × List String)) :
    Spec.frames (a ++ b) = Spec.frames a ++ Spec.frames b := by simp [Spec.frames]

theorem frames_cons (a : String × List String) (b : List (String × List String)) :
    Spec.frames (a :: b) = (a.1 :: a.2) ++ Spec.frames b := by simp [Spec.frames]

theorem FrameInv.took {k : String} (hk : k ≠ keyTimer) {s s' : Sys Q} (h : FrameInv k s)
    (ht : Took True s s') : FrameInv k s' := by
  obtain ⟨ps, h1, h2, h3⟩ := h
  cases ht with
  | none hin ha hh =>
    have : Spec.addressed k s'.handled = Spec.addressed k s.handled := by
      rcases hh with hh | ⟨el, hh⟩
      · rw [hh]
      · rw [hh, addressed_snoc, if_neg (by exact fun h => hk h.symm)]; simp
    refine ⟨ps, by rw [this]; exact h1, by rw [this]; exact h2, ?_⟩
    unfold Spec.received at h3 ⊢
    rw [hin, ha]; exact h3
  | @arrive k' i d hin ha hh =>
    refine ⟨ps, by rw [hh]; exact h1, by rw [hh]; exact h2, ?_⟩
    unfold Spec.received at h3 ⊢
    rw [hin, ha]
    by_cases hkk : k = k'
    · subst hkk
      simp only [if_pos, List.filter_append, List.map_append, frames_append]
      rw [← List.append_assoc, h3]
      simp
    · simp only [if_neg hkk, List.filter_append, List.map_append, frames_append, h3]
      have : (k' == k) = false := by simpa using Ne.symm hkk
      simp [this, Spec.frames]
  | @whole k' i d rest h0 hin ha hh =>
    unfold FrameInv
    rw [hh, addressed_snoc]
    by_cases hkk : k' = k
    · subst hkk
      rw [if_pos rfl]
      refine ⟨ps ++ [(i, d)], h1.append (List.Sublist.refl _), ?_, ?_⟩
      · rw [List.filter_append, List.filter_append, h2]
      · unfold Spec.received at h3 ⊢
        rw [hin, ha, ← h3, h0]
        simp [Spec.frames]
    · rw [if_neg hkk, List.append_nil]
      refine ⟨ps, h1, h2, ?_⟩
      unfold Spec.received at h3 ⊢
      rw [hin, ha]
      simp only [if_neg (Ne.symm hkk)]
      exact h3
  | @part n k' i f d t rest _ h0 hn hl hin ha hh =>
    unfold FrameInv
    rw [hh, addressed_snoc]
    by_cases hkk : k' = k
    · subst hkk
      rw [if_pos rfl]
      rcases parts_frames (n := n) (i := i) (d := d) with ⟨-, hr, hl'⟩ | hp
      · refine ⟨ps, h1.trans (List.sublist_append_left _ _), ?_, ?_⟩
        · rw [List.filter_append, h2, hr]; simp
        · unfold Spec.received at h3 ⊢
          rw [hin, ha, ← h3, h0]
          rw [hl] at hl'
          simp only [if_pos, frames_cons, hl']
      · refine ⟨ps ++ [((readPart n i d).1, (readPart n i d).2)], h1.append (List.Sublist.refl _),
          ?_, ?_⟩
        · rw [List.filter_append, List.filter_append, h2]
        · unfold Spec.received at h3 ⊢
          rw [hin, ha, ← h3, h0]
          rw [hl] at hp
          simp only [if_pos, frames_append, frames_cons]
          rw [← hp]
          simp [Spec.frames]
    · rw [if_neg hkk, List.append_nil]
      refine ⟨ps, h1, h2, ?_⟩
      unfold Spec.received at h3 ⊢
      rw [hin, ha]
      simp only [if_neg (Ne.symm hkk)]
      exact h3

theorem FRun.frames {cfg : HConfig} {env : Env} {e : SysEnv} {evs : List FEv} {s : Sys Q}
    (hr : FRun cfg env e evs s) {k : String} (hk : k ≠ keyTimer) : FrameInv k s :=
  FRun.induct (P := fun _ s => FrameInv k s) ⟨[], by simp [Sys.init, Spec.addressed],
    by simp [Sys.init, Spec.addressed], by simp [Sys.init, Spec.received, Spec.frames]⟩
    (fun _ ih hi hst => ih.took hk (hst.took hi)) hr

/-- What waits in a socket are the ends of messages that arrived. -/
structure PieceInv (k : String) (s : Sys Q) : Prop where
  tails : ∀ x ∈ s.inbox k, ∃ i d before, (k, i, d) ∈ s.arrived ∧ i :: d = before ++ (x.1 :: x.2)
  pieces : ∀ m ∈ s.handled, m.key = k → Spec.Piece k s (m.identity :: m.data)

theorem piece_mono {k : String} {s s' : Sys Q} {x : List String} (ha : ∃ l, s'.arrived = s.arrived ++ l)
    (h : Spec.Piece k s x) : Spec.Piece k s' x := by
  obtain ⟨l, ha⟩ := ha
  rcases h with h | ⟨i, d, b, a, h1, h2⟩
  · exact .inl h
  · exact .inr ⟨i, d, b, a, by rw [ha]; simp [h1], h2⟩

theorem PieceInv.took {k : String} (hk : k ≠ keyTimer) {s s' : Sys Q} (h : PieceInv k s)
    (ht : Took True s s') : PieceInv k s' := by
  obtain ⟨h1, h2⟩ := h
  cases ht with
  | none hin ha hh =>
    have hm : ∃ l, s'.arrived = s.arrived ++ l := ⟨[], by simp [ha]⟩
    refine ⟨by rw [hin, ha]; exact h1, ?_⟩
    intro m hmm hmk
    rcases hh with hh | ⟨el, hh⟩
    · rw [hh] at hmm; exact piece_mono hm (h2 m hmm hmk)
    · rw [hh] at hmm
      rcases List.mem_append.1 hmm with hmm | hmm
      · exact piece_mono hm (h2 m hmm hmk)
      · rw [List.mem_singleton.1 hmm] at hmk
        exact absurd hmk.symm hk
  | @arrive k' i d hin ha hh =>
    refine ⟨?_, ?_⟩
    · rw [hin, ha]
      intro x hx
      by_cases hkk : k = k'
      · subst hkk
        simp only [if_pos, List.mem_append, List.mem_singleton] at hx
        rcases hx with hx | rfl
        · obtain ⟨i', d', b, g1, g2⟩ := h1 x hx
          exact ⟨i', d', b, by simp [g1], g2⟩
        · exact ⟨i, d, [], by simp, rfl⟩
      · simp only [if_neg hkk] at hx
        obtain ⟨i', d', b, g1, g2⟩ := h1 x hx
        exact ⟨i', d', b, by simp [g1], g2⟩
    · rw [hh]
      exact fun m hmm hmk => piece_mono ⟨_, ha⟩ (h2 m hmm hmk)
  | @whole k' i d rest h0 hin ha hh =>
    have hm : ∃ l, s'.arrived = s.arrived ++ l := ⟨[], by simp [ha]⟩
    refine ⟨?_, ?_⟩
    · rw [hin, ha]
      intro x hx
      by_cases hkk : k = k'
      · subst hkk
        simp only [if_pos] at hx
        exact h1 x (by rw [h0]; exact List.mem_cons_of_mem _ hx)
      · simp only [if_neg hkk] at hx
        exact h1 x hx
    · rw [hh]
      intro m hmm hmk
      rcases List.mem_append.1 hmm with hmm | hmm
      · exact piece_mono hm (h2 m hmm hmk)
      · rw [List.mem_singleton.1 hmm] at hmk ⊢
        have hmk : k' = k := hmk
        subst hmk
        obtain ⟨i', d', b, g1, g2⟩ := h1 (i, d) (by rw [h0]; simp)
        exact .inr ⟨i', d', b, [], by rw [ha]; exact g1, by simpa using g2⟩
  | @part n k' i f d t rest _ h0 hn hl hin ha hh =>
    have hm : ∃ l, s'.arrived = s.arrived ++ l := ⟨[], by simp [ha]⟩
    refine ⟨?_, ?_⟩
    · rw [hin, ha]
      intro x hx
      by_cases hkk : k = k'
      · subst hkk
        simp only [if_pos, List.mem_cons] at hx
        rcases hx with rfl | hx
        · obtain ⟨i', d', b, g1, g2⟩ := h1 (i, d) (by rw [h0]; simp)
          rcases parts_frames (n := n) (i := i) (d := d) with ⟨-, -, hl'⟩ | hp
          · rw [hl] at hl'
            exact ⟨i', d', b, g1, by rw [g2]; simp [hl']⟩
          · rw [hl] at hp
            refine ⟨i', d', b ++ ((readPart n i d).1 :: (readPart n i d).2), g1, ?_⟩
            rw [List.append_assoc, hp]; exact g2
        · exact h1 x (by rw [h0]; exact List.mem_cons_of_mem _ hx)
      · simp only [if_neg hkk] at hx
        exact h1 x hx
    · rw [hh]
      intro m hmm hmk
      rcases List.mem_append.1 hmm with hmm | hmm
      · exact piece_mono hm (h2 m hmm hmk)
      · rw [List.mem_singleton.1 hmm] at hmk ⊢
        have hmk : k' = k := hmk
        subst hmk
        obtain ⟨i', d', b, g1, g2⟩ := h1 (i, d) (by rw [h0]; simp)
        rcases parts_frames (n := n) (i := i) (d := d) with ⟨-, hr, -⟩ | hp
        · left; rw [hr]
        · right
          refine ⟨i', d', b, leftPart n i d, by rw [ha]; exact g1, ?_⟩
          show _ = b ++ ((readPart n i d).1 :: (readPart n i d).2) ++ _
          rw [List.append_assoc, hp]; exact g2

theorem FRun.pieces {cfg : HConfig} {env : Env} {e : SysEnv} {evs : List FEv} {s : Sys Q}
    (hr : FRun cfg env e evs s) {k : String} (hk : k ≠ keyTimer) : PieceInv k s :=
  FRun.induct (P := fun _ s => PieceInv k s)
    ⟨by simp [Sys.init], by simp [Sys.init]⟩
    (fun _ ih hi hst => ih.took hk (hst.took hi)) hr

/-- Without failing `recv` only whole messages are handed over. -/
structure WholeInv (k : String) (s : Sys Q) : Prop where
  waiting : ∀ x ∈ s.inbox k, (k, x.1, x.2) ∈ s.arrived
  handed : Spec.OnlyArrivals k s

theorem FRun.whole {cfg : HConfig} {env : Env} {e : SysEnv} {evs : List FEv} {s : Sys Q}
    (hr : FRun cfg env e evs s) {k : String} (hk : k ≠ keyTimer) :
    (∀ ev ∈ evs, Spec.isRecvFailure ev = false) → WholeInv k s := by
  refine FRun.induct (P := fun evs s => (∀ ev ∈ evs, Spec.isRecvFailure ev = false) → WholeInv k s)
    (fun _ => ⟨by simp [Sys.init], by simp [Sys.init, Spec.OnlyArrivals]⟩) ?_ hr
  intro evs s ev s' hr ih hi hst hev
  obtain ⟨h1, h2⟩ := ih fun x hx => hev x (by simp [hx])
  have hno : Spec.isRecvFailure ev = false := hev ev (by simp)
  cases hst with
  | recv => cases hno
  | send => exact ⟨h1, h2⟩
  | ok h =>
    cases h.took with
    | none hin ha hh =>
      refine ⟨by rw [hin, ha]; exact h1, ?_⟩
      intro m hmm hmk
      rw [ha]
      rcases hh with hh | ⟨el, hh⟩
      · rw [hh] at hmm; exact h2 m hmm hmk
      · rw [hh] at hmm
        rcases List.mem_append.1 hmm with hmm | hmm
        · exact h2 m hmm hmk
        · rw [List.mem_singleton.1 hmm] at hmk
          exact absurd hmk.symm hk
    | @arrive k' i d hin ha hh =>
      refine ⟨?_, ?_⟩
      · rw [hin, ha]
        intro x hx
        by_cases hkk : k = k'
        · subst hkk
          simp only [if_pos, List.mem_append, List.mem_singleton] at hx
          rcases hx with hx | rfl
          · simp [h1 x hx]
          · simp
        · simp only [if_neg hkk] at hx
          simp [h1 x hx]
      · intro m hmm hmk
        rw [hh] at hmm
        rw [ha]
        simp [h2 m hmm hmk]
    | @whole k' i d rest h0 hin ha hh =>
      refine ⟨?_, ?_⟩
      · rw [hin, ha]
        intro x hx
        by_cases hkk : k = k'
        · subst hkk
          simp only [if_pos] at hx
          exact h1 x (by rw [h0]; exact List.mem_cons_of_mem _ hx)
        · simp only [if_neg hkk] at hx
          exact h1 x hx
      · intro m hmm hmk
        rw [hh] at hmm
        rw [ha]
        rcases List.mem_append.1 hmm with hmm | hmm
        · exact h2 m hmm hmk
        · rw [List.mem_singleton.1 hmm] at hmk ⊢
          have hmk : k' = k := hmk
          subst hmk
          exact h1 (i, d) (by rw [h0]; simp)
    | part hp => exact hp.elim

/-! ## Sending -/

theorem sendAll_open : ∀ (l : List String) (p : String) (fs : List String)
    (sent : List (String × List String)),
    Router.sendAll ⟨some (p, fs), sent⟩ (l.map fun f => (f, true)) = ⟨some (p, fs ++ l), sent⟩ := by
  intro l
  induction l with
  | nil => intro p fs sent; simp [Router.sendAll]
  | cons f t ih =>
    intro p fs sent
    have := ih p (fs ++ [f]) sent
    simp only [Router.sendAll, List.map_cons, List.foldl_cons, Router.send, if_true] at this ⊢
    rw [this]
    simp

theorem dataFrames_take : ∀ (d : List String) (n : Nat), n < d.length →
    (dataFrames d).take n = (d.take n).map fun f => (f, true) := by
  intro d
  induction d with
  | nil => intro n h; simp at h
  | cons f t ih =>
    intro n h
    cases n with
    | zero => simp
    | succ n =>
      cases t with
      | nil => simp at h
      | cons g t =>
        rw [dataFrames_cons2, List.take_succ_cons, ih n (by simpa using h)]
        simp

theorem sendFails_zero (r : Router) (m : Msg) : r.sendFails 0 m = r := rfl

/-- A message is begun and not finished. -/
theorem sendFails_succ {r : Router} (hr : r.cur = none) {m : Msg} {n : Nat} (hn : n < m.data.length) :
    r.sendFails (n + 1) m = ⟨some (m.identity, m.data.take n), r.sent⟩ := by
  obtain ⟨c, st⟩ := r
  subst hr
  unfold Router.sendFails wrapperFrames
  rw [List.take_succ_cons, dataFrames_take _ _ hn]
  have := sendAll_open (m.data.take n) m.identity [] st
  simp only [Router.sendAll, List.foldl_cons, Router.send, if_true] at this ⊢
  rw [this]
  simp

/-- The next message on this socket goes to the same peer. -/
theorem sendMessage_open {r : Router} {p : String} {fs : List String} (hr : r.cur = some (p, fs))
    {m : Msg} (hd : m.data ≠ []) :
    r.sendMessage m = ⟨none, r.sent ++ [(p, fs ++ m.identity :: m.data)]⟩ := by
  obtain ⟨c, st⟩ := r
  subst hr
  have := sendAll_data m.data hd p (fs ++ [m.identity]) st
  unfold Router.sendMessage wrapperFrames
  simp only [Router.sendAll, List.foldl_cons, Router.send, if_true] at this ⊢
  rw [this]
  simp

theorem deliver_socks (cfg : HConfig) (env : Env) (e : SysEnv) (nested : Bool) (m : Msg) (s : Sys Q)
    (f : String → Router) (x : Delivery HandlerRef) :
    ∃ g, Sys.deliver cfg env e nested m { s with socks := f } x =
      { Sys.deliver cfg env e nested m s x with socks := g } := by
  cases x with
  | socket k => exact ⟨_, rfl⟩
  | handler h =>
    cases h with
    | notifier =>
      refine ⟨f, ?_⟩
      have hd : Sys.drops e { s with socks := f } = Sys.drops e s := rfl
      simp only [Sys.deliver, Sys.call, Sys.post, hd]
      cases Sys.drops e s <;> rfl
    | broker =>
      refine ⟨f, ?_⟩
      simp only [Sys.deliver, Sys.call]
      cases nested with
      | true => rfl
      | false =>
        simp only [Bool.false_eq_true, if_false]
        cases step cfg env m s.h <;> rfl

theorem deliver_all_socks (cfg : HConfig) (env : Env) (e : SysEnv) (nested : Bool) (m : Msg) :
    ∀ (l : List (Delivery HandlerRef)) (s : Sys Q) (f : String → Router),
    ∃ g, l.foldl (Sys.deliver cfg env e nested m) { s with socks := f } =
      { l.foldl (Sys.deliver cfg env e nested m) s with socks := g } := by
  intro l
  induction l with
  | nil => intro s f; exact ⟨f, rfl⟩
  | cons x t ih =>
    intro s f
    obtain ⟨g, hg⟩ := deliver_socks cfg env e nested m s f x
    simp only [List.foldl_cons]
    rw [hg]
    exact ih _ g

theorem process_socks (cfg : HConfig) (env : Env) (e : SysEnv) (m : Msg) (s : Sys Q)
    (f : String → Router) : ∃ g, Sys.process cfg env e m { s with socks := f } =
      { Sys.process cfg env e m s with socks := g } :=
  deliver_all_socks cfg env e false m _ { s with handled := s.handled ++ [m] } f

theorem send_socks (cfg : HConfig) (env : Env) (e : SysEnv) (m : Msg) (s : Sys Q)
    (f : String → Router) : ∃ g, Sys.send cfg env e m { s with socks := f } =
      { Sys.send cfg env e m s with socks := g } :=
  deliver_all_socks cfg env e true m _ { s with routed := s.routed ++ [m] } f

theorem next_socks {cfg : HConfig} {env : Env} {e : SysEnv} {ev : SysEv} {s s' : Sys Q}
    (f : String → Router) (h : s.next cfg env e ev = some s') :
    ∃ g, Sys.next cfg env e ev { s with socks := f } = some { s' with socks := g } := by
  cases ev with
  | arrive k i d =>
    simp only [Sys.next] at h ⊢
    split at h
    · rename_i hc
      rw [if_pos hc]
      cases h
      exact ⟨f, rfl⟩
    · cases h
  | poll b a =>
    simp only [Sys.next, Sys.pollReturns] at h ⊢
    split at h
    · cases h
      exact ⟨f, rfl⟩
    · cases h
  | connect =>
    simp only [Sys.next] at h ⊢
    split at h
    · rename_i hc
      rw [if_pos hc]
      cases h
      exact ⟨f, rfl⟩
    · cases h
  | take outcome =>
    simp only [Sys.next, Sys.take] at h ⊢
    split at h
    · split at h
      · cases h
      · cases h; exact ⟨f, rfl⟩
      · cases h; exact ⟨f, rfl⟩
      · split at h
        · cases h; exact ⟨f, rfl⟩
        · cases h; exact ⟨f, rfl⟩
    · cases h
  | main =>
    simp only [Sys.next, Sys.main] at h ⊢
    split at h
    · rename_i m t ht
      cases h
      obtain ⟨g, hg⟩ := send_socks cfg env e m { s with todo := t } f
      exact ⟨g, congrArg some hg⟩
    · split at h
      · cases h
      · cases h
      · split at h
        · cases h
        · simp only [receiveMessage_all, Option.map_some, Option.some.injEq] at h ⊢
          rename_i k ks el _ _ i d rest _
          subst h
          exact process_socks cfg env e ⟨k, i, d⟩ { s with pc := .serve ks el, inbox := fun x => if x = k then rest else s.inbox x } f
      · cases h
        obtain ⟨g, hg⟩ := process_socks cfg env e (timerMsg _) { s with pc := .poll } f
        exact ⟨g, congrArg some hg⟩

theorem fnext_socks {cfg : HConfig} {env : Env} {e : SysEnv} {ev : FEv} {s s' : Sys Q}
    (f : String → Router) (h : s.fnext cfg env e ev = some s') :
    ∃ g, Sys.fnext cfg env e (Spec.sendsAfterAll ev) { s with socks := f } =
      some { s' with socks := g } := by
  cases ev with
  | ok ev => exact next_socks f h
  | recvFails n =>
    simp only [Sys.fnext, Spec.sendsAfterAll, Sys.recvFails] at h ⊢
    split at h
    · split at h
      · cases h
      · split at h
        · rename_i hn
          rw [if_pos hn]
          have h := Option.some.inj h
          subst h
          simp only [Option.some.injEq]
          rename_i k ks el _ _ _ i d rest _
          generalize receiveFails k n (recvFrames (i :: d)) = r
          exact process_socks cfg env e r.1 { s with
            pc := .serve ks el
            inbox := fun x => if x = k then
                match r.2.map (·.1) with
                | [] => rest
                | f :: t => (f, t) :: rest
              else s.inbox x } f
        · cases h
    · cases h
  | sendFails n =>
    simp only [Sys.fnext, Spec.sendsAfterAll, Sys.sendFails, Sys.next, Sys.main] at h ⊢
    split at h
    · cases h
    · rename_i m t ht
      split at h
      · rename_i hc
        cases h
        refine ⟨fun x => if x = m.key then (f m.key).sendMessage m else f x, ?_⟩
        rw [ht]
        simp only [Sys.send, send_socket (order_cases hc.1)]
        rfl
      · cases h

theorem FRun.sends_after_all {cfg : HConfig} {env : Env} {e : SysEnv} {evs : List FEv} {s : Sys Q}
    (hr : FRun cfg env e evs s) :
    ∃ s' : Sys Q, FRun cfg env e (evs.map Spec.sendsAfterAll) s' ∧ Spec.SameButSent s s' := by
  induction hr with
  | nil => exact ⟨_, .nil, _, rfl⟩
  | @snoc evs s s1 ev hr hs ih =>
    obtain ⟨s', h1, socks, h2⟩ := ih
    obtain ⟨g, hg⟩ := fnext_socks socks hs
    rw [← h2] at hg
    rw [List.map_append]
    exact ⟨_, .snoc h1 hg, g, rfl⟩

/-- What is sent when no message is given up in the middle. -/
theorem FRun.sent {cfg : HConfig} {env : Env} {e : SysEnv} {evs : List FEv} {s : Sys Q}
    (hr : FRun cfg env e evs s) {k : String} (hk : k ∈ brokerWiring.order) :
    (∀ ev ∈ evs, Spec.isMidSendFailure ev = false) →
    (∀ m ∈ s.emitted, m.key = k → m.data ≠ []) →
    (s.socks k).cur = none ∧ (s.socks k).sent.Sublist (Spec.addressed k s.routed) := by
  refine FRun.induct (P := fun evs s => (∀ ev ∈ evs, Spec.isMidSendFailure ev = false) →
    (∀ m ∈ s.emitted, m.key = k → m.data ≠ []) →
    (s.socks k).cur = none ∧ (s.socks k).sent.Sublist (Spec.addressed k s.routed))
    (fun _ _ => ⟨rfl, by simp [Sys.init, Router.fresh]⟩) ?_ hr
  intro evs s ev s' hr ih hi hst hev hne
  have hev1 : ∀ ev ∈ evs, Spec.isMidSendFailure ev = false := fun x hx => hev x (by simp [hx])
  have hst' := hst
  cases hst with
  | ok h =>
    cases h with
    | arrive | poll | connect | take => exact ih hev1 hne
    | @sock m t ht hm =>
      obtain ⟨h1, h2⟩ := ih hev1 hne
      by_cases hkm : k = m.key
      · subst hkm
        have hd := hne m (by show m ∈ s.emitted; rw [hi.split, ht]; simp) rfl
        simp only [if_pos]
        rw [sendMessage_closed hd h1]
        refine ⟨rfl, ?_⟩
        rw [addressed_snoc, if_pos rfl]
        exact h2.append (List.Sublist.refl _)
      · simp only [if_neg hkm]
        refine ⟨h1, ?_⟩
        rw [addressed_snoc, if_neg (Ne.symm hkm), List.append_nil]
        exact h2
    | @post m t ht hm =>
      obtain ⟨c1, c2, c3, c4, c5, c6, c7, -⟩ :=
        post_frame e m { s with todo := t, routed := s.routed ++ [m] }
      rw [c3] at hne
      obtain ⟨h1, h2⟩ := ih hev1 hne
      rw [c6, c7]
      refine ⟨h1, ?_⟩
      show (s.socks k).sent.Sublist (Spec.addressed k (s.routed ++ [m]))
      rw [addressed_snoc]
      exact h2.trans (List.sublist_append_left _ _)
    | idle ht hsrc =>
      cases hsrc <;> exact ih hev1 hne
    | handle ht hsrc =>
      cases hsrc <;> exact ih hev1 fun m hm => hne m (List.mem_append_left _ hm)
    | fail ht hsrc =>
      cases hsrc <;> exact ih hev1 fun m hm => hne m (List.mem_append_left _ hm)
  | @recv n k' i f d t rest ks el _ ht hpc hin hn hl h he =>
    have hs : s'.socks = s.socks ∧ s'.routed = s.routed ∧ ∀ m ∈ s.emitted, m ∈ s'.emitted := by
      have : ∀ x : Sys Q, x.socks = s.socks → x.routed = s.routed → x.emitted = s.emitted →
          SStep cfg env e x .main s' → x.todo = [] →
          s'.socks = s.socks ∧ s'.routed = s.routed ∧ ∀ m ∈ s.emitted, m ∈ s'.emitted := by
        intro x x1 x2 x3 hx x4
        rw [← x1, ← x2, ← x3]
        cases hx with
        | sock ht' => rw [x4] at ht'; cases ht'
        | post ht' => rw [x4] at ht'; cases ht'
        | idle ht hsrc => cases hsrc <;> exact ⟨rfl, rfl, fun _ h => h⟩
        | handle ht hsrc => cases hsrc <;> exact ⟨rfl, rfl, fun _ h => List.mem_append_left _ h⟩
        | fail ht hsrc => cases hsrc <;> exact ⟨rfl, rfl, fun _ h => List.mem_append_left _ h⟩
      exact this (s.cut k' (readPart n i d) (f, t) rest) rfl rfl rfl h ht
    rw [hs.1, hs.2.1]
    exact ih hev1 fun m hm => hne m (hs.2.2 m hm)
  | @send n m t ht hm hn =>
    have h0 : n = 0 := by
      have := hev (.sendFails n) (by simp)
      simpa [Spec.isMidSendFailure] using this
    subst h0
    obtain ⟨h1, h2⟩ := ih hev1 hne
    rw [addressed_snoc]
    by_cases hkm : k = m.key
    · subst hkm
      simp only [if_pos, sendFails_zero]
      exact ⟨h1, h2.trans (List.sublist_append_left _ _)⟩
    · simp only [if_neg hkm]
      exact ⟨h1, h2.trans (List.sublist_append_left _ _)⟩

/-! ## Waiting -/

/-- Run a list of events. -/
def Proc.wexec (cfg : HConfig) (env : Env) (e : SysEnv) :
    List WEv → Proc Q × Fate → Option (Proc Q × Fate)
  | [], x => some x
  | ev :: t, x => (Proc.wnext cfg env e ev x).bind (Proc.wexec cfg env e t)

theorem WRun.exec {cfg : HConfig} {env : Env} {e : SysEnv} :
    ∀ {evs2 evs1 : List WEv} {x x' : Proc Q × Fate},
    WRun cfg env e evs1 x → Proc.wexec cfg env e evs2 x = some x' →
    WRun cfg env e (evs1 ++ evs2) x' := by
  intro evs2
  induction evs2 with
  | nil => intro evs1 s s' hr h; cases h; simpa using hr
  | cons ev t ih =>
    intro evs1 s s' hr h
    simp only [Proc.wexec, Option.bind_eq_some_iff] at h
    obtain ⟨s1, h1, h2⟩ := h
    have := ih (WRun.snoc hr h1) h2
    simpa using this

theorem exists_wrun {cfg : HConfig} {env : Env} {e : SysEnv} (evs : List WEv)
    (p : Proc Q × Fate → Bool)
    (h : (Proc.wexec cfg env e evs (Proc.init Q, .alive)).any p = true) :
    ∃ x : Proc Q × Fate, WRun cfg env e evs x ∧ p x = true := by
  cases hx : Proc.wexec cfg env e evs (Proc.init Q, .alive) with
  | none => rw [hx] at h; simp at h
  | some s =>
    rw [hx] at h
    refine ⟨s, ?_, by simpa using h⟩
    have := WRun.exec (WRun.nil (cfg := cfg) (env := env) (e := e) (Q := Q)) hx
    simpa using this

end Broker
