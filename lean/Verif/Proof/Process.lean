import Verif.Model.Process
import Verif.Proof.System

/-! # The process from its start to its end, on top of the executions of the loop -/

namespace Broker

variable {Q : Type} [QueueManager Q]

/-- Executes a list of events. -/
def Proc.exec (cfg : HConfig) (env : Env) (e : SysEnv) : List PEv → Proc Q → Option (Proc Q)
  | [], p => some p
  | ev :: t, p => (p.next cfg env e ev).bind (Proc.exec cfg env e t)

theorem PRun.exec {cfg : HConfig} {env : Env} {e : SysEnv} : ∀ {evs2 : List PEv} {evs1 : List PEv}
    {p p' : Proc Q}, PRun cfg env e evs1 p → Proc.exec cfg env e evs2 p = some p' →
    PRun cfg env e (evs1 ++ evs2) p' := by
  intro evs2
  induction evs2 with
  | nil => intro evs1 s s' hr h; cases h; simpa using hr
  | cons ev t ih =>
    intro evs1 s s' hr h
    simp only [Proc.exec, Option.bind_eq_some_iff] at h
    obtain ⟨s1, h1, h2⟩ := h
    have := ih (PRun.snoc hr h1) h2
    simpa using this

/-- A list of events that can be executed and leads to a state with the property. -/
theorem exists_prun {cfg : HConfig} {env : Env} {e : SysEnv} (evs : List PEv) (q : Proc Q → Bool)
    (h : (Proc.exec cfg env e evs (Proc.init Q)).any q = true) :
    ∃ p : Proc Q, PRun cfg env e evs p ∧ q p = true := by
  cases hx : Proc.exec cfg env e evs (Proc.init Q) with
  | none => rw [hx] at h; simp at h
  | some s =>
    rw [hx] at h
    refine ⟨s, ?_, by simpa using h⟩
    have := PRun.exec (PRun.nil (cfg := cfg) (env := env) (e := e) (Q := Q)) hx
    simpa using this

theorem PRun.split {cfg : HConfig} {env : Env} {e : SysEnv} {evs2 : List PEv} : ∀ {evs1 : List PEv}
    {p p' : Proc Q}, PRun cfg env e evs1 p → PRun cfg env e (evs1 ++ evs2) p' →
    Proc.exec cfg env e evs2 p = some p' := by
  have key : ∀ {evs : List PEv} {p : Proc Q}, PRun cfg env e evs p →
      Proc.exec cfg env e evs (Proc.init Q) = some p := by
    intro evs p hr
    induction hr with
    | nil => rfl
    | @snoc evs p p' ev hr hs ih =>
      have : ∀ (l : List PEv) (a b : Proc Q), Proc.exec cfg env e l a = some b →
          Proc.exec cfg env e (l ++ [ev]) a = b.next cfg env e ev := by
        intro l
        induction l with
        | nil => intro a b h; cases h; simp [Proc.exec]
        | cons x t iht =>
          intro a b h
          simp only [Proc.exec, List.cons_append, Option.bind_eq_some_iff] at h ⊢
          obtain ⟨c, h1, h2⟩ := h
          rw [h1, Option.bind_some, iht _ _ h2]
      rw [this _ _ _ ih, hs]
  intro evs1 p p' h1 h2
  have e1 := key h1
  have e2 := key h2
  have app : ∀ (l1 : List PEv) (a b : Proc Q), Proc.exec cfg env e l1 a = some b →
      Proc.exec cfg env e (l1 ++ evs2) a = Proc.exec cfg env e evs2 b := by
    intro l1
    induction l1 with
    | nil => intro a b h; cases h; rfl
    | cons x t iht =>
      intro a b h
      simp only [Proc.exec, List.cons_append, Option.bind_eq_some_iff] at h ⊢
      obtain ⟨c, h1, h2⟩ := h
      rw [h1, Option.bind_some, iht _ _ h2]
  rw [app _ _ _ e1] at e2
  exact e2

theorem socket_destroyed_first : socketOutlivesHandlers = false := by decide

theorem sendTerminate_eq (e : SysEnv) {s : Sys Q} (hc : s.inproc.cur = none) :
    s.sendTerminate e = if s.drops e then
      { s with inproc := ⟨none, s.inproc.sent ++ [(e.uid, ["TERMINATE"])]⟩ }
    else
      { s with inproc := ⟨none, s.inproc.sent ++ [(e.uid, ["TERMINATE"])]⟩
               pipe := s.pipe ++ [["TERMINATE"]] } := by
  have h : s.inproc.sendAll (terminateFrames e.uid) =
      ⟨none, s.inproc.sent ++ [(e.uid, ["TERMINATE"])]⟩ := by
    simp only [terminateFrames, Router.sendAll, List.foldl_cons, List.foldl_nil, Router.send, hc,
      if_true]
    rfl
  unfold Sys.sendTerminate
  simp only [h]
  split
  · rfl
  · simp

/-- How the state of the process corresponds to an execution of the loop. -/
inductive Tail (s0 : Sys Q) : Phase → Sys Q → Prop
  | live {ph : Phase} (h : ph = .constructed ∨ (∃ b, ph = .looping b) ∨ ph = .undefined) :
    Tail s0 ph s0
  | sent {r : Router} (ht : s0.thread = .running) (hpc : s0.pc = .poll) (htodo : s0.todo = []) :
    Tail s0 (.joining 0) { s0 with inproc := r, pipe := s0.pipe ++ [["TERMINATE"]] }
  | dropped {r : Router} (hpc : s0.pc = .poll) (htodo : s0.todo = []) :
    Tail s0 (.joining 0) { s0 with inproc := r }
  | stopped {ph : Phase} {r : Router} (h : ph = .joining 0 ∨ ph = .done ⟨0, []⟩)
      (hp : s0.pipe = []) (hpc : s0.pc = .poll) (htodo : s0.todo = []) :
    Tail s0 ph { s0 with inproc := r, thread := .stopped }

theorem take_stop {e : SysEnv} {o : Nat → Bool} {s : Sys Q} (ht : s.thread = .running)
    {rest : List (List String)} (hp : s.pipe = ["TERMINATE"] :: rest) :
    s.take e o = some { s with pipe := rest, thread := .stopped } := by
  unfold Sys.take
  rw [ht, hp]
  rfl

/-- What is at the head of the pipe. -/
theorem head_wire {e : SysEnv} {s : Sys Q} (hi : SInv s) {fs : List String} {rest : List (List String)}
    (hp : s.pipe = fs :: rest) (o : Nat → Bool) :
    ∃ m acts, fs = m.key :: m.identity :: m.data ∧ m.key = keyNotifier ∧
      notifierOnRequest e.ncfg o m = .ok acts := by
  obtain ⟨ms, h1, h2⟩ := hi.pipe
  cases ms with
  | nil => rw [hp] at h1; cases h1
  | cons m t =>
    rw [hp] at h1
    simp only [List.map_cons, List.cons.injEq] at h1
    obtain ⟨h3, h4⟩ := h2 m List.mem_cons_self
    obtain ⟨n, hn⟩ := h4.collects
    exact ⟨m, _, h1.1, h3, by simp only [notifierOnRequest, hn]; rfl⟩

theorem take_wire {e : SysEnv} {o : Nat → Bool} {s : Sys Q} (ht : s.thread = .running) {m : Msg}
    {rest : List (List String)} (hp : s.pipe = (m.key :: m.identity :: m.data) :: rest)
    (hk : m.key = keyNotifier) {acts : List NAct} (hn : notifierOnRequest e.ncfg o m = .ok acts) :
    s.take e o = some { s with pipe := rest, notified := s.notified ++ [(m, acts)] } := by
  unfold Sys.take
  rw [ht, hp]
  have hne : m.key ≠ "TERMINATE" := by rw [hk]; decide
  have := threadTurn_frames (m := m) hne []
  rw [List.append_nil] at this
  simp only [this, hn]

theorem arrive_next {cfg : HConfig} {env : Env} {e : SysEnv} {s : Sys Q} {k i : String}
    {d : List String} (h : k ∈ brokerWiring.order ∧ d ≠ []) :
    s.next cfg env e (.arrive k i d) = some { s with
      inbox := fun x => if x = k then s.inbox k ++ [(i, d)] else s.inbox x
      arrived := s.arrived ++ [(k, i, d)] } := by
  simp only [Sys.next]; rw [if_pos h]

theorem connect_next {cfg : HConfig} {env : Env} {e : SysEnv} {s : Sys Q} (h : s.thread = .starting) :
    s.next cfg env e .connect = some { s with thread := .running } := by
  simp only [Sys.next]; rw [if_pos h]

theorem Tail.pstep {cfg : HConfig} {env : Env} {e : SysEnv} {R : Sys Q → Prop}
    (hcl : ∀ {s s' : Sys Q} {ev : SysEv}, R s → s.next cfg env e ev = some s' → R s')
    {p p' : Proc Q} {ev : PEv} {s0 : Sys Q} (hi : SInv s0) (h0 : R s0) (ht : Tail s0 p.phase p.sys)
    (hs : p.next cfg env e ev = some p') : ∃ s1, R s1 ∧ Tail s1 p'.phase p'.sys := by
  obtain ⟨sys, flag, phase⟩ := p
  simp only at ht
  cases ev with
  | enter bound =>
    simp only [Proc.next] at hs
    split at hs
    · split at hs
      · cases hs
        cases ht with
        | live _ => exact ⟨s0, h0, .live (.inr (.inl ⟨_, rfl⟩))⟩
        | stopped h _ _ _ => rcases h with h | h <;> cases h
      · simp only [Proc.destroyReactor, socket_destroyed_first] at hs
        cases hs
        cases ht with
        | live _ => exact ⟨s0, h0, .live (.inr (.inr rfl))⟩
        | stopped h _ _ _ => rcases h with h | h <;> cases h
    · cases hs
  | terminate =>
    simp only [Proc.next] at hs
    split at hs
    · cases hs
    · cases hs
    · cases hs; exact ⟨s0, h0, ht⟩
  | check =>
    simp only [Proc.next] at hs
    split at hs
    · rename_i hpc htodo
      cases ht with
      | stopped h _ _ _ => rcases h with h | h <;> cases h
      | live _ =>
        split at hs
        · cases hs
          refine ⟨s0, h0, ?_⟩
          simp only [Proc.destroyHandlers, sendTerminate_eq e hi.closed]
          split
          · exact .dropped hpc htodo
          · rename_i hd
            refine .sent ?_ hpc htodo
            rcases hi.alive with h | h
            · simp [Sys.drops, h] at hd
            · exact h
        · cases hs; exact ⟨s0, h0, .live (.inr (.inl ⟨_, rfl⟩))⟩
    · cases hs
  | unwind =>
    simp only [Proc.next] at hs
    split at hs
    · simp only [Proc.destroyReactor, socket_destroyed_first] at hs
      cases hs
      cases ht with
      | live _ => exact ⟨s0, h0, .live (.inr (.inr rfl))⟩
      | stopped h _ _ _ => rcases h with h | h <;> cases h
    · cases hs
  | crash =>
    have hth : ∀ u, sys.thread ≠ .crashed u := by
      intro u hu
      cases ht with
      | live _ => rcases hi.alive with h | h <;> rw [h] at hu <;> cases hu
      | sent _ _ _ => rcases hi.alive with h | h <;> rw [show s0.thread = _ from hu] at h <;> cases h
      | dropped _ _ => rcases hi.alive with h | h <;> rw [show s0.thread = _ from hu] at h <;> cases h
      | stopped _ _ _ _ => cases hu
    simp only [Proc.next] at hs
    split at hs
    · cases hs
    · cases hs
    · rename_i hpc
      cases hs
      cases ht with
      | live _ => exact ⟨s0, h0, .live (.inr (.inr rfl))⟩
      | sent _ h _ => rw [show s0.pc = _ from hpc] at h; cases h
      | dropped h _ => rw [show s0.pc = _ from hpc] at h; cases h
      | stopped _ _ h _ => rw [show s0.pc = _ from hpc] at h; cases h
    · exact (hth _ (by assumption)).elim
    · cases hs
  | joined =>
    simp only [Proc.next] at hs
    split at hs
    · rename_i hth
      cases hs
      cases ht with
      | live h => rcases h with h | ⟨b, h⟩ | h <;> cases h
      | sent h _ _ => rw [show s0.thread = _ from hth] at h; cases h
      | dropped _ _ => rcases hi.alive with h | h <;> rw [show s0.thread = _ from hth] at h <;> cases h
      | stopped h hp hpc htodo =>
        rcases h with h | h
        · cases h; exact ⟨s0, h0, .stopped (.inr rfl) hp hpc htodo⟩
        · cases h
    · cases hs
  | sys ev =>
    simp only [Proc.next] at hs
    split at hs
    · rename_i ph s' hal hn
      cases hs
      cases ht with
      | live h =>
        refine ⟨s', hcl h0 hn, ?_⟩
        refine .live ?_
        rcases h with h | ⟨b, h⟩ | h
        · subst h; cases ev <;> simp [Phase.allows] at hal <;> exact .inl hal.symm
        · subst h
          cases ev <;> cases b <;> simp [Phase.allows] at hal <;> exact .inr (.inl ⟨_, hal.symm⟩)
        · subst h; cases ev <;> simp [Phase.allows] at hal
      | @sent r ht hpc htodo =>
        cases ev with
        | arrive k i d =>
          simp only [Phase.allows] at hal; cases hal
          simp only [Sys.next] at hn
          split at hn
          · rename_i hk
            cases hn
            have := arrive_next (cfg := cfg) (env := env) (e := e) (s := s0) (i := i) hk
            exact ⟨_, hcl h0 this, .sent ht hpc htodo⟩
          · cases hn
        | poll b a => simp [Phase.allows] at hal
        | main => simp [Phase.allows] at hal
        | connect => simp [Sys.next, ht] at hn
        | take o =>
          simp only [Phase.allows] at hal; cases hal
          cases hp : s0.pipe with
          | nil =>
            simp only [Sys.next] at hn
            rw [take_stop (by exact ht) (rest := []) (by simp [hp])] at hn
            cases hn
            refine ⟨_, h0, ?_⟩
            have := Tail.stopped (s0 := s0) (ph := .joining 0) (r := r) (.inl rfl) hp hpc htodo
            simpa [hp] using this
          | cons fs rest =>
            obtain ⟨m, acts, rfl, hk, hok⟩ := head_wire hi hp o (e := e)
            have h1 := take_wire (e := e) ht hp hk hok
            rw [show Sys.next cfg env e (.take o) _ = Sys.take e o _ from rfl,
              take_wire (e := e) (s := { s0 with inproc := r, pipe := s0.pipe ++ [["TERMINATE"]] })
                ht (rest := rest ++ [["TERMINATE"]]) (by simp [hp]) hk hok] at hn
            cases hn
            exact ⟨_, hcl (ev := .take o) h0 h1, .sent ht hpc htodo⟩
      | @dropped r hpc htodo =>
        cases ev with
        | arrive k i d =>
          simp only [Phase.allows] at hal; cases hal
          simp only [Sys.next] at hn
          split at hn
          · rename_i hk
            cases hn
            have := arrive_next (cfg := cfg) (env := env) (e := e) (s := s0) (i := i) hk
            exact ⟨_, hcl h0 this, .dropped hpc htodo⟩
          · cases hn
        | poll b a => simp [Phase.allows] at hal
        | main => simp [Phase.allows] at hal
        | connect =>
          simp only [Phase.allows] at hal; cases hal
          simp only [Sys.next] at hn
          split at hn
          · rename_i hk
            cases hn
            have := connect_next (cfg := cfg) (env := env) (e := e) (s := s0) hk
            exact ⟨_, hcl h0 this, .dropped hpc htodo⟩
          · cases hn
        | take o =>
          simp only [Phase.allows] at hal; cases hal
          cases ht : s0.thread with
          | running =>
            cases hp : s0.pipe with
            | nil => simp [Sys.next, Sys.take, hp, ht] at hn
            | cons fs rest =>
              obtain ⟨m, acts, rfl, hk, hok⟩ := head_wire hi hp o (e := e)
              have h1 := take_wire (e := e) ht hp hk hok
              rw [show Sys.next cfg env e (.take o) _ = Sys.take e o _ from rfl,
                take_wire (e := e) (s := { s0 with inproc := r }) ht hp hk hok] at hn
              cases hn
              exact ⟨_, hcl (ev := .take o) h0 h1, .dropped hpc htodo⟩
          | starting => simp [Sys.next, Sys.take, ht] at hn
          | stopped => simp [Sys.next, Sys.take, ht] at hn
          | crashed u => simp [Sys.next, Sys.take, ht] at hn
      | @stopped ph r h hp hpc htodo =>
        cases ev with
        | arrive k i d =>
          rcases h with h | h
          · subst h
            simp only [Phase.allows] at hal; cases hal
            simp only [Sys.next] at hn
            split at hn
            · rename_i hk
              cases hn
              have := arrive_next (cfg := cfg) (env := env) (e := e) (s := s0) (i := i) hk
              exact ⟨_, hcl h0 this, .stopped (.inl rfl) hp hpc htodo⟩
            · cases hn
          · subst h; simp [Phase.allows] at hal
        | poll b a => rcases h with h | h <;> subst h <;> simp [Phase.allows] at hal
        | main => rcases h with h | h <;> subst h <;> simp [Phase.allows] at hal
        | connect => simp [Sys.next] at hn
        | take o => simp [Sys.next, Sys.take] at hn
    · cases hs

theorem PRun.tail {cfg : HConfig} {env : Env} {e : SysEnv} {evs : List PEv} {p : Proc Q}
    (hr : PRun cfg env e evs p) :
    ∃ evs' s0, SRun cfg env e evs' s0 ∧ Tail s0 p.phase p.sys := by
  induction hr with
  | nil => exact ⟨[], _, .nil, .live (.inl rfl)⟩
  | @snoc evs p p' ev hr hs ih =>
    obtain ⟨evs', s0, h0, ht⟩ := ih
    obtain ⟨s1, ⟨evs1, h1⟩, h2⟩ := Tail.pstep (R := fun s => ∃ evs, SRun cfg env e evs s)
      (fun ⟨l, h⟩ hn => ⟨_, h.snoc hn⟩) h0.inv ⟨evs', h0⟩ ht hs
    exact ⟨evs1, s1, h1, h2⟩

end Broker
