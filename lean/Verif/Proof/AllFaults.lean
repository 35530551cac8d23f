import Verif.Model.AllFaults
import Verif.Proof.Faults
import Verif.Proof.Process

/-!
# Lemmas about the process when any call of ZeroMQ may fail
-/

set_option linter.unusedSectionVars false

namespace Broker

variable {Q : Type} [QueueManager Q]

/-! ## Concrete executions -/

/-- Runs a list of events. -/
def Proc.aexec (cfg : HConfig) (env : Env) (e : SysEnv) :
    List AEv → Proc Q × Fate → Option (Proc Q × Fate)
  | [], x => some x
  | ev :: t, x => (Proc.anext cfg env e ev x).bind (Proc.aexec cfg env e t)

theorem ARun.exec {cfg : HConfig} {env : Env} {e : SysEnv} :
    ∀ {evs2 evs1 : List AEv} {x x' : Proc Q × Fate},
    ARun cfg env e evs1 x → Proc.aexec cfg env e evs2 x = some x' →
    ARun cfg env e (evs1 ++ evs2) x' := by
  intro evs2
  induction evs2 with
  | nil => intro evs1 s s' hr h; cases h; simpa using hr
  | cons ev t ih =>
    intro evs1 s s' hr h
    simp only [Proc.aexec, Option.bind_eq_some_iff] at h
    obtain ⟨s1, h1, h2⟩ := h
    have := ih (ARun.snoc hr h1) h2
    simpa using this

theorem exists_arun {cfg : HConfig} {env : Env} {e : SysEnv} (evs : List AEv)
    (p : Proc Q × Fate → Bool)
    (h : (Proc.aexec cfg env e evs (Proc.init Q, .alive)).any p = true) :
    ∃ x : Proc Q × Fate, ARun cfg env e evs x ∧ p x = true := by
  cases hx : Proc.aexec cfg env e evs (Proc.init Q, .alive) with
  | none => rw [hx] at h; simp at h
  | some s =>
    rw [hx] at h
    refine ⟨s, ?_, by simpa using h⟩
    have := ARun.exec (ARun.nil (cfg := cfg) (env := env) (e := e) (Q := Q)) hx
    simpa using this

/-! ## What a transition is -/

/-- The transitions of the process when any call may fail. -/
inductive AStep (cfg : HConfig) (env : Env) (e : SysEnv) : AEv → Proc Q → Proc Q × Fate → Prop
  | ok {ev : PEv} {p p' : Proc Q} (h : p.next cfg env e ev = some p') :
    AStep cfg env e (.ok ev) p (p', .alive)
  | recv {n : Nat} {p : Proc Q} {s : Sys Q} {b : Bool} (hp : p.phase = .looping b)
      (h : p.sys.fnext cfg env e (.recvFails n) = some s) :
    AStep cfg env e (.recvFails n) p ({ p with sys := s }, .alive)
  | send {n : Nat} {p : Proc Q} {s : Sys Q} {b : Bool} (hp : p.phase = .looping b)
      (h : p.sys.fnext cfg env e (.sendFails n) = some s) :
    AStep cfg env e (.sendFails n) p ({ p with sys := s }, .alive)
  | poll {p : Proc Q} (hp : p.phase = .looping true) :
    AStep cfg env e .pollFails p ({ p with phase := .undefined }, .alive)
  | post {n : Nat} {p : Proc Q} {m : Msg} {t : List Msg} {r : Router} {b : Bool}
      (hp : p.phase = .looping b) (ht : p.sys.todo = m :: t) (hk : m.key = keyNotifier) :
    AStep cfg env e (.postFails n) p
      (⟨{ p.sys with todo := [], inproc := r }, p.flag, .undefined⟩, .alive)
  | abort {ev : AEv} {p : Proc Q} (h : ev = .stopFails ∨ ev = .connectFails ∨ ev = .threadFails)
      (hp : ∀ x, p.phase ≠ .done x) (hu : p.phase ≠ .undefined) :
    AStep cfg env e ev p (p, .aborted)

theorem anext_cases {cfg : HConfig} {env : Env} {e : SysEnv} {ev : AEv} {x x' : Proc Q × Fate}
    (h : Proc.anext cfg env e ev x = some x') : x.2 = .alive ∧ AStep cfg env e ev x.1 x' := by
  obtain ⟨⟨sys, flag, phase⟩, fate⟩ := x
  cases fate with
  | aborted => cases h
  | alive =>
    refine ⟨rfl, ?_⟩
    cases ev with
    | ok ev =>
      simp only [Proc.anext, Option.map_eq_some_iff] at h
      obtain ⟨p, h1, rfl⟩ := h
      exact .ok h1
    | recvFails n =>
      simp only [Proc.anext] at h
      split at h
      · simp only [Option.map_eq_some_iff] at h
        obtain ⟨s, h1, rfl⟩ := h
        exact .recv (p := ⟨sys, flag, .looping _⟩) rfl h1
      · cases h
    | sendFails n =>
      simp only [Proc.anext] at h
      split at h
      · simp only [Option.map_eq_some_iff] at h
        obtain ⟨s, h1, rfl⟩ := h
        exact .send (p := ⟨sys, flag, .looping _⟩) rfl h1
      · cases h
    | pollFails =>
      simp only [Proc.anext] at h
      split at h
      · simp only [Proc.destroyReactor, socket_destroyed_first] at h
        cases h
        exact .poll (p := ⟨sys, flag, .looping true⟩) rfl
      · cases h
    | postFails n =>
      simp only [Proc.anext] at h
      split at h
      · simp only [Option.map_eq_some_iff, Sys.postFails] at h
        obtain ⟨s, h1, h2⟩ := h
        split at h1
        · cases h1
        · rename_i m t ht
          split at h1
          · rename_i hk
            cases h1
            simp only [Proc.destroyReactor, socket_destroyed_first] at h2
            cases h2
            exact .post (p := ⟨sys, flag, .looping _⟩) rfl ht hk.1
          · cases h1
      · cases h
    | stopFails =>
      simp only [Proc.anext] at h
      split at h
      · split at h
        · cases h
          exact .abort (.inl rfl) (by simp) (by simp)
        · cases h
      · cases h
    | connectFails =>
      simp only [Proc.anext] at h
      split at h
      · cases h
      · cases h
      · rename_i h1 h2 h3
        cases h
        exact .abort (.inr (.inl rfl)) h1 h2
      · cases h
    | threadFails =>
      simp only [Proc.anext] at h
      split at h
      · cases h
      · cases h
      · rename_i h1 h2 h3
        cases h
        exact .abort (.inr (.inr rfl)) h1 h2
      · cases h

/-! ## Executions of the loop -/

/-- How the state of the process corresponds to an execution of the loop, also after a failure. -/
inductive ATail (s0 : Sys Q) : Phase → Sys Q → Prop
  | tail {ph : Phase} {s : Sys Q} (h : Tail s0 ph s) : ATail s0 ph s
  | post {m : Msg} {t : List Msg} {r : Router} (ht : s0.todo = m :: t) (hk : m.key = keyNotifier) :
    ATail s0 .undefined { s0 with todo := [], inproc := r }

/-- The execution of the loop that belongs to an execution of the process has no failures the latter
    does not have. -/
def Under (cfg : HConfig) (env : Env) (e : SysEnv) (evs : List AEv) (s0 : Sys Q) : Prop :=
  ∃ fevs : List FEv, FRun cfg env e fevs s0 ∧ (∀ n, FEv.recvFails n ∈ fevs → AEv.recvFails n ∈ evs) ∧
    ∀ n, FEv.sendFails n ∈ fevs → AEv.sendFails n ∈ evs

theorem Under.more {cfg : HConfig} {env : Env} {e : SysEnv} {evs : List AEv} {s0 : Sys Q}
    (h : Under cfg env e evs s0) (ev : AEv) : Under cfg env e (evs ++ [ev]) s0 := by
  obtain ⟨fevs, h1, h2, h3⟩ := h
  exact ⟨fevs, h1, fun n hn => List.mem_append_left _ (h2 n hn),
    fun n hn => List.mem_append_left _ (h3 n hn)⟩

theorem phase_undefined_next {cfg : HConfig} {env : Env} {e : SysEnv} {p : Proc Q} {ev : PEv}
    (h : p.phase = .undefined) : p.next cfg env e ev = none := by
  obtain ⟨sys, flag, phase⟩ := p
  simp only at h
  subst h
  cases ev with
  | sys ev => cases ev <;> rfl
  | _ => rfl

theorem ARun.tail {cfg : HConfig} {env : Env} {e : SysEnv} {evs : List AEv} {x : Proc Q × Fate}
    (hr : ARun cfg env e evs x) :
    ∃ s0, Under cfg env e evs s0 ∧ ATail s0 x.1.phase x.1.sys := by
  induction hr with
  | nil => exact ⟨_, ⟨[], .nil, by simp, by simp⟩, .tail (.live (.inl rfl))⟩
  | @snoc evs x x' ev hr hs ih =>
    obtain ⟨s0, hu, ht⟩ := ih
    obtain ⟨p, fate⟩ := x
    obtain ⟨hf, hst⟩ := anext_cases hs
    simp only at ht hst
    clear hs hf
    -- while the loop runs the state is that of the execution of the loop
    have live : ∀ b, p.phase = .looping b → p.sys = s0 := by
      intro b hb
      rw [hb] at ht
      generalize p.sys = s at ht
      cases ht with
      | tail h =>
        cases h with
        | live => rfl
        | stopped h => rcases h with h | h <;> cases h
    cases hst with
    | @ok ev p p' h =>
      have ht : Tail s0 p.phase p.sys := by
        have hne : p.phase ≠ .undefined := by
          intro hph
          rw [phase_undefined_next hph] at h
          cases h
        generalize p.phase = ph at ht hne
        generalize p.sys = s at ht
        cases ht with
        | tail ht => exact ht
        | post => exact absurd rfl hne
      obtain ⟨fevs, hfr, h2, h3⟩ := hu
      obtain ⟨s1, ⟨fevs1, h4, h5, h6⟩, h7⟩ := Tail.pstep
        (R := fun s => Under cfg env e (evs ++ [AEv.ok ev]) s)
        (fun ⟨l, a, b, c⟩ hn => ⟨l ++ [FEv.ok _], a.snoc (ev := .ok _) hn,
          fun n hm => b n (by simpa using hm), fun n hm => c n (by simpa using hm)⟩)
        hfr.inv (Under.more ⟨fevs, hfr, h2, h3⟩ _) ht h
      exact ⟨s1, ⟨fevs1, h4, h5, h6⟩, .tail h7⟩
    | @recv n p s b hp h =>
      have := live b hp
      subst this
      obtain ⟨fevs, h1, h2, h3⟩ := hu
      refine ⟨s, ⟨fevs ++ [.recvFails n], h1.snoc h, ?_, ?_⟩, .tail ?_⟩
      · intro k hk
        simp only [List.mem_append, List.mem_singleton, FEv.recvFails.injEq] at hk
        rcases hk with hk | rfl
        · exact List.mem_append_left _ (h2 k hk)
        · simp
      · intro k hk
        simp only [List.mem_append, List.mem_singleton, reduceCtorEq, or_false] at hk
        exact List.mem_append_left _ (h3 k hk)
      · exact .live (.inr (.inl ⟨b, hp⟩))
    | @send n p s b hp h =>
      have := live b hp
      subst this
      obtain ⟨fevs, h1, h2, h3⟩ := hu
      refine ⟨s, ⟨fevs ++ [.sendFails n], h1.snoc h, ?_, ?_⟩, .tail ?_⟩
      · intro k hk
        simp only [List.mem_append, List.mem_singleton, reduceCtorEq, or_false] at hk
        exact List.mem_append_left _ (h2 k hk)
      · intro k hk
        simp only [List.mem_append, List.mem_singleton, FEv.sendFails.injEq] at hk
        rcases hk with hk | rfl
        · exact List.mem_append_left _ (h3 k hk)
        · simp
      · exact .live (.inr (.inl ⟨b, hp⟩))
    | @poll p hp =>
      have := live _ hp
      subst this
      exact ⟨_, hu.more _, .tail (.live (.inr (.inr rfl)))⟩
    | @post n p m t r b hp htodo hk =>
      have := live _ hp
      subst this
      exact ⟨_, hu.more _, .post htodo hk⟩
    | abort h hp hu' => exact ⟨s0, hu.more _, ht⟩

end Broker
