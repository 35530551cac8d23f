import Verif.Proof.Process
import Verif.Spec.Process
import Verif.Spec.System
import Verif.Props.Reactor
import Verif.Props.Config

/-!
# The start and the end of the process (C72, C73, C74)
-/

set_option linter.unusedSectionVars false

namespace Broker

variable {Q : Type} [QueueManager Q]

/-! ## C72 -/

/-- An exception leaves `start_loop` for a client's `eval` without a job id. -/
def escapeEvs : List PEv :=
  [.enter true, .check, .sys (.arrive "clients" "c" ["eval"]), .sys (.poll 0 0), .sys .main,
   .sys .main, .unwind]

/-- **C72 is false, multi-queue manager**: an exception that leaves `start_loop` does not make the
    process end with status 1, it is undefined what happens. -/
theorem C72_refuted_multi : ¬ ∀ (evs : List PEv) (p : Proc Multi), PRun cfg0 env0 senv0 evs p →
    PEv.unwind ∈ evs → Spec.EndsWith 1 p := by
  intro H
  obtain ⟨p, hr, hp⟩ := exists_prun (Q := Multi) (cfg := cfg0) (env := env0) (e := senv0) escapeEvs
    (fun p => decide (p.phase = .undefined)) (by decide +kernel)
  simp only [decide_eq_true_eq] at hp
  rcases H _ _ hr (by simp [escapeEvs]) with ⟨l, h⟩ | h <;> rw [hp] at h <;> cases h

/-- **C72 is false, single-queue manager.** -/
theorem C72_refuted_single : ¬ ∀ (evs : List PEv) (p : Proc Single), PRun cfg0 env0 senv0 evs p →
    PEv.unwind ∈ evs → Spec.EndsWith 1 p := by
  intro H
  obtain ⟨p, hr, hp⟩ := exists_prun (Q := Single) (cfg := cfg0) (env := env0) (e := senv0) escapeEvs
    (fun p => decide (p.phase = .undefined)) (by decide +kernel)
  simp only [decide_eq_true_eq] at hp
  rcases H _ _ hr (by simp [escapeEvs]) with ⟨l, h⟩ | h <;> rw [hp] at h <;> cases h

theorem undefined_next {cfg : HConfig} {env : Env} {e : SysEnv} {p : Proc Q} {ev : PEv}
    (h : p.phase = .undefined) : p.next cfg env e ev = none := by
  obtain ⟨sys, flag, phase⟩ := p
  simp only at h
  subst h
  cases ev with
  | sys ev => cases ev <;> rfl
  | enter => rfl
  | terminate => rfl
  | check => rfl
  | unwind => rfl
  | crash => rfl
  | joined => rfl

/-- **C72, in general**: whenever an exception leaves `start_loop`, or a socket cannot be bound, it is
    undefined what happens. -/
theorem C72_undefined {cfg : HConfig} {env : Env} {e : SysEnv} {evs : List PEv} {p : Proc Q}
    (hr : PRun cfg env e evs p) (h : PEv.unwind ∈ evs ∨ PEv.enter false ∈ evs) :
    p.phase = .undefined := by
  induction hr with
  | nil => rcases h with h | h <;> cases h
  | @snoc evs p p' ev hr hs ih =>
    by_cases hin : PEv.unwind ∈ evs ∨ PEv.enter false ∈ evs
    · rw [undefined_next (ih hin)] at hs
      cases hs
    · have : ev = .unwind ∨ ev = .enter false := by
        simp only [List.mem_append, List.mem_singleton] at h
        simp only [not_or] at hin
        rcases h with (h | h) | (h | h)
        · exact absurd h hin.1
        · exact .inl h.symm
        · exact absurd h hin.2
        · exact .inr h.symm
      rcases this with rfl | rfl
      · simp only [Proc.next] at hs
        split at hs
        · simp only [Proc.destroyReactor, socket_destroyed_first] at hs
          cases hs; rfl
        · cases hs
      · simp only [Proc.next] at hs
        split at hs
        · simp only [Proc.destroyReactor, socket_destroyed_first] at hs
          cases hs; rfl
        · cases hs

/-- The hypothesis of `C72_undefined` can be met. -/
example : ∃ p : Proc Single, PRun cfg0 env0 senv0 escapeEvs p ∧ (PEv.unwind ∈ escapeEvs) ∧
    decide (p.phase = .undefined) = true := by
  obtain ⟨p, hr, hp⟩ := exists_prun (Q := Single) (cfg := cfg0) (env := env0) (e := senv0) escapeEvs
    (fun p => decide (p.phase = .undefined)) (by decide +kernel)
  exact ⟨p, hr, by simp [escapeEvs], hp⟩

/-- **C72, status (partial).** A broker that was started never ends with a status other than 0. -/
theorem C72_status_partial {cfg : HConfig} {env : Env} {e : SysEnv} {evs : List PEv} {p : Proc Q}
    (hr : PRun cfg env e evs p) {x : Exit} (h : p.phase = .done x) : x = ⟨0, []⟩ := by
  obtain ⟨_, s0, _, ht⟩ := hr.tail
  rw [h] at ht
  generalize hq : p.sys = s at ht
  cases ht with
  | live h => rcases h with h | ⟨b, h⟩ | h <;> cases h
  | stopped h _ _ _ =>
    rcases h with h | h
    · cases h
    · cases h; rfl

/-- **C72, start (partial).** If the broker cannot be started, the process ends with status 1 after
    writing to the standard error stream what the matter is; otherwise it is started with the
    configuration in the file.  Missing: failures after that, see `C72_undefined`. -/
theorem C72_start_partial (c : Conv) (junk : Nat) (w : World) (cmd : CmdLine) :
    (∀ lines, Spec.startFailure c junk w cmd = some lines →
      startProcess c junk w cmd = .error ⟨1, lines⟩ ∧ lines ≠ []) ∧
    (Spec.startFailure c junk w cmd = none → ∃ config doc m b,
      cmd = .options false config ∧ w.file (config.getD "config.yml") = .ok doc ∧
      startProcess c junk w cmd = .ok (m, b) ∧
      startBroker c junk (some doc) w.log.isNone w.net = .running m b) := by
  have ne : ∀ a b : String, a ≠ "" → a ++ b ≠ "" := by
    intro a b h h'
    have := congrArg String.toList h'
    rw [String.toList_append] at this
    have h1 := (List.append_eq_nil_iff.1 (this.trans rfl)).1
    exact h (String.ext h1)
  unfold Spec.startFailure startProcess
  cases cmd with
  | bad what =>
    simp only [forceExit]
    rw [if_pos (ne _ _ (by decide))]
    refine ⟨?_, by simp⟩
    intro l h; cases h; exact ⟨rfl, by simp⟩
  | options help config =>
    cases help with
    | true =>
      refine ⟨?_, by simp⟩
      intro l h; cases h; exact ⟨rfl, by simp⟩
    | false =>
      simp only [configName]
      cases hf : w.file (config.getD "config.yml") with
      | error what =>
        simp only [forceExit]
        rw [if_pos (ne _ _ (by decide))]
        refine ⟨?_, by simp⟩
        intro l h; cases h; exact ⟨rfl, by simp⟩
      | ok doc =>
        simp only
        cases hb : loadConfig c junk doc with
        | error u =>
          simp only [forceExit]
          rw [if_pos (ne _ _ (by decide))]
          refine ⟨?_, by simp⟩
          intro l h; cases h; exact ⟨rfl, by simp⟩
        | ok b =>
          simp only
          cases hl : w.log with
          | some what =>
            refine ⟨?_, by simp⟩
            intro l h; cases h; exact ⟨rfl, by simp⟩
          | none =>
            simp only
            by_cases h1 : b.queueManager = "multi" ∨ b.queueManager = "single"
            · rw [if_pos h1]
              obtain ⟨m, hm⟩ : ∃ m, chooseManager b.queueManager = some m := by
                rcases h1 with h | h <;> rw [h]
                · exact ⟨_, rfl⟩
                · exact ⟨_, rfl⟩
              rw [hm]
              simp only
              cases hn : w.net with
              | true =>
                refine ⟨by simp, ?_⟩
                intro _
                refine ⟨config, doc, m, b, rfl, hf, rfl, ?_⟩
                simp [startBroker, hb, hm]
              | false =>
                refine ⟨?_, by simp⟩
                intro l h; cases h; exact ⟨rfl, by simp⟩
            · rw [if_neg h1]
              have hm : chooseManager b.queueManager = none := by
                simp only [not_or] at h1
                simp [chooseManager, h1.1, h1.2]
              rw [hm]
              simp only [forceExit]
              rw [if_pos (by rw [String.append_assoc]; exact ne _ _ (by decide))]
              refine ⟨?_, by simp⟩
              intro l h; cases h; exact ⟨rfl, by simp⟩

/-- A machine on which everything works and `config.yml` is the document `doc0`. -/
def world0 : World :=
  { file := fun n => if n = "config.yml" then .ok doc0 else .error ("bad file: " ++ n)
    badConfig := fun _ => "bad configuration", usage := "Allowed options for broker:", log := none
    net := true }

/-- Both parts of `C72_start_partial` occur. -/
example : Spec.startFailure conv0 7 world0 (.options false none) = none ∧
    Spec.startFailure conv0 7 world0 (.options false (some "x.yml")) =
      some ["Error loading config file: bad file: x.yml"] ∧
    Spec.startFailure conv0 7 world0 (.options true none) = some ["Allowed options for broker:"] := by
  decide +kernel

/-! ## C73 -/

/-- **C73, end.** When the process has ended, somebody had called `terminate`, the status is 0 and
    nothing was written to the standard error stream; everything the broker handler emitted was passed
    on; and of the notifications, as many as were not lost on the way to the notifier thread were
    taken care of, in order, all of them if none was lost. -/
theorem C73_end {cfg : HConfig} {env : Env} {e : SysEnv} {evs : List PEv} {p : Proc Q}
    (hr : PRun cfg env e evs p) {x : Exit} (h : p.phase = .done x) :
    x = ⟨0, []⟩ ∧ p.sys.routed = p.sys.emitted ∧ p.sys.pipe = [] ∧
    (p.sys.notified.map (·.1)).Sublist (Spec.notifications p.sys.emitted) ∧
    (p.sys.lost = [] → p.sys.notified.map (·.1) = Spec.notifications p.sys.emitted) ∧
    (Spec.notifications p.sys.emitted).length = p.sys.notified.length + p.sys.lost.length := by
  have hx := C72_status_partial hr h
  obtain ⟨_, s0, h0, ht⟩ := hr.tail
  rw [h] at ht
  generalize hq : p.sys = s at ht
  cases ht with
  | live h => rcases h with h | ⟨b, h⟩ | h <;> cases h
  | stopped h hp hpc htodo =>
    have hs := h0.inv.split
    rw [htodo, List.append_nil] at hs
    obtain ⟨k0, rest, k1, k2, k3, k4⟩ := h0.pipeline
    rw [hp] at k1
    have hrest : rest = [] := by
      cases rest with
      | nil => rfl
      | cons a t => cases k1
    subst hrest
    have hpost : s0.posted = Spec.notifications s0.emitted := by
      rw [k0, ← hs]; rfl
    rw [hpost] at k2 k3 k4
    rw [List.append_nil] at k2
    refine ⟨hx, hs.symm, hp, k2, fun hl => ?_, by simpa using k4⟩
    have := k3 hl
    rw [List.append_nil] at this
    exact this.symm

/-- Without `terminate` the condition of the loop stays true. -/
theorem flag_terminate {cfg : HConfig} {env : Env} {e : SysEnv} {evs : List PEv} {p : Proc Q}
    (hr : PRun cfg env e evs p) (h : p.flag = true ∨ (∃ c, p.phase = .joining c) ∨ ∃ x, p.phase = .done x) :
    PEv.terminate ∈ evs := by
  induction hr with
  | nil => rcases h with h | ⟨c, h⟩ | ⟨c, h⟩ <;> cases h
  | @snoc evs p p' ev hr hs ih =>
    refine List.mem_append.2 ?_
    obtain ⟨sys, flag, phase⟩ := p
    cases ev with
    | terminate => simp
    | enter b =>
      simp only [Proc.next] at hs
      split at hs
      · split at hs
        · cases hs
          rcases h with h | ⟨c, h⟩ | ⟨c, h⟩ <;> cases h
        · simp only [Proc.destroyReactor, socket_destroyed_first] at hs
          cases hs
          rcases h with h | ⟨c, h⟩ | ⟨c, h⟩
          · exact .inl (ih (.inl h))
          · cases h
          · cases h
      · cases hs
    | check =>
      simp only [Proc.next] at hs
      split at hs
      · split at hs
        · rename_i hf
          exact .inl (ih (.inl hf))
        · cases hs
          rcases h with h | ⟨c, h⟩ | ⟨c, h⟩
          · exact .inl (ih (.inl h))
          · cases h
          · cases h
      · cases hs
    | sys ev =>
      simp only [Proc.next] at hs
      split at hs
      · rename_i ph s' hal hn
        cases hs
        refine .inl (ih ?_)
        rcases h with h | ⟨c, h⟩ | ⟨c, h⟩
        · exact .inl h
        · simp only at h
          subst h
          refine .inr (.inl ⟨c, ?_⟩)
          cases ev <;> simp only [Phase.allows] at hal <;> split at hal <;> cases hal <;> rfl
        · simp only at h
          subst h
          cases ev <;> simp only [Phase.allows] at hal <;> split at hal <;> cases hal
      · cases hs
    | unwind =>
      simp only [Proc.next] at hs
      split at hs
      · simp only [Proc.destroyReactor, socket_destroyed_first] at hs
        cases hs
        rcases h with h | ⟨c, h⟩ | ⟨c, h⟩
        · exact .inl (ih (.inl h))
        · cases h
        · cases h
      · cases hs
    | crash =>
      simp only [Proc.next] at hs
      split at hs
      · cases hs
      · cases hs
      · cases hs
        rcases h with h | ⟨c, h⟩ | ⟨c, h⟩
        · exact .inl (ih (.inl h))
        · cases h
        · cases h
      · cases hs
        rcases h with h | ⟨c, h⟩ | ⟨c, h⟩
        · exact .inl (ih (.inl h))
        · cases h
        · cases h
      · cases hs
    | joined =>
      simp only [Proc.next] at hs
      split at hs
      · exact .inl (ih (.inr (.inl ⟨_, rfl⟩)))
      · cases hs

/-- **C73, cause.** The process does not end unless somebody calls `terminate`. -/
theorem C73_cause {cfg : HConfig} {env : Env} {e : SysEnv} {evs : List PEv} {p : Proc Q}
    (hr : PRun cfg env e evs p) {x : Exit} (h : p.phase = .done x) : PEv.terminate ∈ evs :=
  flag_terminate hr (.inr (.inr ⟨x, h⟩))

/-- The notifier thread takes everything in the pipe. -/
theorem drain_exec {cfg : HConfig} {env : Env} {e : SysEnv} : ∀ (ms : List Msg) (s : Sys Q) (f : Bool),
    (∀ m ∈ ms, m.key = keyNotifier ∧ Spec.Notifies m.data) → s.thread = .running →
    s.pipe = ms.map wire ++ [["TERMINATE"]] →
    ∃ p : Proc Q, Proc.exec cfg env e
      (List.replicate (ms.length + 1) (.sys (.take fun _ => true)) ++ [.joined]) ⟨s, f, .joining 0⟩ =
        some p ∧ p.phase = .done ⟨0, []⟩ ∧ p.sys.socks = s.socks := by
  intro ms
  induction ms with
  | nil =>
    intro s f _ ht hp
    refine ⟨⟨{ s with pipe := [], thread := .stopped }, f, .done ⟨0, []⟩⟩, ?_, rfl, rfl⟩
    have h1 := take_stop (e := e) (o := fun _ => true) ht (rest := []) (by simpa using hp)
    simp only [List.length_nil, Nat.zero_add, List.replicate_one, List.cons_append, List.nil_append,
      Proc.exec, Proc.next, Sys.next, h1, Phase.allows, Option.bind_some]
    rfl
  | cons m t ih =>
    intro s f hm ht hp
    obtain ⟨hk, hn⟩ := hm m List.mem_cons_self
    obtain ⟨n, hc⟩ := hn.collects
    have hok : ∃ acts, notifierOnRequest e.ncfg (fun _ => true) m = .ok acts := by
      simp only [notifierOnRequest, hc]; exact ⟨_, rfl⟩
    obtain ⟨acts, hok⟩ := hok
    have h1 := take_wire (e := e) (o := fun _ => true) ht (m := m)
      (rest := t.map wire ++ [["TERMINATE"]]) (by rw [hp]; rfl) hk hok
    obtain ⟨p, hp1, hp2, hp3⟩ := ih { s with pipe := t.map wire ++ [["TERMINATE"]], notified := s.notified ++ [(m, acts)] } f
      (fun x hx => hm x (List.mem_cons_of_mem _ hx)) ht rfl
    refine ⟨p, ?_, hp2, hp3⟩
    rw [List.length_cons, List.replicate_succ, List.cons_append, Proc.exec]
    simp only [Proc.next, Sys.next, h1, Phase.allows, Option.bind_some]
    exact hp1

theorem ends_of_flag {cfg : HConfig} {env : Env} {e : SysEnv} {evs : List PEv} {p : Proc Q}
    (hr : PRun cfg env e evs p) (hph : p.phase = .looping false) (hf : p.flag = true)
    (hpc : p.sys.pc = .poll) (htodo : p.sys.todo = []) (hth : p.sys.thread ≠ .starting)
    (hroom : p.sys.pipe.length < e.room) :
    ∃ p' : Proc Q, PRun cfg env e (evs ++ [.check] ++
        (List.replicate (p.sys.pipe.length + 1) (.sys (.take fun _ => true)) ++ [.joined])) p' ∧
      p'.phase = .done ⟨0, []⟩ ∧ p'.sys.socks = p.sys.socks := by
  obtain ⟨_, s0, h0, ht⟩ := hr.tail
  rw [hph] at ht
  obtain ⟨sys, flag, phase⟩ := p
  simp only at hph hf hpc htodo hth hroom ht
  subst hph hf
  cases ht with
  | stopped h _ _ _ => rcases h with h | h <;> cases h
  | live _ =>
    have hrun : s0.thread = .running := by
      rcases h0.inv.alive with h | h
      · exact absurd h hth
      · exact h
    obtain ⟨ms, hms, hms2⟩ := h0.inv.pipe
    have hd : s0.drops e = false := by
      simp only [Sys.drops, hrun]
      simp; omega
    have hchk : Proc.next cfg env e .check ⟨s0, true, .looping false⟩ =
        some ⟨s0.sendTerminate e, true, .joining 0⟩ := by
      simp only [Proc.next, hpc, htodo, Proc.destroyHandlers, if_true]
    rw [sendTerminate_eq e h0.inv.closed, hd] at hchk
    simp only [Bool.false_eq_true, if_false] at hchk
    obtain ⟨p', h1, h2, h3⟩ := drain_exec (cfg := cfg) (env := env) (e := e) ms
      { s0 with inproc := ⟨none, s0.inproc.sent ++ [(e.uid, ["TERMINATE"])]⟩
                pipe := s0.pipe ++ [["TERMINATE"]] } true hms2 hrun (by rw [hms]; rfl)
    refine ⟨p', ?_, h2, h3⟩
    have hlen : ms.length = s0.pipe.length := by rw [hms, List.length_map]
    rw [hlen] at h1
    exact (hr.snoc hchk).exec h1

/-- A worker registers, a client submits a job, the worker finishes it, and `terminate` is called. -/
def orderlyEvs : List PEv :=
  [.sys .connect, .enter true, .check, .sys (.arrive "workers" "w" ["init", "g", "env=c"]),
   .sys (.poll 0 0), .sys .main, .sys .main, .check,
   .sys (.arrive "clients" "c" ["eval", "J", "env=c", "", "x"]), .sys (.poll 0 0), .sys .main,
   .sys .main, .sys .main, .sys .main, .sys .main, .check,
   .sys (.arrive "workers" "w" ["done", "J", "OK", ""]), .sys (.poll 0 0), .sys .main, .terminate,
   .sys .main, .sys .main]

/-- The hypotheses of `ends_of_flag` can be met. -/
example : ∃ p : Proc Multi, PRun cfg0 env0 senv0 orderlyEvs p ∧
    (decide (p.phase = .looping false) && p.flag && decide (p.sys.todo = []) &&
      (match p.sys.pc with | .poll => true | _ => false) && decide (p.sys.thread ≠ .starting) &&
      decide (p.sys.pipe.length < senv0.room)) = true :=
  exists_prun _ _ (by decide +kernel)

/-- The hypothesis of `C73_end` can be met. -/
example : ∃ p : Proc Single, PRun cfg0 env0 senv0
    (orderlyEvs ++ [.check, .sys (.take fun _ => true), .sys (.take fun _ => true), .joined]) p ∧
    (decide (p.phase = .done ⟨0, []⟩) && decide (p.sys.notified.length = 1)) = true :=
  exists_prun _ _ (by decide +kernel)

/-- Waiting for a thread that will not end. -/
structure Stuck (p : Proc Q) : Prop where
  phase : p.phase = .joining 0
  pc : p.sys.pc = .poll
  alive : p.sys.thread = .starting ∨ p.sys.thread = .running
  pipe : ∃ ms : List Msg, p.sys.pipe = ms.map wire ∧
    ∀ m ∈ ms, m.key = keyNotifier ∧ Spec.Notifies m.data

theorem Stuck.next {cfg : HConfig} {env : Env} {e : SysEnv} {p p' : Proc Q} {ev : PEv} (h : Stuck p)
    (hs : p.next cfg env e ev = some p') : Stuck p' ∧ p'.sys.socks = p.sys.socks := by
  obtain ⟨sys, flag, phase⟩ := p
  obtain ⟨h1, h2, h3, ms, h4, h5⟩ := h
  simp only at h1 h2 h3 h4 h5
  subst h1
  cases ev with
  | enter b => cases hs
  | terminate => cases hs; exact ⟨⟨rfl, h2, h3, ms, h4, h5⟩, rfl⟩
  | check => cases hs
  | unwind => cases hs
  | crash =>
    simp only [Proc.next, h2] at hs
    rcases h3 with h | h <;> simp [h] at hs
  | joined =>
    simp only [Proc.next] at hs
    rcases h3 with h | h <;> simp [h] at hs
  | sys ev =>
    simp only [Proc.next] at hs
    split at hs
    · rename_i ph s' hal hn
      cases hs
      cases ev with
      | poll b a => cases hal
      | main => cases hal
      | arrive k i d =>
        cases hal
        simp only [Sys.next] at hn
        split at hn
        · cases hn; exact ⟨⟨rfl, h2, h3, ms, h4, h5⟩, rfl⟩
        · cases hn
      | connect =>
        cases hal
        simp only [Sys.next] at hn
        split at hn
        · cases hn; exact ⟨⟨rfl, h2, .inr rfl, ms, h4, h5⟩, rfl⟩
        · cases hn
      | take o =>
        cases hal
        rcases h3 with h | h
        · simp [Sys.next, Sys.take, h] at hn
        · cases ms with
          | nil => simp [Sys.next, Sys.take, h, h4] at hn
          | cons m t =>
            obtain ⟨hk, hn'⟩ := h5 m List.mem_cons_self
            obtain ⟨n, hc⟩ := hn'.collects
            obtain ⟨acts, hok⟩ : ∃ acts, notifierOnRequest e.ncfg o m = .ok acts := by
              simp only [notifierOnRequest, hc]; exact ⟨_, rfl⟩
            rw [show Sys.next cfg env e (.take o) sys = Sys.take e o sys from rfl,
              take_wire (e := e) h (rest := t.map wire) (by rw [h4]; rfl) hk hok] at hn
            cases hn
            exact ⟨⟨rfl, h2, .inr h, t, rfl, fun x hx => h5 x (List.mem_cons_of_mem _ hx)⟩, rfl⟩
    · cases hs

theorem Stuck.exec {cfg : HConfig} {env : Env} {e : SysEnv} : ∀ {evs : List PEv} {p p' : Proc Q},
    Stuck p → Proc.exec cfg env e evs p = some p' → Stuck p' ∧ p'.sys.socks = p.sys.socks := by
  intro evs
  induction evs with
  | nil => intro p p' h he; cases he; exact ⟨h, rfl⟩
  | cons ev t ih =>
    intro p p' h he
    simp only [Proc.exec, Option.bind_eq_some_iff] at he
    obtain ⟨p1, h1, h2⟩ := he
    obtain ⟨a, b⟩ := h.next h1
    obtain ⟨c, d⟩ := ih a h2
    exact ⟨c, d.trans b⟩

theorem hang_of_flag {cfg : HConfig} {env : Env} {e : SysEnv} {evs evs' : List PEv} {p p' : Proc Q}
    (hr : PRun cfg env e evs p) (hph : p.phase = .looping false) (hf : p.flag = true)
    (hd : p.sys.thread = .starting ∨
      (e.room ≤ p.sys.pipe.length ∧ e.full p.sys.posted.length = true))
    (hr' : PRun cfg env e (evs ++ .check :: evs') p') :
    p'.phase = .joining 0 ∧ p'.sys.socks = p.sys.socks := by
  obtain ⟨_, s0, h0, ht⟩ := hr.tail
  rw [hph] at ht
  have hex := hr.split hr'
  obtain ⟨sys, flag, phase⟩ := p
  simp only at hph hf hd ht hex
  subst hph hf
  cases ht with
  | stopped h _ _ _ => rcases h with h | h <;> cases h
  | live _ =>
    simp only [Proc.exec, Option.bind_eq_some_iff] at hex
    obtain ⟨p1, h1, h2⟩ := hex
    simp only [Proc.next] at h1
    split at h1
    · rename_i hpc htodo
      simp only [if_true, Option.some.injEq] at h1
      have hdr : s0.drops e = true := by
        rcases hd with h | ⟨h, h'⟩
        · simp [Sys.drops, h]
        · simp [Sys.drops, h, h']
      simp only [Proc.destroyHandlers, sendTerminate_eq e h0.inv.closed, hdr, if_true] at h1
      subst h1
      obtain ⟨ms, k1, k2⟩ := h0.inv.pipe
      obtain ⟨a, b⟩ := Stuck.exec (p := ⟨{ s0 with inproc := ⟨none, s0.inproc.sent ++ [(e.uid, ["TERMINATE"])]⟩ }, true, .joining 0⟩)
        ⟨rfl, hpc, h0.inv.alive, ms, k1, k2⟩ h2
      exact ⟨a.phase, b⟩
    · cases h1

/-- **C73 is false**: there is an execution in which `terminate` was called after the loop was
    entered, and that cannot be continued to an end of the process. -/
theorem C73_refuted : ∃ (evs : List PEv) (p : Proc Multi), PRun cfg0 env0 senv0 evs p ∧
    (∃ evs1, evs = .enter true :: .terminate :: evs1) ∧
    ∀ evs' (p' : Proc Multi), PRun cfg0 env0 senv0 (evs ++ evs') p' → p'.phase = .joining 0 := by
  obtain ⟨p, hr, hp⟩ := exists_prun (Q := Multi) (cfg := cfg0) (env := env0) (e := senv0)
    [.enter true, .terminate]
    (fun p => decide (p.phase = .looping false) && p.flag && decide (p.sys.thread = .starting))
    (by decide +kernel)
  simp only [Bool.and_eq_true, decide_eq_true_eq] at hp
  obtain ⟨⟨h1, h2⟩, h3⟩ := hp
  obtain ⟨q, hq, _⟩ := exists_prun (Q := Multi) (cfg := cfg0) (env := env0) (e := senv0)
    [.enter true, .terminate, .check] (fun p => decide (p.phase = .joining 0)) (by decide +kernel)
  refine ⟨_, q, hq, ⟨_, rfl⟩, ?_⟩
  intro evs' p' h
  exact (hang_of_flag hr h1 h2 (.inl h3) (evs' := evs') (p' := p') h).1

/-! ## C74 -/

/-- **C74, lost.** A call of `terminate` before the loop is entered has no effect at all. -/
theorem C74_lost {cfg : HConfig} {env : Env} {e : SysEnv} {evs1 evs2 : List PEv} {p : Proc Q}
    (hr : PRun cfg env e (evs1 ++ .enter true :: evs2) p) :
    PRun cfg env e (evs1 ++ .terminate :: .enter true :: evs2) p := by
  have pre : ∀ {evs : List PEv} {p : Proc Q}, PRun cfg env e evs p → ∀ {a b : List PEv}, evs = a ++ b →
      ∃ q : Proc Q, PRun cfg env e a q := by
    intro evs p h
    induction h with
    | nil =>
      intro a b hab
      have := List.append_eq_nil_iff.1 hab.symm
      rw [this.1]; exact ⟨_, .nil⟩
    | @snoc evs p p' ev hr hs ih =>
      intro a b hab
      rcases List.eq_nil_or_concat b with rfl | ⟨b', x, rfl⟩
      · rw [List.append_nil] at hab; subst hab; exact ⟨_, hr.snoc hs⟩
      · rw [List.concat_eq_append, ← List.append_assoc] at hab
        exact ih (List.append_inj' hab rfl).1
  obtain ⟨q, hq⟩ := pre hr (a := evs1) rfl
  have hx := hq.split hr
  simp only [Proc.exec, Option.bind_eq_some_iff] at hx
  obtain ⟨q1, h1, h2⟩ := hx
  refine hq.exec ?_
  obtain ⟨sys, flag, phase⟩ := q
  simp only [Proc.next] at h1
  split at h1
  · simp only [Proc.exec, Proc.next, Option.bind_some]
    simp only [if_true] at h1 ⊢
    cases h1
    exact h2
  · cases h1

/-- A tick of a broker without workers. -/
theorem step_idle (cfg : HConfig) (env : Env) {h : HState Q} (hw : h.workers = []) :
    ∃ h', step cfg env (timerMsg 0) h = .ok () h' ∧ h'.workers = [] ∧ h'.outs = [] := by
  have hst : stoll (intStr 0) = .ok 0 := by decide +kernel
  have h1 : keyTimer ≠ keyWorkers := by decide
  have h2 : keyTimer ≠ keyClients := by decide
  refine ⟨?w, ?h, ?_, ?_⟩
  case h =>
    simp only [step, onRequest, timerMsg, if_neg h1, if_neg h2, if_true, processTimer, hst]
    simp only [bind, EStateM.bind, liftE, pure, EStateM.pure, get, getThe, MonadStateOf.get, EStateM.get,
      hw, tickWorkers, expireWorkers, updateGauges, countIdle, modify, modifyGet,
      MonadStateOf.modifyGet, EStateM.modifyGet]
    rfl
  · rfl
  · rfl

/-- One turn of the loop of an idle broker. -/
theorem idle_turn {cfg : HConfig} {env : Env} {e : SysEnv} {p : Proc Q}
    (h1 : p.phase = .looping false) (h2 : p.flag = false) (h3 : p.sys.pc = .poll) (h4 : p.sys.todo = [])
    (h5 : ∀ k, p.sys.inbox k = []) (h6 : p.sys.h.workers = []) :
    ∃ p' : Proc Q, Proc.exec cfg env e [.check, .sys (.poll 0 0), .sys .main] p = some p' ∧
      p'.phase = .looping false ∧ p'.flag = false ∧ p'.sys.pc = .poll ∧ p'.sys.todo = [] ∧
      (∀ k, p'.sys.inbox k = []) ∧ p'.sys.h.workers = [] := by
  obtain ⟨sys, flag, phase⟩ := p
  simp only at h1 h2 h3 h4 h5 h6
  subst h1 h2
  obtain ⟨h', e1, e2, e3⟩ := step_idle cfg env h6
  have hp : brokerWiring.process (timerMsg 0) = [.handler .broker] := by decide
  have hel : elapsedMs 0 0 = 0 := by decide
  have hord : brokerWiring.order.filter (fun k => !(sys.inbox k).isEmpty) = [] := by
    simp [h5]
  refine ⟨?w, ?h, ?_⟩
  case h =>
    simp only [Proc.exec, Proc.next, h3, h4, Bool.false_eq_true, if_false, Option.bind_some,
      Phase.allows, Sys.next, Sys.pollReturns, hord, hel, Sys.main, Sys.process, hp, List.foldl_cons,
      List.foldl_nil, Sys.deliver, Sys.call, e1, e3, List.append_nil]
    rfl
  · exact ⟨rfl, rfl, rfl, rfl, h5, e2⟩

/-- **C74 is false**: for every number there is an execution in which `terminate` is called first and
    then `zmq::poll` returns that many times. -/
theorem C74_refuted (cfg : HConfig) (env : Env) (e : SysEnv) (n : Nat) :
    ∃ (evs : List PEv) (p : Proc Q), PRun cfg env e (.terminate :: .enter true :: evs) p ∧
      Spec.pollCount evs = n ∧ p.phase = .looping false := by
  have key : ∃ (evs : List PEv) (p : Proc Q), PRun cfg env e (.terminate :: .enter true :: evs) p ∧
      Spec.pollCount evs = n ∧ p.phase = .looping false ∧ p.flag = false ∧ p.sys.pc = .poll ∧
      p.sys.todo = [] ∧ (∀ k, p.sys.inbox k = []) ∧ p.sys.h.workers = [] := by
    induction n with
    | zero =>
      refine ⟨[], ⟨Sys.init Q, false, .looping false⟩, ?_, rfl, rfl, rfl, rfl, rfl, fun _ => rfl, rfl⟩
      exact PRun.exec (evs1 := []) PRun.nil rfl
    | succ n ih =>
      obtain ⟨evs, p, hr, hn, h1, h2, h3, h4, h5, h6⟩ := ih
      obtain ⟨p', hx, g⟩ := idle_turn (cfg := cfg) (env := env) (e := e) h1 h2 h3 h4 h5 h6
      refine ⟨evs ++ [.check, .sys (.poll 0 0), .sys .main], p', ?_, ?_, g⟩
      · exact hr.exec hx
      · unfold Spec.pollCount at hn ⊢
        rw [List.countP_append, hn]
        rfl
  obtain ⟨evs, p, hr, hn, h1, -⟩ := key
  exact ⟨evs, p, hr, hn, h1⟩

/-- How often `zmq::poll` can still return after `terminate`. -/
theorem poll_budget {cfg : HConfig} {env : Env} {e : SysEnv} : ∀ {evs : List PEv} {p p' : Proc Q},
    Proc.exec cfg env e evs p = some p' → p.flag = true → p.phase ≠ .constructed →
    Spec.pollCount evs ≤ (if p.phase = .looping true then 1 else 0) ∧ p'.flag = true ∧
      p'.phase ≠ .constructed := by
  intro evs
  induction evs with
  | nil => intro p p' h hf hc; cases h; exact ⟨by simp [Spec.pollCount], hf, hc⟩
  | cons ev t ih =>
    intro p p' h hf hc
    simp only [Proc.exec, Option.bind_eq_some_iff] at h
    obtain ⟨p1, h1, h2⟩ := h
    obtain ⟨sys, flag, phase⟩ := p
    simp only at hf hc
    subst hf
    have other : ∀ ph, p1.flag = true → p1.phase = ph → ph ≠ .constructed → ph ≠ .looping true →
        Spec.pollCount t = 0 ∧ p'.flag = true ∧ p'.phase ≠ .constructed := by
      intro ph a b c d
      obtain ⟨x, y, z⟩ := ih h2 a (by rw [b]; exact c)
      rw [if_neg (by rw [b]; exact d)] at x
      exact ⟨by omega, y, z⟩
    have same : p1.flag = true → p1.phase = phase →
        Spec.pollCount t ≤ (if phase = .looping true then 1 else 0) ∧ p'.flag = true ∧
          p'.phase ≠ .constructed := by
      intro a b
      obtain ⟨x, y, z⟩ := ih h2 a (by rw [b]; exact hc)
      rw [b] at x
      exact ⟨x, y, z⟩
    have cnt : ∀ ev, (∀ b a, ev ≠ PEv.sys (.poll b a)) → Spec.pollCount (ev :: t) = Spec.pollCount t := by
      intro ev hne
      unfold Spec.pollCount
      rw [List.countP_cons]
      split
      · rename_i b a; exact absurd rfl (hne b a)
      · simp
    cases ev with
    | enter b =>
      cases phase <;> first | exact absurd rfl hc | cases h1
    | terminate =>
      rw [cnt _ (by intro _ _ h; cases h)]
      simp only [Proc.next] at h1
      split at h1
      · cases h1
      · cases h1
      · cases h1; exact same rfl rfl
    | check =>
      rw [cnt _ (by intro _ _ h; cases h)]
      simp only [Proc.next] at h1
      split at h1
      · simp only [if_true, Option.some.injEq] at h1
        subst h1
        obtain ⟨a, b⟩ := other (.joining 0) rfl rfl (by simp) (by simp)
        exact ⟨by omega, b⟩
      · cases h1
    | unwind =>
      rw [cnt _ (by intro _ _ h; cases h)]
      simp only [Proc.next] at h1
      split at h1
      · simp only [Proc.destroyReactor, socket_destroyed_first] at h1
        cases h1
        obtain ⟨a, b⟩ := other .undefined rfl rfl (by simp) (by simp)
        exact ⟨by omega, b⟩
      · cases h1
    | crash =>
      rw [cnt _ (by intro _ _ h; cases h)]
      simp only [Proc.next] at h1
      split at h1
      · cases h1
      · cases h1
      · cases h1
        obtain ⟨a, b⟩ := other .undefined rfl rfl (by simp) (by simp)
        exact ⟨by omega, b⟩
      · cases h1
        obtain ⟨a, b⟩ := other .undefined rfl rfl (by simp) (by simp)
        exact ⟨by omega, b⟩
      · cases h1
    | joined =>
      rw [cnt _ (by intro _ _ h; cases h)]
      simp only [Proc.next] at h1
      split at h1
      · cases h1
        obtain ⟨a, b⟩ := other _ rfl rfl (by simp) (by simp)
        exact ⟨by omega, b⟩
      · cases h1
    | sys ev =>
      simp only [Proc.next] at h1
      split at h1
      · rename_i ph s' hal hn
        cases h1
        cases ev with
        | poll b a =>
          have hph : phase = .looping true ∧ ph = .looping false := by
            cases phase with
            | looping b => cases b <;> cases hal; exact ⟨rfl, rfl⟩
            | _ => cases hal
          obtain ⟨rfl, rfl⟩ := hph
          obtain ⟨x, y⟩ := other (.looping false) rfl rfl (by simp) (by simp)
          refine ⟨?_, y⟩
          have : Spec.pollCount (PEv.sys (.poll b a) :: t) = Spec.pollCount t + 1 := by
            unfold Spec.pollCount
            rw [List.countP_cons]
            rfl
          rw [this, x]; simp
        | _ =>
          rw [cnt _ (by intro _ _ h; cases h)]
          refine same rfl ?_
          simp only [Phase.allows] at hal
          split at hal <;> cases hal <;> first | rfl | contradiction
      · cases h1

/-- **C74, in the loop (partial).** After a call of `terminate` while the main thread is in the loop,
    `zmq::poll` returns at most once more.  Missing: earlier calls are lost, see `C74_lost`. -/
theorem C74_loop_partial {cfg : HConfig} {env : Env} {e : SysEnv} {evs evs' : List PEv} {p p' : Proc Q}
    (hr : PRun cfg env e evs p) {b : Bool} (hph : p.phase = .looping b)
    (hr' : PRun cfg env e (evs ++ .terminate :: evs') p') : Spec.pollCount evs' ≤ 1 := by
  have hx := hr.split hr'
  obtain ⟨sys, flag, phase⟩ := p
  simp only at hph
  subst hph
  simp only [Proc.exec, Proc.next, Option.bind_some] at hx
  obtain ⟨h1, -⟩ := poll_budget hx rfl (by simp)
  refine h1.trans ?_
  split <;> omega

/-- The hypotheses of `C74_loop_partial` can be met, with one poll after the call. -/
example : (∃ p : Proc Multi, PRun cfg0 env0 senv0 [.enter true, .check] p ∧
      decide (p.phase = .looping true) = true) ∧
    ∃ p : Proc Multi, PRun cfg0 env0 senv0
      ([.enter true, .check] ++ .terminate :: [.sys (.poll 0 0), .sys .main, .check]) p ∧
      decide (p.phase = .joining 0) = true :=
  ⟨exists_prun _ _ (by decide +kernel), exists_prun _ _ (by decide +kernel)⟩

/-! ## C73, continued -/

theorem flag_of_terminate {cfg : HConfig} {env : Env} {e : SysEnv} {evs1 evs2 : List PEv}
    {p1 p : Proc Q} (hr1 : PRun cfg env e evs1 p1) {b : Bool} (h1 : p1.phase = .looping b)
    (hr : PRun cfg env e (evs1 ++ .terminate :: evs2) p) : p.flag = true := by
  have hx := hr1.split hr
  obtain ⟨sys, flag, phase⟩ := p1
  simp only at h1
  subst h1
  simp only [Proc.exec, Proc.next, Option.bind_some] at hx
  exact (poll_budget hx rfl (by simp)).2.1

/-- **C73, possible end (partial).** If `terminate` was called while the main thread was in the loop,
    the main thread is about to evaluate the condition of the loop, the notifier thread is connected
    and the pipe to it has room, then the process ends as soon as the main thread has evaluated the
    condition and the notifier thread has taken care of the notifications in the pipe; no message is
    sent on a socket meanwhile.  Missing: otherwise the process hangs, see `C73_hang`. -/
theorem C73_ends_partial {cfg : HConfig} {env : Env} {e : SysEnv} {evs1 evs2 : List PEv}
    {p1 p : Proc Q} (hr1 : PRun cfg env e evs1 p1) {b : Bool} (h1 : p1.phase = .looping b)
    (hr : PRun cfg env e (evs1 ++ .terminate :: evs2) p) (hph : p.phase = .looping false)
    (hpc : p.sys.pc = .poll) (htodo : p.sys.todo = []) (hth : p.sys.thread ≠ .starting)
    (hroom : p.sys.pipe.length < e.room) :
    ∃ p' : Proc Q, PRun cfg env e (evs1 ++ .terminate :: evs2 ++ [.check] ++
        (List.replicate (p.sys.pipe.length + 1) (.sys (.take fun _ => true)) ++ [.joined])) p' ∧
      p'.phase = .done ⟨0, []⟩ ∧ p'.sys.socks = p.sys.socks :=
  ends_of_flag hr hph (flag_of_terminate hr1 h1 hr) hpc htodo hth hroom

/-- The hypotheses of `C73_ends_partial` can be met. -/
example : (∃ p1 : Proc Multi, PRun cfg0 env0 senv0 (orderlyEvs.take 19) p1 ∧
      decide (p1.phase = .looping false) = true) ∧
    orderlyEvs = orderlyEvs.take 19 ++ .terminate :: orderlyEvs.drop 20 :=
  ⟨exists_prun _ _ (by decide +kernel), rfl⟩

/-- **C73, hang.** If `terminate` was called while the main thread was in the loop and it leaves the
    loop before the notifier thread is connected, or while the pipe to it is full, the process never
    ends: it waits for the notifier thread forever, and answers nobody. -/
theorem C73_hang {cfg : HConfig} {env : Env} {e : SysEnv} {evs1 evs2 evs' : List PEv}
    {p1 p p' : Proc Q} (hr1 : PRun cfg env e evs1 p1) {b : Bool} (h1 : p1.phase = .looping b)
    (hr : PRun cfg env e (evs1 ++ .terminate :: evs2) p) (hph : p.phase = .looping false)
    (hd : p.sys.thread = .starting ∨
      (e.room ≤ p.sys.pipe.length ∧ e.full p.sys.posted.length = true))
    (hr' : PRun cfg env e (evs1 ++ .terminate :: evs2 ++ .check :: evs') p') :
    p'.phase = .joining 0 ∧ p'.sys.socks = p.sys.socks :=
  hang_of_flag hr hph (flag_of_terminate hr1 h1 hr) hd hr'

/-- The hypotheses of `C73_hang` can be met: the notifier thread is not connected. -/
example : (∃ p1 : Proc Multi, PRun cfg0 env0 senv0 [.enter true] p1 ∧
      decide (p1.phase = .looping false) = true) ∧
    (∃ p : Proc Multi, PRun cfg0 env0 senv0 ([.enter true] ++ .terminate :: []) p ∧
      (decide (p.phase = .looping false) && decide (p.sys.thread = .starting)) = true) ∧
    ∃ p : Proc Multi, PRun cfg0 env0 senv0
      ([.enter true] ++ .terminate :: [] ++ .check :: [.sys .connect]) p ∧
      decide (p.phase = .joining 0) = true :=
  ⟨exists_prun _ _ (by decide +kernel), exists_prun _ _ (by decide +kernel),
    exists_prun _ _ (by decide +kernel)⟩

end Broker
