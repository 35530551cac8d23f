import Verif.Model.ProcLog
import Verif.Proof.Process
import Verif.Props.Log

/-! # The process with its log: transitions by cases, connection with the process and the handler -/

set_option linter.unusedSectionVars false

namespace Broker

variable {Q : Type} [QueueManager Q]

theorem lnext_cases {lv : Level} {cfg : HConfig} {env : Env} {e : SysEnv} {ev : LEv} {p p' : LProc Q}
    (h : p.next lv cfg env e ev = some p') :
    (∀ o, ev ≠ .other (.sys (.take o))) ∧ p.proc.next cfg env e ev.ev = some p'.proc ∧
      p'.main = p.main ++ ev.mainEntries lv cfg env p.proc ∧
      p'.thread = p.thread ++ logged lv (ev.turn e p.proc).2 ∧
      p'.web = p.web ++ (ev.turn e p.proc).1 := by
  unfold LProc.next at h
  split at h
  · cases h
  · rename_i hno
    obtain ⟨q, hq, rfl⟩ := Option.map_eq_some_iff.1 h
    exact ⟨fun o ho => hno o ho, hq, rfl, rfl, rfl⟩

theorem LPRun.prun {lv : Level} {cfg : HConfig} {env : Env} {e : SysEnv} {evs : List LEv} {p : LProc Q}
    (hr : LPRun lv cfg env e evs p) : PRun cfg env e (evs.map LEv.ev) p.proc := by
  induction hr with
  | nil => exact .nil
  | snoc hr hs ih =>
    rw [List.map_append]
    exact .snoc ih (lnext_cases hs).2.1

/-- The event with results of `curl_post` for its outcomes. -/
def PEv.detailed : PEv → LEv
  | .sys (.take o) => .take fun i => if o i then .ok else .failed 0 ""
  | ev => .other ev

theorem PEv.detailed_ev (ev : PEv) : ev.detailed.ev = ev := by
  cases ev with
  | sys ev =>
    cases ev with
    | take o =>
      show PEv.sys (.take _) = _
      congr 2
      funext i
      cases h : o i <;> simp [CurlResult.returns, h]
    | _ => rfl
  | _ => rfl

theorem PRun.lprun {cfg : HConfig} {env : Env} {e : SysEnv} {evs : List PEv} {p : Proc Q}
    (hr : PRun cfg env e evs p) (lv : Level) :
    ∃ q, LPRun lv cfg env e (evs.map PEv.detailed) q ∧ q.proc = p := by
  induction hr with
  | nil => exact ⟨_, .nil, rfl⟩
  | @snoc evs p p' ev hr hs ih =>
    obtain ⟨q, hq, rfl⟩ := ih
    have : ∃ q', q.next lv cfg env e ev.detailed = some q' ∧ q'.proc = p' := by
      unfold LProc.next
      rw [PEv.detailed_ev, hs]
      split
      · rename_i o heq
        cases ev with
        | sys ev => cases ev <;> cases heq
        | _ => cases heq
      · exact ⟨_, rfl, rfl⟩
    obtain ⟨q', h1, h2⟩ := this
    refine ⟨q', ?_, h2⟩
    rw [List.map_append]
    exact .snoc hq h1

/-! ## Executions -/

/-- Executes a list of events. -/
def LProc.exec (lv : Level) (cfg : HConfig) (env : Env) (e : SysEnv) : List LEv → LProc Q →
    Option (LProc Q)
  | [], p => some p
  | ev :: t, p => (p.next lv cfg env e ev).bind (LProc.exec lv cfg env e t)

theorem LPRun.exec {lv : Level} {cfg : HConfig} {env : Env} {e : SysEnv} : ∀ {evs2 evs1 : List LEv}
    {p p' : LProc Q}, LPRun lv cfg env e evs1 p → LProc.exec lv cfg env e evs2 p = some p' →
    LPRun lv cfg env e (evs1 ++ evs2) p' := by
  intro evs2
  induction evs2 with
  | nil => intro evs1 s s' hr h; cases h; simpa using hr
  | cons ev t ih =>
    intro evs1 s s' hr h
    simp only [LProc.exec, Option.bind_eq_some_iff] at h
    obtain ⟨s1, h1, h2⟩ := h
    have := ih (LPRun.snoc hr h1) h2
    simpa using this

/-- A list of events that can be executed and leads to a state with the property. -/
theorem exists_lprun {lv : Level} {cfg : HConfig} {env : Env} {e : SysEnv} (evs : List LEv)
    (q : LProc Q → Bool) (h : (LProc.exec lv cfg env e evs (LProc.init Q)).any q = true) :
    ∃ p : LProc Q, LPRun lv cfg env e evs p ∧ q p = true := by
  cases hx : LProc.exec lv cfg env e evs (LProc.init Q) with
  | none => rw [hx] at h; simp at h
  | some s =>
    rw [hx] at h
    refine ⟨s, ?_, by simpa using h⟩
    have := LPRun.exec (LPRun.nil (lv := lv) (cfg := cfg) (env := env) (e := e) (Q := Q)) hx
    simpa using this

/-! ## Entries of the handler -/

/-- The entry of the handler, if it is one. -/
def ProcEntry.handler? : ProcEntry → Option LogEntry
  | .handler e => some e
  | _ => none

theorem handlerEntries_handler (lv : Level) (cfg : HConfig) (env : Env) (m : Msg) (h : HState Q) :
    ∀ x ∈ handlerEntries lv cfg env m h, ∃ e, x = .handler e := by
  intro x hx
  unfold handlerEntries at hx
  split at hx <;>
  · obtain ⟨e, _, rfl⟩ := List.mem_map.1 hx
    exact ⟨e, rfl⟩

theorem processEntries_handler (lv : Level) (cfg : HConfig) (env : Env) (m : Msg) (h : HState Q) :
    ∀ x ∈ processEntries lv cfg env m h, ∃ e, x = .handler e := by
  intro x hx
  obtain ⟨d, _, hd⟩ := List.mem_flatMap.1 hx
  split at hd
  · exact handlerEntries_handler lv cfg env m h x hd
  · cases hd

theorem mainEntries_handler (lv : Level) (cfg : HConfig) (env : Env) (s : Sys Q) :
    ∀ x ∈ mainEntries lv cfg env s, ∃ e, x = .handler e := by
  intro x hx
  unfold mainEntries at hx
  split at hx
  · cases hx
  · split at hx
    · cases hx
    · cases hx
    · split at hx
      · cases hx
      · split at hx
        · cases hx
        · exact processEntries_handler _ _ _ _ _ x hx
    · exact processEntries_handler _ _ _ _ _ x hx

theorem coreEntries_core (ev : PEv) (p : Proc Q) : ∀ x ∈ coreEntries ev p, ∃ l t, x = .core l t := by
  intro x hx
  unfold coreEntries at hx
  split at hx
  · split at hx
    · simp only [List.mem_singleton] at hx; exact ⟨_, _, hx⟩
    · simp only [cleanupEntries, List.mem_cons, List.not_mem_nil, or_false] at hx
      rcases hx with h | h | h <;> exact ⟨_, _, h⟩
  · simp only [cleanupEntries, List.mem_cons, List.not_mem_nil, or_false] at hx
    rcases hx with h | h <;> exact ⟨_, _, h⟩
  · split at hx
    · simp only [cleanupEntries, List.cons_append, List.nil_append, List.mem_cons, List.not_mem_nil, or_false] at hx
      rcases hx with h | h | h | h <;> exact ⟨_, _, h⟩
    · cases hx
  · cases hx

theorem processEntries_monitor (lv : Level) (cfg : HConfig) (env : Env) {m : Msg} (h : HState Q)
    (hk : m.key = keyMonitor) : processEntries lv cfg env m h = [] := by
  have : brokerWiring.process m = [] := by
    unfold Wiring.process; rw [hk]; decide
  rw [processEntries, this]; rfl

theorem processEntries_broker (lv : Level) (cfg : HConfig) (env : Env) {m : Msg} (h : HState Q)
    (hk : m.key = "clients" ∨ m.key = "workers" ∨ m.key = "timer") :
    processEntries lv cfg env m h = handlerEntries lv cfg env m h := by
  have : brokerWiring.process m = [.handler .broker] := by
    unfold Wiring.process
    rcases hk with hk | hk | hk <;> rw [hk] <;> decide
  rw [processEntries, this]; simp

theorem mainEntries_source (lv : Level) (cfg : HConfig) (env : Env) {s s0 : Sys Q} {m : Msg}
    (ht : s.todo = []) (hsrc : Source s m s0) :
    mainEntries lv cfg env s = processEntries lv cfg env m s.h := by
  unfold mainEntries
  rw [ht]
  cases hsrc with
  | @recv k i d rest ks el hpc hin =>
    simp only [hpc, hin]
    have : receiveMessage k (recvFrames (i :: d)) = some (⟨k, i, d⟩, []) := by
      simpa using receiveMessage_all k i d
    rw [this]
  | timer hpc => simp only [hpc]

theorem handlerEntries_step [LawfulQM Q] [Carries Q] [Refers Q] {lv : Level} {cfg : HConfig} {env : Env} {h : List (Tr Q)}
    {s : HState Q} (hr : Run cfg env h s) (m : Msg) :
    ∃ es, handlerEntries lv cfg env m s = es.map .handler ∧
      match step cfg env m s with
      | .ok () s' => stepLog lv cfg env m s = .ok () ⟨s', es⟩
      | .error x s' => stepLog lv cfg env m s = .error x ⟨s', es⟩ := by
  obtain ⟨full, hw⟩ := C80_same hr m
  refine ⟨full.filter fun e => decide (lv.toNat ≤ e.level.toNat), ?_, ?_⟩
  · unfold handlerEntries
    rw [hw lv]
    cases step cfg env m s <;> rfl
  · rw [hw lv]
    cases step cfg env m s <;> rfl

/-- The log of the process and the log of the handler. -/
def LogKeeps (lv : Level) (cfg : HConfig) (env : Env) (s : Sys Q) (es : List LogEntry) : Prop :=
  ∃ (hist : List (Tr Q)) (log crash : List LogEntry), LRun lv cfg env hist log s.h ∧
    hist.map (·.msg) = s.calls ∧ es = log ++ crash ∧
    (((∀ err, s.pc ≠ .halt err) ∧ crash = []) ∨
     ∃ err m h', s.pc = .halt err ∧ stepLog lv cfg env m s.h = .error err ⟨h', crash⟩)

theorem logKeeps_same {lv : Level} {cfg : HConfig} {env : Env} {s s' : Sys Q} {es : List LogEntry}
    (h : LogKeeps lv cfg env s es) (h1 : s'.h = s.h) (h2 : s'.calls = s.calls) (h5 : s'.pc = s.pc) :
    LogKeeps lv cfg env s' es := by
  unfold LogKeeps
  rw [h1, h2, h5]
  exact h

theorem logKeeps_step [LawfulQM Q] [Carries Q] [Refers Q] {lv : Level} {cfg : HConfig} {env : Env} {e : SysEnv} {s s' : Sys Q}
    {es : List LogEntry} {ev : SysEv} (ih : LogKeeps lv cfg env s es) (hi : SInv s)
    (hst : SStep cfg env e s ev s') :
    ∃ es', (ev = .main → mainEntries lv cfg env s = es'.map .handler) ∧ (ev ≠ .main → es' = []) ∧
      LogKeeps lv cfg env s' (es ++ es') := by
  cases hst with
  | arrive => exact ⟨[], by simp, by simp, by rw [List.append_nil]; exact logKeeps_same ih rfl rfl rfl⟩
  | poll ht hpc =>
    refine ⟨[], by simp, by simp, ?_⟩
    obtain ⟨hist, log, crash, a1, a2, a3, a4⟩ := ih
    refine ⟨hist, log, crash, a1, a2, by simpa using a3, ?_⟩
    rcases a4 with ⟨b1, b2⟩ | ⟨err, m, h', b1, b2⟩
    · exact .inl ⟨by simp, b2⟩
    · rw [hpc] at b1; cases b1
  | sock ht =>
    exact ⟨[], by simp [mainEntries, ht], by simp, by rw [List.append_nil]; exact logKeeps_same ih rfl rfl rfl⟩
  | post ht hk =>
    refine ⟨[], by simp [mainEntries, ht], by simp, ?_⟩
    rw [List.append_nil]
    exact logKeeps_same ih (post_frame e _ _).1 (post_frame e _ _).2.1 (post_frame e _ _).2.2.2.2.1
  | @idle m s0 ht hsrc hk =>
    refine ⟨[], ?_, by simp, ?_⟩
    · intro _
      rw [mainEntries_source lv cfg env ht hsrc, processEntries_monitor _ _ _ _ hk]; rfl
    obtain ⟨hist, log, crash, a1, a2, a3, a4⟩ := ih
    have hnh := hsrc.not_halt
    obtain ⟨e1, e2, e3, e4, e5⟩ := hsrc.h_eq
    refine ⟨hist, log, crash, by rw [← e1] at a1; exact a1, by rw [a2]; exact e4.symm,
      by simpa using a3, ?_⟩
    rcases a4 with ⟨b1, b2⟩ | ⟨err, m, h', b1, b2⟩
    · exact .inl ⟨hnh.2, b2⟩
    · exact absurd b1 (hnh.1 err)
  | @handle m s0 h' ht hsrc hk hs =>
    obtain ⟨hist, log, crash, a1, a2, a3, a4⟩ := ih
    have hnh := hsrc.not_halt
    obtain ⟨es', h1, h2⟩ := handlerEntries_step (lv := lv) a1.run m
    rw [hs] at h2
    refine ⟨es', ?_, by simp, ?_⟩
    · intro _
      rw [mainEntries_source lv cfg env ht hsrc, processEntries_broker _ _ _ _ ?_, h1]
      have := hsrc.key hi
      rcases this with h | h | h | h
      · exact .inl h
      · exact .inr (.inl h)
      · exact absurd h hk
      · exact .inr (.inr h)
    rcases a4 with ⟨b1, b2⟩ | ⟨err, m, h', b1, b2⟩
    · subst b2
      exact ⟨hist ++ [⟨s.h, m, h'⟩], log ++ es', [], .snoc a1 h2, by simp [a2], by simp [a3],
        .inl ⟨hnh.2, rfl⟩⟩
    · exact absurd b1 (hnh.1 err)
  | @fail m s0 err h' ht hsrc hk hs =>
    obtain ⟨hist, log, crash, a1, a2, a3, a4⟩ := ih
    have hnh := hsrc.not_halt
    obtain ⟨e1, e2, e3, e4, e5⟩ := hsrc.h_eq
    obtain ⟨es', h1, h2⟩ := handlerEntries_step (lv := lv) a1.run m
    rw [hs] at h2
    refine ⟨es', ?_, by simp, ?_⟩
    · intro _
      rw [mainEntries_source lv cfg env ht hsrc, processEntries_broker _ _ _ _ ?_, h1]
      have := hsrc.key hi
      rcases this with h | h | h | h
      · exact .inl h
      · exact .inr (.inl h)
      · exact absurd h hk
      · exact .inr (.inr h)
    rcases a4 with ⟨b1, b2⟩ | ⟨err, m, h', b1, b2⟩
    · subst b2
      exact ⟨hist, log, es', by rw [← e1] at a1; exact a1, by rw [a2]; exact e4.symm, by simp [a3],
        .inr ⟨err, m, h', rfl, by rw [← e1] at h2; exact h2⟩⟩
    · exact absurd b1 (hnh.1 err)
  | connect => exact ⟨[], by simp, by simp, by rw [List.append_nil]; exact logKeeps_same ih rfl rfl rfl⟩
  | take => exact ⟨[], by simp, by simp, by rw [List.append_nil]; exact logKeeps_same ih rfl rfl rfl⟩

/-- The filter for the entries of the handler. -/
theorem handler?_map (es : List LogEntry) :
    (es.map ProcEntry.handler).filterMap ProcEntry.handler? = es := by
  induction es with
  | nil => rfl
  | cons a t ih => simp [ProcEntry.handler?, ih]

theorem handler?_core {l : List ProcEntry} (h : ∀ x ∈ l, ∃ a t, x = .core a t) :
    l.filterMap ProcEntry.handler? = [] := by
  rw [List.filterMap_eq_nil_iff]
  intro x hx
  obtain ⟨a, t, rfl⟩ := h x hx
  rfl

theorem logged_core {lv : Level} {ev : PEv} {p : Proc Q} :
    ∀ x ∈ logged lv (coreEntries ev p), ∃ a t, x = .core a t :=
  fun x hx => coreEntries_core ev p x (List.mem_of_mem_filter hx)

/-- What of the loop changes in events that are not its own. -/
theorem pnext_other {cfg : HConfig} {env : Env} {e : SysEnv} {ev : PEv} {p p' : Proc Q}
    (h : p.next cfg env e ev = some p') (hne : ∀ x, ev ≠ .sys x) :
    p'.sys.h = p.sys.h ∧ p'.sys.calls = p.sys.calls ∧ p'.sys.pc = p.sys.pc ∧
      p'.sys.notified = p.sys.notified := by
  have hst : (p.sys.sendTerminate e).h = p.sys.h ∧ (p.sys.sendTerminate e).calls = p.sys.calls ∧
      (p.sys.sendTerminate e).pc = p.sys.pc ∧ (p.sys.sendTerminate e).notified = p.sys.notified := by
    unfold Sys.sendTerminate
    simp only
    split <;> exact ⟨rfl, rfl, rfl, rfl⟩
  cases ev with
  | sys x => exact absurd rfl (hne x)
  | enter b =>
    simp only [Proc.next] at h
    split at h
    · split at h
      · cases h; exact ⟨rfl, rfl, rfl, rfl⟩
      · simp only [Proc.destroyReactor, socket_destroyed_first] at h
        cases h; exact ⟨rfl, rfl, rfl, rfl⟩
    · cases h
  | terminate =>
    simp only [Proc.next] at h
    split at h <;> first | (cases h; done) | (cases h; exact ⟨rfl, rfl, rfl, rfl⟩)
  | check =>
    simp only [Proc.next] at h
    split at h
    · split at h
      · cases h; exact hst
      · cases h; exact ⟨rfl, rfl, rfl, rfl⟩
    · cases h
  | unwind =>
    simp only [Proc.next] at h
    split at h
    · simp only [Proc.destroyReactor, socket_destroyed_first] at h
      cases h; exact ⟨rfl, rfl, rfl, rfl⟩
    · cases h
  | crash =>
    simp only [Proc.next] at h
    split at h <;> first | (cases h; done) | (cases h; exact ⟨rfl, rfl, rfl, rfl⟩)
  | joined =>
    simp only [Proc.next] at h
    split at h
    · cases h; exact ⟨rfl, rfl, rfl, rfl⟩
    · cases h

theorem pnext_sys {cfg : HConfig} {env : Env} {e : SysEnv} {x : SysEv} {p p' : Proc Q}
    (h : p.next cfg env e (.sys x) = some p') :
    p.phase.allows x = some p'.phase ∧ p.sys.next cfg env e x = some p'.sys ∧ p'.flag = p.flag := by
  simp only [Proc.next] at h
  split at h
  · rename_i a b; cases h; exact ⟨a, b, rfl⟩
  · cases h

/-- The notifier thread does not touch the main thread, nor do the peers. -/
theorem snext_quiet {cfg : HConfig} {env : Env} {e : SysEnv} {x : SysEv} {s s' : Sys Q}
    (h : s.next cfg env e x = some s') (hx : x ≠ .main) (hp : ∀ b a, x ≠ .poll b a) :
    s'.h = s.h ∧ s'.calls = s.calls ∧ s'.pc = s.pc := by
  cases x with
  | main => exact absurd rfl hx
  | poll b a => exact absurd rfl (hp b a)
  | arrive =>
    simp only [Sys.next] at h
    split at h
    · cases h; exact ⟨rfl, rfl, rfl⟩
    · cases h
  | connect =>
    simp only [Sys.next] at h
    split at h
    · cases h; exact ⟨rfl, rfl, rfl⟩
    · cases h
  | take =>
    simp only [Sys.next, Sys.take] at h
    split at h
    · split at h
      · cases h
      · cases h; exact ⟨rfl, rfl, rfl⟩
      · cases h; exact ⟨rfl, rfl, rfl⟩
      · split at h <;> (cases h; exact ⟨rfl, rfl, rfl⟩)
    · cases h

theorem LPRun.keeps [LawfulQM Q] [Carries Q] [Refers Q] {lv : Level} {cfg : HConfig} {env : Env}
    {e : SysEnv} {evs : List LEv} {p : LProc Q} (hr : LPRun lv cfg env e evs p) :
    LogKeeps lv cfg env p.proc.sys (p.main.filterMap ProcEntry.handler?) := by
  induction hr with
  | nil => exact ⟨[], [], [], .nil, rfl, rfl, .inl ⟨by simp [LProc.init, Proc.init, Sys.init], rfl⟩⟩
  | @snoc evs p p' ev hr hs ih =>
    obtain ⟨hno, hq, hm, -, -⟩ := lnext_cases hs
    rw [hm, List.filterMap_append]
    cases ev with
    | take res =>
      obtain ⟨-, h2, -⟩ := pnext_sys hq
      obtain ⟨a, b, c⟩ := snext_quiet h2 (by simp) (by simp)
      simp only [LEv.mainEntries, List.filterMap_nil, List.append_nil]
      exact logKeeps_same ih a b c
    | other ev =>
      cases ev with
      | sys x =>
        obtain ⟨h1, h2, -⟩ := pnext_sys hq
        have hloop : x = .main ∨ (∃ b a, x = .poll b a) →
            ∃ evs' , SRun cfg env e evs' p.proc.sys := by
          intro hx
          obtain ⟨evs', s0, h0, ht⟩ := hr.prun.tail
          have : ∃ b, p.proc.phase = .looping b := by
            rcases hx with rfl | ⟨b, a, rfl⟩ <;>
            · unfold Phase.allows at h1
              split at h1 <;> first | exact ⟨_, by assumption⟩ | simp_all
          obtain ⟨b, hb⟩ := this
          rw [hb] at ht
          generalize p.proc.sys = s at ht
          cases ht with
          | live _ => exact ⟨evs', h0⟩
          | stopped h _ _ _ => rcases h with h | h <;> cases h
        by_cases hx : x = .main ∨ (∃ b a, x = .poll b a)
        · obtain ⟨evs', h0⟩ := hloop hx
          obtain ⟨es', k1, k2, k3⟩ := logKeeps_step (lv := lv) ih h0.inv (next_cases h0.inv h2)
          by_cases hmain : x = .main
          · subst hmain
            have e1 : (LEv.other (.sys .main)).mainEntries lv cfg env p.proc = es'.map .handler := k1 rfl
            rw [e1, handler?_map]
            exact k3
          · have : es' = [] := k2 hmain
            subst this
            have e1 : ((LEv.other (.sys x)).mainEntries lv cfg env p.proc).filterMap
                ProcEntry.handler? = [] := by
              cases x with
              | main => exact absurd rfl hmain
              | _ => rfl
            rw [e1]
            exact k3
        · have hx1 : x ≠ .main := fun h => hx (.inl h)
          obtain ⟨a, b, c⟩ := snext_quiet h2 hx1 (fun b a h => hx (.inr ⟨b, a, h⟩))
          have e1 : ((LEv.other (.sys x)).mainEntries lv cfg env p.proc).filterMap
              ProcEntry.handler? = [] := by
            cases x with
            | main => exact absurd rfl hx1
            | _ => rfl
          rw [e1, List.append_nil]
          exact logKeeps_same ih a b c
      | _ =>
        obtain ⟨a, b, c, -⟩ := pnext_other hq (by simp [LEv.ev])
        simp only [LEv.mainEntries]
        rw [handler?_core logged_core, List.append_nil]
        exact logKeeps_same ih a b c

/-! ## What the notifier does -/

theorem deliver_notified {cfg : HConfig} {env : Env} {e : SysEnv} {b : Bool} {m : Msg} (s : Sys Q)
    (d : Delivery HandlerRef) : (s.deliver cfg env e b m d).notified = s.notified := by
  cases d with
  | socket k => rfl
  | handler r =>
    cases r with
    | notifier => exact (post_frame e m s).2.2.2.2.2.2.2.2.2.2.2.1
    | broker =>
      simp only [Sys.deliver, Sys.call]
      split
      · rfl
      · split <;> rfl

theorem delivers_notified {cfg : HConfig} {env : Env} {e : SysEnv} {b : Bool} {m : Msg}
    (l : List (Delivery HandlerRef)) : ∀ s : Sys Q,
    (l.foldl (Sys.deliver cfg env e b m) s).notified = s.notified := by
  induction l with
  | nil => intro s; rfl
  | cons d t ih => intro s; rw [List.foldl_cons, ih, deliver_notified]

theorem snext_notified {cfg : HConfig} {env : Env} {e : SysEnv} {x : SysEv} {s s' : Sys Q}
    (h : s.next cfg env e x = some s') (hx : ∀ o, x ≠ .take o) : s'.notified = s.notified := by
  cases x with
  | take o => exact absurd rfl (hx o)
  | arrive =>
    simp only [Sys.next] at h
    split at h
    · cases h; rfl
    · cases h
  | connect =>
    simp only [Sys.next] at h
    split at h
    · cases h; rfl
    · cases h
  | poll =>
    simp only [Sys.next, Sys.pollReturns] at h
    split at h
    · cases h; rfl
    · cases h
  | main =>
    simp only [Sys.next, Sys.main] at h
    split at h
    · cases h; exact delivers_notified _ _
    · split at h
      · cases h
      · cases h
      · split at h
        · cases h
        · obtain ⟨r, -, rfl⟩ := Option.map_eq_some_iff.1 h
          exact delivers_notified _ _
      · cases h; exact delivers_notified _ _

/-- A turn of the notifier thread. -/
theorem turn_cases {cfg : HConfig} {env : Env} {e : SysEnv} {res : Nat → CurlResult} {p p' : Proc Q}
    (h : p.next cfg env e (LEv.take res).ev = some p') :
    ((LEv.take res).turn e p = ([], []) ∧ p'.sys.notified = p.sys.notified) ∨
    ∃ m n, parseNotification m.data = .ok n ∧
      (LEv.take res).turn e p = retryLoopL e.ncfg n res 4 0 ∧
      p'.sys.notified = p.sys.notified ++
        [(m, retryLoop (httpPost e.ncfg n) (fun i => (res i).returns) 4 1 0)] := by
  obtain ⟨-, h2, -⟩ := pnext_sys h
  generalize p'.sys = s' at h2 ⊢
  simp only [Sys.next, Sys.take] at h2
  split at h2
  · rename_i fs rest hth hp
    simp only [LEv.turn, hp]
    split at h2
    · cases h2
    · rename_i hf; cases h2; left; simp [hf]
    · rename_i hf; cases h2; left; simp [hf]
    · rename_i m _ hf
      simp only [hf, notifierL]
      unfold notifierOnRequest at h2
      cases hn : parseNotification m.data with
      | error u => rw [hn] at h2; cases h2; left; simp
      | ok n =>
        rw [hn] at h2; cases h2
        exact .inr ⟨m, n, hn, rfl, rfl⟩
  · cases h2

theorem turn_other {e : SysEnv} {p : Proc Q} {ev : PEv} : (LEv.other ev).turn e p = ([], []) := rfl

theorem other_notified {cfg : HConfig} {env : Env} {e : SysEnv} {ev : PEv} {p p' : Proc Q}
    (h : p.next cfg env e ev = some p') (hno : ∀ o, ev ≠ .sys (.take o)) :
    p'.sys.notified = p.sys.notified := by
  by_cases hx : ∃ x, ev = .sys x
  · obtain ⟨x, rfl⟩ := hx
    exact snext_notified (pnext_sys h).2.1 (fun o ho => hno o (by rw [ho]))
  · exact (pnext_other h (fun x hx' => hx ⟨x, hx'⟩)).2.2.2

/-! ## Credentials -/

/-- Same environment with other credentials for the notifier. -/
def SysEnv.withAuth (e : SysEnv) (user password : String) : SysEnv :=
  { e with ncfg := { e.ncfg with username := user, password := password } }

/-- With another list of notifications taken care of. -/
def Sys.withN (l : List (Msg × List NAct)) (s : Sys Q) : Sys Q := { s with notified := l }

theorem post_withN (e : SysEnv) (u w : String) (m : Msg) (l : List (Msg × List NAct)) (s : Sys Q) :
    (s.withN l).post (e.withAuth u w) m = (s.post e m).withN l := by
  unfold Sys.post
  have : Sys.drops (e.withAuth u w) (s.withN l) = s.drops e := rfl
  simp only [this]
  cases s.drops e <;> rfl

theorem deliver_withN {cfg : HConfig} {env : Env} (e : SysEnv) (u w : String) {b : Bool} (m : Msg)
    (l : List (Msg × List NAct)) (s : Sys Q) (d : Delivery HandlerRef) :
    (s.withN l).deliver cfg env (e.withAuth u w) b m d = (s.deliver cfg env e b m d).withN l := by
  cases d with
  | socket k => rfl
  | handler r =>
    cases r with
    | notifier => exact post_withN e u w m l s
    | broker =>
      simp only [Sys.deliver, Sys.call]
      cases b with
      | true => rfl
      | false =>
        have : (s.withN l).h = s.h := rfl
        simp only [this, Bool.false_eq_true, if_false]
        cases step cfg env m s.h <;> rfl

theorem delivers_withN {cfg : HConfig} {env : Env} (e : SysEnv) (u w : String) {b : Bool} (m : Msg)
    (l : List (Msg × List NAct)) (ds : List (Delivery HandlerRef)) : ∀ s : Sys Q,
    ds.foldl (Sys.deliver cfg env (e.withAuth u w) b m) (s.withN l) =
      (ds.foldl (Sys.deliver cfg env e b m) s).withN l := by
  induction ds with
  | nil => intro s; rfl
  | cons d t ih => intro s; rw [List.foldl_cons, List.foldl_cons, deliver_withN, ih]

theorem process_withN {cfg : HConfig} {env : Env} (e : SysEnv) (u w : String) (m : Msg)
    (l : List (Msg × List NAct)) (s : Sys Q) :
    (s.withN l).process cfg env (e.withAuth u w) m = (s.process cfg env e m).withN l :=
  delivers_withN e u w m l _ { s with handled := s.handled ++ [m] }

theorem snext_withN {cfg : HConfig} {env : Env} (e : SysEnv) (u w : String) {x : SysEv}
    (hx : ∀ o, x ≠ .take o) (l : List (Msg × List NAct)) (s : Sys Q) :
    (s.withN l).next cfg env (e.withAuth u w) x = (s.next cfg env e x).map (Sys.withN l) := by
  cases x with
  | take o => exact absurd rfl (hx o)
  | arrive k i d =>
    simp only [Sys.next]
    split <;> rfl
  | connect =>
    simp only [Sys.next]
    have : (s.withN l).thread = s.thread := rfl
    rw [this]
    split <;> rfl
  | poll b a =>
    simp only [Sys.next, Sys.pollReturns]
    have h1 : (s.withN l).todo = s.todo := rfl
    have h2 : (s.withN l).pc = s.pc := rfl
    rw [h1, h2]
    cases s.todo with
    | cons _ _ => rfl
    | nil => cases s.pc <;> rfl
  | main =>
    simp only [Sys.next, Sys.main]
    have h1 : (s.withN l).todo = s.todo := rfl
    have h2 : (s.withN l).pc = s.pc := rfl
    have h3 : (s.withN l).inbox = s.inbox := rfl
    rw [h1, h2, h3]
    cases s.todo with
    | cons m t =>
      simp only [Option.map_some, Option.some.injEq]
      exact delivers_withN e u w m l _ { s with todo := t, routed := s.routed ++ [m] }
    | nil =>
      cases s.pc with
      | poll => rfl
      | halt err => rfl
      | serve ks el =>
        cases ks with
        | nil =>
          simp only [Option.map_some, Option.some.injEq]
          rw [← process_withN e u w]; rfl
        | cons k ks =>
          simp only
          cases s.inbox k with
          | nil => rfl
          | cons y rest =>
            obtain ⟨i, d⟩ := y
            simp only [Option.map_map]
            congr 1
            funext r
            rw [Function.comp_apply, ← process_withN e u w]; rfl

/-- The request without its credentials. -/
def HttpPost.anonymous (r : HttpPost) : HttpPost := { r with auth := none }

/-- An action without the credentials. -/
def NAct.anonymous : NAct → NAct
  | .post r ok => .post r.anonymous ok
  | .sleep n => .sleep n

theorem httpPost_withAuth (e : SysEnv) (u w : String) (n : Notification) :
    (httpPost (e.withAuth u w).ncfg n).anonymous = (httpPost e.ncfg n).anonymous := rfl

theorem retryLoop_anonymous {r r' : HttpPost} (h : r'.anonymous = r.anonymous) (o : Nat → Bool) :
    ∀ n d i, (retryLoop r' o n d i).map NAct.anonymous = (retryLoop r o n d i).map NAct.anonymous := by
  intro n
  induction n with
  | zero => intro d i; rfl
  | succ n ih =>
    intro d i
    simp only [retryLoop]
    split
    · simp [NAct.anonymous, h]
    · simp [NAct.anonymous, h, ih]

theorem retryLoopL_withAuth (e : SysEnv) (u w : String) (n : Notification) (res : Nat → CurlResult) :
    ∀ k i, (retryLoopL (e.withAuth u w).ncfg n res k i).2 = (retryLoopL e.ncfg n res k i).2 ∧
      (retryLoopL (e.withAuth u w).ncfg n res k i).1.map (fun x => (x.1.anonymous, x.2)) =
        (retryLoopL e.ncfg n res k i).1.map (fun x => (x.1.anonymous, x.2)) := by
  intro k
  induction k with
  | zero => intro i; exact ⟨rfl, rfl⟩
  | succ k ih =>
    intro i
    simp only [retryLoopL]
    cases res i with
    | noHandle => exact ⟨rfl, rfl⟩
    | ok => exact ⟨rfl, by simp [httpPost_withAuth]⟩
    | failed code err =>
      obtain ⟨h1, h2⟩ := ih (i + 1)
      refine ⟨?_, ?_⟩
      · simp only [h1]; rfl
      · simp only [List.map_cons, h2, httpPost_withAuth]

/-- A record of a notification without the credentials. -/
def anonymousRecord (x : Msg × List NAct) : Msg × List NAct := (x.1, x.2.map NAct.anonymous)

theorem take_withN {cfg : HConfig} {env : Env} (e : SysEnv) (u w : String) (o : Nat → Bool)
    {l : List (Msg × List NAct)} {s s' : Sys Q}
    (hl : l.map anonymousRecord = s.notified.map anonymousRecord)
    (h : s.next cfg env e (.take o) = some s') :
    ∃ l', l'.map anonymousRecord = s'.notified.map anonymousRecord ∧
      (s.withN l).next cfg env (e.withAuth u w) (.take o) = some (s'.withN l') := by
  obtain ⟨a1, a2, a3, a4, a5, a6, pipe, thread, a7, a8, a9, b1, b2, b3, b4, b5, b6, b7⟩ := s
  simp only [Sys.next, Sys.take, Sys.withN] at h hl ⊢
  split at h
  · split at h
    · cases h
    · cases h; exact ⟨l, hl, rfl⟩
    · cases h; exact ⟨l, hl, rfl⟩
    · rename_i m _ hf
      try simp only [hf]
      unfold notifierOnRequest at h ⊢
      cases hn : parseNotification m.data with
      | error x => rw [hn] at h; cases h; exact ⟨l, hl, rfl⟩
      | ok n =>
        rw [hn] at h; cases h
        refine ⟨l ++ [(m, retryLoop (httpPost (e.withAuth u w).ncfg n) o 4 1 0)], ?_, rfl⟩
        simp only [List.map_append, hl, List.map_cons, List.map_nil, anonymousRecord,
          retryLoop_anonymous (httpPost_withAuth e u w n)]
  · cases h

theorem sendTerminate_withN (e : SysEnv) (u w : String) (l : List (Msg × List NAct)) (s : Sys Q) :
    (s.withN l).sendTerminate (e.withAuth u w) = (s.sendTerminate e).withN l := by
  unfold Sys.sendTerminate
  have : Sys.drops (e.withAuth u w) (s.withN l) = s.drops e := rfl
  simp only [this]
  cases s.drops e <;> rfl

/-- The process with another list of notifications taken care of. -/
def Proc.withN (l : List (Msg × List NAct)) (p : Proc Q) : Proc Q := { p with sys := p.sys.withN l }

theorem pnext_withN {cfg : HConfig} {env : Env} (e : SysEnv) (u w : String) {ev : PEv} {p p' : Proc Q}
    {l : List (Msg × List NAct)} (hl : l.map anonymousRecord = p.sys.notified.map anonymousRecord)
    (h : p.next cfg env e ev = some p') :
    ∃ l', l'.map anonymousRecord = p'.sys.notified.map anonymousRecord ∧
      (p.withN l).next cfg env (e.withAuth u w) ev = some (p'.withN l') := by
  cases ev with
  | sys x =>
    obtain ⟨h1, h2, h3⟩ := pnext_sys h
    have key : ∃ l', l'.map anonymousRecord = p'.sys.notified.map anonymousRecord ∧
        (p.sys.withN l).next cfg env (e.withAuth u w) x = some (p'.sys.withN l') := by
      by_cases hx : ∃ o, x = .take o
      · obtain ⟨o, rfl⟩ := hx
        exact take_withN e u w o hl h2
      · have hx' : ∀ o, x ≠ .take o := fun o ho => hx ⟨o, ho⟩
        exact ⟨l, by rw [hl, snext_notified h2 hx'], by rw [snext_withN e u w hx', h2]; rfl⟩
    obtain ⟨l', k1, k2⟩ := key
    refine ⟨l', k1, ?_⟩
    have e1 : (p.withN l).phase = p.phase := rfl
    have e2 : (p.withN l).sys = p.sys.withN l := rfl
    simp only [Proc.next, e1, e2, h1, k2]
    obtain ⟨a, b, c⟩ := p'
    simp only at h3
    subst h3
    rfl
  | _ =>
    refine ⟨l, by rw [hl, (pnext_other h (by simp)).2.2.2], ?_⟩
    obtain ⟨sys, flag, phase⟩ := p
    simp only [Proc.next, Proc.withN, Proc.destroyReactor, socket_destroyed_first,
      Proc.destroyHandlers, sendTerminate_withN] at h ⊢
    have h1 : (sys.withN l).todo = sys.todo := rfl
    have h2 : (sys.withN l).pc = sys.pc := rfl
    have h3 : (sys.withN l).thread = sys.thread := rfl
    try simp only [h1, h2, h3]
    revert h
    repeat' split
    all_goals intro h
    all_goals first
      | (cases h; rfl)
      | cases h

theorem turn_withAuth (e : SysEnv) (u w : String) (ev : LEv) (l : List (Msg × List NAct)) (p : Proc Q) :
    (ev.turn (e.withAuth u w) (p.withN l)).2 = (ev.turn e p).2 ∧
      (ev.turn (e.withAuth u w) (p.withN l)).1.map (fun x => (x.1.anonymous, x.2)) =
        (ev.turn e p).1.map (fun x => (x.1.anonymous, x.2)) := by
  cases ev with
  | other ev => exact ⟨rfl, rfl⟩
  | take res =>
    have h1 : (p.withN l).sys.pipe = p.sys.pipe := rfl
    simp only [LEv.turn, h1]
    split
    · exact ⟨rfl, rfl⟩
    · split
      · rename_i m _ _
        simp only [notifierL]
        cases parseNotification m.data with
        | error x => exact ⟨rfl, rfl⟩
        | ok n => exact retryLoopL_withAuth e u w n res 4 0
      · exact ⟨rfl, rfl⟩

end Broker
