import Verif.Proof.AllFaults
import Verif.Props.Faults

/-!
# Any call of ZeroMQ may fail (C102)
-/

set_option linter.unusedSectionVars false

namespace Broker

variable {Q : Type} [QueueManager Q]

/-- Failures of calls on the registered sockets, which `router_socket_wrapper` catches. -/
def Spec.isCaught : AEv → Bool
  | .recvFails _ => true
  | .sendFails _ => true
  | _ => false

/-- Failures the broker has no provision for. -/
def Spec.isUncaught : AEv → Bool
  | .pollFails => true
  | .postFails _ => true
  | .stopFails => true
  | .connectFails => true
  | .threadFails => true
  | _ => false

/-- The broker has done the same in both states: its handler is in the same state and was called with
    the same messages, the same was sent to every peer, and the status notifier handler was called
    with the same messages. -/
structure Spec.SameWork (s s' : Sys Q) : Prop where
  h : s'.h = s.h
  socks : s'.socks = s.socks
  arrived : s'.arrived = s.arrived
  handled : s'.handled = s.handled
  calls : s'.calls = s.calls
  routed : s'.routed = s.routed
  posted : s'.posted = s.posted
  lost : s'.lost = s.lost
  notified : s'.notified = s.notified

/-- A job is finished and the notification of the frontend cannot be passed on: the exception. -/
def postFailsEvs : List AEv :=
  ((orderlyEvs.take 17).map .ok) ++ [.ok (.sys (.poll 0 0)), .ok (.sys .main), .postFails 1]

/-- The broker was told to terminate, and the notifier thread cannot be told. -/
def stopFailsEvs : List AEv := (orderlyEvs.map .ok) ++ [.stopFails]

/-- **C102 is false, multi-queue manager**: when a notification cannot be passed on, the broker does not
    go on, it is undefined what happens; when the notifier thread cannot be told to terminate, the
    process is aborted instead of returning. -/
theorem C102_refuted_multi :
    (¬ ∀ (evs : List AEv) (x : Proc Multi × Fate) (n : Nat), ARun cfg0 env0 senv0 evs x →
      AEv.postFails n ∈ evs → x.1.phase ≠ .undefined) ∧
    (¬ ∀ (evs : List AEv) (x : Proc Multi × Fate), ARun cfg0 env0 senv0 evs x →
      AEv.stopFails ∈ evs → x.2 ≠ .aborted) := by
  refine ⟨fun H => ?_, fun H => ?_⟩
  · obtain ⟨x, hr, hp⟩ := exists_arun (Q := Multi) (cfg := cfg0) (env := env0) (e := senv0)
      postFailsEvs (fun x => decide (x.1.phase = .undefined)) (by decide +kernel)
    exact H _ _ 1 hr (by simp [postFailsEvs]) (by simpa using hp)
  · obtain ⟨x, hr, hp⟩ := exists_arun (Q := Multi) (cfg := cfg0) (env := env0) (e := senv0)
      stopFailsEvs (fun x => decide (x.2 = .aborted)) (by decide +kernel)
    exact H _ _ hr (by simp [stopFailsEvs]) (by simpa using hp)

/-- **C102 is false, single-queue manager.** -/
theorem C102_refuted_single :
    (¬ ∀ (evs : List AEv) (x : Proc Single × Fate) (n : Nat), ARun cfg0 env0 senv0 evs x →
      AEv.postFails n ∈ evs → x.1.phase ≠ .undefined) ∧
    (¬ ∀ (evs : List AEv) (x : Proc Single × Fate), ARun cfg0 env0 senv0 evs x →
      AEv.stopFails ∈ evs → x.2 ≠ .aborted) := by
  refine ⟨fun H => ?_, fun H => ?_⟩
  · obtain ⟨x, hr, hp⟩ := exists_arun (Q := Single) (cfg := cfg0) (env := env0) (e := senv0)
      postFailsEvs (fun x => decide (x.1.phase = .undefined)) (by decide +kernel)
    exact H _ _ 1 hr (by simp [postFailsEvs]) (by simpa using hp)
  · obtain ⟨x, hr, hp⟩ := exists_arun (Q := Single) (cfg := cfg0) (env := env0) (e := senv0)
      stopFailsEvs (fun x => decide (x.2 = .aborted)) (by decide +kernel)
    exact H _ _ hr (by simp [stopFailsEvs]) (by simpa using hp)

/-- Nothing happens any more. -/
theorem anext_ended {cfg : HConfig} {env : Env} {e : SysEnv} {x : Proc Q × Fate}
    (h : x.1.phase = .undefined ∨ x.2 = .aborted) (ev : AEv) : Proc.anext cfg env e ev x = none := by
  cases hn : Proc.anext cfg env e ev x with
  | none => rfl
  | some x' =>
    obtain ⟨h1, h2⟩ := anext_cases hn
    rcases h with h | h
    · obtain ⟨p, fate⟩ := x
      simp only at h h2
      cases h2 with
      | ok h3 => rw [undefined_next h] at h3; cases h3
      | recv hp => rw [h] at hp; cases hp
      | send hp => rw [h] at hp; cases hp
      | poll hp => rw [h] at hp; cases hp
      | post hp => rw [h] at hp; cases hp
      | abort _ _ hu => exact absurd h hu
    · rw [h] at h1; cases h1

/-- **C102, every failure that is not caught is the end.** After a failure of `zmq::poll` or of a
    notification it is undefined what happens, after one of the calls of the notifier thread or of
    the destructor the process is aborted; in no case does anything follow. -/
theorem C102_uncaught {cfg : HConfig} {env : Env} {e : SysEnv} {evs : List AEv} {x : Proc Q × Fate}
    (hr : ARun cfg env e evs x) {ev : AEv} (h : ev ∈ evs) (hu : Spec.isUncaught ev = true) :
    ((ev = .pollFails ∨ ∃ n, ev = .postFails n) → x.1.phase = .undefined) ∧
    ((ev = .stopFails ∨ ev = .connectFails ∨ ev = .threadFails) → x.2 = .aborted) ∧
    (∃ evs', evs = evs' ++ [ev]) ∧ ∀ ev', Proc.anext cfg env e ev' x = none := by
  have key : ((ev = .pollFails ∨ ∃ n, ev = .postFails n) → x.1.phase = .undefined) ∧
      ((ev = .stopFails ∨ ev = .connectFails ∨ ev = .threadFails) → x.2 = .aborted) ∧
      ∃ evs', evs = evs' ++ [ev] := by
    induction hr with
    | nil => cases h
    | @snoc evs x x' ev' hr hs ih =>
      rcases List.mem_append.1 h with h | h
      · exfalso
        obtain ⟨h1, h2, -⟩ := ih h
        have : x.1.phase = .undefined ∨ x.2 = .aborted := by
          cases ev with
          | ok | recvFails | sendFails => cases hu
          | pollFails => exact .inl (h1 (.inl rfl))
          | postFails n => exact .inl (h1 (.inr ⟨n, rfl⟩))
          | stopFails => exact .inr (h2 (.inl rfl))
          | connectFails => exact .inr (h2 (.inr (.inl rfl)))
          | threadFails => exact .inr (h2 (.inr (.inr rfl)))
        rw [anext_ended this] at hs
        cases hs
      · obtain rfl := List.mem_singleton.1 h
        obtain ⟨-, hst⟩ := anext_cases hs
        refine ⟨fun hk => ?_, fun hk => ?_, evs, rfl⟩
        · rcases hk with rfl | ⟨n, rfl⟩
          · cases hst with
            | poll => rfl
            | abort h => rcases h with h | h | h <;> cases h
          · cases hst with
            | post => rfl
            | abort h => rcases h with h | h | h <;> cases h
        · rcases hk with rfl | rfl | rfl <;> cases hst <;> rfl
  refine ⟨key.1, key.2.1, key.2.2, anext_ended ?_⟩
  cases ev with
  | ok | recvFails | sendFails => cases hu
  | pollFails => exact .inl (key.1 (.inl rfl))
  | postFails n => exact .inl (key.1 (.inr ⟨n, rfl⟩))
  | stopFails => exact .inr (key.2.1 (.inl rfl))
  | connectFails => exact .inr (key.2.1 (.inr (.inl rfl)))
  | threadFails => exact .inr (key.2.1 (.inr (.inr rfl)))

/-- **C102, what was done before (partial).** Whatever calls fail, the broker has done what it does in an
    execution of the loop in which only calls on the registered sockets fail, namely those that
    failed here: C93 and C94 say what that can be.  Missing: everything after a failure that is not
    caught. -/
theorem C102_before_partial {cfg : HConfig} {env : Env} {e : SysEnv} {evs : List AEv}
    {x : Proc Q × Fate} (hr : ARun cfg env e evs x) :
    ∃ (fevs : List FEv) (s : Sys Q), FRun cfg env e fevs s ∧ Spec.SameWork s x.1.sys ∧
      (∀ n, FEv.recvFails n ∈ fevs → AEv.recvFails n ∈ evs) ∧
      (∀ n, FEv.sendFails n ∈ fevs → AEv.sendFails n ∈ evs) := by
  obtain ⟨s0, ⟨fevs, h1, h2, h3⟩, h4⟩ := hr.tail
  refine ⟨fevs, s0, h1, ?_, h2, h3⟩
  generalize x.1.phase = ph at h4
  generalize x.1.sys = s at h4
  cases h4 with
  | tail h => cases h <;> constructor <;> rfl
  | post => constructor <;> rfl

/-- **C102, the failing notification (partial).** When a notification cannot be passed on, neither it nor
    what the handler emits after it gets anywhere, and what was emitted before it does. -/
theorem C102_post_partial {cfg : HConfig} {env : Env} {e : SysEnv} {evs : List AEv}
    {x : Proc Q × Fate} {n : Nat} (hr : ARun cfg env e evs x) (h : AEv.postFails n ∈ evs) :
    ∃ (fevs : List FEv) (s : Sys Q) (m : Msg) (t : List Msg), FRun cfg env e fevs s ∧
      Spec.SameWork s x.1.sys ∧ m.key = "status_notifier" ∧ s.todo = m :: t ∧
      s.emitted = x.1.sys.routed ++ m :: t := by
  obtain ⟨-, -, ⟨evs', rfl⟩, -⟩ := C102_uncaught hr h rfl
  generalize hl : evs' ++ [AEv.postFails n] = l at hr
  cases hr with
  | nil => simp at hl
  | @snoc evs x x' ev hr hs =>
    obtain ⟨rfl, hev⟩ := List.append_inj' hl rfl
    obtain rfl := List.singleton_inj.1 hev
    obtain ⟨p, fate⟩ := x
    obtain ⟨-, hst⟩ := anext_cases hs
    simp only at hst
    cases hst with
    | abort h => rcases h with h | h | h <;> cases h
    | @post _ _ m t r b hp ht hk =>
      obtain ⟨s0, ⟨fevs, h1, -, -⟩, h4⟩ := hr.tail
      simp only [hp] at h4
      have hs0 : p.sys = s0 := by
        generalize p.sys = s at h4
        cases h4 with
        | tail h =>
          cases h with
          | live => rfl
          | stopped h => rcases h with h | h <;> cases h
      refine ⟨fevs, s0, m, t, h1, ?_, hk, hs0 ▸ ht, ?_⟩
      · rw [← hs0]; constructor <;> rfl
      · rw [h1.inv.split, ← hs0, ht]

/-- The process is about to return from `main`, or has. -/
def leaving : Phase → Bool
  | .joining _ => true
  | .done _ => true
  | _ => false

theorem next_leaving {cfg : HConfig} {env : Env} {e : SysEnv} {p p' : Proc Q} {ev : PEv}
    (h : p.next cfg env e ev = some p') (hl : p'.flag = true ∨ leaving p'.phase = true) :
    ev = .terminate ∨ p.flag = true ∨ leaving p.phase = true := by
  obtain ⟨sys, flag, phase⟩ := p
  cases ev with
  | terminate => exact .inl rfl
  | enter bound =>
    simp only [Proc.next] at h
    split at h
    · split at h
      · cases h; rcases hl with hl | hl <;> cases hl
      · simp only [Proc.destroyReactor, socket_destroyed_first] at h
        cases h
        rcases hl with hl | hl
        · exact .inr (.inl hl)
        · cases hl
    · cases h
  | check =>
    simp only [Proc.next] at h
    split at h
    · split at h
      · rename_i hf; exact .inr (.inl hf)
      · cases h
        rcases hl with hl | hl
        · exact .inr (.inl hl)
        · cases hl
    · cases h
  | unwind =>
    simp only [Proc.next] at h
    split at h
    · simp only [Proc.destroyReactor, socket_destroyed_first] at h
      cases h
      rcases hl with hl | hl
      · exact .inr (.inl hl)
      · cases hl
    · cases h
  | crash =>
    simp only [Proc.next] at h
    split at h
    · cases h
    · cases h
    · cases h
      rcases hl with hl | hl
      · exact .inr (.inl hl)
      · cases hl
    · cases h
      rcases hl with hl | hl
      · exact .inr (.inl hl)
      · cases hl
    · cases h
  | joined =>
    simp only [Proc.next] at h
    split at h
    · exact .inr (.inr rfl)
    · cases h
  | sys ev =>
    simp only [Proc.next] at h
    split at h
    · rename_i ph s hal hn
      cases h
      rcases hl with hl | hl
      · exact .inr (.inl hl)
      · right; right
        cases phase with
        | looping b =>
          cases ev <;> cases b <;> simp [Phase.allows] at hal <;> subst hal <;> cases hl
        | constructed => cases ev <;> simp [Phase.allows] at hal <;> subst hal <;> cases hl
        | undefined => cases ev <;> simp [Phase.allows] at hal
        | joining c => rfl
        | done c => rfl
    · cases h

/-- **C102, the status.** If the process returns from `main`, no failure was without provision, no
    exception left the loop, and the status is 0. -/
theorem C102_status {cfg : HConfig} {env : Env} {e : SysEnv} {evs : List AEv} {x : Proc Q × Fate}
    (hr : ARun cfg env e evs x) {ex : Exit} (h : x.1.phase = .done ex) :
    ex = ⟨0, []⟩ ∧ (∀ ev ∈ evs, Spec.isUncaught ev = false) ∧ AEv.ok .unwind ∉ evs ∧
      AEv.ok .terminate ∈ evs := by
  have key : (x.2 = .aborted → ∀ ex, x.1.phase ≠ .done ex) ∧
      (AEv.ok .unwind ∈ evs → x.1.phase = .undefined) ∧
      ((x.1.flag = true ∨ leaving x.1.phase = true) → AEv.ok .terminate ∈ evs) := by
    clear h
    induction hr with
    | nil =>
      refine ⟨fun h => ?_, fun h => ?_, fun h => ?_⟩
      · cases h
      · cases h
      · rcases h with h | h <;> cases h
    | @snoc evs x x' ev hr hs ih =>
      obtain ⟨h1, h2, h3⟩ := ih
      have hend : AEv.ok .unwind ∉ evs := by
        intro hm
        rw [anext_ended (.inl (h2 hm))] at hs
        cases hs
      obtain ⟨p, fate⟩ := x
      obtain ⟨-, hst⟩ := anext_cases hs
      simp only at hst h1 h2 h3
      cases hst with
      | @ok ev p p' hn =>
        refine ⟨fun h => ?_, fun h => ?_, fun h => ?_⟩
        · cases h
        · rcases List.mem_append.1 h with h | h
          · exact absurd h hend
          · simp only [List.mem_singleton, AEv.ok.injEq] at h
            subst h
            simp only [Proc.next] at hn
            split at hn
            · simp only [Proc.destroyReactor, socket_destroyed_first] at hn
              cases hn
              rfl
            · cases hn
        · rcases next_leaving hn h with rfl | h
          · simp
          · exact List.mem_append_left _ (h3 h)
      | recv hp h =>
        refine ⟨fun h => ?_, fun h => ?_, fun h => List.mem_append_left _ (h3 h)⟩
        · cases h
        · exact absurd (by simpa using h) hend
      | send hp h =>
        refine ⟨fun h => ?_, fun h => ?_, fun h => List.mem_append_left _ (h3 h)⟩
        · cases h
        · exact absurd (by simpa using h) hend
      | poll hp =>
        refine ⟨fun h => ?_, fun h => rfl, fun h => List.mem_append_left _ (h3 (h.imp id ?_))⟩
        · cases h
        · intro h; cases h
      | post hp ht hk =>
        refine ⟨fun h => ?_, fun h => rfl, fun h => List.mem_append_left _ (h3 (h.imp id ?_))⟩
        · cases h
        · intro h; cases h
      | abort h hp hu =>
        refine ⟨fun _ => hp, fun hm => ?_, fun h => List.mem_append_left _ (h3 h)⟩
        rcases List.mem_append.1 hm with hm | hm
        · exact absurd hm hend
        · obtain rfl := List.mem_singleton.1 hm
          rcases h with h | h | h <;> cases h
  obtain ⟨k1, k2, k3⟩ := key
  refine ⟨?_, fun ev hev => ?_, fun hm => ?_, k3 (.inr (by rw [h]; rfl))⟩
  · obtain ⟨s0, -, h4⟩ := hr.tail
    rw [h] at h4
    generalize x.1.sys = s at h4
    cases h4 with
    | tail h4 =>
      cases h4 with
      | live h => rcases h with h | ⟨b, h⟩ | h <;> cases h
      | stopped h =>
        rcases h with h | h
        · cases h
        · cases h; rfl
  · cases hu : Spec.isUncaught ev with
    | false => rfl
    | true =>
      exfalso
      obtain ⟨a, b, -, -⟩ := C102_uncaught hr hev hu
      have : x.1.phase = .undefined ∨ x.2 = .aborted := by
        cases ev with
        | ok | recvFails | sendFails => cases hu
        | pollFails => exact .inl (a (.inl rfl))
        | postFails n => exact .inl (a (.inr ⟨n, rfl⟩))
        | stopFails => exact .inr (b (.inl rfl))
        | connectFails => exact .inr (b (.inr (.inl rfl)))
        | threadFails => exact .inr (b (.inr (.inr rfl)))
      rcases this with h' | h'
      · rw [h] at h'; cases h'
      · exact k1 h' _ h
  · have := k2 hm
    rw [h] at this
    cases this

/-- **C102, the handler (partial).** Whatever calls fail, what the broker handler does is a history of
    the handler, and what `send_message` is done with is the beginning of what is emitted in it. -/
theorem C102_history_partial {cfg : HConfig} {env : Env} {e : SysEnv} {evs : List AEv}
    {x : Proc Q × Fate} (hr : ARun cfg env e evs x) :
    ∃ (hist : List (Tr Q)) (last : List Msg), Run cfg env hist x.1.sys.h ∧
      hist.map (·.msg) = x.1.sys.calls ∧ x.1.sys.routed <+: emitted hist ++ last := by
  obtain ⟨fevs, s, h1, h2, -, -⟩ := C102_before_partial hr
  obtain ⟨hist, last, h3, h4, h5, -⟩ := C93_history_partial h1
  refine ⟨hist, last, h2.h ▸ h3, h2.calls ▸ h4, ?_⟩
  rw [h2.routed, ← h5, h1.inv.split]
  exact List.prefix_append _ _

/-- **C102, the clients (partial).** Whatever calls fail, as long as no `send` on a registered socket
    fails in the middle of a message, the clients have got what was emitted for them, intact and in
    order, except for messages whose first `send` failed and for what was not sent any more. -/
theorem C102_clients_partial {cfg : HConfig} {env : Env} {e : SysEnv} {evs : List AEv}
    {x : Proc Q × Fate} (hr : ARun cfg env e evs x) (h : ∀ n, AEv.sendFails (n + 1) ∉ evs) :
    ∃ (hist : List (Tr Q)) (last : List Msg), Run cfg env hist x.1.sys.h ∧
      hist.map (·.msg) = x.1.sys.calls ∧
      (x.1.sys.socks "clients").sent.Sublist (Spec.addressed "clients" (emitted hist ++ last)) ∧
      (x.1.sys.socks "clients").cur = none := by
  obtain ⟨fevs, s, h1, h2, -, h6⟩ := C102_before_partial hr
  obtain ⟨hist, last, h3, h4, h5, -⟩ := C93_history_partial h1
  refine ⟨hist, last, h2.h ▸ h3, h2.calls ▸ h4, ?_⟩
  rw [h2.socks, ← h5]
  refine C94_clients_partial h1 fun ev hev => ?_
  cases ev with
  | ok | recvFails => rfl
  | sendFails n =>
    cases n with
    | zero => rfl
    | succ n => exact absurd (h6 _ hev) (h n)

/-- **C102, without failures.** The executions in which no call fails are those of the process without
    failures. -/
theorem C102_no_failures {cfg : HConfig} {env : Env} {e : SysEnv} {evs : List PEv}
    {x : Proc Q × Fate} : ARun cfg env e (evs.map .ok) x ↔ PRun cfg env e evs x.1 ∧ x.2 = .alive := by
  constructor
  · intro h
    generalize hl : evs.map AEv.ok = l at h
    induction h generalizing evs with
    | nil =>
      cases evs with
      | nil => exact ⟨.nil, rfl⟩
      | cons => cases hl
    | @snoc l x x' ev hr hs ih =>
      rcases List.eq_nil_or_concat evs with rfl | ⟨evs', y, rfl⟩
      · simp at hl
      · rw [List.concat_eq_append, List.map_append, List.map_singleton] at hl
        obtain ⟨h1, h2⟩ := List.append_inj' hl rfl
        obtain rfl := List.singleton_inj.1 h2
        obtain ⟨a, b⟩ := ih h1
        obtain ⟨-, hst⟩ := anext_cases hs
        rw [List.concat_eq_append]
        cases hst with
        | ok h => exact ⟨.snoc a h, rfl⟩
        | abort h => rcases h with h | h | h <;> cases h
  · rintro ⟨h, hf⟩
    obtain ⟨p, fate⟩ := x
    have hf : fate = .alive := hf
    subst hf
    replace h : PRun cfg env e evs p := h
    clear hf
    induction h with
    | nil => exact .nil
    | @snoc evs p p' ev hr hs ih =>
      rw [List.map_append]
      refine .snoc (ev := .ok ev) ih ?_
      simp [Proc.anext, hs]

/-- The hypotheses of `C102_uncaught` and `C102_post_partial` can be met; the worker has done the job,
    and the frontend is not told. -/
example : ∃ x : Proc Single × Fate, ARun cfg0 env0 senv0 postFailsEvs x ∧
    (decide (x.1.phase = .undefined) && decide (x.1.sys.posted = []) &&
      decide (("w", ["eval", "J", "x"]) ∈ (x.1.sys.socks "workers").sent)) = true :=
  exists_arun _ _ (by decide +kernel)

/-- An execution that ends with status 0 although calls on the registered sockets fail, for
    `C102_status`, `C102_before_partial`, `C102_history_partial` and `C102_clients_partial`. -/
example : ∃ x : Proc Multi × Fate, ARun cfg0 env0 senv0
    [.ok (.sys .connect), .ok (.enter true), .ok .check, .ok (.sys (.arrive "clients" "a" ["freeze"])),
     .ok (.sys (.arrive "clients" "b" ["unfreeze"])), .ok (.sys (.poll 0 0)), .ok (.sys .main),
     .sendFails 0, .ok (.sys .main), .ok .check, .ok (.sys (.poll 0 0)), .ok (.sys .main),
     .ok (.sys .main), .ok (.sys .main), .ok .terminate, .ok .check, .ok (.sys (.take fun _ => true)),
     .ok .joined] x ∧
    (decide (x.1.phase = .done ⟨0, []⟩) && decide ((x.1.sys.socks "clients").sent = [("b", ["ack"])]))
      = true :=
  exists_arun _ _ (by decide +kernel)

end Broker
