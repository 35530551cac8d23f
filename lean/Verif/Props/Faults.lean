import Verif.Proof.Faults
import Verif.Props.Reactor
import Verif.Props.Robustness
import Verif.Props.Process

/-!
# Failing ZeroMQ calls (C93, C94, C95)
-/

set_option linter.unusedSectionVars false

namespace Broker

variable {Q : Type} [QueueManager Q]

/-! ## C93 -/

/-- The worker `w1` evaluates a job; the worker `w2` reports progress with too many frames, and a
    `recv` fails after three of them. -/
def forgeryEvs : List FEv :=
  [.ok (.arrive "workers" "w1" ["init", "group"]), .ok (.poll 0 0), .ok .main, .ok .main,
   .ok (.arrive "clients" "c" ["eval", "job", ""]), .ok (.poll 0 0), .ok .main, .ok .main, .ok .main,
   .ok .main, .ok .main,
   .ok (.arrive "workers" "w2" ["progress", "job", "w1", "done", "job", "OK"]),
   .ok (.poll 0 0), .recvFails 3, .ok .main, .ok .main, .ok (.poll 0 0), .ok .main]

/-- The frontend is told that the job is done, and `w1` has sent nothing but its `init`. -/
def forged (s : Sys Q) : Bool :=
  decide (⟨"status_notifier", "", ["type", "job-status", "id", "job", "status", "OK"]⟩ ∈ s.emitted) &&
  decide (⟨"workers", "w1", ["done", "job", "OK"]⟩ ∈ s.handled) &&
  decide (("workers", "w1", ["done", "job", "OK"]) ∉ s.arrived) &&
  decide (∀ x ∈ s.arrived, x.1 = "workers" → x.2.1 = "w1" → x.2.2 = ["init", "group"])

theorem forged_not_arrived {s : Sys Q} (h : forged s = true) : ¬ Spec.OnlyArrivals "workers" s := by
  simp only [forged, Bool.and_eq_true, decide_eq_true_eq] at h
  intro H
  exact h.1.2 (H _ h.1.1.2 rfl)

/-- **C93 is false, multi-queue manager**: when a `recv` fails in the middle of a message, its frames
    are handed to the broker as two messages.  The second one is attributed to the worker named by
    a frame of the first, so that a job counts as done although its worker has said nothing. -/
theorem C93_refuted_multi : ¬ ∀ (evs : List FEv) (s : Sys Multi), FRun cfg0 env0 senv0 evs s →
    Spec.OnlyArrivals "workers" s := by
  intro H
  obtain ⟨s, hr, hp⟩ := exists_frun (Q := Multi) (cfg := cfg0) (env := env0) (e := senv0) forgeryEvs
    forged (by decide +kernel)
  exact forged_not_arrived hp (H _ _ hr)

/-- **C93 is false, single-queue manager.** -/
theorem C93_refuted_single : ¬ ∀ (evs : List FEv) (s : Sys Single), FRun cfg0 env0 senv0 evs s →
    Spec.OnlyArrivals "workers" s := by
  intro H
  obtain ⟨s, hr, hp⟩ := exists_frun (Q := Single) (cfg := cfg0) (env := env0) (e := senv0) forgeryEvs
    forged (by decide +kernel)
  exact forged_not_arrived hp (H _ _ hr)

/-- **C93, no failing `recv` (partial).** As long as no `recv` has failed, every message from a socket
    that is handed to the handlers arrived there as such.  Missing: executions in which a `recv`
    fails, see `C93_refuted_multi`. -/
theorem C93_whole_partial {cfg : HConfig} {env : Env} {e : SysEnv} {evs : List FEv} {s : Sys Q}
    (hr : FRun cfg env e evs s) (h : ∀ ev ∈ evs, Spec.isRecvFailure ev = false) {k : String}
    (hk : k ≠ "timer") : Spec.OnlyArrivals k s := (hr.whole hk h).handed

/-- **C93, frames (partial).** Whatever calls of `recv` fail, no frame is lost, invented or moved: up
    to empty messages handed over (nothing could be read), the frames handed over from a socket and
    the frames still waiting there are, in order, the frames that arrived.  Missing: where one
    message ends and the next one starts. -/
theorem C93_frames_partial {cfg : HConfig} {env : Env} {e : SysEnv} {evs : List FEv} {s : Sys Q}
    (hr : FRun cfg env e evs s) {k : String} (hk : k ≠ "timer") :
    ∃ ps : List (String × List String), ps.Sublist (Spec.addressed k s.handled) ∧
      ps.filter (· ≠ ("", [])) = (Spec.addressed k s.handled).filter (· ≠ ("", [])) ∧
      Spec.frames ps ++ Spec.frames (s.inbox k) = Spec.frames (Spec.received k s) := hr.frames hk

/-- **C93, pieces (partial).** Whatever calls of `recv` fail, a message from a socket that is handed
    to the handlers consists of consecutive frames of one message that arrived there, or of
    nothing; frames of two messages are never mixed. -/
theorem C93_pieces_partial {cfg : HConfig} {env : Env} {e : SysEnv} {evs : List FEv} {s : Sys Q}
    (hr : FRun cfg env e evs s) {m : Msg} (hm : m ∈ s.handled) (hk : m.key ≠ "timer") :
    Spec.Piece m.key s (m.identity :: m.data) := (hr.pieces hk).pieces m hm rfl

/-- **C93, the handler (partial).** Whatever calls fail, what the broker handler does is a history of
    the handler: the calls that returned, and what was emitted by them and by one that did not.  So
    everything proved about all histories holds. -/
theorem C93_history_partial {cfg : HConfig} {env : Env} {e : SysEnv} {evs : List FEv} {s : Sys Q}
    (hr : FRun cfg env e evs s) : ∃ (hist : List (Tr Q)) (last : List Msg), Run cfg env hist s.h ∧
      hist.map (·.msg) = s.calls ∧ s.emitted = emitted hist ++ last ∧
      ((∀ err, s.pc ≠ .halt err) → last = []) := by
  obtain ⟨hist, last, h1, h2, h3, h4⟩ := hr.refines
  refine ⟨hist, last, h1, h2, h3, fun hn => ?_⟩
  rcases h4 with ⟨_, h, _⟩ | ⟨err, _, _, h, _⟩
  · exact h
  · exact absurd h (hn err)

/-- **C93, messages without content.** If a message of a worker or a client that consists of nothing
    but the identity, or of nothing, is handed to the broker, that is its end.  A failing `recv`
    brings this about when it is one of the first two for a message, or the last one. -/
theorem C93_ends [LawfulQM Q] {cfg : HConfig} {env : Env} {e : SysEnv} {evs : List FEv} {s : Sys Q}
    (hr : FRun cfg env e evs s) {m : Msg} (hm : m ∈ s.handled)
    (hk : m.key = "workers" ∨ m.key = "clients") (hd : m.data = []) :
    Spec.EndedBy .outOfRange s := by
  have hmon : (m.key != keyMonitor) = true := by rcases hk with h | h <;> rw [h] <;> decide
  have hm' : m ∈ s.handled.filter (fun m => m.key != keyMonitor) := List.mem_filter.2 ⟨hm, hmon⟩
  obtain ⟨hist, last, h1, h2, h3, h4⟩ := hr.refines
  have hno : m ∉ s.calls := by
    intro hc
    rw [← h2] at hc
    obtain ⟨t, ht, rfl⟩ := List.mem_map.1 hc
    obtain ⟨l1, l2, rfl⟩ := List.append_of_mem ht
    obtain ⟨hs, hst, -⟩ := Run.prefix h1
    obtain ⟨x, hx⟩ := C20_empty_message_crashes hs hk hd
    rw [hst] at hx
    cases hx
  rcases h4 with ⟨_, _, h⟩ | ⟨err, m', h', hp, hst, _, h⟩
  · rw [← h] at hm'
    exact absurd hm' hno
  · rw [← h] at hm'
    rcases List.mem_append.1 hm' with hc | hc
    · exact absurd hc hno
    · obtain rfl := List.mem_singleton.1 hc
      obtain ⟨x, hx⟩ := C20_empty_message_crashes h1 hk hd
      rw [hst] at hx
      cases hx
      exact hp

/-- **C93, without failures.** The executions in which no call fails are those of the process without
    failures. -/
theorem C93_no_failures {cfg : HConfig} {env : Env} {e : SysEnv} {evs : List SysEv} {s : Sys Q} :
    FRun cfg env e (evs.map .ok) s ↔ SRun cfg env e evs s :=
  ⟨fun h => h.all_ok rfl, fun h => h.with_failures⟩

/-- The hypotheses of these theorems can be met, with a failing `recv`. -/
example : ∃ s : Sys Multi, FRun cfg0 env0 senv0 forgeryEvs s ∧ forged s = true :=
  exists_frun forgeryEvs forged (by decide +kernel)

/-- The second `recv` for a message fails. -/
def nothingEvs : List FEv :=
  [.ok (.arrive "clients" "c" ["freeze"]), .ok (.poll 0 0), .recvFails 1]

/-- The hypotheses of `C93_ends` can be met. -/
example : ∃ s : Sys Single, FRun cfg0 env0 senv0 nothingEvs s ∧
    decide (⟨"clients", "c", []⟩ ∈ s.handled) = true :=
  exists_frun nothingEvs _ (by decide +kernel)

/-! ## C94 -/

/-- Two clients send commands; the answer to the first is given up after the identity frame. -/
def misdeliveryEvs : List FEv :=
  [.ok (.arrive "clients" "a" ["freeze"]), .ok (.arrive "clients" "b" ["unfreeze"]),
   .ok (.poll 0 0), .ok .main, .sendFails 1, .ok .main, .ok (.poll 0 0), .ok .main, .ok .main]

/-- The answer to client `b` went to client `a`. -/
def misdelivered (s : Sys Q) : Bool :=
  decide (s.emitted = [⟨"clients", "a", ["ack"]⟩, ⟨"clients", "b", ["ack"]⟩]) &&
  decide ((s.socks "clients").sent = [("a", ["b", "ack"])])

/-- **C94 is false, multi-queue manager**: when a `send` fails in the middle of a message, the next
    message on the same socket is appended to it and goes to the wrong peer. -/
theorem C94_refuted_multi : ¬ ∀ (evs : List FEv) (s : Sys Multi), FRun cfg0 env0 senv0 evs s →
    (s.socks "clients").sent.Sublist (Spec.addressed "clients" s.emitted) := by
  intro H
  obtain ⟨s, hr, hp⟩ := exists_frun (Q := Multi) (cfg := cfg0) (env := env0) (e := senv0)
    misdeliveryEvs misdelivered (by decide +kernel)
  simp only [misdelivered, Bool.and_eq_true, decide_eq_true_eq] at hp
  have := H _ _ hr
  rw [hp.1, hp.2] at this
  revert this
  decide

/-- **C94 is false, single-queue manager.** -/
theorem C94_refuted_single : ¬ ∀ (evs : List FEv) (s : Sys Single), FRun cfg0 env0 senv0 evs s →
    (s.socks "clients").sent.Sublist (Spec.addressed "clients" s.emitted) := by
  intro H
  obtain ⟨s, hr, hp⟩ := exists_frun (Q := Single) (cfg := cfg0) (env := env0) (e := senv0)
    misdeliveryEvs misdelivered (by decide +kernel)
  simp only [misdelivered, Bool.and_eq_true, decide_eq_true_eq] at hp
  have := H _ _ hr
  rw [hp.1, hp.2] at this
  revert this
  decide

/-- **C94, first frame (partial).** If a `send` fails only for the first frame of a message, the
    message is not sent at all and the others are sent to the right client, intact and in order.
    Missing: failures in the middle of a message, see `C94_refuted_multi` and `C94_swallowed`. -/
theorem C94_clients_partial {cfg : HConfig} {env : Env} {e : SysEnv} {evs : List FEv} {s : Sys Q}
    (hr : FRun cfg env e evs s) (h : ∀ ev ∈ evs, Spec.isMidSendFailure ev = false) :
    (s.socks "clients").sent.Sublist (Spec.addressed "clients" s.emitted) ∧
      (s.socks "clients").cur = none := by
  obtain ⟨h1, h2⟩ := hr.sent (k := "clients") (by rw [broker_order]; decide) h (by
    intro o ho hk
    rcases hr.inv.shapes o ho with h | h | h | h
    · exact absurd (hk.symm.trans h) (by decide)
    · exact h.2
    · exact absurd (hk.symm.trans h.1) (by decide)
    · exact absurd (hk.symm.trans h.1) (by decide))
  refine ⟨h2.trans ?_, h1⟩
  rw [hr.inv.split]
  unfold Spec.addressed
  rw [List.filter_append, List.map_append]
  exact List.sublist_append_left _ _

/-- **C94, workers and monitor (partial).** The same for every socket nothing without frames is sent
    on (C31 says when that can happen). -/
theorem C94_sockets_partial {cfg : HConfig} {env : Env} {e : SysEnv} {evs : List FEv} {s : Sys Q}
    (hr : FRun cfg env e evs s) (h : ∀ ev ∈ evs, Spec.isMidSendFailure ev = false) {k : String}
    (hk : k = "clients" ∨ k = "workers" ∨ k = "monitor")
    (hd : ∀ m ∈ s.emitted, m.key = k → m.data ≠ []) :
    (s.socks k).sent.Sublist (Spec.addressed k s.emitted) ∧ (s.socks k).cur = none := by
  obtain ⟨h1, h2⟩ := hr.sent (k := k) (by rw [broker_order]; simp; tauto) h hd
  refine ⟨h2.trans ?_, h1⟩
  rw [hr.inv.split]
  unfold Spec.addressed
  rw [List.filter_append, List.map_append]
  exact List.sublist_append_left _ _

/-- **C94, one message (partial).** After a message that is given up after the identity and `n` frames,
    exactly the next message on this socket is swallowed: its identity and its frames are appended
    to those sent before and go to the peer of the first one.  Then the socket is as it should be. -/
theorem C94_swallowed_partial {r : Router} (hr : r.cur = none) {m m' : Msg} {n : Nat}
    (hn : n < m.data.length) (hd : m'.data ≠ []) :
    (r.sendFails (n + 1) m).sendMessage m' =
      ⟨none, r.sent ++ [(m.identity, m.data.take n ++ m'.identity :: m'.data)]⟩ := by
  rw [sendFails_succ hr hn]
  exact sendMessage_open rfl hd

/-- The hypotheses of `C94_swallowed_partial` can be met. -/
example : (Router.fresh.sendFails (1 + 1) ⟨"workers", "w", ["eval", "job", "x"]⟩).sendMessage
    ⟨"workers", "v", ["eval", "job2", "y"]⟩ = ⟨none, [("w", ["eval", "v", "eval", "job2", "y"])]⟩ :=
  C94_swallowed_partial rfl (by decide) (by decide)

/-- **C94, the broker.** Failures of `send` have no influence on anything but what is sent: replacing
    them by successful sends gives an execution in which all else is the same. -/
theorem C94_handler {cfg : HConfig} {env : Env} {e : SysEnv} {evs : List FEv} {s : Sys Q}
    (hr : FRun cfg env e evs s) : ∃ s' : Sys Q, FRun cfg env e (evs.map Spec.sendsAfterAll) s' ∧
      Spec.SameButSent s s' := hr.sends_after_all

/-- The hypotheses can be met, with a `send` that fails for the first frame. -/
example : ∃ s : Sys Multi, FRun cfg0 env0 senv0
      [.ok (.arrive "clients" "a" ["freeze"]), .ok (.arrive "clients" "b" ["unfreeze"]),
       .ok (.poll 0 0), .ok .main, .sendFails 0, .ok .main, .ok (.poll 0 0), .ok .main, .ok .main] s ∧
    decide ((s.socks "clients").sent = [("b", ["ack"])]) = true :=
  exists_frun _ _ (by decide +kernel)

/-! ## C95 -/

/-- The broker waits for messages and `zmq::poll` fails. -/
def pollFailsEvs : List WEv := [.ok (.enter true), .ok .check, .pollFails]

/-- The notifier thread waits for notifications and `recv` fails. -/
def waitFailsEvs : List WEv := [.ok (.sys .connect), .ok (.enter true), .ok .check, .waitFails]

/-- **C95 is false, multi-queue manager**: a broker whose waiting is interrupted does not go on. -/
theorem C95_refuted_multi :
    (¬ ∀ (evs : List WEv) (x : Proc Multi × Fate), WRun cfg0 env0 senv0 evs x →
      WEv.pollFails ∈ evs → x.1.phase ≠ .undefined) ∧
    (¬ ∀ (evs : List WEv) (x : Proc Multi × Fate), WRun cfg0 env0 senv0 evs x →
      WEv.waitFails ∈ evs → x.2 ≠ .aborted) := by
  refine ⟨fun H => ?_, fun H => ?_⟩
  · obtain ⟨x, hr, hp⟩ := exists_wrun (Q := Multi) (cfg := cfg0) (env := env0) (e := senv0)
      pollFailsEvs (fun x => decide (x.1.phase = .undefined)) (by decide +kernel)
    exact H _ _ hr (by simp [pollFailsEvs]) (by simpa using hp)
  · obtain ⟨x, hr, hp⟩ := exists_wrun (Q := Multi) (cfg := cfg0) (env := env0) (e := senv0)
      waitFailsEvs (fun x => decide (x.2 = .aborted)) (by decide +kernel)
    exact H _ _ hr (by simp [waitFailsEvs]) (by simpa using hp)

/-- **C95 is false, single-queue manager.** -/
theorem C95_refuted_single :
    (¬ ∀ (evs : List WEv) (x : Proc Single × Fate), WRun cfg0 env0 senv0 evs x →
      WEv.pollFails ∈ evs → x.1.phase ≠ .undefined) ∧
    (¬ ∀ (evs : List WEv) (x : Proc Single × Fate), WRun cfg0 env0 senv0 evs x →
      WEv.waitFails ∈ evs → x.2 ≠ .aborted) := by
  refine ⟨fun H => ?_, fun H => ?_⟩
  · obtain ⟨x, hr, hp⟩ := exists_wrun (Q := Single) (cfg := cfg0) (env := env0) (e := senv0)
      pollFailsEvs (fun x => decide (x.1.phase = .undefined)) (by decide +kernel)
    exact H _ _ hr (by simp [pollFailsEvs]) (by simpa using hp)
  · obtain ⟨x, hr, hp⟩ := exists_wrun (Q := Single) (cfg := cfg0) (env := env0) (e := senv0)
      waitFailsEvs (fun x => decide (x.2 = .aborted)) (by decide +kernel)
    exact H _ _ hr (by simp [waitFailsEvs]) (by simpa using hp)

/-- **C95, the loop.** When `zmq::poll` fails, it is undefined what happens, and the model ends. -/
theorem C95_poll {cfg : HConfig} {env : Env} {e : SysEnv} {evs : List WEv} {x : Proc Q × Fate}
    (hr : WRun cfg env e evs x) (h : WEv.pollFails ∈ evs) :
    x.1.phase = .undefined ∧ ∀ ev, Proc.wnext cfg env e ev x = none := by
  have dead : ∀ x : Proc Q × Fate, x.1.phase = .undefined →
      ∀ ev, Proc.wnext cfg env e ev x = none := by
    intro x hx ev
    obtain ⟨p, fate⟩ := x
    replace hx : p.phase = .undefined := hx
    cases fate with
    | aborted => rfl
    | alive =>
      cases ev with
      | ok ev => simp [Proc.wnext, undefined_next hx]
      | pollFails => simp only [Proc.wnext]; rw [hx]
      | waitFails => simp only [Proc.wnext]; rw [hx]
  have key : x.1.phase = .undefined := by
    induction hr with
    | nil => cases h
    | @snoc evs x x' ev hr hs ih =>
      rcases List.mem_append.1 h with h | h
      · rw [dead x (ih h) ev] at hs
        cases hs
      · obtain rfl := List.mem_singleton.1 h
        obtain ⟨p, fate⟩ := x
        cases fate with
        | aborted => cases hs
        | alive =>
          simp only [Proc.wnext] at hs
          split at hs
          · simp only [Proc.destroyReactor, socket_destroyed_first] at hs
            cases hs; rfl
          · cases hs
  exact ⟨key, dead x key⟩

/-- **C95, the notifier thread.** When the `recv` fails in which the notifier thread waits, the process
    is aborted. -/
theorem C95_wait {cfg : HConfig} {env : Env} {e : SysEnv} {evs : List WEv} {x : Proc Q × Fate}
    (hr : WRun cfg env e evs x) (h : WEv.waitFails ∈ evs) :
    x.2 = .aborted ∧ ∀ ev, Proc.wnext cfg env e ev x = none := by
  have dead : ∀ x : Proc Q × Fate, x.2 = .aborted → ∀ ev, Proc.wnext cfg env e ev x = none := by
    intro x hx ev
    obtain ⟨p, fate⟩ := x
    have hx : fate = .aborted := hx
    subst hx
    rfl
  have key : x.2 = .aborted := by
    induction hr with
    | nil => cases h
    | @snoc evs x x' ev hr hs ih =>
      rcases List.mem_append.1 h with h | h
      · rw [dead x (ih h) ev] at hs
        cases hs
      · obtain rfl := List.mem_singleton.1 h
        obtain ⟨p, fate⟩ := x
        cases fate with
        | aborted => cases hs
        | alive =>
          simp only [Proc.wnext] at hs
          split at hs
          · cases hs
          · cases hs
          · cases hs; rfl
          · cases hs
  exact ⟨key, dead x key⟩

/-- **C95, without failures (partial).** As long as no wait fails, the process behaves as it does in a
    world without failures.  Missing: everything after a failing wait, see `C95_poll` and
    `C95_wait`. -/
theorem C95_no_failures_partial {cfg : HConfig} {env : Env} {e : SysEnv} {evs : List PEv}
    {x : Proc Q × Fate} : WRun cfg env e (evs.map .ok) x ↔ PRun cfg env e evs x.1 ∧ x.2 = .alive := by
  constructor
  · intro h
    generalize hl : evs.map WEv.ok = l at h
    induction h generalizing evs with
    | nil =>
      cases evs with
      | nil => exact ⟨.nil, rfl⟩
      | cons => cases hl
    | @snoc l x x' ev hr hs ih =>
      rcases List.eq_nil_or_concat evs with rfl | ⟨evs', y, rfl⟩
      · simp at hl
      · rw [List.concat_eq_append, List.map_append, List.map_singleton] at hl
        obtain ⟨h1, h2⟩ := List.append_inj' hl rfl
        obtain rfl := List.singleton_inj.1 h2
        obtain ⟨a, b⟩ := ih h1
        obtain ⟨p, fate⟩ := x
        have b : fate = .alive := b
        subst b
        simp only [Proc.wnext, Option.map_eq_some_iff] at hs
        obtain ⟨p', hp, rfl⟩ := hs
        rw [List.concat_eq_append]
        exact ⟨.snoc a hp, rfl⟩
  · rintro ⟨h, hf⟩
    obtain ⟨p, fate⟩ := x
    have hf : fate = .alive := hf
    subst hf
    replace h : PRun cfg env e evs p := h
    clear hf
    induction h with
    | nil => exact .nil
    | @snoc evs p p' ev hr hs ih =>
      rw [List.map_append]
      refine .snoc (ev := .ok ev) ih ?_
      simp [Proc.wnext, hs]

/-- The hypotheses of these theorems can be met. -/
example : (∃ x : Proc Single × Fate, WRun cfg0 env0 senv0 pollFailsEvs x ∧
      decide (x.1.phase = .undefined) = true) ∧
    (∃ x : Proc Single × Fate, WRun cfg0 env0 senv0 waitFailsEvs x ∧
      decide (x.2 = .aborted) = true) :=
  ⟨exists_wrun _ _ (by decide +kernel), exists_wrun _ _ (by decide +kernel)⟩

end Broker
