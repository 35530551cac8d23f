import Verif.Proof.Delivery
import Verif.Proof.Parsing
import Verif.Spec.System
import Verif.Props.Queues

/-!
# The reactor: sockets, routing, the main loop (C31, C32, C33, C36, C49, C51)
-/

set_option linter.unusedSectionVars false

namespace Broker

variable {Q : Type} [QueueManager Q] [LawfulQM Q]

/-- A concrete environment of the process. -/
def senv0 : SysEnv := ⟨"uid", 1000, fun _ => false, ⟨"http://localhost", 8080, "", ""⟩⟩

/-! ## C31 -/

omit [LawfulQM Q] in
theorem intact_of_socket {s : Sys Q} {k : String} (hi : SInv s)
    (h : s.socks k = ⟨none, (msgsFor k s.routed).map (fun m => (m.identity, m.data))⟩) :
    Spec.Intact k s := by
  unfold Spec.Intact
  rw [h, hi.split]
  refine ⟨?_, rfl⟩
  simp [Spec.addressed, msgsFor]

/-- Messages the broker handled came in through a socket. -/
theorem SRun.handled_arrived {cfg : HConfig} {env : Env} {e : SysEnv} {evs : List SysEv} {s : Sys Q}
    (hr : SRun cfg env e evs s) {m : Msg} (hm : m ∈ s.handled) (hk : m.key ∈ brokerWiring.order) :
    (m.key, m.identity, m.data) ∈ s.arrived := by
  have h := hr.fifo hk
  have : (m.identity, m.data) ∈ arrivedOn m.key s.arrived := by
    rw [h]
    refine List.mem_append_left _ (List.mem_map.2 ⟨m, ?_, rfl⟩)
    simp [msgsFor, hm]
  obtain ⟨x, hx, he⟩ := List.mem_map.1 this
  obtain ⟨h1, h2⟩ := List.mem_filter.1 hx
  have h2 : x.1 = m.key := by simpa using h2
  have : x = (m.key, m.identity, m.data) := by rw [← h2, ← he]
  rw [← this]; exact h1

/-- **C31, clients.** Everything emitted for clients is sent to the client it is for, intact. -/
theorem C31_clients {cfg : HConfig} {env : Env} {e : SysEnv} {evs : List SysEv} {s : Sys Q}
    (hr : SRun cfg env e evs s) : Spec.Intact "clients" s := by
  refine intact_of_socket hr.inv (hr.socket (by rw [broker_order]; decide) ?_)
  intro o ho hk
  rcases hr.inv.shapes o ho with h | h | h | h
  · exact absurd (hk.symm.trans h) (by decide)
  · exact h.2
  · exact absurd (hk.symm.trans h.1) (by decide)
  · exact absurd (hk.symm.trans h.1) (by decide)

/-- **C31, workers, multi-queue manager.** Everything emitted for workers is sent to the worker it is
    for, intact. -/
theorem C31_workers_multi {cfg : HConfig} {env : Env} {e : SysEnv} {evs : List SysEv} {s : Sys Multi}
    (hr : SRun cfg env e evs s) : Spec.Intact "workers" s := by
  refine intact_of_socket hr.inv (hr.socket (by rw [broker_order]; decide) ?_)
  intro o ho hk hd
  obtain ⟨h1, h2, t, hrun, hot, _, j, hj⟩ := hr.empty_workers ho hk hd
  exact C44_silent_multi_partial hrun hj o hot hk

/-- **C31, workers (partial).** For any queue manager everything emitted for workers is sent intact,
    if no worker announces a job it is already processing.  Missing: with the single-queue manager
    such an announcement breaks the framing, see `C31_refuted_workers_single`. -/
theorem C31_workers_partial {cfg : HConfig} {env : Env} {e : SysEnv} {evs : List SysEv} {s : Sys Q}
    (hr : SRun cfg env e evs s)
    (hno : ∀ i d, ("workers", i, d) ∈ s.arrived → d.head? = some "init" → Spec.currentJob d = none) :
    Spec.Intact "workers" s := by
  refine intact_of_socket hr.inv (hr.socket (by rw [broker_order]; decide) ?_)
  intro o ho hk hd
  obtain ⟨h1, h2, t, hrun, hot, hm, j, hj⟩ := hr.empty_workers ho hk hd
  simp only [Spec.adopts, Bool.and_eq_true, beq_iff_eq, decide_eq_true_eq] at hj
  obtain ⟨⟨⟨hk', hd'⟩, _⟩, hc⟩ := hj
  have ha := hr.handled_arrived hm (by rw [hk', broker_order]; decide)
  rw [hk'] at ha
  rw [hno _ _ ha hd'] at hc
  cases hc

/-- **C31, monitor (partial).** Everything emitted for the monitor is sent intact, if no worker sends
    a `progress` message without frames to pass on.  Missing: such a message breaks the framing, see
    `C31_refuted_monitor`. -/
theorem C31_monitor_partial {cfg : HConfig} {env : Env} {e : SysEnv} {evs : List SysEv} {s : Sys Q}
    (hr : SRun cfg env e evs s) (hno : ∀ i, ("workers", i, ["progress"]) ∉ s.arrived) :
    Spec.Intact "monitor" s := by
  refine intact_of_socket hr.inv (hr.socket (by rw [broker_order]; decide) ?_)
  intro o ho hk hd
  obtain ⟨m, hm, hb⟩ := hr.empty_monitor ho hk hd
  have ha := hr.handled_arrived hm (by rw [hb.1, broker_order]; decide)
  rw [hb.1, hb.2] at ha
  exact hno _ ha

/-- A worker registers and a client submits a job. -/
def submitEvs : List SysEv :=
  [.connect, .arrive "workers" "w1" ["init", "group", "env=c"], .poll 0 100000000, .main, .main,
   .arrive "clients" "c1" ["eval", "J1", "env=c", "", "x"], .poll 100000000 200000000,
   .main, .main, .main, .main, .main]

/-- The hypotheses of the theorems above can be met; the worker gets its job and the client its
    replies. -/
example : ∃ s : Sys Multi, SRun cfg0 env0 senv0 submitEvs s ∧
    (decide ((s.socks "workers").sent = [("w1", ["eval", "J1", "x"])]) &&
      decide ((s.socks "clients").sent = [("c1", ["ack"]), ("c1", ["accept"])]) &&
      decide (s.todo = []) &&
      s.arrived.all (fun x => x.2.2 != ["progress"] && Spec.currentJob x.2.2 == none)) = true :=
  exists_srun _ _ (by decide +kernel)

/-- With the single-queue manager: `w1` registers while processing a job and the message without
    frames it is sent leaves the socket in the middle of a message. -/
def mergeEvs : List SysEv :=
  [.arrive "workers" "w1" ["init", "group", "env=c", "", "current_job=J"], .poll 0 0, .main, .main,
   .main, .arrive "workers" "w2" ["ping"], .poll 0 0, .main, .main, .main]

/-- **C31 is false for workers with the single-queue manager**: the answer to the `ping` of `w2` goes
    to `w1`, with the identity of `w2` as first frame. -/
theorem C31_refuted_workers_single : ¬ ∀ (evs : List SysEv) (s : Sys Single),
    SRun cfg0 env0 senv0 evs s → Spec.Intact "workers" s := by
  intro H
  obtain ⟨s, hr, hp⟩ := exists_srun (Q := Single) (cfg := cfg0) (env := env0) (e := senv0) mergeEvs
    (fun s => decide ((s.socks "workers").sent = [("w1", ["w2", "intro"])]) &&
      decide (s.todo = []) &&
      decide (Spec.addressed "workers" s.emitted = [("w1", []), ("w2", ["intro"])]))
    (by decide +kernel)
  simp only [Bool.and_eq_true, decide_eq_true_eq] at hp
  obtain ⟨⟨h1, h2⟩, h3⟩ := hp
  obtain ⟨h, -⟩ := H _ _ hr
  rw [h1, h2, h3] at h
  exact absurd h (by decide)

/-- A bare `progress`, then a real one. -/
def bareEvs : List SysEv :=
  [.arrive "workers" "w1" ["progress"], .poll 0 0, .main, .main, .main,
   .arrive "workers" "w1" ["progress", "J1", "TASK"], .poll 0 0, .main, .main, .main]

/-- **C31 is false for the monitor**: a bare `progress` message corrupts the next message for the
    monitor. -/
theorem C31_refuted_monitor : ¬ ∀ (evs : List SysEv) (s : Sys Multi),
    SRun cfg0 env0 senv0 evs s → Spec.Intact "monitor" s := by
  intro H
  obtain ⟨s, hr, hp⟩ := exists_srun (Q := Multi) (cfg := cfg0) (env := env0) (e := senv0) bareEvs
    (fun s => decide ((s.socks "monitor").sent =
        [("recodex-monitor", ["recodex-monitor", "J1", "TASK"])]) && decide (s.todo = []) &&
      decide (Spec.addressed "monitor" s.emitted =
        [("recodex-monitor", []), ("recodex-monitor", ["J1", "TASK"])]))
    (by decide +kernel)
  simp only [Bool.and_eq_true, decide_eq_true_eq] at hp
  obtain ⟨⟨h1, h2⟩, h3⟩ := hp
  obtain ⟨h, -⟩ := H _ _ hr
  rw [h1, h2, h3] at h
  exact absurd h (by decide)

/-! ## C32 -/

/-- **C32, to the handler thread.** Passing a message to the asynchronous handler makes exactly one
    message for it on the in-process socket, from which the handler thread reads back key, identity
    and frames, and nothing else. -/
theorem C32_roundtrip (uid : String) (m : Msg) (hk : m.key ≠ "TERMINATE") (hd : m.data ≠ [])
    (r : Router) (hr : r.cur = none) : ∃ fs,
    r.sendAll (asyncFrames uid m) = ⟨none, r.sent ++ [(uid, fs)]⟩ ∧
      ∀ more, threadTurn (recvFrames fs ++ more) = some (.request m, more) :=
  ⟨_, sendAll_async hd hr uid, fun more => threadTurn_frames hk more⟩

/-- **C32, from the handler thread.** The message an asynchronous handler answers is read back by the
    reactor with the same key, identity and frames (the `ROUTER` socket puts the identity of the
    thread in front). -/
theorem C32_response (uid : String) (m : Msg) (hd : m.data ≠ []) (more : List (String × Bool)) :
    responseFrames m = recvFrames (m.key :: m.identity :: m.data) ∧
      recvAsync ((uid, true) :: responseFrames m ++ more) = some (m, more) := by
  obtain ⟨k, i, d⟩ := m
  cases d with
  | nil => exact absurd rfl hd
  | cons f t =>
    refine ⟨rfl, ?_⟩
    simp only [responseFrames, List.cons_append, recvAsync]
    rw [recvMore_data _ (by simp)]

/-- Without data frames the message stays open, and the next one is appended to it. -/
theorem C32_refuted_empty : ¬ ∀ (uid : String) (m : Msg), m.key ≠ "TERMINATE" → ∀ r : Router,
    r.cur = none → ∃ fs, r.sendAll (asyncFrames uid m) = ⟨none, r.sent ++ [(uid, fs)]⟩ := by
  intro H
  obtain ⟨fs, h⟩ := H "u" ⟨"k", "", []⟩ (by decide) Router.fresh rfl
  simp [asyncFrames, dataFrames, Router.sendAll, Router.send, Router.fresh] at h

/-- With the key `TERMINATE` the thread stops. -/
example : threadTurn (recvFrames ["TERMINATE", "", "x"]) = some (.stop, [("", true), ("x", false)]) := by
  decide

/-- A message that meets the hypotheses, with an empty frame and a frame that looks like the
    termination message. -/
example : (Router.fresh.sendAll (asyncFrames "u" ⟨"status_notifier", "", ["", "TERMINATE"]⟩)).sent =
    [("u", ["status_notifier", "", "", "TERMINATE"])] ∧
    threadTurn (recvFrames ["status_notifier", "", "", "TERMINATE"]) =
      some (.request ⟨"status_notifier", "", ["", "TERMINATE"]⟩, []) := by decide

/-! ## C33 -/

/-- **C33 (partial).** Whatever the interleaving, the notifier handles notifications that were emitted,
    each once and in the order of emission.  Missing: some may be lost, see `C33_refuted`. -/
theorem C33_order_partial {cfg : HConfig} {env : Env} {e : SysEnv} {evs : List SysEv} {s : Sys Q}
    (hr : SRun cfg env e evs s) :
    (s.notified.map (·.1)).Sublist (Spec.notifications s.emitted) := by
  obtain ⟨hp, rest, h1, h2, h3, h4⟩ := hr.pipeline
  have : (s.notified.map (·.1)).Sublist s.posted := (List.sublist_append_left _ _).trans h2
  refine this.trans ?_
  rw [hp, hr.inv.split]
  exact (List.sublist_append_left _ _).filter _

omit [LawfulQM Q] in
theorem lost_nil {cfg : HConfig} {env : Env} {e : SysEnv} {evs : List SysEv} {s : Sys Q}
    (hr : SRun cfg env e evs s) : Spec.Unhurried (Q := Q) cfg env e evs → s.lost = [] := by
  refine SRun.induct (P := fun evs s => Spec.Unhurried (Q := Q) cfg env e evs → s.lost = [])
    (fun _ => rfl) ?_ hr
  intro evs s ev s' hr ih hi hst hu
  have ih := ih (fun evs1 evs2 s1 h hr1 => hu evs1 (evs2 ++ [ev]) s1 (by rw [h]; simp) hr1)
  cases hst with
  | arrive => exact ih
  | poll => exact ih
  | sock => exact ih
  | @post m t ht hm =>
    obtain ⟨h1, h2⟩ := hu evs [] s rfl hr m t ht hm
    have hn : (Sys.drops e { s with todo := t, routed := s.routed ++ [m] }) = false := by
      simp only [Sys.drops, Bool.or_eq_false_iff, Bool.and_eq_false_iff]
      refine ⟨by simpa using h1, .inl ?_⟩
      simp only [decide_eq_false_iff_not, Nat.not_le]
      exact h2
    unfold Sys.post
    rw [hn]
    exact ih
  | idle ht h => cases h <;> exact ih
  | handle ht h => cases h <;> exact ih
  | fail ht h => cases h <;> exact ih
  | connect => exact ih
  | take => exact ih

/-- **C33 (partial), lossless case.** If the notifier thread is connected and the pipe has room
    whenever a notification is passed on, then the notifications handled are a prefix of those
    emitted, and what is missing is on its way. -/
theorem C33_prefix_partial {cfg : HConfig} {env : Env} {e : SysEnv} {evs : List SysEv} {s : Sys Q}
    (hr : SRun cfg env e evs s) (hu : Spec.Unhurried (Q := Q) cfg env e evs) :
    ∃ rest, s.notified.map (·.1) ++ rest ++ Spec.notifications s.todo =
      Spec.notifications s.emitted ∧ s.pipe = rest.map (fun m => m.key :: m.identity :: m.data) := by
  obtain ⟨hp, rest, h1, h2, h3, h4⟩ := hr.pipeline
  refine ⟨rest, ?_, h1⟩
  rw [← h3 (lost_nil hr hu), hp, hr.inv.split]
  simp [Spec.notifications, msgsFor, keyNotifier]

/-- **C33, no message is invented or duplicated, no thread dies.** The notifications emitted are as
    many as those handled, under way, lost and still to be passed on; the notifier thread keeps
    running, and with a message in the pipe it can always go on, whatever the outcome of its
    attempts. -/
theorem C33_conservation {cfg : HConfig} {env : Env} {e : SysEnv} {evs : List SysEv} {s : Sys Q}
    (hr : SRun cfg env e evs s) :
    (Spec.notifications s.emitted).length =
      s.notified.length + s.pipe.length + s.lost.length + (Spec.notifications s.todo).length ∧
    (s.thread = .starting ∨ s.thread = .running) ∧
    (s.thread = .running → s.pipe ≠ [] → ∀ outcome, ∃ s', s.next cfg env e (.take outcome) = some s' ∧
      s'.notified.length = s.notified.length + 1) := by
  obtain ⟨hp, rest, h1, h2, h3, h4⟩ := hr.pipeline
  refine ⟨?_, hr.inv.alive, ?_⟩
  · have : Spec.notifications s.emitted = s.posted ++ Spec.notifications s.todo := by
      rw [hp, hr.inv.split]
      simp [Spec.notifications, msgsFor, keyNotifier]
    rw [this, List.length_append, h4, h1, List.length_map]
  · intro ht hne outcome
    obtain ⟨ms, hms, hall⟩ := hr.inv.pipe
    cases ms with
    | nil => exact absurd hms hne
    | cons m t =>
      obtain ⟨hk, hn⟩ := hall m (by simp)
      obtain ⟨n, hn⟩ := hn.collects
      have htt := threadTurn_frames (m := m) (by rw [hk]; decide) []
      rw [List.append_nil] at htt
      simp only [Sys.next, Sys.take, ht, hms, List.map_cons, htt, notifierOnRequest, hn]
      exact ⟨_, rfl, by simp⟩

/-- `w1` registers twice with different headers before the notifier thread has connected, `w2` does so
    afterwards. -/
def earlyEvs : List SysEv :=
  [.arrive "workers" "w1" ["init", "group", "env=c"],
   .arrive "workers" "w1" ["init", "group", "env=d"],
   .poll 0 0, .main, .main, .poll 0 0, .main, .main, .main, .connect,
   .arrive "workers" "w2" ["init", "group", "env=c"],
   .arrive "workers" "w2" ["init", "group", "env=d"],
   .poll 0 0, .main, .main, .poll 0 0, .main, .main, .main, .take (fun _ => true)]

/-- **C33 is false**: a notification emitted before the notifier thread has connected is lost, a later
    one is handled. -/
theorem C33_refuted : ¬ ∀ (evs : List SysEv) (s : Sys Multi), SRun cfg0 env0 senv0 evs s →
    s.notified.map (·.1) <+: Spec.notifications s.emitted := by
  intro H
  obtain ⟨s, hr, hp⟩ := exists_srun (Q := Multi) (cfg := cfg0) (env := env0) (e := senv0) earlyEvs
    (fun s => !((s.notified.map (·.1)).isPrefixOf (Spec.notifications s.emitted)))
    (by decide +kernel)
  have := H _ _ hr
  rw [← List.isPrefixOf_iff_prefix] at this
  rw [this] at hp
  cases hp

/-- The same with the thread connected in time: both notifications are handled. -/
example : ∃ s : Sys Multi, SRun cfg0 env0 senv0
    [.connect, .arrive "workers" "w1" ["init", "group", "env=c"],
     .arrive "workers" "w1" ["init", "group", "env=d"],
     .arrive "workers" "w1" ["init", "group", "env=e"],
     .poll 0 0, .main, .main, .poll 0 0, .main, .main, .main,
     .poll 0 0, .main, .take (fun _ => false), .main, .main, .take (fun _ => true)] s ∧
    (decide (s.notified.length = 2) && decide (s.lost = []) &&
      decide (s.notified.map (·.1) = Spec.notifications s.emitted)) = true :=
  exists_srun _ _ (by decide +kernel)

/-! ## C36 -/

theorem addHandler_range {α : Type} (k : String) (h : α) : ∀ (os : List String) (m : MMap α),
    m.Sorted → (os.foldl (fun m o => mmEmplace o h m) m).Sorted ∧
      mmRange k (os.foldl (fun m o => mmEmplace o h m) m) =
        mmRange k m ++ (os.filter (· == k)).map (fun _ => h) := by
  intro os
  induction os with
  | nil => intro m hm; exact ⟨hm, by simp⟩
  | cons o t ih =>
    intro m hm
    obtain ⟨h1, h2⟩ := ih _ (mmEmplace_sorted (k := o) (v := h) hm)
    refine ⟨h1, ?_⟩
    rw [List.foldl_cons, h2, mmRange_emplace hm]
    by_cases ho : o = k
    · simp [ho]
    · simp [ho]

theorem any_mapEmplace {k n : String} : ∀ (m : MMap Unit),
    (mapEmplace n () m).any (fun e => e.1 == k) = (n == k || m.any (fun e => e.1 == k)) := by
  intro m
  induction m with
  | nil => simp [mapEmplace]
  | cons a t ih =>
    obtain ⟨k', v⟩ := a
    simp only [mapEmplace]
    split
    · rename_i h; subst h; simp
    · split
      · simp
      · rw [List.any_cons, ih]
        simp only [List.any_cons]
        cases (k' == k) <;> cases (n == k) <;> simp

theorem registered_spec {α : Type} (k : String) : ∀ (rs : List (Spec.Reg α)) (w : Wiring α),
    w.handlers.Sorted →
    let w' := rs.foldl (fun w r => match r with
      | .socket n => w.addSocket n
      | .handler os h => w.addHandler os h) w
    (w'.sockets.any (fun e => e.1 == k) = true ↔
      (w.sockets.any (fun e => e.1 == k) = true ∨ Spec.Reg.socket k ∈ rs)) ∧
    mmRange k w'.handlers = mmRange k w.handlers ++ Spec.subscribers k rs := by
  intro rs
  induction rs with
  | nil => intro w _; simp [Spec.subscribers]
  | cons r t ih =>
    intro w hw
    cases r with
    | socket n =>
      obtain ⟨h1, h2⟩ := ih (w.addSocket n) hw
      refine ⟨?_, by simpa [Spec.subscribers, Wiring.addSocket] using h2⟩
      rw [List.foldl_cons, h1]
      simp only [Wiring.addSocket, any_mapEmplace, Bool.or_eq_true, beq_iff_eq, List.mem_cons,
        Spec.Reg.socket.injEq]
      constructor
      · rintro ((h | h) | h)
        · exact .inr (.inl h.symm)
        · exact .inl h
        · exact .inr (.inr h)
      · rintro (h | h | h)
        · exact .inl (.inr h)
        · exact .inl (.inl h.symm)
        · exact .inr h
    | handler os h =>
      obtain ⟨hs, hr⟩ := addHandler_range k h os w.handlers hw
      obtain ⟨h1, h2⟩ := ih (w.addHandler os h) hs
      refine ⟨?_, ?_⟩
      · rw [List.foldl_cons, h1]
        simp [Wiring.addHandler]
      · rw [List.foldl_cons, h2]
        simp only [Wiring.addHandler, hr, Spec.subscribers, List.append_assoc]

/-- **C36, emitted messages.** With any registrations, a message emitted by a handler goes to the
    socket with its key if there is one, otherwise to exactly the handlers subscribed to the key. -/
theorem C36_send {α : Type} (rs : List (Spec.Reg α)) (m : Msg) :
    (Spec.hasSocket m.key rs → (Spec.registered rs).send m = [.socket m.key]) ∧
    (¬ Spec.hasSocket m.key rs → (Spec.registered rs).send m =
      (Spec.subscribers m.key rs).map .handler) := by
  obtain ⟨h1, h2⟩ := registered_spec m.key rs Wiring.empty (by simp [Wiring.empty, MMap.Sorted])
  have h1' : ((Spec.registered rs).sockets.any (fun e => e.1 == m.key) = true) ↔
      Spec.hasSocket m.key rs := by
    refine h1.trans ?_
    simp [Wiring.empty, Spec.hasSocket]
  have h2' : mmRange m.key (Spec.registered rs).handlers = Spec.subscribers m.key rs := by
    refine h2.trans ?_
    simp [Wiring.empty, mmRange]
  constructor
  · intro h
    unfold Wiring.send
    rw [if_pos (h1'.2 h)]
  · intro h
    unfold Wiring.send
    rw [if_neg (fun h' => h (h1'.1 h')), Wiring.process, h2']

/-- **C36, received messages.** With any registrations, a message from a socket (or the timer) goes to
    exactly the handlers subscribed to its key, never to a socket. -/
theorem C36_process {α : Type} (rs : List (Spec.Reg α)) (m : Msg) :
    (Spec.registered rs).process m = (Spec.subscribers m.key rs).map .handler := by
  obtain ⟨h1, h2⟩ := registered_spec m.key rs Wiring.empty (by simp [Wiring.empty, MMap.Sorted])
  have h2' : mmRange m.key (Spec.registered rs).handlers = Spec.subscribers m.key rs := by
    refine h2.trans ?_
    simp [Wiring.empty, mmRange]
  rw [Wiring.process, h2']

/-- The registrations of the broker. -/
example : Spec.registered [.socket "workers", .socket "clients", .socket "monitor",
      .handler ["clients", "workers", "timer"] HandlerRef.broker,
      .handler ["status_notifier"] .notifier] = brokerWiring ∧
    brokerWiring.send ⟨"status_notifier", "", ["x"]⟩ = [.handler .notifier] ∧
    brokerWiring.send ⟨"workers", "w", ["x"]⟩ = [.socket "workers"] ∧
    brokerWiring.process ⟨"workers", "w", ["x"]⟩ = [.handler .broker] :=
  ⟨rfl, by decide⟩

/-- **C36, no re-entrancy.** The broker handler is never called while it handles a message. -/
theorem C36_not_reentrant {cfg : HConfig} {env : Env} {e : SysEnv} {evs : List SysEv} {s : Sys Q}
    (hr : SRun cfg env e evs s) : s.reentered = false := hr.inv.flat

/-- **C36, handling terminates.** After handling a message the main thread needs exactly one step per
    emitted message to get back to the loop, and calls no handler of the loop meanwhile. -/
theorem C36_terminates {cfg : HConfig} {env : Env} {e : SysEnv} : ∀ (n : Nat) {evs : List SysEv}
    {s : Sys Q}, SRun cfg env e evs s → s.todo.length = n →
    ∃ s' : Sys Q, SRun cfg env e (evs ++ List.replicate n .main) s' ∧ s'.todo = [] ∧
      s'.handled = s.handled ∧ s'.h = s.h ∧ s'.emitted = s.emitted := by
  intro n
  induction n with
  | zero =>
    intro evs s hr hn
    exact ⟨s, by simpa using hr, List.length_eq_zero_iff.1 hn, rfl, rfl, rfl⟩
  | succ n ih =>
    intro evs s hr hn
    cases ht : s.todo with
    | nil => rw [ht] at hn; simp at hn
    | cons m t =>
      have hnext : s.next cfg env e .main = some (Sys.send cfg env e m { s with todo := t }) := by
        simp [Sys.next, Sys.main, ht]
      have hst := next_cases hr.inv hnext
      have key : (Sys.send cfg env e m { s with todo := t }).todo = t ∧
          (Sys.send cfg env e m { s with todo := t }).handled = s.handled ∧
          (Sys.send cfg env e m { s with todo := t }).h = s.h ∧
          (Sys.send cfg env e m { s with todo := t }).emitted = s.emitted := by
        generalize Sys.send cfg env e m { s with todo := t } = s2 at hst
        cases hst with
        | sock ht' => rw [ht] at ht'; cases ht'; exact ⟨rfl, rfl, rfl, rfl⟩
        | @post m' t' ht' hm =>
          rw [ht] at ht'; cases ht'
          obtain ⟨c1, c2, c3, c4, -, -, -, -, -, -, -, -, c13⟩ :=
            post_frame e (Q := Q) m { s with todo := t, routed := s.routed ++ [m] }
          exact ⟨c13, c4, c1, c3⟩
        | idle ht' => rw [ht] at ht'; cases ht'
        | handle ht' => rw [ht] at ht'; cases ht'
        | fail ht' => rw [ht] at ht'; cases ht'
      obtain ⟨k1, k2, k3, k4⟩ := key
      obtain ⟨s', h1, h2, h3, h4, h5⟩ := ih (hr.snoc hnext) (by rw [k1]; rw [ht] at hn; simpa using hn)
      refine ⟨s', ?_, h2, by rw [h3, k2], by rw [h4, k3], by rw [h5, k4]⟩
      rw [List.replicate_succ]
      simpa using h1

/-- **C36, messages from the monitor socket have no effect.** -/
theorem C36_monitor {cfg : HConfig} {env : Env} {e : SysEnv} {evs : List SysEv} {s s' : Sys Q}
    (hr : SRun cfg env e evs s) (ht : s.todo = []) {ks : List String} {el : Int}
    (hpc : s.pc = .serve ("monitor" :: ks) el) (hs : s.next cfg env e .main = some s') :
    s'.h = s.h ∧ s'.socks = s.socks ∧ s'.inproc = s.inproc ∧ s'.pipe = s.pipe ∧
      s'.thread = s.thread ∧ s'.todo = [] ∧ s'.emitted = s.emitted ∧ s'.calls = s.calls ∧
      s'.pc = .serve ks el ∧ (∀ k, k ≠ "monitor" → s'.inbox k = s.inbox k) := by
  have hst := next_cases hr.inv hs
  have hm : ∀ {m : Msg} {s0 : Sys Q}, Source s m s0 → m.key = "monitor" := by
    intro m s0 h
    cases h with
    | recv hp => rw [hpc] at hp; cases hp; rfl
    | timer hp => rw [hpc] at hp; cases hp
  cases hst with
  | sock ht' => rw [ht] at ht'; cases ht'
  | post ht' => rw [ht] at ht'; cases ht'
  | idle ht' h =>
    cases h with
    | recv hp hin =>
      rw [hpc] at hp; cases hp
      refine ⟨rfl, rfl, rfl, rfl, rfl, ht, rfl, rfl, rfl, ?_⟩
      intro k hk
      simp [hk]
    | timer hp => rw [hpc] at hp; cases hp
  | handle ht' h hk => exact absurd (hm h) hk
  | fail ht' h hk => exact absurd (hm h) hk

/-- A state in which a message from the monitor is next. -/
example : ∃ s : Sys Multi, SRun cfg0 env0 senv0
    [.arrive "monitor" "recodex-monitor" ["eval", "J"], .poll 0 0] s ∧
    (decide (s.todo = []) && (match s.pc with
      | .serve ("monitor" :: _) _ => true
      | _ => false)) = true :=
  exists_srun _ _ (by decide +kernel)

/-! ## C49 -/

/-- **C49, transport.** The handler reads from a timer message the number that was put into it, for
    every 64-bit value. -/
theorem C49_roundtrip (z : Int) (h1 : -2 ^ 63 ≤ z) (h2 : z < 2 ^ 63) :
    (∃ f, (timerMsg z).data = [f] ∧ stoll f = .ok z) ∧ Spec.IsTick (timerMsg z) z := by
  have key : Spec.IsElapsed (intStr z) z := by
    cases z with
    | ofNat n =>
      obtain ⟨d1, d2, d3⟩ := natStr_isDecimal n
      refine ⟨[], [], (natStr n).toList, [], by simp [intStr], by simp, .inl rfl, d1, d2, by simp,
        ?_, h1, h2⟩
      rw [if_neg (by simp), d3]; rfl
    | negSucc n =>
      obtain ⟨d1, d2, d3⟩ := natStr_isDecimal (n + 1)
      refine ⟨[], ['-'], (natStr (n + 1)).toList, [], by simp [intStr], by simp, .inr (.inr rfl), d1,
        d2, by simp, ?_, h1, h2⟩
      rw [if_pos rfl, d3]; rfl
  exact ⟨⟨_, rfl, (stoll_iff _ _).2 key⟩, rfl, _, _, rfl, key⟩

theorem elapsed_sum {zs : List Int} {ms : List Msg} (h : msgsFor keyTimer ms = zs.map timerMsg)
    (hz : ∀ z ∈ zs, -2 ^ 63 ≤ z ∧ z < 2 ^ 63) (T : Int) : Spec.Elapsed ms T ↔ T = zs.sum := by
  induction ms generalizing zs T with
  | nil =>
    cases zs with
    | nil => simp [Spec.Elapsed]
    | cons z t => simp [msgsFor] at h
  | cons m ms ih =>
    by_cases hk : m.key = keyTimer
    · have : msgsFor keyTimer (m :: ms) = m :: msgsFor keyTimer ms := by simp [msgsFor, hk]
      rw [this] at h
      cases zs with
      | nil => simp at h
      | cons z t =>
        simp only [List.map_cons, List.cons.injEq] at h
        obtain ⟨hm, ht⟩ := h
        obtain ⟨hz1, hz2⟩ := hz z (by simp)
        obtain ⟨⟨f, hf, hfz⟩, htick⟩ := C49_roundtrip z hz1 hz2
        have ih' := fun T => ih ht (fun z hz' => hz z (by simp [hz'])) T
        simp only [Spec.Elapsed, List.sum_cons]
        constructor
        · rintro (⟨h, _⟩ | ⟨t', T', h1, h2, h3⟩)
          · exact absurd hk h
          · rw [(ih' T').1 h2] at h3
            obtain ⟨_, f', rest, hd, he⟩ := h1
            rw [hm, hf] at hd
            cases hd
            rw [(stoll_iff _ _).2 he] at hfz
            cases hfz
            exact h3
        · intro h
          exact .inr ⟨z, t.sum, by rw [hm]; exact htick, (ih' _).2 rfl, h⟩
    · have : msgsFor keyTimer (m :: ms) = msgsFor keyTimer ms := by simp [msgsFor, hk]
      rw [this] at h
      have ih' := ih h hz T
      simp only [Spec.Elapsed]
      constructor
      · rintro (⟨_, h⟩ | ⟨t', T', h1, _⟩)
        · exact ih'.1 h
        · exact absurd h1.1 hk
      · intro h
        exact .inl ⟨hk, ih'.2 h⟩

theorem elapsedMs_bounds {b a : Int} (h : b ≤ a) :
    0 ≤ elapsedMs b a ∧ elapsedMs b a * 1000000 ≤ a - b := by
  unfold elapsedMs
  rw [Int.tdiv_eq_ediv_of_nonneg (by omega)]
  omega

theorem sum_elapsed : ∀ (l : List (Int × Int)), Spec.Monotone l →
    0 ≤ (l.map (fun p => elapsedMs p.1 p.2)).sum ∧ ∀ f z, l.head? = some f → l.getLast? = some z →
      f.1 ≤ f.2 ∧ f.2 ≤ z.2 ∧ (l.map (fun p => elapsedMs p.1 p.2)).sum * 1000000 ≤ z.2 - f.1 := by
  intro l
  induction l with
  | nil => intro _; simp
  | cons p t ih =>
    intro hm
    obtain ⟨h1, h2⟩ := hm
    obtain ⟨h3, h4⟩ := List.pairwise_cons.1 h2
    have hp := h1 p (by simp)
    obtain ⟨b1, b2⟩ := elapsedMs_bounds hp
    obtain ⟨i1, i2⟩ := ih ⟨fun q hq => h1 q (by simp [hq]), h4⟩
    refine ⟨by simp only [List.map_cons, List.sum_cons]; omega, ?_⟩
    intro f z hf hz
    simp only [List.head?_cons, Option.some.injEq] at hf
    subst hf
    cases t with
    | nil =>
      simp at hz
      subst hz
      simp only [List.map_cons, List.map_nil, List.sum_cons, List.sum_nil]
      omega
    | cons q t =>
      have hz' : (q :: t).getLast? = some z := by simpa using hz
      obtain ⟨j1, j2, j3⟩ := i2 q z rfl hz'
      have := h3 q (by simp)
      simp only [List.map_cons, List.sum_cons] at j3 ⊢
      omega

theorem map_eq_append_take {α β : Type} {f : α → β} {l : List α} {a b : List β}
    (h : l.map f = a ++ b) : a = (l.take a.length).map f := by
  have : (l.map f).take a.length = a := by rw [h]; simp
  rw [← this, List.map_take]
  simp

/-- **C49, total.** On a clock that does not run backwards, the time the handler is told has elapsed
    never exceeds the real time. -/
theorem C49_total {cfg : HConfig} {env : Env} {e : SysEnv} {evs : List SysEv} {s : Sys Q}
    (hr : SRun cfg env e evs s) (hm : Spec.Monotone s.polls)
    (hb : ∀ p ∈ s.polls, 0 ≤ p.1 ∧ p.2 < 2 ^ 63) :
    ∃ T, Spec.Elapsed s.handled T ∧ (∀ T', Spec.Elapsed s.handled T' → T' = T) ∧ 0 ≤ T ∧
      ∀ f z, s.polls.head? = some f → s.polls.getLast? = some z → T * 1000000 ≤ z.2 - f.1 := by
  obtain ⟨pend, h1, -, -, -⟩ := hr.ticks
  have h2 := map_eq_append_take h1
  have h3 : msgsFor keyTimer s.handled =
      ((s.polls.take (msgsFor keyTimer s.handled).length).map
        (fun p => elapsedMs p.1 p.2)).map timerMsg := by
    rw [List.map_map]; exact h2
  generalize (msgsFor keyTimer s.handled).length = n at h3
  have hrange : ∀ z ∈ (s.polls.take n).map (fun p => elapsedMs p.1 p.2), -2 ^ 63 ≤ z ∧ z < 2 ^ 63 := by
    intro z hz
    obtain ⟨p, hp, rfl⟩ := List.mem_map.1 hz
    have hp := List.mem_of_mem_take hp
    obtain ⟨b1, b2⟩ := elapsedMs_bounds (hm.1 p hp)
    have := hb p hp
    constructor <;> omega
  have hiff := elapsed_sum h3 hrange
  refine ⟨_, (hiff _).2 rfl, fun T' h => (hiff T').1 h, ?_, ?_⟩
  · refine (sum_elapsed _ ⟨fun p hp => hm.1 p (List.mem_of_mem_take hp), ?_⟩).1
    exact hm.2.sublist (List.take_sublist _ _)
  · intro f z hf hz
    have hall := (sum_elapsed _ hm).2 f z hf hz
    have hsplit : s.polls = s.polls.take n ++ s.polls.drop n := (List.take_append_drop _ _).symm
    have hdrop := (sum_elapsed (s.polls.drop n)
      ⟨fun p hp => hm.1 p (List.mem_of_mem_drop hp), hm.2.sublist (List.drop_sublist _ _)⟩).1
    have hsum : (s.polls.map (fun p => elapsedMs p.1 p.2)).sum =
        ((s.polls.take n).map (fun p => elapsedMs p.1 p.2)).sum +
        ((s.polls.drop n).map (fun p => elapsedMs p.1 p.2)).sum := by
      conv_lhs => rw [hsplit]
      rw [List.map_append, List.sum_append]
    omega

/-- The hypotheses of `C49_total` can be met, with time passing. -/
example : ∃ s : Sys Multi, SRun cfg0 env0 senv0 submitEvs s ∧
    (decide (s.polls = [(0, 100000000), (100000000, 200000000)]) &&
      decide ((s.handled.filter (fun m => m.key == "timer")).map (·.data) = [["100"], ["100"]])) = true :=
  exists_srun _ _ (by decide +kernel)

/-- The extreme values. -/
example : intStr (-9223372036854775808) = "-9223372036854775808" ∧
    stoll (intStr (-9223372036854775808)) = .ok (-9223372036854775808) ∧
    stoll (intStr 9223372036854775807) = .ok 9223372036854775807 := by decide +kernel

/-! ## C51 -/

/-- **C51, every message once and in order.** What arrived on a socket is what was handled from it,
    followed by what is still waiting. -/
theorem C51_fifo {cfg : HConfig} {env : Env} {e : SysEnv} {evs : List SysEv} {s : Sys Q}
    (hr : SRun cfg env e evs s) {k : String} (hk : k ∈ ["clients", "monitor", "workers"]) :
    Spec.received k s = Spec.addressed k s.handled ++ s.inbox k :=
  hr.fifo (by rw [broker_order]; exact hk)

/-- **C51, one iteration.** Between two calls of `zmq::poll` the oldest waiting message of each socket
    that has one is handled, in the order clients, monitor, workers, and then exactly one timer
    message with the measured time; nothing else is handled. -/
theorem C51_iteration {cfg : HConfig} {env : Env} {e : SysEnv} {evs1 evs2 : List SysEv} {b a : Int}
    {s1 s2 : Sys Q} (h1 : SRun cfg env e evs1 s1)
    (h2 : SRun cfg env e (evs1 ++ .poll b a :: evs2) s2) (hno : ∀ ev ∈ evs2, ¬ Spec.isPoll ev)
    (hpc : s2.pc = .poll) :
    s2.handled = s1.handled ++ ["clients", "monitor", "workers"].filterMap (Spec.oldest · s1) ++
      [⟨"timer", "", [intStr (elapsedMs b a)]⟩] := by
  have hno' : ∀ ev ∈ evs2, ev.inRound = true := by
    intro ev hev
    have := hno ev hev
    cases ev <;> simp_all [SysEv.inRound, Spec.isPoll]
  rcases h1.round hno' h2 with ⟨_, _, _, h, _⟩ | ⟨_, h⟩ | ⟨_, h⟩
  · rw [hpc] at h; cases h
  · rw [h, broker_order]; rfl
  · rw [hpc] at h; cases h

/-- **C51, at most one message per socket in an unfinished iteration**: what was handled since the call
    of `zmq::poll` is a beginning of what `C51_iteration` says. -/
theorem C51_rounds {cfg : HConfig} {env : Env} {e : SysEnv} {evs : List SysEv} {s : Sys Q}
    (hr : SRun cfg env e evs s) :
    ∃ (rounds : List (List String)) (last : List String),
      s.handled.map (·.key) = (rounds.map (· ++ ["timer"])).flatten ++ last ∧
      (∀ r ∈ rounds, r.Sublist ["clients", "monitor", "workers"]) ∧
      last.Sublist ["clients", "monitor", "workers"] := by
  obtain ⟨bs, part, h1, h2, h3, -, -⟩ := hr.rounds
  rw [broker_order] at h2 h3
  exact ⟨bs, part, h1, h2, h3⟩

/-- **C51, no blocking.** Unless it is in `zmq::poll` or has ended, the main thread can make its next
    step, whatever the other thread does; and `zmq::poll` may return at any time. -/
theorem C51_progress {cfg : HConfig} {env : Env} {e : SysEnv} {evs : List SysEv} {s : Sys Q}
    (hr : SRun cfg env e evs s) :
    (s.todo = [] ∧ s.pc = .poll ∧ ∀ b a, ∃ s', s.next cfg env e (.poll b a) = some s') ∨
    (s.todo = [] ∧ ∃ err, s.pc = .halt err) ∨ ∃ s', s.next cfg env e .main = some s' := by
  rcases hr.inv.main_enabled (cfg := cfg) (env := env) (e := e) with ⟨h1, h2⟩ | h | h
  · refine .inl ⟨h1, h2, fun b a => ?_⟩
    simp only [Sys.next, Sys.pollReturns, h1, h2]
    exact ⟨_, rfl⟩
  · exact .inr (.inl h)
  · exact .inr (.inr h)

/-- An execution with two messages at one socket and one at another: one round handles one each. -/
example : ∃ s : Sys Multi, SRun cfg0 env0 senv0
    [.arrive "workers" "w1" ["ping"], .arrive "workers" "w2" ["ping"],
     .arrive "clients" "c" ["get-runtime-stats"], .poll 0 0, .main, .main, .main, .main, .main] s ∧
    (decide (s.handled.map (·.key) = ["clients", "workers", "timer"]) &&
      decide (s.inbox "workers" = [("w2", ["ping"])]) && (match s.pc with
        | .poll => true
        | _ => false)) = true :=
  exists_srun _ _ (by decide +kernel)

end Broker
