import Verif.Props.Config
import Verif.Props.Dispatch
import Verif.Props.Notifier

/-!
# C58, C60: from the configuration file to the frontend
-/

set_option linter.unusedSectionVars false

namespace Broker

open QueueManager LawfulQM

variable {Q : Type} [QueueManager Q] [LawfulQM Q]

namespace Spec

/-- The document gives this value to the item at this place: the conversion of the scalar there, or
    the default `d` if there is none. -/
def InEffect {α : Type} (path : List String) (conv : String → Option α) (d : α) (doc : Yaml) (v : α) :
    Prop :=
  match scalarAt path doc with
  | none => v = d
  | some s => conv s = some v

/-- The text is the TCP endpoint with this address and port. -/
def IsEndpoint (address : String) (port : Nat) (text : String) : Prop :=
  ∃ p, IsDecimal p port ∧ text = "tcp://" ++ address ++ ":" ++ p

/-- Messages for the notifier thread as frames: key, identity, the rest. -/
def unwire : List String → Msg
  | k :: i :: d => ⟨k, i, d⟩
  | _ => ⟨"", "", []⟩

end Spec

/-! ## C58 -/

theorem inEffect_text {c : Conv} {junk : Nat} {doc : Yaml} {b : BrokerConfig}
    (h : loadConfig c junk doc = .ok b) {p : List String} {d : String} {f : BrokerConfig → String}
    (hi : (⟨p, Spec.asText, .text d, fun b => .text (f b)⟩ : Spec.Item) ∈
      Spec.items ++ [Spec.notifierPort junk]) : Spec.InEffect p some d doc (f b) := by
  obtain ⟨h1, h2⟩ := C37_values h _ hi
  unfold Spec.InEffect
  cases hs : Spec.scalarAt p doc with
  | none => simpa using h1 hs
  | some s => simpa [Spec.asText] using h2 s hs

theorem inEffect_num {c : Conv} {junk : Nat} {doc : Yaml} {b : BrokerConfig}
    (h : loadConfig c junk doc = .ok b) {p : List String} {d : Nat} {f : BrokerConfig → Nat}
    {g : Conv → String → Option Spec.Val} {conv : String → Option Nat}
    (hg : ∀ s, g c s = (conv s).map fun (n : Nat) => Spec.Val.num (n : Int))
    (hi : (⟨p, g, .num d, fun b => .num (f b)⟩ : Spec.Item) ∈
      Spec.items ++ [Spec.notifierPort junk]) : Spec.InEffect p conv d doc (f b) := by
  obtain ⟨h1, h2⟩ := C37_values h _ hi
  unfold Spec.InEffect
  cases hs : Spec.scalarAt p doc with
  | none =>
    have := h1 hs
    simp only [Spec.Val.num.injEq] at this
    simpa using this
  | some s =>
    have := h2 s hs
    rw [show (⟨p, g, .num d, fun b => .num (f b)⟩ : Spec.Item).conv c s = g c s from rfl, hg] at this
    cases hc : conv s with
    | none => rw [hc] at this; cases this
    | some n =>
      rw [hc] at this
      simp only [Option.map_some, Option.some.injEq, Spec.Val.num.injEq, Int.natCast_inj] at this
      show conv s = some (f b)
      rw [hc, this]

/-- **C58, sockets.** A broker that starts has three sockets: the one for workers and the one for
    clients are bound to the addresses and ports the document gives, the one for the monitor is
    connected to the address and port the document gives. -/
theorem C58_sockets {c : Conv} {junk : Nat} {doc : Yaml} {logOk netOk : Bool} {m : Manager}
    {b : BrokerConfig} (h : startBroker c junk (some doc) logOk netOk = .running m b) :
    ∃ wa wp ca cp ma mp w k o,
      Spec.InEffect ["workers", "address"] some "*" doc wa ∧
      Spec.InEffect ["workers", "port"] c.u16 0 doc wp ∧
      Spec.InEffect ["clients", "address"] some "*" doc ca ∧
      Spec.InEffect ["clients", "port"] c.u16 0 doc cp ∧
      Spec.InEffect ["monitor", "address"] some "127.0.0.1" doc ma ∧
      Spec.InEffect ["monitor", "port"] c.u16 7894 doc mp ∧
      Spec.IsEndpoint wa wp w ∧ Spec.IsEndpoint ca cp k ∧ Spec.IsEndpoint ma mp o ∧
      brokerSockets b = [⟨"workers", w, true⟩, ⟨"clients", k, true⟩, ⟨"monitor", o, false⟩] := by
  obtain ⟨_, _, doc', hd, hb⟩ := C50_refused c junk _ logOk netOk m b h
  cases hd
  refine ⟨b.workerAddress, b.workerPort, b.clientAddress, b.clientPort, b.monitorAddress,
    b.monitorPort, _, _, _, ?_, ?_, ?_, ?_, ?_, ?_, ⟨_, natStr_isDecimal _, rfl⟩,
    ⟨_, natStr_isDecimal _, rfl⟩, ⟨_, natStr_isDecimal _, rfl⟩, rfl⟩
  · exact inEffect_text (f := (·.workerAddress)) hb (by simp [Spec.items])
  · exact inEffect_num (f := (·.workerPort)) (g := Spec.asPort) hb (fun _ => rfl) (by simp [Spec.items])
  · exact inEffect_text (f := (·.clientAddress)) hb (by simp [Spec.items])
  · exact inEffect_num (f := (·.clientPort)) (g := Spec.asPort) hb (fun _ => rfl) (by simp [Spec.items])
  · exact inEffect_text (f := (·.monitorAddress)) hb (by simp [Spec.items])
  · exact inEffect_num (f := (·.monitorPort)) (g := Spec.asPort) hb (fun _ => rfl) (by simp [Spec.items])

/-- **C58, limits.** The number of dispatches of a job is bounded by the limit the document gives
    (three by default), whatever queue manager runs. -/
theorem C58_failures {c : Conv} {junk : Nat} {doc : Yaml} {logOk netOk : Bool} {m : Manager}
    {b : BrokerConfig} (h : startBroker c junk (some doc) logOk netOk = .running m b) {N : Nat}
    (hN : Spec.InEffect ["workers", "max_request_failures"] c.size 3 doc N)
    (h1 : b.maxWorkerLiveness < SZ) (h2 : b.maxRequestFailures < SZ) {env : Env} {hist : List (Tr Q)}
    {s : HState Q} (hr : Run (b.handler h1 h2) env hist s) (j : String) :
    (emitted hist).countP (Spec.isEvalOf j) ≤ hist.countP (Spec.accepts j) * max 1 N := by
  obtain ⟨_, _, doc', hd, hb⟩ := C50_refused c junk _ logOk netOk m b h
  cases hd
  have := inEffect_num (f := (·.maxRequestFailures)) (g := Spec.asSize) hb (fun _ => rfl)
    (p := ["workers", "max_request_failures"]) (d := 3) (by simp [Spec.items])
  have : b.maxRequestFailures = N := by
    unfold Spec.InEffect at this hN
    split at this
    · rename_i hs; rw [hs] at hN; simp only at hN; omega
    · rename_i s hs; rw [hs] at hN; simp only at hN
      rw [hN] at this; exact (Option.some.inj this).symm
  rw [← this]
  exact C03_bounded_dispatches hr j

/-- **C58, expiry.** The liveness and the interval that decide when a worker is given up are those the
    document gives (4 and 1000 milliseconds by default), and the proofs that they are in range exist
    for every configuration a broker starts with. -/
theorem C58_liveness {c : Conv} {junk : Nat} {doc : Yaml} {logOk netOk : Bool} {m : Manager}
    {b : BrokerConfig} (h : startBroker c junk (some doc) logOk netOk = .running m b) :
    ∃ h1 h2, Spec.InEffect ["workers", "max_liveness"] c.size 4 doc (b.handler h1 h2).maxLiveness ∧
      Spec.InEffect ["workers", "max_request_failures"] c.size 3 doc (b.handler h1 h2).maxFailures ∧
      (∀ P : Nat, P < 2 ^ 63 → Spec.InEffect ["workers", "ping_interval"] c.size 1000 doc P →
        (b.handler h1 h2).pingInterval = P) := by
  obtain ⟨_, _, doc', hd, hb⟩ := C50_refused c junk _ logOk netOk m b h
  cases hd
  obtain ⟨r1, r2, _⟩ := C37_ranges hb
  refine ⟨r1, r2, ?_, ?_, ?_⟩
  · exact inEffect_num (f := (·.maxWorkerLiveness)) (g := Spec.asSize) hb (fun _ => rfl) (by simp [Spec.items])
  · exact inEffect_num (f := (·.maxRequestFailures)) (g := Spec.asSize) hb (fun _ => rfl) (by simp [Spec.items])
  · intro P hP hin
    obtain ⟨a1, a2⟩ := C37_values hb
      ⟨["workers", "ping_interval"], Spec.asMillis, .num 1000, fun b => .num b.workerPingInterval⟩
      (by simp [Spec.items])
    show b.workerPingInterval = P
    unfold Spec.InEffect at hin
    cases hs : Spec.scalarAt ["workers", "ping_interval"] doc with
    | none =>
      rw [hs] at hin
      simp only at hin
      have := a1 hs
      simp only [Spec.Val.num.injEq] at this
      rw [this, hin]; rfl
    | some t =>
      rw [hs] at hin
      simp only at hin
      have := a2 t hs
      simp only [Spec.asMillis, hin, Option.map_some, Option.some.injEq, Spec.Val.num.injEq] at this
      rw [← this, if_pos (by omega)]

/-- A document that gives some of the items. -/
example : startBroker conv0 7 (some doc0) true true =
      .running .single { clientPort := 9658, maxWorkerLiveness := 10,
                         notifier := ⟨"http://localhost", 8080, "", ""⟩ } ∧
    brokerSockets { clientPort := 9658, maxWorkerLiveness := 10,
                    notifier := ⟨"http://localhost", 8080, "", ""⟩ } =
      [⟨"workers", "tcp://*:0", true⟩, ⟨"clients", "tcp://*:9658", true⟩,
       ⟨"monitor", "tcp://127.0.0.1:7894", false⟩] ∧
    Spec.scalarAt ["workers", "max_request_failures"] doc0 = none := by decide +kernel

/-! ## C60 -/

theorem SRun.posted_perm {cfg : HConfig} {env : Env} {e : SysEnv} {evs : List SysEv} {s : Sys Q}
    (hr : SRun cfg env e evs s) : ∃ rest : List Msg, s.pipe = rest.map wire ∧
      s.posted.Perm (s.notified.map (·.1) ++ rest ++ s.lost) := by
  refine SRun.induct (P := fun _ s => ∃ rest : List Msg, s.pipe = rest.map wire ∧
      s.posted.Perm (s.notified.map (·.1) ++ rest ++ s.lost)) ⟨[], rfl, .nil⟩ ?_ hr
  intro evs s ev s' hr ih hi hst
  cases hst with
  | arrive => exact ih
  | poll => exact ih
  | sock => exact ih
  | @post m t ht hm =>
    have hsh := hi.shapes m (by rw [hi.split, ht]; simp)
    have hn : Spec.Notifies m.data := by
      rcases OutShape.key_cases hsh with h | h
      · rw [hm] at h; exact absurd h (by decide)
      · exact h.2
    obtain ⟨rest, k1, k2⟩ := ih
    rw [post_eq e (by exact hi.closed) hn.ne_nil]
    split
    · refine ⟨rest, k1, ?_⟩
      show (s.posted ++ [m]).Perm (s.notified.map (·.1) ++ rest ++ (s.lost ++ [m]))
      rw [← List.append_assoc]
      exact k2.append (.refl _)
    · refine ⟨rest ++ [m], ?_, ?_⟩
      · show s.pipe ++ _ = _
        rw [k1]; simp [wire]
      · show (s.posted ++ [m]).Perm (s.notified.map (·.1) ++ (rest ++ [m]) ++ s.lost)
        refine (k2.append (.refl [m])).trans ?_
        rw [List.append_assoc, List.append_assoc, List.append_assoc, List.append_assoc]
        refine List.Perm.append_left _ (List.Perm.append_left _ ?_)
        exact List.perm_append_comm
  | idle ht hsrc => cases hsrc <;> exact ih
  | handle ht hsrc => cases hsrc <;> exact ih
  | fail ht hsrc => cases hsrc <;> exact ih
  | connect => exact ih
  | @take outcome m rest' acts ht hp hn =>
    obtain ⟨rest, k1, k2⟩ := ih
    cases rest with
    | nil => rw [hp] at k1; cases k1
    | cons m' rest =>
      rw [hp] at k1
      obtain ⟨hm, hrest⟩ := List.cons.inj k1
      have := wire_inj (a := m) (b := m') hm
      subst this
      refine ⟨rest, hrest, ?_⟩
      show s.posted.Perm ((s.notified ++ [(m, acts)]).map (·.1) ++ rest ++ s.lost)
      simpa using k2

/-- **C60.** At every moment of every execution of the process that has not ended, for every job id: the
    number of times a job with this id entered the broker is the number of such jobs it holds, plus
    the final notifications about it that the main thread is about to pass on, that are on their way
    to the notifier thread, that the notifier thread has handled, and that were lost between the two
    threads.  (Entering is observed in the history of the broker handler, whose messages are the ones
    handled so far.) -/
theorem C60_accounting {cfg : HConfig} {env : Env} {e : SysEnv} {evs : List SysEv} {s : Sys Q}
    (hr : SRun cfg env e evs s) (hrun : ∀ err, s.pc ≠ .halt err) :
    ∃ hist, Run cfg env hist s.h ∧
      hist.map (·.msg) = s.handled.filter (fun m => m.key != "monitor") ∧
      ∀ j, hist.countP (Spec.accepts j) + hist.countP (Spec.adopts j) = (heldJobs s.h).count j +
        s.todo.countP (Spec.isFinal j) + s.pipe.countP (fun fs => Spec.isFinal j (Spec.unwire fs)) +
        s.notified.countP (fun x => Spec.isFinal j x.1) + s.lost.countP (Spec.isFinal j) := by
  obtain ⟨hist, crash, hh, hc, he, hcase⟩ := hr.refines
  obtain ⟨rfl, hcalls⟩ : crash = [] ∧ s.calls = s.handled.filter (fun m => m.key != keyMonitor) := by
    rcases hcase with ⟨_, h1, h2⟩ | ⟨err, _, _, h1, _⟩
    · exact ⟨h1, h2⟩
    · exact absurd h1 (hrun err)
  refine ⟨hist, hh, hc.trans hcalls, fun j => ?_⟩
  rw [C01_job_accounting hh j]
  have h1 : (emitted hist).countP (Spec.isFinal j) =
      s.posted.countP (Spec.isFinal j) + s.todo.countP (Spec.isFinal j) := by
    rw [List.append_nil] at he
    rw [← he, hr.inv.split, List.countP_append, hr.pipeline.posted]
    congr 1
    unfold msgsFor
    rw [List.countP_filter]
    refine List.countP_congr (fun m _ => ?_)
    rw [Bool.and_eq_true]
    constructor
    · intro h
      refine ⟨h, ?_⟩
      unfold Spec.isFinal at h
      rw [Bool.and_eq_true] at h
      exact h.1
    · exact fun h => h.1
  obtain ⟨rest, k1, k2⟩ := hr.posted_perm
  rw [h1, k2.countP_eq, k1, List.countP_append, List.countP_append, List.countP_map, List.countP_map]
  have h2 : (fun fs => Spec.isFinal j (Spec.unwire fs)) ∘ wire = Spec.isFinal j := by
    funext m; rfl
  rw [h2]
  have h3 : (Spec.isFinal j ∘ fun x : Msg × List NAct => x.1) = fun x => Spec.isFinal j x.1 := rfl
  rw [h3]
  omega

/-- **C60, every accepted job.** If the notifier thread is connected and the pipe has room whenever a
    notification is passed on, a job that was accepted is still held, or its final notification is
    about to be passed on or on its way, or the frontend was sent an HTTP request about it. -/
theorem C60_nothing_vanishes {cfg : HConfig} {env : Env} {e : SysEnv} {evs : List SysEv} {s : Sys Q}
    (hr : SRun cfg env e evs s) (hrun : ∀ err, s.pc ≠ .halt err)
    (hu : Spec.Unhurried (Q := Q) cfg env e evs) :
    ∃ hist, Run cfg env hist s.h ∧
      hist.map (·.msg) = s.handled.filter (fun m => m.key != "monitor") ∧
      ∀ j, (∃ t ∈ hist, Spec.accepts j t = true) → j ∈ heldJobs s.h ∨
        (∃ o ∈ s.todo, Spec.isFinal j o = true) ∨
        (∃ fs ∈ s.pipe, Spec.isFinal j (Spec.unwire fs) = true) ∨
        ∃ x ∈ s.notified, Spec.isFinal j x.1 = true ∧ Spec.posts x.2 ≠ [] := by
  obtain ⟨hist, h1, h2, h3⟩ := C60_accounting hr hrun
  refine ⟨hist, h1, h2, fun j ⟨t, ht, hacc⟩ => ?_⟩
  have h4 := h3 j
  rw [lost_nil hr hu, List.countP_nil] at h4
  have h5 : 0 < hist.countP (Spec.accepts j) := List.countP_pos_iff.2 ⟨t, ht, hacc⟩
  by_cases a1 : 0 < (heldJobs s.h).count j
  · exact .inl (Multiset.count_pos.1 a1)
  by_cases a2 : 0 < s.todo.countP (Spec.isFinal j)
  · exact .inr (.inl (List.countP_pos_iff.1 a2))
  by_cases a3 : 0 < s.pipe.countP (fun fs => Spec.isFinal j (Spec.unwire fs))
  · exact .inr (.inr (.inl (List.countP_pos_iff.1 a3)))
  have a4 : 0 < s.notified.countP (fun x => Spec.isFinal j x.1) := by omega
  obtain ⟨x, hx, hf⟩ := List.countP_pos_iff.1 a4
  refine .inr (.inr (.inr ⟨x, hx, hf, ?_⟩))
  obtain ⟨outcome, hn⟩ := hr.notified x hx
  obtain ⟨r, p1, p2⟩ := C35_policy _ _ _ _ hn
  have : ∃ b l, x.2 = .post r b :: l := by
    by_cases o0 : outcome 0 = true
    · exact ⟨true, [], by rw [p1 0 (by omega) (by omega) o0]; simp [failures]⟩
    · by_cases hex : ∃ i < 4, (∀ j < i, outcome j = false) ∧ outcome i = true
      · obtain ⟨i, hi, hj, ho⟩ := hex
        cases i with
        | zero => exact absurd ho o0
        | succ i =>
          refine ⟨false, ?_⟩
          rw [p1 _ hi hj ho, failures, List.range_succ_eq_map]
          exact ⟨_, rfl⟩
      · have hall : ∀ i, i < 4 → ∀ j, j < i + 1 → outcome j = false := by
          intro i
          induction i with
          | zero =>
            intro _ j hj
            have : j = 0 := by omega
            subst this
            simpa using o0
          | succ i ih =>
            intro hi j hj
            by_cases hji : j < i + 1
            · exact ih (by omega) j hji
            · have : j = i + 1 := by omega
              subst this
              cases ho : outcome (i + 1) with
              | false => rfl
              | true => exact absurd ⟨i + 1, hi, ih (by omega), ho⟩ hex
        refine ⟨false, ?_⟩
        rw [p2 (fun j hj => hall 3 (by omega) j hj), failures, List.range_succ_eq_map]
        exact ⟨_, rfl⟩
  obtain ⟨b, l, h⟩ := this
  rw [h]; simp [Spec.posts]

/-! ### Checks -/

omit [LawfulQM Q] in
theorem SRun.exec_eq {cfg : HConfig} {env : Env} {e : SysEnv} {evs : List SysEv} {s : Sys Q}
    (hr : SRun cfg env e evs s) : Sys.exec cfg env e evs (Sys.init Q) = some s := by
  have app : ∀ (a b : List SysEv) (s : Sys Q), Sys.exec cfg env e (a ++ b) s =
      (Sys.exec cfg env e a s).bind (Sys.exec cfg env e b) := by
    intro a
    induction a with
    | nil => intro b s; rfl
    | cons x t ih =>
      intro b s
      simp only [List.cons_append, Sys.exec]
      cases s.next cfg env e x with
      | none => rfl
      | some s1 => exact ih b s1
  induction hr with
  | nil => rfl
  | snoc _ hs ih => rw [app, ih]; simp [Sys.exec, hs]

/-- A decidable form of `Spec.Unhurried` for a list of events. -/
def unhurried (cfg : HConfig) (env : Env) (e : SysEnv) (Q : Type) [QueueManager Q]
    (evs : List SysEv) : Bool :=
  (List.range evs.length).all fun n =>
    match Sys.exec cfg env e (evs.take n) (Sys.init Q) with
    | some s1 =>
      match s1.todo with
      | m :: _ => m.key != "status_notifier" ||
          (!(s1.thread == .starting) && decide (s1.pipe.length < e.room))
      | [] => true
    | none => true

omit [LawfulQM Q] in
theorem unhurried_spec {cfg : HConfig} {env : Env} {e : SysEnv} {evs : List SysEv}
    (h : unhurried cfg env e Q evs = true) : Spec.Unhurried (Q := Q) cfg env e evs := by
  intro evs1 evs2 s1 he hr1 m rest ht hm
  have h1 := List.all_eq_true.1 h evs1.length (by rw [List.mem_range, he]; simp)
  have h2 : evs.take evs1.length = evs1 := by rw [he]; simp
  rw [h2, hr1.exec_eq] at h1
  simp only [ht, hm, bne_self_eq_false, Bool.false_or, Bool.and_eq_true, Bool.not_eq_true',
    beq_eq_false_iff_ne, decide_eq_true_eq] at h1
  exact h1

/-- One worker, two jobs; the first one is evaluated. -/
def twoJobs : List SysEv :=
  [.connect, .arrive "workers" "w1" ["init", "group", "env=c"], .poll 0 0, .main, .main,
   .arrive "clients" "c" ["eval", "J1", "env=c", "", "x"],
   .arrive "clients" "c" ["eval", "J2", "env=c", "", "x"],
   .poll 0 0, .main, .main, .main, .main, .main, .poll 0 0, .main, .main, .main, .main,
   .arrive "workers" "w1" ["done", "J1", "OK"], .poll 0 0, .main, .main, .main, .main]

/-- While the final notification is on its way, the other job is with the worker; nobody hurries. -/
example : (∃ s : Sys Multi, SRun cfg0 env0 senv0 twoJobs s ∧
    (decide (s.pipe.countP (fun fs => Spec.isFinal "J1" (Spec.unwire fs)) = 1) &&
      (s.socks "workers").sent == [("w1", ["eval", "J1", "x"]), ("w1", ["eval", "J2", "x"])]) = true) ∧
    Spec.Unhurried (Q := Multi) cfg0 env0 senv0 twoJobs :=
  ⟨exists_srun twoJobs _ (by decide +kernel), unhurried_spec (by decide +kernel)⟩

/-- The notification has been handled, in the second attempt. -/
example : (∃ s : Sys Single, SRun cfg0 env0 senv0 (twoJobs ++ [.take (fun i => decide (i = 1))]) s ∧
    (decide (s.notified.countP (fun x => Spec.isFinal "J1" x.1 && decide ((Spec.posts x.2).length = 2)) = 1) &&
      s.lost == []) = true) ∧
    Spec.Unhurried (Q := Single) cfg0 env0 senv0 (twoJobs ++ [.take (fun i => decide (i = 1))]) :=
  ⟨exists_srun _ _ (by decide +kernel), unhurried_spec (by decide +kernel)⟩

end Broker
