import Verif.Proof.LogText
import Verif.Props.Queues
import Verif.Spec.Exec

/-!
# C80: the log level changes nothing but the log; C81: the log as an audit trail; C82: lines of the log
-/

set_option linter.unusedSectionVars false

namespace Broker

open LawfulQM

variable {Q : Type} [QueueManager Q] [LawfulQM Q] [Carries Q] [Refers Q]

/-! ## C80 -/

/-- **C80.**  Whatever the level of the logger, a message is handled in the same way, with the same
    outcome; what is written is what would be written at most, without the entries below the level. -/
theorem C80_same {cfg : HConfig} {env : Env} {h : List (Tr Q)} {s : HState Q} (hr : Run cfg env h s)
    (m : Msg) : ∃ full : List LogEntry, ∀ lv : Level, stepLog lv cfg env m s =
      match step cfg env m s with
      | .ok () s' => .ok () ⟨s', full.filter fun e => decide (lv.toNat ≤ e.level.toNat)⟩
      | .error x s' => .error x ⟨s', full.filter fun e => decide (lv.toNat ≤ e.level.toNat)⟩ := by
  obtain ⟨es, hw, _, _⟩ := step_logs trail_true hr.inv.1 hr.hs (okMsg_true m)
    (fun _ _ _ _ => trivial) (fun _ _ => trivial) (fun _ _ => trivial) (fun _ => trivial)
    (cfg := cfg) (env := env)
  refine ⟨es, fun lv => ?_⟩
  rw [hw lv]
  cases step cfg env m s <;> rfl

/-- **C80, histories.**  The histories of a broker with a logger are those of the broker, at every
    level. -/
theorem C80_histories {lv : Level} {cfg : HConfig} {env : Env} {h : List (Tr Q)} {s : HState Q} :
    (∃ log, LRun lv cfg env h log s) ↔ Run cfg env h s := by
  constructor
  · rintro ⟨log, hr⟩
    exact hr.run
  · intro hr
    induction hr with
    | nil => exact ⟨[], .nil⟩
    | @snoc h s m s' hr hs ih =>
      obtain ⟨log, hl⟩ := ih
      obtain ⟨full, hw⟩ := C80_same hr m
      have := hw lv
      rw [hs] at this
      exact ⟨_, .snoc hl this⟩

/-- **C80, contents.**  A logger of a higher level writes the same entries in the same order, except
    those below its level. -/
theorem C80_filter {lv : Level} {cfg : HConfig} {env : Env} {h : List (Tr Q)} {s s' : HState Q}
    {log full : List LogEntry} (hr : LRun lv cfg env h log s) (hf : LRun .trace cfg env h full s') :
    log = full.filter fun e => decide (lv.toNat ≤ e.level.toNat) := by
  induction hr generalizing full s' with
  | nil =>
    generalize hh : ([] : List (Tr Q)) = h at hf
    cases hf with
    | nil => rfl
    | snoc => simp at hh
  | @snoc h log es s s1 m hr hs ih =>
    generalize hh : h ++ [⟨s, m, s1⟩] = h' at hf
    cases hf with
    | nil => simp at hh
    | @snoc h0 log0 es0 s0 s2 m0 hr0 hs0 =>
      obtain ⟨rfl, h2⟩ := List.append_inj' hh rfl
      cases h2
      rw [List.filter_append, ← ih hr0]
      congr 1
      obtain ⟨x, hw⟩ := C80_same hr.run m
      rw [hw lv] at hs
      rw [hw .trace] at hs0
      cases hst : step cfg env m s with
      | error e t => rw [hst] at hs; cases hs
      | ok u t =>
        rw [hst] at hs hs0
        cases hs
        cases hs0
        rw [List.filter_filter]
        refine List.filter_congr fun e _ => ?_
        simp [Level.toNat]

/-- **C80, `off`.**  With the log level `off` nothing is written. -/
theorem C80_off {cfg : HConfig} {env : Env} {h : List (Tr Q)} {s : HState Q} {log : List LogEntry}
    (hr : LRun .off cfg env h log s) : log = [] := by
  obtain ⟨full, hf⟩ := (C80_histories (lv := .trace)).2 hr.run
  rw [C80_filter hr hf, List.filter_eq_nil_iff]
  intro e _
  cases e <;> simp [Level.toNat, LogEntry.level]

/-- A worker, a job for it, and a request nobody can serve. -/
def logMsgs : List Msg :=
  [fromW "w" ["init", "group", "env=c", "", "description=the worker"],
   fromC "c" ["eval", "J", "env=c", ""], fromC "c" ["eval", "K", "env=java", ""],
   fromC "c" ["freeze"], fromC "c" ["eval", "L", "env=c", ""], fromW "w" ["done", "J", "OK"]]

/-- The whole log of a short history, and what a logger with level `err` writes. -/
example : ∃ (h h' : List (Tr Multi)) (log log' : List LogEntry) (s s' : HState Multi),
    LRun .trace cfg0 env0 h log s ∧ LRun .err cfg0 env0 h' log' s' ∧
    log = [.initReceived, .added "77 (the worker)" "group env=c  description=the worker ",
      .evalReceived, .incoming "J", .sent "J" "77 (the worker)", .evalReceived, .incoming "K",
      .rejectedHeaders "K", .rejectedHeader "env" "java", .frozen, .evalReceived, .rejectedFrozen "L",
      .doneReceived, .free "77 (the worker)"] ∧
    log' = [.rejectedHeaders "K", .rejectedHeader "env" "java", .rejectedFrozen "L"] := by
  obtain ⟨h, log, s, hr, hp⟩ := exists_lrun (Q := Multi) (lv := .trace) (cfg := cfg0) (env := env0)
    logMsgs (fun _ log _ => log == [.initReceived,
      .added "77 (the worker)" "group env=c  description=the worker ",
      .evalReceived, .incoming "J", .sent "J" "77 (the worker)", .evalReceived, .incoming "K",
      .rejectedHeaders "K", .rejectedHeader "env" "java", .frozen, .evalReceived, .rejectedFrozen "L",
      .doneReceived, .free "77 (the worker)"]) (by decide +kernel)
  obtain ⟨h', log', s', hr', hp'⟩ := exists_lrun (Q := Multi) (lv := .err) (cfg := cfg0) (env := env0)
    logMsgs (fun _ log _ => log == [.rejectedHeaders "K", .rejectedHeader "env" "java",
      .rejectedFrozen "L"]) (by decide +kernel)
  exact ⟨h, h', log, log', s, s', hr, hr', by simpa using hp, by simpa using hp'⟩

/-! ## C81 -/

/-- Entries about dispatched jobs and messages for workers correspond to each other. -/
theorem sent_entries {lv : Level} {cfg : HConfig} {env : Env} {h : List (Tr Q)} {s : HState Q}
    {log : List LogEntry} (hr : LRun lv cfg env h log s) (hl : lv.toNat ≤ Level.debug.toNat) :
    List.Forall₂ TellsEmpty (log.filterMap Spec.sentEntry) ((emitted h).filter Spec.isJobMsg) := by
  induction hr with
  | nil => exact .nil
  | @snoc h log es s s' m hr hst ih =>
    obtain ⟨full, rfl, hs, ⟨ms, ho, hf⟩, _⟩ := hr.step_trail hst hr.run.hs trail_sent (okMsg_true _)
      (fun _ _ _ _ => trivial) (fun _ _ => trivial) (fun _ _ => trivial) (fun _ => trivial)
    have he : emitted (h ++ [⟨s, m, s'⟩]) = emitted h ++ ms := by
      simp only [emitted, List.flatMap_append, List.flatMap_cons, List.flatMap_nil, List.append_nil,
        Tr.outs]
      rw [ho]
      rfl
    rw [he, List.filter_append, List.filterMap_append]
    refine List.rel_append ih ?_
    rw [selected_filterMap (l := .debug) (by simpa [Level.writes] using hl)
      (fun e h => by cases e <;> first | rfl | cases h)]
    exact hf

theorem forall₂_strengthen {α β : Type} {R S : α → β → Prop} : ∀ {l : List α} {m : List β},
    List.Forall₂ R l m → (∀ a b, b ∈ m → R a b → S a b) → List.Forall₂ S l m
  | _, _, .nil, _ => .nil
  | _, _, .cons h t, hS => .cons (hS _ _ (List.mem_cons_self ..) h)
    (forall₂_strengthen t fun a b hb => hS a b (List.mem_cons_of_mem _ hb))

/-- **C81, dispatched jobs (partial).**  At log level `debug` or below, if no worker registers with a
    job: the entries "job … sent to worker …" and the messages to workers other than answers to pings
    are the same number, and the n-th entry names the job and the worker of the n-th message, which is
    an evaluation message.  Missing: the condition about registrations, which the multi-queue manager
    does not need (`C81_sent_multi`) but the single-queue manager does (`C81_sent_refuted`). -/
theorem C81_sent_partial {lv : Level} {cfg : HConfig} {env : Env} {h : List (Tr Q)} {s : HState Q}
    {log : List LogEntry} (hr : LRun lv cfg env h log s) (hl : lv.toNat ≤ Level.debug.toNat)
    (hno : ∀ t ∈ h, ∀ j, Spec.adopts j t = false) :
    List.Forall₂ Spec.Tells (log.filterMap Spec.sentEntry) ((emitted h).filter Spec.isJobMsg) := by
  refine forall₂_strengthen (sent_entries hr hl) fun e m hm ht => ⟨?_, ht.2⟩
  refine ht.1.resolve_right fun hd => ?_
  obtain ⟨hm', hj⟩ := List.mem_filter.1 hm
  obtain ⟨t, ht, hmt⟩ := List.mem_flatMap.1 hm'
  obtain ⟨h1, h2, rfl⟩ := List.append_of_mem ht
  have hk : m.key = "workers" := by
    simp only [Spec.isJobMsg, Bool.and_eq_true, beq_iff_eq] at hj
    exact hj.1.1
  obtain ⟨j, ha⟩ := hr.run.empty_to_worker hmt hk hd
  rw [hno t ht j] at ha
  cases ha

/-- **C81, dispatched jobs, multi-queue manager.**  As `C81_sent_partial`, in all histories. -/
theorem C81_sent_multi {lv : Level} {cfg : HConfig} {env : Env} {h : List (Tr Multi)}
    {s : HState Multi} {log : List LogEntry} (hr : LRun lv cfg env h log s)
    (hl : lv.toNat ≤ Level.debug.toNat) :
    List.Forall₂ Spec.Tells (log.filterMap Spec.sentEntry) ((emitted h).filter Spec.isJobMsg) := by
  refine forall₂_strengthen (sent_entries hr hl) fun e m hm ht => ⟨?_, ht.2⟩
  refine ht.1.resolve_right fun hd => ?_
  obtain ⟨hm', hj⟩ := List.mem_filter.1 hm
  obtain ⟨t, ht, hmt⟩ := List.mem_flatMap.1 hm'
  obtain ⟨h1, h2, rfl⟩ := List.append_of_mem ht
  have hk : m.key = "workers" := by
    simp only [Spec.isJobMsg, Bool.and_eq_true, beq_iff_eq] at hj
    exact hj.1.1
  obtain ⟨j, ha⟩ := hr.run.empty_to_worker hmt hk hd
  exact C44_silent_multi_partial hr.run ha m hmt hk

/-- **C81 is false for the single-queue manager.**  When a worker registers with a job, the log says
    that the job was sent to it, but the message it gets has no frames. -/
theorem C81_sent_refuted : ∃ (h : List (Tr Single)) (log : List LogEntry) (s : HState Single),
    LRun .debug cfg0 env0 h log s ∧ LogEntry.sent "J" "77" ∈ log ∧
      ¬ ∃ m ∈ emitted h, Spec.isEvalOf "J" m = true := by
  obtain ⟨h, log, s, hr, hp⟩ := exists_lrun (Q := Single) (lv := .debug) (cfg := cfg0) (env := env0)
    [fromW "w" ["init", "group", "env=c", "", "current_job=J"]]
    (fun h log _ => log.contains (.sent "J" "77") && !(emitted h).any (Spec.isEvalOf "J"))
    (by decide +kernel)
  simp only [Bool.and_eq_true, List.contains_iff_mem, Bool.not_eq_true', List.any_eq_false] at hp
  refine ⟨h, log, s, hr, hp.1, ?_⟩
  rintro ⟨m, hm, he⟩
  exact hp.2 m hm he

/-- **C81, rejected requests.**  At log level `err` or below, the entries "Request … rejected" are, one
    by one, the rejections clients got, in order, each with the id of the job the client asked for. -/
theorem C81_rejected {lv : Level} {cfg : HConfig} {env : Env} {h : List (Tr Q)} {s : HState Q}
    {log : List LogEntry} (hr : LRun lv cfg env h log s) (hl : lv.toNat ≤ Level.err.toNat) :
    log.filterMap Spec.rejectedEntry =
      h.flatMap fun t => (t.outs.filter Spec.isReject).map fun _ => Spec.jobOf t.msg := by
  induction hr with
  | nil => rfl
  | @snoc h log es s s' m hr hst ih =>
    obtain ⟨full, rfl, hs, ⟨ms, ho, hf⟩, _⟩ := hr.step_trail hst hr.run.hs
      (trail_rejected (Spec.jobOf m)) (okMsg_true _)
      (fun j _ _ hj => by simp [Spec.jobOf, hj]) (fun _ _ => trivial) (fun _ _ => trivial)
      (fun _ => trivial)
    rw [List.filterMap_append, ih, List.flatMap_append]
    congr 1
    rw [selected_filterMap (l := .err) (by simpa [Level.writes] using hl)
      (fun e h => by cases e <;> first | rfl | cases h), hf]
    have : s'.outs = ms := ho
    simp [Tr.outs, this]

/-- **C81, expired workers.**  At log level `info` or below, the entries "Worker … expired" written
    while a message is handled name exactly the workers that are no longer registered afterwards. -/
theorem C81_expired {lv : Level} {cfg : HConfig} {env : Env} {h : List (Tr Q)} {s : HState Q}
    {log : List LogEntry} (hr : LRun lv cfg env h log s) (hl : lv.toNat ≤ Level.info.toNat) :
    ∃ ls : List (List String), log.filterMap Spec.expiredEntry = ls.flatten ∧
      List.Forall₂ (fun l t => l.Perm ((Spec.gone t).map (·.getDescription))) ls h := by
  induction hr with
  | nil => exact ⟨[], rfl, .nil⟩
  | @snoc h log es s s' m hr hst ih =>
    obtain ⟨ls, i1, i2⟩ := ih
    have hkey : ∀ full : List LogEntry, (selected lv full).filterMap Spec.expiredEntry =
        full.filterMap Spec.expiredEntry :=
      selected_filterMap (l := .info) (by simpa [Level.writes] using hl)
        (fun e h => by cases e <;> first | rfl | cases h)
    suffices hx : (es.filterMap Spec.expiredEntry).Perm
        ((Spec.gone ⟨s, m, s'⟩).map (·.getDescription)) by
      refine ⟨ls ++ [es.filterMap Spec.expiredEntry], ?_, List.rel_append i2 (.cons hx .nil)⟩
      rw [List.filterMap_append, i1]
      simp
    by_cases hk : m.key = keyTimer
    · obtain ⟨full, rfl, hs, hf, _⟩ := hr.step_trail hst hr.run.hs trail_expired (okMsg_true _)
        (fun _ _ _ _ => trivial) (fun h _ => absurd (h.symm.trans hk) (by decide))
        (fun _ _ => trivial) (fun _ => trivial)
      have hn := hr.run.inv.1.addr_nodup
      obtain ⟨rs, hp, he⟩ := hf hn
      rw [hkey, he]
      refine List.Perm.map _ ?_
      change s.workers.Perm (rs ++ s'.workers) at hp
      have hnd : (rs ++ s'.workers).Nodup := hp.nodup_iff.1 (List.Nodup.of_map _ hn)
      rw [List.nodup_append] at hnd
      have hrs : ∀ w ∈ rs, w ∉ s'.workers := fun w hw hw' => hnd.2.2 w hw w hw' rfl
      have := hp.filter fun w => decide (w ∉ s'.workers)
      refine (this.trans ?_).symm
      rw [List.filter_append, List.filter_eq_self.2 (fun w hw => by simpa using hrs w hw),
        List.filter_eq_nil_iff.2 (fun w hw => by simpa using hw), List.append_nil]
    · obtain ⟨full, rfl, hs, ⟨hf, he⟩, _⟩ := hr.step_trail hst hr.run.hs trail_stays (okMsg_true _)
        (fun _ _ _ _ => trivial) (fun _ _ => trivial) (fun _ _ => trivial) (fun h => absurd h hk)
      rw [hkey, he]
      have : Spec.gone ⟨s, m, s'⟩ = [] := by
        rw [Spec.gone, List.filter_eq_nil_iff]
        intro w hw
        simpa using hf w hw
      rw [this]
      exact .refl _

/-- **C81, freezing.**  At log level `info` or below, the broker is frozen iff the last entry about
    freezing says so. -/
theorem C81_frozen {lv : Level} {cfg : HConfig} {env : Env} {h : List (Tr Q)} {s : HState Q}
    {log : List LogEntry} (hr : LRun lv cfg env h log s) (hl : lv.toNat ≤ Level.info.toNat) :
    s.frozen = (log.filterMap Spec.frozenEntry).getLastD false := by
  induction hr with
  | nil => rfl
  | @snoc h log es s s' m hr hst ih =>
    obtain ⟨full, rfl, hs, hf, _⟩ := hr.step_trail hst hr.run.hs trail_frozen (okMsg_true _)
      (fun _ _ _ _ => trivial) (fun _ _ => trivial) (fun _ _ => trivial) (fun _ => trivial)
    rw [hf, List.filterMap_append, selected_filterMap (l := .info) (by simpa [Level.writes] using hl)
      (fun e h => by cases e <;> first | rfl | cases h)]
    rcases List.eq_nil_or_concat (full.filterMap Spec.frozenEntry) with h0 | ⟨l, b, h0⟩
    · simpa [h0] using ih
    · simp [h0]

/-- **The log does not tell how a job ended.**  A worker reports success in one history and failure in
    the other; the notifications differ, the logs are the same, even at the lowest level. -/
theorem C81_outcome_refuted : ∃ (h h' : List (Tr Multi)) (log : List LogEntry) (s s' : HState Multi),
    LRun .trace cfg0 env0 h log s ∧ LRun .trace cfg0 env0 h' log s' ∧
      (emitted h).any (Spec.isOk "J") = true ∧ (emitted h').any (Spec.isOk "J") = false ∧
      (emitted h').any (Spec.isFailed "J") = true := by
  obtain ⟨h, log, s, hr, hp⟩ := exists_lrun (Q := Multi) (lv := .trace) (cfg := cfg0) (env := env0)
    [fromW "w" ["init", "group", "env=c"], fromC "c" ["eval", "J", "env=c", ""],
     fromW "w" ["done", "J", "OK"]]
    (fun h log _ => (emitted h).any (Spec.isOk "J") && log == [.initReceived,
      .added "77" "group env=c ", .evalReceived, .incoming "J", .sent "J" "77", .doneReceived,
      .free "77"]) (by decide +kernel)
  obtain ⟨h', log', s', hr', hp'⟩ := exists_lrun (Q := Multi) (lv := .trace) (cfg := cfg0)
    (env := env0)
    [fromW "w" ["init", "group", "env=c"], fromC "c" ["eval", "J", "env=c", ""],
     fromW "w" ["done", "J", "FAILED", "no"]]
    (fun h log _ => !(emitted h).any (Spec.isOk "J") && (emitted h).any (Spec.isFailed "J") &&
      log == [.initReceived, .added "77" "group env=c ", .evalReceived, .incoming "J",
      .sent "J" "77", .doneReceived, .free "77"]) (by decide +kernel)
  simp only [Bool.and_eq_true, beq_iff_eq, Bool.not_eq_true'] at hp hp'
  obtain ⟨h1, rfl⟩ := hp
  obtain ⟨⟨h2, h3⟩, rfl⟩ := hp'
  exact ⟨h, h', _, s, s', hr, hr', h1, h2, h3⟩

/-- A worker that gets a job, another that takes it over when the first expires, a rejected request,
    freezing and unfreezing. -/
def auditMsgs : List Msg :=
  [fromW "w" ["init", "group", "env=c"], fromW "v" ["init", "group", "env=c"],
   fromC "c" ["eval", "J", "env=c", ""], fromC "c" ["eval", "K", "env=c", ""],
   fromC "c" ["freeze"], fromC "c" ["eval", "L", "env=c", ""],
   fromW "w" ["ping"], fromW "v" ["ping"],
   tick "1001", tick "1001", tick "1001", fromW "w" ["ping"], tick "1001", fromC "c" ["unfreeze"],
   fromW "w" ["done", "K", "OK"]]

/-- The hypotheses of the theorems of C81 are met by a history in which two jobs are sent, one of them
    twice, a request is rejected, a worker expires and the broker is frozen for a while. -/
example : ∃ (h : List (Tr Multi)) (log : List LogEntry) (s : HState Multi),
    LRun .debug cfg0 env0 h log s ∧ (∀ t ∈ h, ∀ j, Spec.adopts j t = false) ∧
    log.filterMap Spec.sentEntry = [("J", "76"), ("K", "77"), ("J", "77")] ∧
    log.filterMap Spec.rejectedEntry = ["L"] ∧ log.filterMap Spec.expiredEntry = ["76"] ∧
    log.filterMap Spec.frozenEntry = [true, false] := by
  obtain ⟨h, log, s, hr, hp⟩ := exists_lrun (Q := Multi) (lv := .debug) (cfg := cfg0) (env := env0)
    auditMsgs (fun h log _ => h.all (fun t => Spec.currentJob t.msg.data == none) &&
      log.filterMap Spec.sentEntry == [("J", "76"), ("K", "77"), ("J", "77")] &&
      log.filterMap Spec.rejectedEntry == ["L"] && log.filterMap Spec.expiredEntry == ["76"] &&
      log.filterMap Spec.frozenEntry == [true, false]) (by decide +kernel)
  simp only [Bool.and_eq_true, beq_iff_eq, List.all_eq_true] at hp
  obtain ⟨⟨⟨⟨h0, h1⟩, h2⟩, h3⟩, h4⟩ := hp
  exact ⟨h, log, s, hr, fun t ht j => by simp [Spec.adopts, h0 t ht], h1, h2, h3, h4⟩

/-! ## C82 -/

/-- **C82 (partial).**  If no frame of any message contains a line feed, the lines of the log file are
    the entries.  Missing: the condition, see `C82_refuted`. -/
theorem C82_lines_partial {lv : Level} {cfg : HConfig} {env : Env} {h : List (Tr Q)} {s : HState Q}
    {log : List LogEntry} (hr : LRun lv cfg env h log s)
    (hf : ∀ t ∈ h, ∀ f ∈ t.msg.data, '\n' ∉ f.toList) {file : List (String × LogEntry)}
    (hfile : file.map (·.2) = log) (hpre : ∀ x ∈ file, '\n' ∉ x.1.toList) :
    Spec.lines (Spec.logFile file) = file.map fun x => x.1.toList ++ x.2.text.toList := by
  have hp : ∀ c, Printable c → c ≠ '\n' := by
    rintro c h rfl
    exact absurd h (by decide)
  have hall := (hr.args (p := fun c => c ≠ '\n') hp
    (fun t ht f hm c hc he => hf t ht f hm (he ▸ hc))).1
  refine lines_logFile fun x hx => ⟨hpre x hx, fun hn => ?_⟩
  exact allC_text hp (hall x.2 (hfile ▸ List.mem_map_of_mem hx)) '\n' hn rfl

/-- **C82, other characters.**  Every character in the log that is not a printable character of ASCII
    is in a frame of a message. -/
theorem C82_characters {lv : Level} {cfg : HConfig} {env : Env} {h : List (Tr Q)} {s : HState Q}
    {log : List LogEntry} (hr : LRun lv cfg env h log s) {e : LogEntry} (he : e ∈ log) {c : Char}
    (hc : c ∈ e.text.toList) (hn : c.toNat < 32 ∨ 126 < c.toNat) :
    ∃ t ∈ h, ∃ f ∈ t.msg.data, c ∈ f.toList := by
  by_contra hno
  have hp : ∀ x, Printable x → x ≠ c := by
    rintro x ⟨h1, h2⟩ rfl
    omega
  have hall := (hr.args (p := fun x => x ≠ c) hp
    (fun t ht f hm x hx hxc => hno ⟨t, ht, f, hm, hxc ▸ hx⟩)).1
  exact allC_text hp (hall e he) c hc rfl

/-- The hypotheses of `C82_lines_partial` are met: the history of C81, each line beginning with a
    time; those of `C82_characters` by a request whose id has a letter outside ASCII. -/
example : ∃ (h : List (Tr Multi)) (log : List LogEntry) (s : HState Multi),
    LRun .trace cfg0 env0 h log s ∧ (∀ t ∈ h, ∀ f ∈ t.msg.data, '\n' ∉ f.toList) ∧
    (log.map fun e => ("[11:59:00] ", e)).map (·.2) = log ∧ log.length = 19 := by
  obtain ⟨h, log, s, hr, hp⟩ := exists_lrun (Q := Multi) (lv := .trace) (cfg := cfg0) (env := env0)
    auditMsgs (fun h log _ => h.all (fun t => t.msg.data.all fun f => !f.toList.contains '\n') &&
      decide (log.length = 19)) (by decide +kernel)
  simp only [Bool.and_eq_true, List.all_eq_true, Bool.not_eq_true', List.contains_eq_mem,
    decide_eq_false_iff_not, decide_eq_true_eq, beq_iff_eq] at hp
  exact ⟨h, log, s, hr, hp.1, by simp, hp.2⟩

example : ∃ (h : List (Tr Multi)) (log : List LogEntry) (s : HState Multi),
    LRun .err cfg0 env0 h log s ∧ ∃ e ∈ log, 'ž' ∈ e.text.toList := by
  obtain ⟨h, log, s, hr, hp⟩ := exists_lrun (Q := Multi) (lv := .err) (cfg := cfg0) (env := env0)
    [fromC "c" ["eval", "ž", "env=c", ""]]
    (fun _ log _ => log.any fun e => e.text.toList.contains 'ž') (by decide +kernel)
  simp only [List.any_eq_true, List.contains_iff_mem] at hp
  exact ⟨h, log, s, hr, hp⟩

/-- **C82 is false.**  A client that puts a line feed into the id of a job writes a line of its own
    into the log, for instance one that says the broker is frozen although it is not, even if only
    errors are logged. -/
theorem C82_refuted : ∃ (h : List (Tr Multi)) (log : List LogEntry) (s : HState Multi),
    LRun .err cfg0 env0 h log s ∧ LogEntry.frozen ∉ log ∧ s.frozen = false ∧
      LogEntry.frozen.text.toList ∈ Spec.lines (Spec.logFile (log.map fun e => ("", e))) := by
  obtain ⟨h, log, s, hr, hp⟩ := exists_lrun (Q := Multi) (lv := .err) (cfg := cfg0) (env := env0)
    [fromC "c" ["eval", "j\n" ++ LogEntry.frozen.text ++ "\n", "env=c", ""]]
    (fun _ log s => !log.contains .frozen && !s.frozen &&
      (Spec.lines (Spec.logFile (log.map fun e => ("", e)))).contains LogEntry.frozen.text.toList)
    (by decide +kernel)
  simp only [Bool.and_eq_true, Bool.not_eq_true', decide_eq_true_eq,
    List.contains_eq_mem, decide_eq_false_iff_not] at hp
  exact ⟨h, log, s, hr, hp.1.1, hp.1.2, hp.2⟩

end Broker
