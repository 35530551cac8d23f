import Verif.Proof.Attempts
import Verif.Props.Log

/-!
# C110: the attempts in the log
-/

set_option linter.unusedSectionVars false

namespace Broker

variable {Q : Type} [QueueManager Q] [LawfulQM Q] [Carries Q] [Refers Q]

/-- A logger of level `debug` or below leaves nothing out. -/
theorem full_log {lv : Level} (hl : lv.toNat ≤ Level.debug.toNat) {cfg : HConfig} {env : Env}
    {h : List (Tr Q)} {s : HState Q} {log : List LogEntry} (hr : LRun lv cfg env h log s) :
    LRun .trace cfg env h log s := by
  obtain ⟨full, hf⟩ := (C80_histories (lv := .trace)).2 hr.run
  have : log = full := by
    rw [C80_filter hr hf, List.filter_eq_self]
    intro e _
    refine decide_eq_true (Nat.le_trans hl ?_)
    cases e <;> simp [LogEntry.level, Level.toNat]
  rw [this]
  exact hf

/-- **C110, the numbers.**  If a job entered the broker only once, the failure count in every entry
    about reassigning it is the number of times the log has told before that it was sent to a worker,
    and this number is in the text of the entry. -/
theorem C110_numbers {lv : Level} (hl : lv.toNat ≤ Level.debug.toNat) {cfg : HConfig} {env : Env}
    {h : List (Tr Q)} {s : HState Q} {log : List LogEntry} (hr : LRun lv cfg env h log s) {j : String}
    (hone : h.countP (Spec.accepts j) + h.countP (Spec.adopts j) ≤ 1) {a b : List LogEntry} {n : Nat}
    (hlog : log = a ++ .reassigning j n :: b) :
    n = Spec.sentTimes j a ∧ (LogEntry.reassigning j n).text =
      " - reassigning job " ++ j ++ " (" ++ toString (Spec.sentTimes j a) ++
        " attempts already failed)" := by
  have := ((full_log hl hr).attempts hone).2 a n b hlog
  have hn : n = Spec.sentTimes j a := by omega
  exact ⟨hn, by rw [← hn]; rfl⟩

/-- **C110, the outcome.**  The next entry after one about reassigning a job tells how that ended, and
    the count is below the limit. -/
theorem C110_outcome {lv : Level} (hl : lv.toNat ≤ Level.debug.toNat) {cfg : HConfig} {env : Env}
    {h : List (Tr Q)} {s : HState Q} {log : List LogEntry} (hr : LRun lv cfg env h log s) {j : String}
    {a b : List LogEntry} {n : Nat} (hlog : log = a ++ .reassigning j n :: b) :
    n < cfg.maxFailures ∧ ∃ e b', b = e :: b' ∧ Spec.Settled j e :=
  (full_log hl hr).neat.outcome hlog

/-- **C110, the cause.**  That a job waits again, or that nobody can process it any more, is told only
    right after an entry about reassigning it. -/
theorem C110_cause {lv : Level} (hl : lv.toNat ≤ Level.debug.toNat) {cfg : HConfig} {env : Env}
    {h : List (Tr Q)} {s : HState Q} {log : List LogEntry} (hr : LRun lv cfg env h log s) {j : String}
    {a b : List LogEntry} {e : LogEntry} (he : e = .waiting j ∨ e = .notEnqueued j)
    (hlog : log = a ++ e :: b) : ∃ a' n, a = a' ++ [.reassigning j n] :=
  (full_log hl hr).neat.cause he hlog

/-! ## Witnesses -/

/-- A job is reassigned after a report of its worker, then two workers expire one after the other. -/
def attemptMsgs : List Msg :=
  [fromW "w" ["init", "g", "env=c"], fromC "c" ["eval", "J", "env=c", ""],
   fromW "w" ["done", "J", "INTERNAL_ERROR", "x"], fromW "v" ["init", "g", "env=c"],
   fromC "c" ["eval", "K", "env=c", ""], fromC "c" ["eval", "L", "env=c", ""],
   fromW "v" ["ping"], fromW "w" ["ping"], tick "1001", tick "1001", fromW "v" ["ping"],
   tick "1001", tick "1001", tick "1001", tick "1001"]

/-- The entries about dispatch. -/
def attemptsIn (log : List LogEntry) : List LogEntry :=
  log.filter fun e => isRetry e || (Spec.sentEntry e).isSome

/-- What that history leaves in the log. -/
def attemptLog : List LogEntry :=
  [.sent "J" "77", .reassigning "J" 1, .sent "J" "77", .sent "K" "76", .reassigning "J" 2, .waiting "J",
   .reassigning "L" 0, .waiting "L", .reassigning "K" 1, .notEnqueued "K", .reassigning "J" 2,
   .notEnqueued "J", .reassigning "L" 0, .notEnqueued "L"]

/-- The hypotheses are met by a history in which attempts end in all three ways, among them one about a
    job that was never sent. -/
example : ∃ (h : List (Tr Multi)) (log : List LogEntry) (s : HState Multi),
    LRun .debug cfg0 env0 h log s ∧ (∀ j ∈ ["J", "K", "L"],
      h.countP (Spec.accepts j) + h.countP (Spec.adopts j) = 1) ∧ attemptsIn log = attemptLog := by
  obtain ⟨h, log, s, hr, hp⟩ := exists_lrun (Q := Multi) (lv := .debug) (cfg := cfg0) (env := env0)
    attemptMsgs (fun h log _ => ["J", "K", "L"].all (fun j =>
      h.countP (Spec.accepts j) + h.countP (Spec.adopts j) == 1) && attemptsIn log == attemptLog)
    (by decide +kernel)
  rw [Bool.and_eq_true, beq_iff_eq, List.all_eq_true] at hp
  exact ⟨h, log, s, hr, fun j hj => beq_iff_eq.1 (hp.1 j hj), hp.2⟩

/-- **C110, the condition.**  If clients use an identifier twice, the number is the one of the request
    at hand, not of the job: here it is 1 although the log has told twice that the job was sent. -/
theorem C110_numbers_twice : ∃ (h : List (Tr Multi)) (log : List LogEntry) (s : HState Multi)
    (a b : List LogEntry), LRun .debug cfg0 env0 h log s ∧
    h.countP (Spec.accepts "J") + h.countP (Spec.adopts "J") = 2 ∧
    log = a ++ .reassigning "J" 1 :: b ∧ Spec.sentTimes "J" a = 2 := by
  obtain ⟨h, log, s, hr, hp⟩ := exists_lrun (Q := Multi) (lv := .debug) (cfg := cfg0) (env := env0)
    [fromW "w" ["init", "g", "env=c"], fromC "c" ["eval", "J", "env=c", ""],
     fromC "c" ["eval", "J", "env=c", ""], fromW "w" ["done", "J", "OK"],
     fromW "w" ["done", "J", "INTERNAL_ERROR", "x"]]
    (fun h log _ => h.countP (Spec.accepts "J") + h.countP (Spec.adopts "J") == 2 &&
      log == log.take 11 ++ .reassigning "J" 1 :: log.drop 12 &&
      Spec.sentTimes "J" (log.take 11) == 2) (by decide +kernel)
  rw [Bool.and_eq_true, Bool.and_eq_true, beq_iff_eq, beq_iff_eq, beq_iff_eq] at hp
  exact ⟨h, log, s, _, _, hr, hp.1.1, hp.1.2, hp.2⟩

end Broker
