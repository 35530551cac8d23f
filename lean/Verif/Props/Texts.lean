import Verif.Proof.Texts
import Verif.Props.Progress
import Verif.Props.Monitor
import Verif.Props.Matching
import Verif.Spec.Names

/-!
# C66: what the broker says about jobs that are not evaluated
-/

set_option linter.unusedSectionVars false

namespace Broker

open QueueManager LawfulQM

variable {Q : Type} [QueueManager Q] [LawfulQM Q]

namespace Spec

/-- The explanation of a rejection: the requirements one after another. -/
def rejectText (reqs : List (String × String)) : String :=
  "No worker available for given headers: " ++
    String.join (reqs.map (fun h => h.1 ++ "=" ++ h.2 ++ "; "))

/-- `text` says that a job was passed on `n` times and that the last failure was `last`. -/
def tooManyText (n : Nat) (last : String) : String :=
  "Job was reassigned too many (" ++ toString n ++ ") times. Last failure message was: " ++ last

end Spec

theorem foldl_append_join {α : Type} (f : α → String) (l : List α) (x : String) :
    l.foldl (fun m h => m ++ f h) x = x ++ String.join (l.map f) := by
  induction l generalizing x with
  | nil => simp
  | cons a t ih =>
    simp only [List.foldl_cons, List.map_cons, String.join_cons]
    rw [ih, String.append_assoc]

theorem rejectMessage_eq (hs : Headers) : rejectMessage hs = Spec.rejectText hs :=
  foldl_append_join _ _ _

/-! ## Rejections -/

/-- **C66, rejections.** A well-formed evaluation request that is not accepted is answered `ack` and
    then `reject` with an explanation: that the broker is frozen, if it is, and else the requirements
    of the request, ordered by name, those of the same name in the order of the request. -/
theorem C66_reject_text {cfg : HConfig} {env : Env} {h1 h2 : List (Tr Q)} {t : Tr Q}
    {s : HState Q} (hr : Run cfg env (h1 ++ t :: h2) s) (hk : t.msg.key = "clients") {j : String}
    {fs : List String} (hd : t.msg.data = "eval" :: j :: fs) (hdel : "" ∈ fs)
    (hacc : Spec.accepts j t = false) :
    ∃ text, t.outs.filter (fun o => o.key == "clients") =
        [⟨"clients", t.msg.identity, ["ack"]⟩, ⟨"clients", t.msg.identity, ["reject", text]⟩] ∧
      if Spec.frozenAfter (h1.map (·.msg)) = true then text = "The broker is frozen."
      else ∃ reqs : List (String × String), text = Spec.rejectText reqs ∧
        reqs.Pairwise (fun a b => a.1 ≤ b.1) ∧
        ∀ k, (reqs.filter (fun r => r.1 == k)).map (·.2) = Spec.wanted k fs := by
  obtain ⟨hr1, hstep, _⟩ := hr.prefix
  obtain ⟨evs, hi⟩ := step_info hr1.inv.1 hstep
  have hout : t.outs = msgsOf evs := hi.outs
  have hfr := frozen_after hr1
  have hacc' : (⟨"clients", t.msg.identity, ["accept"]⟩ : Msg) ∉ t.outs := by
    intro h
    have : Spec.accepts j t = true := by simpa [Spec.accepts, hk, hd, Tr.outs] using h
    rw [hacc] at this; cases this
  obtain ⟨x, hx⟩ := evalHeaders_exists [] [] hdel
  obtain ⟨_, hscr⟩ := hi.script.eval_inv hk (by rw [hd]; rfl)
  cases hscr with
  | malformed h =>
    obtain ⟨j', rest, hd', hp⟩ := h
    rw [hd] at hd'
    simp only [List.cons.injEq, true_and] at hd'
    rw [← hd'.2, hx] at hp; cases hp
  | frozen hf h =>
    have hf' : t.pre.frozen = true := hf
    refine ⟨_, by rw [hout]; simp [Ev.msgs, keyClients]; rfl, ?_⟩
    rw [if_pos (hfr ▸ hf')]
  | submit hf hm hp h =>
    have hf' : t.pre.frozen = false := hf
    rw [hd] at hm
    simp only [List.cons.injEq, true_and] at hm
    obtain ⟨rfl, rfl⟩ := hm
    obtain ⟨w1, _, w3⟩ := evalHeaders_wanted hp
    cases h with
    | reject =>
      refine ⟨_, by rw [hout]; simp [Ev.msgs, keyClients, monMsg, keyMonitor]; rfl, ?_⟩
      rw [if_neg (by rw [← hfr, hf']; decide)]
      exact ⟨_, rejectMessage_eq _, w3, w1⟩
    | give w => exact absurd (by rw [hout]; simp [Ev.msgs, keyClients]) hacc'
    | wait => exact absurd (by rw [hout]; simp [Ev.msgs, keyClients]) hacc'

/-- Nobody evaluates Java programs; later the broker is frozen. -/
def rejectedMsgs : List Msg :=
  [fromW "w1" ["init", "group", "env=c"],
   fromC "client" ["eval", "J1", "threads=2", "env=java", "meta.x=1", "env=c", "", "p"],
   fromC "client" ["freeze"], fromC "client" ["eval", "J2", "env=c", "", "p"]]

example : ∃ h s, Run (Q := Single) cfg0 env0 h s ∧
    ((emitted h).contains ⟨"clients", "client", ["reject",
      "No worker available for given headers: env=java; env=c; threads=2; "]⟩ &&
     (emitted h).contains ⟨"clients", "client", ["reject", "The broker is frozen."]⟩) = true :=
  exists_run rejectedMsgs (fun h _ =>
    (emitted h).contains ⟨"clients", "client", ["reject",
      "No worker available for given headers: env=java; env=c; threads=2; "]⟩ &&
     (emitted h).contains ⟨"clients", "client", ["reject", "The broker is frozen."]⟩) (by decide +kernel)

/-! ## Failures -/

/-- **C66, failures.** With a positive `max_request_failures`, the notification that a job failed
    contains either the text of the worker's own report; or, after an internal error or the loss of
    the worker, the last error together with the statement that the job cannot be passed on, which is
    said only of jobs announced by a worker; or the last error together with the number of times the
    job was passed on, which is `max_request_failures` less one, and one less than the number of its
    evaluation messages if it was accepted once; or the description of a worker that was removed. -/
theorem C66_failure_text {cfg : HConfig} {env : Env} {h1 h2 : List (Tr Q)} {t : Tr Q}
    {s : HState Q} (hr : Run cfg env (h1 ++ t :: h2) s) (hM : 0 < cfg.maxFailures) {o : Msg}
    (ho : o ∈ t.outs) {j : String} (hf : Spec.isFailed j o = true) :
    ∃ text, o.data = ["type", "job-status", "id", j, "status", "FAILED", "message", text] ∧
      ((t.msg.key = "workers" ∧ t.msg.data = ["done", j, "FAILED", text]) ∨
       (∃ a ∈ h1, Spec.adopts j a = true ∧
          ((t.msg.key = "workers" ∧ ∃ last, t.msg.data = ["done", j, "INTERNAL_ERROR", last] ∧
              text = "Job failed with '" ++ last ++ "' and cannot be reassigned") ∨
           (t.msg.key = "timer" ∧ text = "Worker timed out and its job cannot be reassigned"))) ∨
       (∃ last, ((t.msg.key = "workers" ∧ t.msg.data = ["done", j, "INTERNAL_ERROR", last]) ∨
            (t.msg.key = "timer" ∧ last = "Worker timed out and its job cannot be reassigned")) ∧
          text = Spec.tooManyText (cfg.maxFailures - 1) last ∧
          cfg.maxFailures ≤ (emitted (h1 ++ [t])).countP (Spec.isEvalOf j) ∧
          (h1.countP (Spec.accepts j) = 1 →
            (emitted (h1 ++ [t])).countP (Spec.isEvalOf j) = cfg.maxFailures)) ∨
       (t.msg.key = "timer" ∧ ∃ w ∈ t.pre.workers, w ∉ t.post.workers ∧
          text = "Worker " ++ Spec.describe w.identity w.description ++ " dieded")) := by
  obtain ⟨hr1, hstep, hr2⟩ := hr.prefix
  obtain ⟨evs, hi⟩ := step_info hr1.inv.1 hstep
  have ho' : o ∈ t.post.outs := ho
  rw [hi.outs, msgsOf, List.mem_flatMap] at ho'
  obtain ⟨e, he, hoe⟩ := ho'
  have hfin : Spec.isFinal j o = true := by
    simp only [Spec.isFailed, Bool.and_eq_true, beq_iff_eq] at hf
    simp only [Spec.isFinal, Bool.and_eq_true, beq_iff_eq]
    refine ⟨hf.1, ?_⟩
    have := congrArg (List.take 5) hf.2
    simpa [List.take_take] using this
  have hsh := hi.script.shape e he
  have hleave : 0 < e.leaves.countP (fun r => r.jobId = j) := by
    rw [← final_msgs hsh j]
    exact List.countP_pos_iff.2 ⟨o, hoe, hfin⟩
  obtain ⟨r, hrl, hrj⟩ := Multiset.countP_pos.1 hleave
  subst hrj
  cases e with
  | done w r' =>
    exfalso
    simp only [Ev.leaves, Multiset.mem_singleton] at hrl
    subst hrl
    simp only [Ev.msgs, List.mem_singleton] at hoe
    subst hoe
    simp [Spec.isFailed, okMsg] at hf
  | failed w r' text =>
    simp only [Ev.leaves, Multiset.mem_singleton] at hrl
    subst hrl
    simp only [Ev.msgs, List.mem_singleton] at hoe
    subst hoe
    refine ⟨text, rfl, .inl ⟨hsh.1, ?_⟩⟩
    cases hi.script with
    | done hk hd h =>
      cases h with
      | unknown => simp at he
      | short => simp at he
      | stale => simp at he
      | report hw hm hb hj hf hds =>
        cases hds with
        | failed hst hr' ht hs' =>
          simp only [List.mem_cons, Ev.failed.injEq] at he
          rcases he with ⟨rfl, rfl, rfl⟩ | he
          · subst hst hr'
            rw [hm]
            rw [hd] at hm
            simp only [List.cons.injEq] at hm
            rw [← hm.1, hj]
          · cases ht <;> simp at he
        | ok _ ht => cases ht <;> simp at he
        | exhausted _ _ _ _ ht => cases ht <;> simp at he
        | _ => simp at he
    | timer hk hd ht h => exact (h.script.shape _ he).elim
    | init hk hd h =>
      cases h with
      | short => simp at he
      | same => simp at he
      | fresh hm hw hn hf hr => cases hr <;> simp at he
      | again hm hw hne hn hf hr => cases hr <;> simp at he
    | eval hk => rw [hsh.1] at hk; exact absurd hk (by decide)
    | _ => simp at he
  | giveUp r' text =>
    simp only [Ev.leaves, Multiset.mem_singleton] at hrl
    subst hrl
    simp only [Ev.msgs, List.mem_singleton] at hoe
    subst hoe
    refine ⟨text, rfl, .inr ?_⟩
    obtain ⟨g1, _⟩ := hi.giveUp_why hr1 he
    obtain ⟨a, b, rfl⟩ := List.append_of_mem he
    obtain ⟨L1, s1, s2⟩ := hi.steps.append_inv
    have hl1 := s1.linv cfg.maxFailures_lt hr1.inv.2
    have hin : r ∈ L1.hand := by
      cases s2 with
      | cons h3 _ => cases h3 with
        | giveUp _ _ hnd hh _ => rw [hh]; simp
    have hp := s1.paid cfg.maxFailures_lt hr1.inv.2 hr1.paid
    have hcount : r.complete = true → cfg.maxFailures ≤ L1.fc r.rid →
        L1.fc r.rid = cfg.maxFailures ∧ szDec (L1.fc r.rid) = cfg.maxFailures - 1 ∧
        cfg.maxFailures ≤ (emitted (h1 ++ [t])).countP (Spec.isEvalOf r.jobId) ∧
        (h1.countP (Spec.accepts r.jobId) = 1 →
          (emitted (h1 ++ [t])).countP (Spec.isEvalOf r.jobId) = cfg.maxFailures) := by
      intro hc hle
      have hfc : L1.fc r.rid = cfg.maxFailures := by
        rcases hl1.handfc r hin with h | h
        · omega
        · rw [hc] at h; cases h
      have hMlt := cfg.maxFailures_lt
      have hge : cfg.maxFailures ≤ (emitted (h1 ++ [t])).countP (Spec.isEvalOf r.jobId) := by
        have hle := hp.hand r hin hc
        have h4 : emitted (h1 ++ [t]) = emitted h1 ++ t.post.outs := by simp [emitted, Tr.outs]
        rw [h4, List.countP_append]
        have h5 : (a.map (Ev.tries r.jobId)).sum ≤ t.post.outs.countP (Spec.isEvalOf r.jobId) := by
          rw [hi.outs, countP_msgsOf, List.map_append, List.sum_append]
          refine Nat.le_trans (Nat.le_of_eq ?_) (Nat.le_add_right _ _)
          exact sum_map_congr (fun e he => (evalOf_count hr1 hi (by simp [he]) r.jobId).symm)
        omega
      refine ⟨hfc, ?_, hge, fun h1a => ?_⟩
      · rw [hfc]
        unfold szDec SZ at *
        omega
      · have hub := C03_bounded_dispatches hr2 r.jobId
        have hna : Spec.accepts r.jobId t = false := by
          rcases hsh with hk | hk <;> simp [Spec.accepts, hk, keyWorkers, keyTimer]
        rw [List.countP_append, List.countP_singleton, hna, h1a] at hub
        simp only [Bool.false_eq_true, if_false] at hub
        have : max 1 cfg.maxFailures = cfg.maxFailures := by omega
        omega
    rcases hi.giveUp_text hr1.inv.1 rfl s1 with ⟨hk, last, hd, ⟨hc, ht⟩ | ⟨hc, hle, ht⟩⟩ |
      ⟨hk, (⟨hc, ht⟩ | ⟨hc, hle, ht⟩) | ⟨w, hw, hw', ht⟩⟩
    · obtain ⟨x, hx, hx'⟩ := hr1.adopted r g1 hc
      exact .inl ⟨x, hx, hx', .inl ⟨hk, last, hd, ht⟩⟩
    · obtain ⟨c1, c2, c3, c4⟩ := hcount hc hle
      refine .inr (.inl ⟨last, .inl ⟨hk, hd⟩, ?_, c3, c4⟩)
      rw [ht]; unfold tooManyMsg Spec.tooManyText natStr; rw [c2]
    · obtain ⟨x, hx, hx'⟩ := hr1.adopted r g1 hc
      exact .inl ⟨x, hx, hx', .inr ⟨hk, ht⟩⟩
    · obtain ⟨c1, c2, c3, c4⟩ := hcount hc hle
      refine .inr (.inl ⟨timeoutMsg, .inr ⟨hk, rfl⟩, ?_, c3, c4⟩)
      rw [ht]; unfold tooManyMsg Spec.tooManyText natStr; rw [c2]
    · exact .inr (.inr ⟨hk, w, hw, hw', by rw [ht, diededMsg, describe_eq]⟩)
  | _ => simp [Ev.leaves] at hrl

/-- The texts of the notifications about failed jobs. -/
def failureTexts (h : List (Tr Q)) : List (String × String) :=
  (emitted h).filterMap (fun o => match o.data with
    | ["type", "job-status", "id", j, "status", "FAILED", "message", text] => some (j, text)
    | _ => none)

/-- `J1` fails three times, `J2` is reported failed, `J3` was announced by the worker, `J4` waits for
    a worker that is removed while processing `J5`. -/
def failureMsgs : List Msg :=
  [fromW "w1" ["init", "group", "env=c", "", "description=lab", "current_job=J3"],
   fromW "w1" ["done", "J3", "INTERNAL_ERROR", "disk full"],
   fromC "client" ["eval", "J1", "env=c", "", "x"],
   fromW "w1" ["done", "J1", "INTERNAL_ERROR", "e1"],
   fromW "w1" ["done", "J1", "INTERNAL_ERROR", "e2"],
   fromW "w1" ["done", "J1", "INTERNAL_ERROR", "e3"],
   fromC "client" ["eval", "J2", "env=c", "", "x"],
   fromW "w1" ["done", "J2", "FAILED", "no memory"],
   fromC "client" ["eval", "J5", "env=c", "", "x"],
   fromC "client" ["eval", "J4", "env=c", "", "x"],
   tick "1001", tick "1001", tick "1001", tick "1001", tick "1001"]

/-- All the texts occur. -/
example : ∃ h s, Run (Q := Multi) cfg0 env0 h s ∧
    (failureTexts h == [("J3", "Job failed with 'disk full' and cannot be reassigned"),
      ("J1", "Job was reassigned too many (2) times. Last failure message was: e3"),
      ("J2", "no memory"), ("J5", "Worker 7731 (lab) dieded"), ("J4", "Worker 7731 (lab) dieded")])
      = true :=
  exists_run failureMsgs (fun h _ =>
    failureTexts h == [("J3", "Job failed with 'disk full' and cannot be reassigned"),
      ("J1", "Job was reassigned too many (2) times. Last failure message was: e3"),
      ("J2", "no memory"), ("J5", "Worker 7731 (lab) dieded"), ("J4", "Worker 7731 (lab) dieded")])
    (by decide +kernel)

/-- No failures are allowed. -/
def cfgNoFailures : HConfig := { cfg0 with maxFailures := 0, maxFailures_lt := by decide }

/-- **C66, without allowed failures.** If `max_request_failures` is zero, the number in the text is
    not meaningful: a job that was never sent to anybody, waiting for a worker that is removed, is said
    to have been passed on 2^64 - 1 times. -/
theorem C66_zero_limit_text : ∃ h s, Run (Q := Multi) cfgNoFailures env0 h s ∧
    ((failureTexts h).contains ("J4", Spec.tooManyText 18446744073709551615
        "Worker timed out and its job cannot be reassigned") &&
      decide ((emitted h).countP (Spec.isEvalOf "J4") = 0)) = true :=
  exists_run
    [fromW "w1" ["init", "group", "env=c"], fromW "w1" ["ping"],
     fromC "client" ["eval", "J5", "env=c", "", "x"], fromC "client" ["eval", "J4", "env=c", "", "x"],
     tick "1001", tick "1001", tick "1001", tick "1001"]
    (fun h _ => (failureTexts h).contains ("J4", Spec.tooManyText 18446744073709551615
        "Worker timed out and its job cannot be reassigned") &&
      decide ((emitted h).countP (Spec.isEvalOf "J4") = 0)) (by decide +kernel)

end Broker
