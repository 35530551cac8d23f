import Verif.Proof.ProcLog
import Verif.Props.Process
import Verif.Props.Notifier
import Verif.Proof.LogText

/-! # Properties of the log of the process (C98, C99, C100, C101) -/

set_option linter.unusedSectionVars false

namespace Broker

variable {Q : Type} [QueueManager Q]

/-! ## Specification -/

/-- The entry reports that this request failed: it is of the highest level and names the address and,
    unless characters NUL cut it short (in the address; in the parameters), the parameters and the
    error. -/
def Spec.Reports (x : ProcEntry) (r : HttpPost) : Prop :=
  x.level = .critical ∧
    (x.text = "curl failed: POST request failed to " ++ r.url ∨
     x.text = "curl failed: POST request failed to " ++ r.url ++ "?" ++ r.body ∨
     ∃ (code : Int) (error : String), x.text = "curl failed: POST request failed to " ++ r.url ++ "?" ++
       r.body ++ ". Error: (" ++ intStr code ++ ") " ++ error)

/-- The requests that failed. -/
def Spec.failed (l : List (HttpPost × Bool)) : List HttpPost :=
  (l.filter fun x => !x.2).map (·.1)

/-! ## C98 -/

theorem handler_not_critical (e : LogEntry) : e.level ≠ .critical := by
  cases e <;> simp [LogEntry.level]

theorem coreEntries_critical (ev : PEv) (p : Proc Q) {x : ProcEntry} (hx : x ∈ coreEntries ev p) :
    x.level = .critical → x.text = "The main loop terminated" ∧
      ev = .joined ∧ p.phase = .joining 0 := by
  intro hl
  unfold coreEntries at hx
  split at hx
  · split at hx
    · simp only [List.mem_singleton] at hx; subst hx; cases hl
    · simp only [cleanupEntries, List.mem_cons, List.not_mem_nil, or_false] at hx
      rcases hx with rfl | rfl | rfl <;> cases hl
  · simp only [cleanupEntries, List.mem_cons, List.not_mem_nil, or_false] at hx
    rcases hx with rfl | rfl <;> cases hl
  · split at hx
    · rename_i hph
      simp only [cleanupEntries, List.cons_append, List.nil_append, List.mem_cons, List.not_mem_nil,
        or_false] at hx
      rcases hx with rfl | rfl | rfl | rfl
      · exact ⟨rfl, rfl, hph⟩
      all_goals cases hl
    · cases hx
  · cases hx

/-- No event happens after the end. -/
theorem done_stays {cfg : HConfig} {env : Env} {e : SysEnv} {ev : PEv} {p p' : Proc Q} {x : Exit}
    (h : p.next cfg env e ev = some p') (hd : p.phase = .done x) : False := by
  cases ev with
  | sys y =>
    have := (pnext_sys h).1
    rw [hd] at this
    cases y <;> cases this
  | _ => simp [Proc.next, hd] at h

/-- How the end is reached. -/
theorem done_joined {cfg : HConfig} {env : Env} {e : SysEnv} {ev : PEv} {p p' : Proc Q} {x : Exit}
    (h : p.next cfg env e ev = some p') (hd : p'.phase = .done x) :
    ev = .joined ∧ ∃ c, p.phase = .joining c ∧ x = mainExit c := by
  cases ev with
  | sys y =>
    have := (pnext_sys h).1
    rw [hd] at this
    unfold Phase.allows at this
    split at this <;> simp at this
  | joined =>
    simp only [Proc.next] at h
    split at h
    · rename_i c hc _
      cases h
      simp only [Phase.done.injEq] at hd
      exact ⟨rfl, c, hc, hd.symm⟩
    · cases h
  | enter b =>
    simp only [Proc.next, Proc.destroyReactor, socket_destroyed_first] at h
    split at h
    · split at h <;> (cases h; cases hd)
    · cases h
  | terminate =>
    simp only [Proc.next] at h
    split at h
    · cases h
    · cases h
    · rename_i hne _
      cases h
      exact absurd hd (hne x)
  | check =>
    simp only [Proc.next, Proc.destroyHandlers] at h
    split at h
    · split at h <;> (cases h; cases hd)
    · cases h
  | unwind =>
    simp only [Proc.next, Proc.destroyReactor, socket_destroyed_first] at h
    split at h
    · cases h; cases hd
    · cases h
  | crash =>
    simp only [Proc.next] at h
    split at h <;> first | (cases h; cases hd) | cases h

/-- **C98, end (partial: for the orderly end).**  The process has ended after its main loop if and only if
    an entry of the main thread of the highest level says so, unless the logger is off; the main thread
    writes no other entries of this level.  Missing: the other ways to end (`C98_refuted_start`,
    `C98_refuted_end`). -/
theorem C98_end_partial {lv : Level} {cfg : HConfig} {env : Env} {e : SysEnv} {evs : List LEv}
    {p : LProc Q} (hr : LPRun lv cfg env e evs p) :
    ((∃ x ∈ p.main, x.level = .critical) ↔ lv ≠ .off ∧ p.proc.phase = .done ⟨0, []⟩) ∧
    ∀ x ∈ p.main, x.level = .critical → x.text = "The main loop terminated" := by
  induction hr with
  | nil => exact ⟨by simp [LProc.init, Proc.init], by simp [LProc.init]⟩
  | @snoc evs p p' ev hr hs ih =>
    obtain ⟨hno, hq, hm, -, -⟩ := lnext_cases hs
    obtain ⟨ih1, ih2⟩ := ih
    have hnd : ¬ ∃ x ∈ p.main, x.level = .critical := by
      rw [ih1]
      intro h
      exact done_stays hq h.2
    have hnew : ∀ x ∈ ev.mainEntries lv cfg env p.proc, x.level = .critical →
        x.text = "The main loop terminated" ∧ ev = .other .joined ∧ p.proc.phase = .joining 0 ∧
          lv.writes .critical = true := by
      intro x hx hl
      unfold LEv.mainEntries at hx
      split at hx
      · obtain ⟨y, rfl⟩ := mainEntries_handler _ _ _ _ x hx
        exact absurd hl (handler_not_critical y)
      · obtain ⟨h1, h2⟩ := List.mem_filter.1 hx
        obtain ⟨h3, h4, h5⟩ := coreEntries_critical _ _ h1 hl
        subst h4
        rw [hl] at h2
        exact ⟨h3, rfl, h5, h2⟩
      · cases hx
    rw [hm]
    refine ⟨⟨?_, ?_⟩, ?_⟩
    · rintro ⟨x, hx, hl⟩
      rcases List.mem_append.1 hx with hx | hx
      · exact absurd ⟨x, hx, hl⟩ hnd
      · obtain ⟨-, rfl, h2, h3⟩ := hnew x hx hl
        refine ⟨fun h => (by subst h; exact absurd h3 (by decide)), ?_⟩
        simp only [LEv.ev, Proc.next, h2] at hq
        split at hq
        · rename_i h _
          cases h
          simp only [Option.some.injEq] at hq
          rw [← hq]; rfl
        · cases hq
    · rintro ⟨hlv, hd⟩
      obtain ⟨h1, c, h2, h3⟩ := done_joined hq hd
      have hc : c = 0 := by
        unfold mainExit at h3
        split at h3
        · assumption
        · cases h3
      subst hc
      cases ev with
      | take res => cases h1
      | other ev =>
        cases h1
        refine ⟨.core .critical "The main loop terminated", List.mem_append_right _ ?_, rfl⟩
        simp only [LEv.mainEntries, coreEntries, h2]
        refine List.mem_filter.2 ⟨by simp, ?_⟩
        cases lv <;> first | rfl | exact absurd rfl hlv
    · intro x hx hl
      rcases List.mem_append.1 hx with hx | hx
      · exact absurd ⟨x, hx, hl⟩ hnd
      · exact (hnew x hx hl).1

/-- **C98, thread.**  What the notifier thread writes cannot be taken for the end. -/
theorem C98_thread {lv : Level} {cfg : HConfig} {env : Env} {e : SysEnv} {evs : List LEv}
    {p : LProc Q} (hr : LPRun lv cfg env e evs p) :
    ∀ x ∈ p.thread, ∃ t, x.text = "curl failed: " ++ t := by
  have loop : ∀ (cfg : NotifierConfig) (n : Notification) (res : Nat → CurlResult) (k i : Nat),
      ∀ x ∈ (retryLoopL cfg n res k i).2, ∃ t, x.text = "curl failed: " ++ t := by
    intro cfg n res k
    induction k with
    | zero => intro i x hx; cases hx
    | succ k ih =>
      intro i x hx
      simp only [retryLoopL] at hx
      split at hx
      · cases hx
      · cases hx
      · rcases List.mem_cons.1 hx with rfl | hx
        · exact ⟨_, rfl⟩
        · exact ih _ x hx
  induction hr with
  | nil => intro x hx; cases hx
  | @snoc evs p p' ev hr hs ih =>
    obtain ⟨-, hq, -, ht, -⟩ := lnext_cases hs
    rw [ht]
    intro x hx
    rcases List.mem_append.1 hx with hx | hx
    · exact ih x hx
    · have hx := List.mem_of_mem_filter hx
      cases ev with
      | other ev => cases hx
      | take res =>
        rcases turn_cases hq with ⟨h, -⟩ | ⟨m, n, -, h, -⟩
        · rw [h] at hx; cases hx
        · rw [h] at hx; exact loop _ _ _ _ _ x hx

/-- **C98, start (partial: for the choice of the queue manager).**  If the broker does not start because
    it does not know the queue manager, the log says so, unless it is off. -/
theorem C98_manager_partial {c : Conv} {junk : Nat} {w : World} {config : Option String} {doc : Yaml}
    {b : BrokerConfig} (h1 : w.file (configName config) = .ok doc) (h2 : loadConfig c junk doc = .ok b)
    (h3 : w.log = none) (h4 : getLogLevel b.log.logLevel ≠ .off)
    (h5 : b.queueManager ≠ "single" ∧ b.queueManager ≠ "multi") :
    ∃ x ∈ startLog c junk w (.options false config), x.level = .critical ∧
      x.text = "Unknown queue manager '" ++ b.queueManager ++
        "'. Available managers are 'single' and 'multi'." := by
  have hc : chooseManager b.queueManager = none := by
    simp [chooseManager, h5.1, h5.2]
  refine ⟨.core .critical _, ?_, rfl, rfl⟩
  simp only [startLog, h1, h2, h3]
  refine List.mem_filter.2 ⟨?_, ?_⟩
  · simp [startEntries, hc]
  · revert h4
    generalize getLogLevel b.log.logLevel = lv
    intro h4
    cases lv <;> first | rfl | exact absurd rfl h4

/-- The configuration of `world0` where sockets cannot be created. -/
def worldNoNet : World := { world0 with net := false }

/-- **C98 is false, start**: when the sockets cannot be created, the process ends with status 1 and the
    log has no entry of level error or above. -/
theorem C98_refuted_start : ¬ ∀ (w : World) (cmd : CmdLine) (x : Exit),
    startProcess conv0 7 w cmd = .error x → startLog conv0 7 w cmd ≠ [] →
      ∃ y ∈ startLog conv0 7 w cmd, y.level = .critical ∨ y.level = .err := by
  intro H
  have h := H worldNoNet (.options false none) (catchAll [])
  have h1 : (match startProcess conv0 7 worldNoNet (.options false none) with
      | .error x => decide (x = catchAll []) | .ok _ => false) = true := by decide +kernel
  have h2 : startProcess conv0 7 worldNoNet (.options false none) = .error (catchAll []) := by
    revert h1
    cases startProcess conv0 7 worldNoNet (.options false none) with
    | error x => intro h1; rw [of_decide_eq_true h1]
    | ok _ => intro h1; cases h1
  have h3 : startLog conv0 7 worldNoNet (.options false none) ≠ [] := by decide +kernel
  have h4 : ∀ y ∈ startLog conv0 7 worldNoNet (.options false none),
      ¬ (y.level = .critical ∨ y.level = .err) := by decide +kernel
  obtain ⟨y, hy, hl⟩ := h h2 h3
  exact h4 y hy hl

/-- **C98 is false, end**: an exception leaves the main loop; the broker handles nothing any more, and
    no entry of level error or above was written. -/
theorem C98_refuted_end : ¬ ∀ (evs : List LEv) (p : LProc Multi), LPRun .trace cfg0 env0 senv0 evs p →
    LEv.other .unwind ∈ evs → ∃ x ∈ p.main ++ p.thread, x.level = .critical ∨ x.level = .err := by
  intro H
  obtain ⟨p, hr, hp⟩ := exists_lprun (Q := Multi) (lv := .trace) (cfg := cfg0) (env := env0)
    (e := senv0) (escapeEvs.map .other)
    (fun p => decide (p.proc.phase = .undefined) &&
      decide (∀ x ∈ p.main ++ p.thread, ¬ (x.level = .critical ∨ x.level = .err))) (by decide +kernel)
  obtain ⟨x, hx, hl⟩ := H _ p hr (by simp [escapeEvs])
  simp only [Bool.and_eq_true, decide_eq_true_eq] at hp
  exact hp.2 x hx hl

/-- The events of an orderly end, two failures of the notifier on the way. -/
def reportEvs : List LEv := orderlyEvs.map .other ++
  [.take fun i => if i < 2 then .failed 500 "HTTP response code said error" else .ok, .other .check,
   .take fun _ => .ok, .other .joined]

/-- An execution that ends, for `C98_end_partial`, with entries of both threads, for `C98_thread`. -/
example : ∃ p : LProc Multi, LPRun .info cfg0 env0 senv0 reportEvs p ∧
    (decide (p.proc.phase = .done ⟨0, []⟩) && decide (p.thread.length = 2) &&
      decide (p.web.length = 3)) = true :=
  exists_lprun _ _ (by decide +kernel)

/-- A configuration file that meets the hypotheses of `C98_manager_partial`. -/
def docManager : Yaml := ymap [("queue_manager", .scalar "fifo")]

example : (match loadConfig conv0 7 docManager with
    | .ok b => decide (b.queueManager = "fifo" ∧ getLogLevel b.log.logLevel ≠ .off)
    | .error _ => false) = true := by decide +kernel

/-! ## C99 -/

theorem cString_append (a b : String) :
    cString (a ++ b) = if '\x00' ∈ a.toList then cString a else a ++ cString b := by
  unfold cString
  rw [String.toList_append]
  split
  · rename_i h
    congr 1
    revert h
    generalize a.toList = l
    intro h
    induction l with
    | nil => cases h
    | cons c t ih =>
      by_cases hc : c = '\x00'
      · simp [hc]
      · have : '\x00' ∈ t := by
          rcases List.mem_cons.1 h with h | h
          · exact absurd h.symm hc
          · exact h
        have := ih this
        simp only [List.cons_append, List.takeWhile_cons, this]
  · rename_i h
    have : ∀ l : List Char, '\x00' ∉ l → ∀ r : List Char,
        (l ++ r).takeWhile (· ≠ '\x00') = l ++ r.takeWhile (· ≠ '\x00') := by
      intro l
      induction l with
      | nil => intro _ r; rfl
      | cons c t ih =>
        intro hl r
        rw [List.mem_cons, not_or] at hl
        have hc : c ≠ '\x00' := fun h => hl.1 h.symm
        simp [hc]
        simpa using ih hl.2 r
    rw [this _ h, String.ofList_append, String.ofList_toList]

theorem cString_clean {a : String} (h : '\x00' ∉ a.toList) : cString a = a := by
  have := cString_append a ""
  rw [if_neg h] at this
  simpa [cString] using this

theorem AllC.int {p : Char → Prop} (hp : ∀ c, Printable c → p c) (n : Int) : AllC p (intStr n) := by
  cases n with
  | ofNat n => exact AllC.nat hp n
  | negSucc n =>
    refine AllC.append (AllC.of_lit hp ?_) (AllC.nat hp (n + 1))
    decide

/-- The entry reports the failed request, and the answer that was received. -/
theorem curlWhat_reports (cfg : NotifierConfig) (n : Notification) (code : Int) (error : String) :
    Spec.Reports (.curlFailed (curlWhat cfg n code error)) (httpPost cfg n) ∧
    ('\x00' ∉ (notificationUrl cfg n).toList → '\x00' ∉ (httpQuery n.params).toList →
      (ProcEntry.curlFailed (curlWhat cfg n code error)).text =
        "curl failed: POST request failed to " ++ (httpPost cfg n).url ++ "?" ++ (httpPost cfg n).body ++
          ". Error: (" ++ intStr code ++ ") " ++ cString error) := by
  have p1 : '\x00' ∉ "POST request failed to ".toList := by decide
  have p2 : '\x00' ∉ "?".toList := by decide
  have p3 : '\x00' ∉ ". Error: (".toList := by decide
  have p4 : '\x00' ∉ ") ".toList := by decide
  have p5 : '\x00' ∉ (intStr code).toList := by
    intro h
    have hz := (AllC.int (p := fun c => c ≠ '\x00') (fun c hc h => ?_) code) _ h
    · exact hz rfl
    · subst h; revert hc; decide
  have e1 : curlWhat cfg n code error = cString ("POST request failed to " ++ (notificationUrl cfg n ++
      ("?" ++ (httpQuery n.params ++ (". Error: (" ++ (intStr code ++ (") " ++ error))))))) := by
    simp only [curlWhat, String.append_assoc]
  have hl : (ProcEntry.curlFailed (curlWhat cfg n code error)).level = .critical := rfl
  have ht : (ProcEntry.curlFailed (curlWhat cfg n code error)).text =
      "curl failed: " ++ curlWhat cfg n code error := rfl
  have e0 : "curl failed: " ++ "POST request failed to " = "curl failed: POST request failed to " := by
    decide
  rw [cString_append, if_neg p1, cString_append] at e1
  by_cases hu : '\x00' ∈ (notificationUrl cfg n).toList
  · rw [if_pos hu] at e1
    refine ⟨⟨hl, .inl ?_⟩, fun h => absurd hu h⟩
    rw [ht, e1, ← String.append_assoc, e0]
    rfl
  · rw [if_neg hu, cString_append, if_neg p2, cString_append] at e1
    have hu' : (httpPost cfg n).url = notificationUrl cfg n := cString_clean hu
    by_cases hb : '\x00' ∈ (httpQuery n.params).toList
    · rw [if_pos hb] at e1
      refine ⟨⟨hl, .inr (.inl ?_)⟩, fun _ h => absurd hb h⟩
      rw [ht, e1, hu', ← e0]
      simp only [String.append_assoc]
      rfl
    · have hb' : (httpPost cfg n).body = httpQuery n.params := cString_clean hb
      rw [if_neg hb, cString_append, if_neg p3, cString_append, if_neg p5, cString_append,
        if_neg p4] at e1
      have key : (ProcEntry.curlFailed (curlWhat cfg n code error)).text =
          "curl failed: POST request failed to " ++ (httpPost cfg n).url ++ "?" ++
            (httpPost cfg n).body ++ ". Error: (" ++ intStr code ++ ") " ++ cString error := by
        rw [ht, e1, hu', hb', ← e0]
        simp only [String.append_assoc]
      exact ⟨⟨hl, .inr (.inr ⟨code, cString error, key⟩)⟩, fun _ _ => key⟩

theorem retryLoopL_reports (cfg : NotifierConfig) (n : Notification) (res : Nat → CurlResult) :
    ∀ k i, List.Forall₂ Spec.Reports (retryLoopL cfg n res k i).2
      (Spec.failed (retryLoopL cfg n res k i).1) := by
  intro k
  induction k with
  | zero => intro i; exact .nil
  | succ k ih =>
    intro i
    simp only [retryLoopL]
    split
    · exact .nil
    · exact .nil
    · exact .cons (curlWhat_reports cfg n _ _).1 (ih (i + 1))

theorem reports_critical {a : List ProcEntry} {b : List HttpPost} (h : List.Forall₂ Spec.Reports a b) :
    ∀ x ∈ a, x.level = .critical := by
  induction h with
  | nil => intro x hx; cases hx
  | cons h _ ih =>
    intro x hx
    rcases List.mem_cons.1 hx with rfl | hx
    · exact h.1
    · exact ih x hx

theorem logged_critical {lv : Level} (hlv : lv ≠ .off) {l : List ProcEntry}
    (h : ∀ x ∈ l, x.level = .critical) : logged lv l = l := by
  unfold logged
  rw [List.filter_eq_self]
  intro x hx
  rw [h x hx]
  cases lv <;> first | rfl | exact absurd rfl hlv

theorem failed_append (a b : List (HttpPost × Bool)) :
    Spec.failed (a ++ b) = Spec.failed a ++ Spec.failed b := by
  simp [Spec.failed]

/-- **C99, entries.**  The entries of the notifier thread report the requests that failed, all of them
    and nothing else, in order, unless the logger is off. -/
theorem C99_entries {lv : Level} {cfg : HConfig} {env : Env} {e : SysEnv} {evs : List LEv}
    {p : LProc Q} (hr : LPRun lv cfg env e evs p) (hlv : lv ≠ .off) :
    List.Forall₂ Spec.Reports p.thread (Spec.failed p.web) := by
  induction hr with
  | nil => exact .nil
  | @snoc evs p p' ev hr hs ih =>
    obtain ⟨-, hq, -, ht, hw⟩ := lnext_cases hs
    have hnew : List.Forall₂ Spec.Reports (ev.turn e p.proc).2 (Spec.failed (ev.turn e p.proc).1) := by
      cases ev with
      | other ev => exact .nil
      | take res =>
        rcases turn_cases hq with ⟨h, -⟩ | ⟨m, n, -, h, -⟩
        · rw [h]; exact .nil
        · rw [h]; exact retryLoopL_reports _ _ _ _ _
    rw [ht, hw, failed_append, logged_critical hlv (reports_critical hnew)]
    exact List.rel_append ih hnew

/-- **C99, text.**  The entry for a failed attempt has the code and the error of that attempt, if there
    are no characters NUL in the address and in the parameters. -/
theorem C99_text (cfg : NotifierConfig) (res : Nat → CurlResult) (m : Msg) {n : Notification}
    (hn : parseNotification m.data = .ok n) (hu : '\x00' ∉ (notificationUrl cfg n).toList)
    (hb : '\x00' ∉ (httpQuery n.params).toList) {i : Nat} {x : ProcEntry}
    (hx : (notifierL cfg res m).2[i]? = some x) :
    ∃ code error, res i = .failed code error ∧
      x.text = "curl failed: POST request failed to " ++ notificationUrl cfg n ++ "?" ++
        httpQuery n.params ++ ". Error: (" ++ intStr code ++ ") " ++ cString error := by
  have loop : ∀ k j i, (retryLoopL cfg n res k j).2[i]? = some x → ∃ code error,
      res (j + i) = .failed code error ∧ x = .curlFailed (curlWhat cfg n code error) := by
    intro k
    induction k with
    | zero => intro j i h; simp [retryLoopL] at h
    | succ k ih =>
      intro j i h
      simp only [retryLoopL] at h
      split at h
      · simp at h
      · simp at h
      · rename_i code error hres
        cases i with
        | zero => simp at h; exact ⟨code, error, hres, h.symm⟩
        | succ i =>
          simp only [List.getElem?_cons_succ] at h
          obtain ⟨c, er, h1, h2⟩ := ih _ _ h
          exact ⟨c, er, by rw [← h1]; congr 1; omega, h2⟩
  simp only [notifierL, hn] at hx
  obtain ⟨code, error, h1, rfl⟩ := loop _ _ _ hx
  refine ⟨code, error, by simpa using h1, ?_⟩
  rw [(curlWhat_reports cfg n code error).2 hu hb, httpPost, cString_clean hu, cString_clean hb]

/-- Without `noHandle`, what is done on the web is what the model of the notifier says. -/
theorem retryLoopL_posts (cfg : NotifierConfig) (n : Notification) {res : Nat → CurlResult}
    (h : ∀ i, res i ≠ .noHandle) : ∀ k d i,
    (retryLoopL cfg n res k i).1 =
      Spec.posts (retryLoop (httpPost cfg n) (fun i => (res i).returns) k d i) := by
  intro k
  induction k with
  | zero => intro d i; rfl
  | succ k ih =>
    intro d i
    have hc : res i = .noHandle ∨ res i = .ok ∨ ∃ code err, res i = .failed code err := by
      cases res i <;> simp
    rcases hc with h0 | h0 | ⟨code, err, h0⟩
    · exact absurd h0 (h i)
    · have hret : CurlResult.ok.returns = true := rfl
      simp [retryLoopL, retryLoop, h0, hret, Spec.posts]
    · have hret : (CurlResult.failed code err).returns = false := rfl
      simp only [retryLoopL, retryLoop, h0, hret, Bool.false_eq_true, if_false]
      rw [ih (d * 2) (i + 1)]
      simp [Spec.posts]

/-- Every attempt got a handle from libcurl. -/
def Spec.Handles (evs : List LEv) : Prop := ∀ res, LEv.take res ∈ evs → ∀ i, res i ≠ .noHandle

theorem LPRun.posts {lv : Level} {cfg : HConfig} {env : Env} {e : SysEnv} {evs : List LEv}
    {p : LProc Q} (hr : LPRun lv cfg env e evs p) (hh : Spec.Handles evs) :
    p.web = p.proc.sys.notified.flatMap (fun x => Spec.posts x.2) ∧
    ∀ x ∈ p.proc.sys.notified, ∃ o, notifierOnRequest e.ncfg o x.1 = .ok x.2 := by
  induction hr with
  | nil => exact ⟨rfl, fun x hx => by cases hx⟩
  | @snoc evs p p' ev hr hs ih =>
    obtain ⟨hno, hq, -, -, hw⟩ := lnext_cases hs
    obtain ⟨ih1, ih2⟩ := ih fun res hres => hh res (List.mem_append_left _ hres)
    cases ev with
    | other ev =>
      have := other_notified hq (fun o ho => hno o (by rw [← ho]; rfl))
      rw [hw, this, turn_other, List.append_nil]
      exact ⟨ih1, ih2⟩
    | take res =>
      have hres := hh res (by simp)
      rcases turn_cases hq with ⟨h1, h2⟩ | ⟨m, n, h0, h1, h2⟩
      · rw [hw, h1, h2, List.append_nil]; exact ⟨ih1, ih2⟩
      · rw [hw, h1, h2, ih1, retryLoopL_posts _ _ hres 4 1 0]
        refine ⟨by simp, ?_⟩
        intro x hx
        rcases List.mem_append.1 hx with hx | hx
        · exact ih2 x hx
        · simp only [List.mem_singleton] at hx
          subst hx
          exact ⟨fun i => (res i).returns, by simp only [notifierOnRequest, h0]⟩

theorem forall₂_split {α β : Type} {R : α → β → Prop} : ∀ {b1 b2 : List β} {l : List α},
    List.Forall₂ R l (b1 ++ b2) → ∃ a1 a2, l = a1 ++ a2 ∧ List.Forall₂ R a1 b1 ∧ List.Forall₂ R a2 b2 := by
  intro b1
  induction b1 with
  | nil => intro b2 l h; exact ⟨[], l, rfl, .nil, h⟩
  | cons y t ih =>
    intro b2 l h
    cases h with
    | cons h1 h2 =>
      obtain ⟨a1, a2, rfl, h3, h4⟩ := ih h2
      exact ⟨_ :: a1, a2, rfl, .cons h1 h3, h4⟩

theorem forall₂_const {α β : Type} {R : α → β → Prop} {r : β} : ∀ {n : Nat} {l : List α},
    List.Forall₂ R l (List.replicate n r) → ∀ y ∈ l, R y r := by
  intro n
  induction n with
  | zero => intro l h y hy; cases h; cases hy
  | succ n ih =>
    intro l h y hy
    rw [List.replicate_succ] at h
    cases h with
    | cons h1 h2 =>
      rcases List.mem_cons.1 hy with rfl | hy
      · exact h1
      · exact ih h2 y hy

/-- **C99 (partial: if libcurl gives out handles).**  A notification the notifier thread has taken was
    delivered, or four entries in a row report that it was not.  Missing: handles that libcurl does not
    give out (`C99_refuted`). -/
theorem C99_partial {lv : Level} {cfg : HConfig} {env : Env} {e : SysEnv} {evs : List LEv}
    {p : LProc Q} (hr : LPRun lv cfg env e evs p) (hlv : lv ≠ .off) (hh : Spec.Handles evs) :
    ∀ x ∈ p.proc.sys.notified,
      (∃ r, (r, true) ∈ Spec.posts x.2 ∧ (r, true) ∈ p.web) ∨
      ∃ a es b r, p.thread = a ++ es ++ b ∧ es.length = 4 ∧ (r, false) ∈ Spec.posts x.2 ∧
        ∀ y ∈ es, Spec.Reports y r := by
  intro x hx
  have hent := C99_entries hr hlv
  obtain ⟨hw, hn⟩ := hr.posts hh
  obtain ⟨o, ho⟩ := hn x hx
  by_cases hd : ∃ y ∈ Spec.posts x.2, y.2 = true
  · obtain ⟨⟨r, b⟩, hy, hb⟩ := hd
    simp only at hb
    subst hb
    exact .inl ⟨r, hy, by rw [hw]; exact List.mem_flatMap.2 ⟨x, hx, hy⟩⟩
  · right
    obtain ⟨r, h1, h2⟩ := C35_policy _ _ _ _ ho
    have hfail : ∀ j < 4, o j = false := by
      intro j hj
      by_contra hne
      exact hd ((C35_counts _ _ _ _ ho).2.2.2 ⟨j, hj, by simpa using hne⟩)
    have hacts := h2 hfail
    have hposts : Spec.posts x.2 = List.replicate 4 (r, false) := by
      rw [hacts]; rfl
    obtain ⟨l1, l2, hl⟩ := List.append_of_mem hx
    rw [hw, hl, List.flatMap_append, List.flatMap_cons, hposts, failed_append, failed_append] at hent
    have hf : Spec.failed (List.replicate 4 (r, false)) = List.replicate 4 r := rfl
    rw [hf] at hent
    obtain ⟨a, t, hat, ha, ht⟩ := forall₂_split hent
    obtain ⟨es, b, rfl, hes, hb⟩ := forall₂_split ht
    exact ⟨a, es, b, r, by rw [hat, List.append_assoc], by simpa using hes.length_eq,
      by rw [hposts]; simp, forall₂_const hes⟩

/-- **C99 is false**: libcurl gives out no handle; the notification is lost without a trace. -/
theorem C99_refuted : ¬ ∀ (evs : List LEv) (p : LProc Multi), LPRun .trace cfg0 env0 senv0 evs p →
    p.proc.sys.notified ≠ [] → p.web ≠ [] ∨ p.thread ≠ [] := by
  intro H
  obtain ⟨p, hr, hp⟩ := exists_lprun (Q := Multi) (lv := .trace) (cfg := cfg0) (env := env0)
    (e := senv0) (orderlyEvs.map .other ++ [.take fun _ => .noHandle])
    (fun p => decide (p.proc.sys.notified ≠ []) && decide (p.web = []) && decide (p.thread = []))
    (by decide +kernel)
  simp only [Bool.and_eq_true, decide_eq_true_eq] at hp
  rcases H _ p hr hp.1.1 with h | h
  · exact h hp.1.2
  · exact h hp.2

/-- A notification that is not delivered, for `C99_entries` and `C99_partial`. -/
example : ∃ p : LProc Single, LPRun .critical cfg0 env0 senv0 (orderlyEvs.map .other ++
      [.take fun _ => .failed 0 "Couldn't connect to server"]) p ∧
    (decide (p.proc.sys.notified.length = 1) && decide (p.web.length = 4) &&
      decide (p.thread.map (·.text) = List.replicate 4
        ("curl failed: POST request failed to http://localhost/job-status/J?status=OK. Error: (0) " ++
          "Couldn't connect to server"))) = true :=
  exists_lprun _ _ (by decide +kernel)

/-! ## C100 -/

/-- **C100.**  With other credentials for the web interface, everything is the same: what the peers get,
    the log, when and how the process ends, and the requests but for their credentials.  So the
    credentials are in no entry of the log and in no message. -/
theorem C100_credentials {lv : Level} {cfg : HConfig} {env : Env} {e : SysEnv} {evs : List LEv}
    {p : LProc Q} (hr : LPRun lv cfg env e evs p) (user password : String) :
    ∃ q : LProc Q, LPRun lv cfg env
        { e with ncfg := { e.ncfg with username := user, password := password } } evs q ∧
      q.main = p.main ∧ q.thread = p.thread ∧ q.proc.phase = p.proc.phase ∧
      q.proc.sys.socks = p.proc.sys.socks ∧ q.proc.sys.pipe = p.proc.sys.pipe ∧
      q.proc.sys.h = p.proc.sys.h ∧
      q.web.map (fun x => ({ x.1 with auth := none }, x.2)) =
        p.web.map (fun x => ({ x.1 with auth := none }, x.2)) := by
  have key : ∃ (q : LProc Q) (l : List (Msg × List NAct)),
      LPRun lv cfg env (e.withAuth user password) evs q ∧
      l.map anonymousRecord = p.proc.sys.notified.map anonymousRecord ∧ q.proc = p.proc.withN l ∧
      q.main = p.main ∧ q.thread = p.thread ∧
      q.web.map (fun x => (x.1.anonymous, x.2)) = p.web.map (fun x => (x.1.anonymous, x.2)) := by
    induction hr with
    | nil => exact ⟨LProc.init Q, [], .nil, rfl, rfl, rfl, rfl, rfl⟩
    | @snoc evs p p' ev hr hs ih =>
      obtain ⟨q, l, h1, h2, h3, h4, h5, h6⟩ := ih
      obtain ⟨hno, hq, hm, ht, hw⟩ := lnext_cases hs
      obtain ⟨l', k1, k2⟩ := pnext_withN e user password h2 hq
      obtain ⟨t1, t2⟩ := turn_withAuth e user password ev l p.proc
      refine ⟨⟨p'.proc.withN l', p'.main, p'.thread,
        q.web ++ (ev.turn (e.withAuth user password) q.proc).1⟩, l', .snoc h1 ?_, k1, rfl, rfl, rfl, ?_⟩
      · have hme : ev.mainEntries lv cfg env q.proc = ev.mainEntries lv cfg env p.proc := by
          rw [h3]; rfl
        have hn : q.proc.next cfg env (e.withAuth user password) ev.ev = some (p'.proc.withN l') := by
          rw [h3]; exact k2
        unfold LProc.next
        split
        · rename_i o; exact absurd rfl (hno o)
        · rw [hn, hm, ht, hme, h4, h5, h3, t1]; rfl
      · rw [hw, List.map_append, List.map_append, h6, h3, t2]
  obtain ⟨q, l, h1, -, h3, h4, h5, h6⟩ := key
  refine ⟨q, h1, h4, h5, ?_, ?_, ?_, ?_, h6⟩ <;> rw [h3] <;> rfl

/-- **C100, start.**  Neither are they in what is written while the broker starts, nor in what it writes
    to the standard error stream. -/
theorem C100_start (c : Conv) (junk : Nat) (w : World) (config : Option String) {doc doc' : Yaml}
    {b : BrokerConfig} {user password : String}
    (h1 : w.file (configName config) = .ok doc) (h2 : loadConfig c junk doc = .ok b)
    (h3 : loadConfig c junk doc' =
      .ok { b with notifier := { b.notifier with username := user, password := password } }) :
    startLog c junk { w with file := fun _ => .ok doc' } (.options false config) =
      startLog c junk w (.options false config) ∧
    ∀ x, startProcess c junk { w with file := fun _ => .ok doc' } (.options false config) = .error x ↔
      startProcess c junk w (.options false config) = .error x := by
  simp only [startLog, startProcess, h1, h2, h3]
  refine ⟨?_, fun x => ?_⟩
  · cases w.log <;> rfl
  · cases w.log with
    | some what => exact Iff.rfl
    | none =>
      simp only
      cases chooseManager b.queueManager with
      | none => exact Iff.rfl
      | some m => simp only; cases w.net <;> simp

/-- Credentials that are used, for `C100_credentials`. -/
example : ∃ p : LProc Multi, LPRun .trace cfg0 env0
      { senv0 with ncfg := { senv0.ncfg with username := "u", password := "secret" } } reportEvs p ∧
    decide (p.web.map (fun x => (x.1.auth, x.2)) =
      [(some "u:secret", false), (some "u:secret", false), (some "u:secret", true)]) = true :=
  exists_lprun _ _ (by decide +kernel)

/-- The document of `world0` with credentials, for `C100_start`. -/
def docAuth : Yaml := ymap
  [("clients", ymap [("port", .scalar "9658")]), ("workers", ymap [("max_liveness", .scalar "10")]),
   ("notifier", ymap [("address", .scalar "http://localhost"), ("port", .scalar "8080"),
     ("username", .scalar "u"), ("password", .scalar "secret")])]

example : world0.file (configName none) = .ok doc0 ∧ loadConfig conv0 7 doc0 = .ok
      { clientPort := 9658, maxWorkerLiveness := 10,
        notifier := ⟨"http://localhost", 8080, "", ""⟩ } ∧
    loadConfig conv0 7 docAuth = .ok
      { clientPort := 9658, maxWorkerLiveness := 10,
        notifier := ⟨"http://localhost", 8080, "u", "secret"⟩ } :=
  ⟨rfl, by decide +kernel, by decide +kernel⟩

/-! ## C101 -/

/-- **C101.**  The entries of the handler in the log of the process are the log of the handler for the
    messages it was called with; if the handler failed, those written before the failure follow. -/
theorem C101_handler [LawfulQM Q] [Carries Q] [Refers Q] {lv : Level} {cfg : HConfig} {env : Env}
    {e : SysEnv} {evs : List LEv} {p : LProc Q} (hr : LPRun lv cfg env e evs p) :
    ∃ (hist : List (Tr Q)) (log crash : List LogEntry), LRun lv cfg env hist log p.proc.sys.h ∧
      hist.map (·.msg) = p.proc.sys.calls ∧
      (p.main.filterMap fun | .handler x => some x | _ => none) = log ++ crash ∧
      (((∀ err, p.proc.sys.pc ≠ .halt err) ∧ crash = []) ∨
       ∃ err m h', p.proc.sys.pc = .halt err ∧
         stepLog lv cfg env m p.proc.sys.h = .error err ⟨h', crash⟩) := by
  obtain ⟨hist, log, crash, h1, h2, h3, h4⟩ := hr.keeps
  refine ⟨hist, log, crash, h1, h2, ?_, h4⟩
  rw [← h3]
  congr 1

/-- **C101, no influence.**  The process with its log does what the process without it does, whatever the
    level of the logger. -/
theorem C101_same {cfg : HConfig} {env : Env} {e : SysEnv} (lv : Level) :
    (∀ {evs : List LEv} {p : LProc Q}, LPRun lv cfg env e evs p →
      PRun cfg env e (evs.map LEv.ev) p.proc) ∧
    ∀ {evs : List PEv} {p : Proc Q}, PRun cfg env e evs p →
      ∃ (evs' : List LEv) (q : LProc Q), LPRun lv cfg env e evs' q ∧ evs'.map LEv.ev = evs ∧ q.proc = p := by
  refine ⟨fun hr => hr.prun, fun {evs p} hr => ?_⟩
  obtain ⟨q, h1, h2⟩ := hr.lprun lv
  refine ⟨_, q, h1, ?_, h2⟩
  rw [List.map_map]
  conv_rhs => rw [← List.map_id evs]
  exact List.map_congr_left fun ev _ => ev.detailed_ev

/-- The handler writes entries while it handles messages, and before it fails. -/
example : (∃ p : LProc Multi, LPRun .debug cfg0 env0 senv0 reportEvs p ∧
      decide (p.main.length > 8 ∧ p.proc.sys.calls.length ≥ 3) = true) ∧
    ∃ p : LProc Multi, LPRun .debug cfg0 env0 senv0 (escapeEvs.map .other) p ∧
      (decide (p.main ≠ []) && (match p.proc.sys.pc with | .halt _ => true | _ => false)) = true :=
  ⟨exists_lprun _ _ (by decide +kernel), exists_lprun _ _ (by decide +kernel)⟩

end Broker
