import Verif.Props.Liveness

/-!
# C20, C21: what can bring the broker down
-/

set_option linter.unusedSectionVars false

namespace Broker

open LawfulQM

variable {Q : Type} [QueueManager Q] [LawfulQM Q]

/-! ## Tools -/

theorem addMatchers_numeric : ∀ (hs : Headers) (m m' : MMap Matcher), addMatchers hs m = .ok m' →
    ∀ e ∈ hs, e.1 = "threads" → ∃ n, stoul e.2 = .ok n := by
  intro hs
  induction hs with
  | nil => intro m m' _ e he; simp at he
  | cons a t ih =>
    obtain ⟨k, v⟩ := a
    intro m m' h e he hk
    rw [addMatchers.eq_def] at h
    simp only at h
    split at h
    · rename_i hkt
      cases hv : stoul v with
      | error x => rw [hv] at h; cases h
      | ok n =>
        rw [hv] at h
        rcases List.mem_cons.1 he with rfl | he
        · exact ⟨n, hv⟩
        · exact ih _ _ h e he hk
    · rename_i hkt
      rcases List.mem_cons.1 he with rfl | he
      · exact absurd hk hkt
      · exact ih _ _ h e he hk

/-- A worker is created only with numbers in its `threads` headers. -/
theorem create_numeric {fs : List String} {a : Nat} {i g d : String} {w : Worker}
    (h : Worker.create a i g (initHeaders fs []).1 d = .ok w) :
    Spec.Numeric (Spec.headerFrames fs) := by
  intro f hf hk
  simp only [Worker.create] at h
  cases hm : addMatchers (initHeaders fs []).1 (mmEmplace "hwgroup" (.multi g) []) with
  | error x => rw [hm] at h; cases h
  | ok m =>
    obtain ⟨n, hn⟩ := addMatchers_numeric _ _ _ hm (Spec.frameKey f, Spec.frameValue f)
      ((mem_initHeaders fs [] _).2 (Or.inr ⟨f, hf, rfl⟩)) hk
    exact ⟨n, (stoul_iff _ _).1 hn⟩

/-- The headers of a registered worker have numbers in `threads`. -/
theorem Run.registered_numeric {cfg : HConfig} {env : Env} {h : List (Tr Q)} {s : HState Q}
    (hr : Run cfg env h s) {w : Worker} (hw : w ∈ s.workers) {fs : List String}
    (he : w.headers = (initHeaders fs []).1) : Spec.Numeric (Spec.headerFrames fs) := by
  obtain ⟨t, _, rest, hf⟩ := hr.prov.2 w (hr.inv.1.mem_reg.1 hw)
  have hc := hf.created
  have h4 := (Worker.create_fields hc).2.2.2.1
  rw [← h4, he] at hc
  exact create_numeric hc

/-- A header check throws only in a worker that declares `threads`. -/
theorem check_throws {w : Worker} {a : Nat} {i g d : String}
    (hc : Worker.create a i g w.headers d = .ok w) : ∀ {hs : Headers} {x : Exn},
    w.checkHeaders hs = .error x → ∃ v, ("threads", v) ∈ w.headers := by
  intro hs x hx
  by_contra hno
  have hn : ∀ m k n, (k, m) ∈ w.matchers → m ≠ Matcher.count n := by
    intro m k n hm he
    simp only [Worker.create] at hc
    cases hm' : addMatchers w.headers (mmEmplace "hwgroup" (.multi g) []) with
    | error x => rw [hm'] at hc; cases hc
    | ok ms =>
      rw [hm'] at hc
      have hms : ms = w.matchers := congrArg Worker.matchers (Except.ok.inj hc)
      subst hms
      rcases (mem_addMatchers hm' (k, m)).1 hm with h1 | ⟨v, hv, ⟨hk, _⟩ | ⟨_, h2⟩⟩
      · rw [mem_mmEmplace] at h1
        rcases h1 with h1 | h1
        · rw [Prod.mk.injEq] at h1; rw [h1.2] at he; cases he
        · simp at h1
      · exact hno ⟨v, by rw [← show k = "threads" from hk]; exact hv⟩
      · rw [show m = _ from h2] at he; cases he
  have : ∀ hs : Headers, ∃ b, w.checkHeaders hs = .ok b := by
    intro hs
    induction hs with
    | nil => exact ⟨true, rfl⟩
    | cons a t ih =>
      obtain ⟨k, v⟩ := a
      obtain ⟨c, hc⟩ := ih
      obtain ⟨b, hb⟩ : ∃ b, w.checkHeader k v = .ok b :=
        anyMatch_total (.inl (fun m hm n => hn m k n (mem_mmRange.1 hm)))
      cases b with
      | true => exact ⟨c, by simp [Worker.checkHeaders, hb, hc]⟩
      | false => exact ⟨false, by simp [Worker.checkHeaders, hb]⟩
  obtain ⟨b, hb⟩ := this hs
  rw [hb] at hx
  cases hx

/-- If a step cannot succeed it fails in one of the known ways. -/
theorem step_fails {cfg : HConfig} {env : Env} {m : Msg} {s : HState Q} (h : HInv s)
    (hno : ∀ s' evs, StepInfo cfg env m s s' evs → False) :
    ∃ e s', step cfg env m s = .error e s' ∧ StepErr cfg env m { s with outs := [] } e := by
  cases hs : step cfg env m s with
  | ok u s' => obtain ⟨evs, hi⟩ := step_info h hs; exact (hno _ _ hi).elim
  | error e s' => exact ⟨e, s', rfl, step_err h hs⟩

/-! ## C20 -/

/-- **C20 (partial).** In every reachable state every message except those listed in `Spec.Hazard`
    is handled without exception and without undefined behaviour.
    Missing: the full claim has no exceptions. -/
theorem C20_partial {cfg : HConfig} {env : Env} {h : List (Tr Q)} {s : HState Q}
    (hr : Run cfg env h s) (m : Msg) (hm : ¬ Spec.Hazard m s) :
    ∃ s', step cfg env m s = .ok () s' := by
  have hinv := hr.inv.1
  refine step_total hinv ?_
  intro e he
  apply hm
  cases he with
  | empty hk hd _ => exact .empty hk hd
  | init hk hd he =>
    obtain ⟨c, g, fs, x, hm', _, _, hc⟩ := he
    have hd' : m.data = "init" :: g :: fs := by
      rw [hd, List.cons.injEq] at hm'; rw [hd, hm'.2]
    refine .init hk hd' ?_
    intro hn
    obtain ⟨w, hw⟩ := create_total hn _ _ _ _
    rw [hw] at hc
    cases hc
  | @done rest hk hd he =>
    obtain ⟨hl, _, w, hw, hb⟩ := he
    have hw : regFind m.identity s.workers = some w := hw
    have hl2 : ∃ j st rest', rest = j :: st :: rest' := by
      rw [hd] at hl
      match rest, hl with
      | j :: st :: rest', _ => exact ⟨j, st, rest', rfl⟩
    obtain ⟨j, st, rest', rfl⟩ := hl2
    refine .done hk hd (w := w) (by rw [← hw, regFind]) ?_
    cases hc : (QueueManager.currentRequest s.queue w).1 with
    | none => rfl
    | some r =>
      exact absurd ((current hinv.qinv (hinv.mem_reg.1 (regFind_mem hw).1)).2 r |>.1 hc) (hb r)
  | eval hk hd he =>
    rcases he with ⟨h1, _⟩ | ⟨j, h1, _⟩ | ⟨hf, j, fs, hs, md, extra, h1, hp, w, hw, x, _, hx⟩
    · exact .evalShort hk (.inl h1)
    · exact .evalShort hk (.inr ⟨j, h1⟩)
    · have hdel : "" ∈ fs := by
        by_contra hno
        exact absurd ((evalHeaders_some _ _ _ _ hp).1) (by simpa using hno)
      have hw : w ∈ s.workers := hw
      refine .eval hk h1 hdel ?_ hf ⟨w, hw, ?_⟩
      · intro hn
        obtain ⟨b, hb⟩ := safe_of_numeric hn hp w (hinv.wf hw)
        rw [hb] at hx
        cases hx
      · obtain ⟨t, _, rest, hfr⟩ := hr.prov.2 w (hinv.mem_reg.1 hw)
        have hc := hfr.created
        rw [← (Worker.create_fields hc).2.2.2.1] at hc
        exact check_throws hc hx
  | timer hk he =>
    refine .timer hk ?_
    rintro ⟨t, _, f, rest, hd, ht⟩
    rcases he with ⟨h1, _⟩ | ⟨f', rest', x, h1, h2, _⟩
    · rw [hd] at h1; cases h1
    · rw [hd, List.cons.injEq] at h1
      rw [← h1.1, (stoll_iff f t).2 ht] at h2
      cases h2

/-- **C20, negative side: a message without frames.** It terminates the broker in every state. -/
theorem C20_empty_message_crashes {cfg : HConfig} {env : Env} {h : List (Tr Q)} {s : HState Q}
    (hr : Run cfg env h s) {m : Msg} (hk : m.key = "workers" ∨ m.key = "clients")
    (hd : m.data = []) : ∃ s', step cfg env m s = .error (.exn .outOfRange) s' := by
  have hkt : m.key ≠ "timer" := by rcases hk with hk | hk <;> rw [hk] <;> decide
  obtain ⟨e, s', hs, he⟩ := step_fails (cfg := cfg) (env := env) (m := m) hr.inv.1 (by
    intro s' evs hi
    cases hi.script with
    | init _ hd' | done _ hd' | ping _ hd' | progress _ hd' | workerUnknown _ hd' | eval _ hd'
    | stats _ hd' | freeze _ hd' | unfreeze _ hd' | clientUnknown _ hd' | timer _ hd' =>
      rw [hd] at hd'; cases hd'
    | other hk' => rcases hk with hk | hk; exacts [hk'.1 hk, hk'.2.1 hk])
  cases he with
  | empty _ _ he => exact ⟨s', he ▸ hs⟩
  | init _ hd' => rw [hd] at hd'; cases hd'
  | done _ hd' => rw [hd] at hd'; cases hd'
  | eval _ hd' => rw [hd] at hd'; cases hd'
  | timer hk' => exact absurd hk' hkt

/-- **C20, negative side: `eval` without job id.** -/
theorem C20_eval_alone_crashes {cfg : HConfig} {env : Env} {h : List (Tr Q)} {s : HState Q}
    (hr : Run cfg env h s) {m : Msg} (hk : m.key = "clients") (hd : m.data = ["eval"]) :
    ∃ s', step cfg env m s = .error (.exn .outOfRange) s' := by
  obtain ⟨e, s', hs, he⟩ := step_fails (cfg := cfg) (env := env) (m := m) hr.inv.1 (by
    intro s' evs hi
    obtain ⟨_, hev⟩ := hi.script.eval_inv hk (by rw [hd]; rfl)
    cases hev with
    | malformed h _ => obtain ⟨j, rest, h1, _⟩ := h; rw [hd] at h1; cases h1
    | frozen _ h _ => obtain ⟨j, rest, x, h1, _⟩ := h; rw [hd] at h1; cases h1
    | submit _ h1 => rw [hd] at h1; cases h1)
  cases he with
  | empty _ hd' _ => rw [hd] at hd'; cases hd'
  | init hk' => exact absurd (hk'.symm.trans hk) wkey_ne_ckey
  | done hk' => exact absurd (hk'.symm.trans hk) wkey_ne_ckey
  | timer hk' => rw [hk] at hk'; exact absurd hk' (by decide)
  | eval _ _ he =>
    rcases he with ⟨_, he⟩ | ⟨j, h1, _⟩ | ⟨_, j, fs, _, _, _, h1, _⟩
    · exact ⟨s', he ▸ hs⟩
    · rw [hd] at h1; cases h1
    · rw [hd] at h1; cases h1

/-- **C20, negative side: `eval` with a job id and nothing else.** The loop over the header frames
    dereferences the end of the message. -/
theorem C20_eval_short_undefined {cfg : HConfig} {env : Env} {h : List (Tr Q)} {s : HState Q}
    (hr : Run cfg env h s) {m : Msg} (hk : m.key = "clients") {j : String}
    (hd : m.data = ["eval", j]) : ∃ s', step cfg env m s = .error (.ub .pastEnd) s' := by
  obtain ⟨e, s', hs, he⟩ := step_fails (cfg := cfg) (env := env) (m := m) hr.inv.1 (by
    intro s' evs hi
    obtain ⟨_, hev⟩ := hi.script.eval_inv hk (by rw [hd]; rfl)
    cases hev with
    | malformed h _ =>
      obtain ⟨j, rest, h1, h2⟩ := h
      rw [hd] at h1; cases h1; simp [evalHeaders] at h2
    | frozen _ h _ =>
      obtain ⟨j, rest, x, h1, h2⟩ := h
      rw [hd] at h1; cases h1; simp [evalHeaders] at h2
    | submit _ h1 h2 => rw [hd] at h1; cases h1; simp [evalHeaders] at h2)
  cases he with
  | empty _ hd' _ => rw [hd] at hd'; cases hd'
  | init hk' => exact absurd (hk'.symm.trans hk) wkey_ne_ckey
  | done hk' => exact absurd (hk'.symm.trans hk) wkey_ne_ckey
  | timer hk' => rw [hk] at hk'; exact absurd hk' (by decide)
  | eval _ _ he =>
    rcases he with ⟨h1, _⟩ | ⟨j, _, he⟩ | ⟨_, j, fs, _, _, _, h1, h2, _⟩
    · rw [hd] at h1; cases h1
    · exact ⟨s', he ▸ hs⟩
    · rw [hd] at h1; cases h1; simp [evalHeaders] at h2

/-- **C20, negative side: a worker that declares a `threads` header that is no number.** Its `init`
    terminates the broker in every state. -/
theorem C20_init_threads_crashes {cfg : HConfig} {env : Env} {h : List (Tr Q)} {s : HState Q}
    (hr : Run cfg env h s) {m : Msg} (hk : m.key = "workers") {g : String} {fs : List String}
    (hd : m.data = "init" :: g :: fs) (hn : ¬ Spec.Numeric (Spec.headerFrames fs)) :
    ∃ x s', step cfg env m s = .error (.exn x) s' := by
  obtain ⟨e, s', hs, he⟩ := step_fails (cfg := cfg) (env := env) (m := m) hr.inv.1 (by
    intro s' evs hi
    have hscr := hi.script.init_inv hk (by rw [hd]; rfl)
    cases hscr with
    | short h _ => rw [hd] at h; simp at h; omega
    | same _ hm hw he =>
      rw [hd] at hm; cases hm
      rw [heard_workers] at hw
      exact hn (hr.registered_numeric (regFind_mem hw).1 he)
    | fresh hm _ hnew =>
      rw [hd] at hm; cases hm
      exact hn (create_numeric hnew.created)
    | again hm _ _ hnew =>
      rw [hd] at hm; cases hm
      exact hn (create_numeric hnew.created))
  cases he with
  | empty _ hd' _ => rw [hd] at hd'; cases hd'
  | eval hk' => exact absurd (hk.symm.trans hk') wkey_ne_ckey
  | done _ hd' => rw [hd] at hd'; simp at hd'
  | timer hk' => exact absurd (hk.symm.trans hk') wkey_ne_tkey
  | init _ _ he =>
    obtain ⟨_, _, _, x, _, rfl, _⟩ := he
    exact ⟨x, s', hs⟩

/-- **C20, negative side: a `done` from a registered worker that processes nothing.** The handler
    dereferences a null pointer. -/
theorem C20_idle_done_undefined {cfg : HConfig} {env : Env} {h : List (Tr Q)} {s : HState Q}
    (hr : Run cfg env h s) {m : Msg} (hk : m.key = "workers") {w : Worker} {j st : String}
    {rest : List String} (hd : m.data = "done" :: j :: st :: rest)
    (hw : s.workers.find? (fun w => w.identity == m.identity) = some w)
    (hi : (QueueManager.currentRequest s.queue w).1 = none) :
    ∃ s', step cfg env m s = .error (.ub .nullDeref) s' := by
  have hw' := regFind_of_find hw
  have hidle : ∀ r, (w, r) ∉ busy s.queue := by
    intro r hb
    have h1 := (processing_iff (i := m.identity) hr.inv.1).2 ⟨hw', hb⟩
    rw [h1.2] at hi; cases hi
  obtain ⟨e, s', hs, he⟩ := step_fails (cfg := cfg) (env := env) (m := m) hr.inv.1 (by
    intro s' evs hi
    have hscr := hi.script.done_inv hk (by rw [hd]; rfl)
    cases hscr with
    | unknown h1 _ => rw [heard_workers] at h1; rw [hw'] at h1; cases h1
    | short h1 _ => rw [hd] at h1; simp at h1; omega
    | stale h1 _ hb =>
      rw [heard_workers] at h1; rw [hw'] at h1; cases h1
      rw [heard_frame] at hb
      exact hidle _ hb
    | report h1 _ hb =>
      rw [heard_workers] at h1; rw [hw'] at h1; cases h1
      rw [heard_frame] at hb
      exact hidle _ hb)
  cases he with
  | empty _ hd' _ => rw [hd] at hd'; cases hd'
  | eval hk' => exact absurd (hk.symm.trans hk') wkey_ne_ckey
  | init _ hd' => rw [hd] at hd'; simp at hd'
  | timer hk' => exact absurd (hk.symm.trans hk') wkey_ne_tkey
  | done _ _ he => exact ⟨s', he.2.1 ▸ hs⟩

/-- C20 as a statement: in every reachable state every message of a client or worker is handled. -/
def Robust (Q : Type) [QueueManager Q] (cfg : HConfig) (env : Env) : Prop :=
  ∀ (h : List (Tr Q)) (s : HState Q), Run cfg env h s → ∀ m : Msg,
    m.key = "workers" ∨ m.key = "clients" → ∃ s', step cfg env m s = .ok () s'

/-- **C20 is false**, with either queue manager and in every environment. -/
theorem C20_refuted (cfg : HConfig) (env : Env) : ¬ Robust Q cfg env := by
  intro hrob
  obtain ⟨s', hs⟩ := hrob [] _ .nil (fromC "c" ["eval", "J"]) (.inr rfl)
  obtain ⟨s2, hs2⟩ := C20_eval_short_undefined (Q := Q) (cfg := cfg) (env := env) .nil
    (m := fromC "c" ["eval", "J"]) rfl rfl
  rw [hs] at hs2
  cases hs2

/-- What a step answers after some messages: the error, if any. -/
def outcome (Q : Type) [QueueManager Q] (ms : List Msg) (m : Msg) : Option (Option Err) :=
  (exec0 Q cfg0 env0 ms).map fun x =>
    match step cfg0 env0 m x.2 with
    | .ok _ _ => none
    | .error e _ => some e

/-- An `eval` with a `threads` header that is no number terminates the broker. -/
example : outcome Single [fromW "w" ["init", "g", "threads=2"]]
    (fromC "c" ["eval", "J", "threads=two", "", "u"]) = some (some (.exn .invalidArgument)) := by
  decide +kernel

example : outcome Multi [fromW "w" ["init", "g", "threads=2"]]
    (fromC "c" ["eval", "J", "threads=two", "", "u"]) = some (some (.exn .invalidArgument)) := by
  decide +kernel

/-- The same `eval` is answered as long as no worker declares `threads`. -/
example : outcome Single [fromW "w" ["init", "g", "env=c"]]
    (fromC "c" ["eval", "J", "threads=two", "", "u"]) = some none := by decide +kernel

/-- A second report about the same job is undefined behaviour. -/
example : outcome Multi [fromW "w" ["init", "g", "env=c"], fromC "c" ["eval", "J", "env=c", "", "u"],
    fromW "w" ["done", "J", "OK"]] (fromW "w" ["done", "J", "OK"]) = some (some (.ub .nullDeref)) := by
  decide +kernel

example : outcome Single [] (fromW "w" ["init", "g", "threads="]) =
    some (some (.exn .invalidArgument)) := by decide +kernel

/-- A history and a message without hazard. -/
example : ∃ (h : List (Tr Single)) (s : HState Single), Run cfg0 env0 h s ∧ s.workers.length = 1 ∧
    ¬ Spec.Hazard (fromC "c" ["eval", "J", "env=c", "threads=2", "", "u"]) s := by
  obtain ⟨h, s, hr, hp⟩ := exists_run (Q := Single) (cfg := cfg0) (env := env0)
    [fromW "w" ["init", "g", "env=c", "threads=2"]] (fun _ s => decide (s.workers.length = 1))
    (by decide +kernel)
  refine ⟨h, s, hr, of_decide_eq_true hp, ?_⟩
  intro hz
  cases hz with
  | empty _ hd => cases hd
  | init hk => exact absurd hk (by decide)
  | done hk => exact absurd hk (by decide)
  | evalShort _ hd => rcases hd with hd | ⟨_, hd⟩ <;> cases hd
  | timer hk => exact absurd hk (by decide)
  | eval _ hd _ hn =>
    cases hd
    apply hn
    intro f hf hk
    have hf' : f ∈ ["env=c", "threads=2"] := by
      have : Spec.headerFrames ["env=c", "threads=2", "", "u"] = ["env=c", "threads=2"] := by
        decide +kernel
      rw [← this]; exact hf
    simp only [List.mem_cons, List.not_mem_nil, or_false] at hf'
    rcases hf' with rfl | rfl
    · exact absurd hk (by decide +kernel)
    · exact ⟨2, (stoul_iff _ _).1 (by decide +kernel)⟩

/-! ## C21 -/

/-- **C21.** In every reachable state - whatever jobs have been accepted and whatever workers are
    registered - these are handled without exception and undefined behaviour: a timer message, a
    report of a worker about the job it processes, the registration of a worker with numeric
    `threads` headers (it may take over waiting jobs), a well-formed new request (it is matched
    with all workers), a ping, a progress message. -/
theorem C21_no_late_crash {cfg : HConfig} {env : Env} {h : List (Tr Q)} {s : HState Q}
    (hr : Run cfg env h s) (m : Msg)
    (hm : (∃ t, Spec.IsTick m t) ∨
      (m.key = "workers" ∧ ∃ w r st rest, m.data = "done" :: r.jobId :: st :: rest ∧
        Spec.Processing m.identity w r s) ∨
      (m.key = "workers" ∧ ∃ g fs, m.data = "init" :: g :: fs ∧
        Spec.Numeric (Spec.headerFrames fs)) ∨
      (m.key = "clients" ∧ Spec.WellFormedEval m.data) ∨
      (m.key = "workers" ∧ ∃ rest, m.data = "ping" :: rest ∨ m.data = "progress" :: rest)) :
    ∃ s', step cfg env m s = .ok () s' := by
  refine C20_partial hr m ?_
  intro hz
  rcases hm with ⟨t, ht⟩ | ⟨hk, w, r, st, rest, hd, hp⟩ | ⟨hk, g, fs, hd, hn⟩ |
    ⟨hk, j, fs, hd, hdel, hn⟩ | ⟨hk, rest, hd⟩
  · have hk := ht.1
    cases hz with
    | empty hk' => rw [hk] at hk'; exact absurd hk' (by decide)
    | init hk' | done hk' | evalShort hk' | eval hk' => rw [hk] at hk'; exact absurd hk' (by decide)
    | timer _ h => exact h ⟨t, ht⟩
  · cases hz with
    | empty _ hd' | init _ hd' => rw [hd] at hd'; simp at hd'
    | evalShort hk' | eval hk' | timer hk' => rw [hk] at hk'; exact absurd hk' (by decide)
    | done _ hd' hw hi =>
      rw [hp.1] at hw; cases hw
      rw [hp.2] at hi; cases hi
  · cases hz with
    | empty _ hd' | done _ hd' => rw [hd] at hd'; simp at hd'
    | evalShort hk' | eval hk' | timer hk' => rw [hk] at hk'; exact absurd hk' (by decide)
    | init _ hd' hn' => rw [hd] at hd'; cases hd'; exact hn' hn
  · cases hz with
    | empty _ hd' => rw [hd] at hd'; simp at hd'
    | init hk' | done hk' | timer hk' => rw [hk] at hk'; exact absurd hk' (by decide)
    | evalShort _ hd' =>
      rcases hd' with hd' | ⟨_, hd'⟩
      · rw [hd] at hd'; cases hd'
      · rw [hd] at hd'; cases hd'; simp at hdel
    | eval _ hd' _ hn' => rw [hd] at hd'; cases hd'; exact hn' hn
  · cases hz with
    | empty _ hd' => rcases hd with hd | hd <;> rw [hd] at hd' <;> cases hd'
    | init _ hd' => rcases hd with hd | hd <;> rw [hd] at hd' <;> simp at hd'
    | done _ hd' => rcases hd with hd | hd <;> rw [hd] at hd' <;> simp at hd'
    | evalShort hk' | eval hk' | timer hk' => rw [hk] at hk'; exact absurd hk' (by decide)

/-- A job accepted with a `threads` header, waiting while its worker dies and a worker with another
    `threads` declaration registers. -/
example : outcome Single [fromW "w" ["init", "g", "threads=4"], fromW "w" ["ping"],
    fromC "c" ["eval", "J", "threads=2", "", "u"], fromC "c" ["eval", "K", "threads=3", "", "u"],
    fromW "v" ["init", "g", "threads=2"], fromW "v" ["ping"]] (tick "4000") = some none := by
  decide +kernel

end Broker
