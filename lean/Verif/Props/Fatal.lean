import Verif.Proof.Fatal

/-!
# C108: exactly which messages bring the broker down
-/

set_option linter.unusedSectionVars false

namespace Broker

open LawfulQM

variable {Q : Type} [QueueManager Q] [LawfulQM Q]

/-- Whatever ends the broker is in the list. -/
theorem fatal_of_error {cfg : HConfig} {env : Env} {h : List (Tr Q)} {s s' : HState Q}
    (hr : Run cfg env h s) {m : Msg} {e : Err} (hs : step cfg env m s = .error e s') :
    Spec.Fatal m s e := by
  have hinv := hr.inv.1
  cases step_err hinv hs with
  | empty hk hd he => subst he; exact .empty hk hd
  | init hk hd he =>
    obtain ⟨c, g, fs, x, hm', rfl, _, hc⟩ := he
    have hd' : m.data = "init" :: g :: fs := by
      rw [hd, List.cons.injEq] at hm'; rw [hd, hm'.2]
    exact .init hk hd' (create_error_iff.1 hc)
  | @done rest hk hd he =>
    obtain ⟨hl, rfl, w, hw, hb⟩ := he
    have hw : regFind m.identity s.workers = some w := hw
    have hl2 : ∃ j st rest', rest = j :: st :: rest' := by
      rw [hd] at hl
      match rest, hl with
      | j :: st :: rest', _ => exact ⟨j, st, rest', rfl⟩
    obtain ⟨j, st, rest', rfl⟩ := hl2
    refine .done hk hd (w := w) (by rw [← hw, regFind]) ?_
    cases hc : (QueueManager.currentRequest s.queue w).1 with
    | none => rfl
    | some r =>
      exact absurd ((current hinv.qinv (hinv.mem_reg.1 (regFind_mem hw).1)).2 r |>.1 hc) (hb r)
  | eval hk hd he =>
    rcases he with ⟨h1, rfl⟩ | ⟨j, h1, rfl⟩ | ⟨hf, j, fs, hs, md, extra, h1, hp, w, hw, x, rfl, hx⟩
    · exact .evalAlone hk h1
    · exact .evalShort hk h1
    · have hw : w ∈ s.workers := hw
      obtain ⟨t, _, rest, hfr⟩ := hr.prov.2 w (hinv.mem_reg.1 hw)
      exact .eval hk h1 (evalHeaders_some _ _ _ _ hp).1 hf hw
        ((stumbles_iff hfr.created hp x).1 hx)
  | timer hk he =>
    rcases he with ⟨h1, rfl⟩ | ⟨f, rest, x, h1, h2, rfl⟩
    · exact .timerEmpty hk h1
    · exact .timer hk h1 ((stoll_error_iff f x).1 h2)

/-- What happens is determined. -/
theorem fatal_unique {m : Msg} {s : HState Q} {e e' : Err} (h : Spec.Fatal m s e)
    (h' : Spec.Fatal m s e') : e = e' := by
  have hwc : "workers" ≠ "clients" := by decide
  have hwt : "workers" ≠ "timer" := by decide
  have hct : "clients" ≠ "timer" := by decide
  have hid : "init" ≠ "done" := by decide
  cases h <;> cases h' <;> simp_all
  · exact firstBad_unique ‹_› ‹Spec.FirstBad _ _›
  · rename_i h1 _ _ _ _ h2
    exact firstBad_unique (Spec.Stumbles.firstBad ‹_›) (Spec.Stumbles.firstBad h2)
  · rename_i h1 _ _ h2
    have h3 := (stoll_error_iff _ _).2 h1
    rw [(stoll_error_iff _ _).2 h2] at h3
    cases h3; rfl

/-- A fatal message is not handled. -/
theorem error_of_fatal {cfg : HConfig} {env : Env} {h : List (Tr Q)} {s : HState Q}
    (hr : Run cfg env h s) {m : Msg} {e : Err} (hf : Spec.Fatal m s e) :
    ∃ e' s', step cfg env m s = .error e' s' := by
  cases hf with
  | empty hk hd => exact ⟨_, C20_empty_message_crashes hr hk hd⟩
  | init hk hd hx =>
    obtain ⟨x, s', hs⟩ := C20_init_threads_crashes hr hk hd (by
      intro hn
      obtain ⟨a, v, b, h1, _, h3⟩ := hx
      have hv : v ∈ Spec.declared "threads" _ := h1 ▸ (by simp : v ∈ a ++ v :: b)
      obtain ⟨f, h4, rfl⟩ := List.mem_map.1 hv
      obtain ⟨h5, h6⟩ := List.mem_filter.1 h4
      obtain ⟨n, hn⟩ := hn f h5 (by simpa using h6)
      exact not_count_of_bad h3 hn)
    exact ⟨_, s', hs⟩
  | done hk hd hw hi => exact ⟨_, C20_idle_done_undefined hr hk hd hw hi⟩
  | evalAlone hk hd => exact ⟨_, C20_eval_alone_crashes hr hk hd⟩
  | evalShort hk hd => exact ⟨_, C20_eval_short_undefined hr hk hd⟩
  | @eval j fs x w hk hd hdel hf hw hx =>
    obtain ⟨e, s', hs, _⟩ := step_fails (cfg := cfg) (env := env) (m := m) hr.inv.1 (by
      intro s' evs hi
      obtain ⟨_, hev⟩ := hi.script.eval_inv hk (by rw [hd]; rfl)
      obtain ⟨t, _, rest, hfr⟩ := hr.prov.2 w (hr.inv.1.mem_reg.1 hw)
      have hst := hi.steps
      cases hev with
      | malformed h _ =>
        obtain ⟨j', rest, h1, h2⟩ := h
        rw [hd, List.cons.injEq, List.cons.injEq] at h1
        rw [← h1.2.2] at h2
        exact ((evalHeaders_none _ _ _).1 h2).2 hdel
      | frozen h _ _ =>
        have h : s.frozen = true := h
        rw [hf] at h; cases h
      | @submit _ _ _ hs md extra hm hp _ h =>
        rw [hd] at hm
        simp only [List.cons.injEq, true_and] at hm
        obtain ⟨rfl, rfl⟩ := hm
        have herr := (stumbles_iff hfr.created hp x).2 hx
        have key : ∀ {r : Req} {es : List Ev} {a}, r.headers = hs →
            LSteps cfg.maxFailures (ls s 0) (.say a :: .accept r :: es) (ls s' 0) → False := by
          intro r es a hrh hst
          cases hst with
          | cons h1 ht =>
            cases h1
            cases ht with
            | cons h2 _ =>
              cases h2 with
              | accept _ _ _ hcan =>
                obtain ⟨w', hw', hc⟩ := hcan
                rw [hrh] at hc
                obtain ⟨b, hb⟩ := safe_of_can (hr.inv.1.wf (hr.inv.1.mem_reg.2 hw')) hc w
                  (hr.inv.1.wf hw)
                rw [hb] at herr
                cases herr
        cases h with
        | reject hno =>
          rw [hno w hw] at herr; cases herr
        | give w' => exact key rfl hst
        | wait => exact key rfl hst)
    exact ⟨e, s', hs⟩
  | timerEmpty hk hd =>
    obtain ⟨e, s', hs, _⟩ := step_fails (cfg := cfg) (env := env) (m := m) hr.inv.1 (by
      intro s' evs hi
      cases hi.script with
      | init _ hd' | done _ hd' | ping _ hd' | progress _ hd' | workerUnknown _ hd' | eval _ hd'
      | stats _ hd' | freeze _ hd' | unfreeze _ hd' | clientUnknown _ hd' | timer _ hd' =>
        rw [hd] at hd'; cases hd'
      | other hk' => exact hk'.2.2 hk)
    exact ⟨e, s', hs⟩
  | timer hk hd hx =>
    obtain ⟨e, s', hs, _⟩ := step_fails (cfg := cfg) (env := env) (m := m) hr.inv.1 (by
      intro s' evs hi
      obtain ⟨f', rest', time, xs, h1, h2, _⟩ := hi.script.timer_inv hk
      rw [hd, List.cons.injEq] at h1
      rw [← h1.1, (stoll_error_iff _ _).2 hx] at h2
      cases h2)
    exact ⟨e, s', hs⟩

/-- **C108, the list is exact.** In every reachable state a message ends the broker with this exception
    or undefined behaviour iff it is in the list. -/
theorem C108_exact {cfg : HConfig} {env : Env} {h : List (Tr Q)} {s : HState Q}
    (hr : Run cfg env h s) (m : Msg) (e : Err) :
    (∃ s', step cfg env m s = .error e s') ↔ Spec.Fatal m s e := by
  constructor
  · rintro ⟨s', hs⟩
    exact fatal_of_error hr hs
  · intro hf
    obtain ⟨e', s', hs⟩ := error_of_fatal hr hf
    rw [fatal_unique hf (fatal_of_error hr hs)]
    exact ⟨s', hs⟩

/-- **C108, all other messages are handled.** -/
theorem C108_survives {cfg : HConfig} {env : Env} {h : List (Tr Q)} {s : HState Q}
    (hr : Run cfg env h s) (m : Msg) :
    (∃ s', step cfg env m s = .ok () s') ↔ ∀ e, ¬ Spec.Fatal m s e := by
  constructor
  · rintro ⟨s', hs⟩ e hf
    obtain ⟨s'', hs'⟩ := (C108_exact hr m e).2 hf
    rw [hs] at hs'; cases hs'
  · intro hno
    cases hs : step cfg env m s with
    | ok u s' => exact ⟨s', rfl⟩
    | error e s' => exact absurd (fatal_of_error hr hs) (hno e)

/-- **C108, last words.** While a fatal message is handled nothing is sent but the acknowledgement of
    an `eval`, and the report of an `init` under a known identity. -/
theorem C108_last_words {cfg : HConfig} {env : Env} {h : List (Tr Q)} {s s' : HState Q}
    (hr : Run cfg env h s) {m : Msg} {e : Err} (hs : step cfg env m s = .error e s') :
    s'.outs = Spec.lastWords m s := by
  obtain ⟨key, identity, data⟩ := m
  have hs : onRequest cfg env ⟨key, identity, data⟩ { s with outs := [] } = .error e s' := hs
  have hf := fatal_of_error hr hs
  have hh := heard_frame cfg identity { s with outs := [] }
  have touch : ∀ {f : Unit → HM Q Unit} {E},
      wp (f ()) (HState.heard cfg identity { s with outs := [] }) (fun _ _ => True) E →
      wp (touchWorker cfg identity >>= f) { s with outs := [] } (fun _ _ => True) E := by
    intro f E hw
    rw [wp_bind]
    unfold wp
    rw [touchWorker_eq]
    exact hw
  cases hf with
  | empty hk hd =>
    simp only at hk hd
    subst hd
    have h1 : wp (onRequest cfg env ⟨key, identity, []⟩) { s with outs := [] } (fun _ _ => True)
        (fun _ s' => s'.outs = []) := by
      simp only [onRequest]
      rcases hk with rfl | rfl
      · rw [if_pos (by rfl)]
        refine touch ?_
        simp only [wp_raise]
        rw [hh]
      · rw [if_neg (by decide), if_pos (by rfl)]
        simp only [wp_raise]
    rw [wp_err h1 hs]
    simp [Spec.lastWords]
  | @init g fs x hk hd hx =>
    simp only at hk hd
    subst hk; subst hd
    have hcr := fun a d => (create_error_iff (a := a) (i := identity) (g := g) (d := d)).2 hx
    have h1 : wp (onRequest cfg env ⟨"workers", identity, "init" :: g :: fs⟩) { s with outs := [] }
        (fun _ _ => True)
        (fun _ s' => s'.outs = Spec.lastWords ⟨"workers", identity, "init" :: g :: fs⟩ s) := by
      simp only [onRequest]
      rw [if_pos (by rfl)]
      refine touch ?_
      simp only [workerCommand, if_true, processInit, wp_bind, wp_get]
      generalize hT : HState.heard cfg identity { s with outs := [] } = T at hh ⊢
      have hout : T.outs = [] := by rw [hh]
      have hws : T.workers = s.workers := by rw [hh]
      have hreg : ∀ (U : HState Q) (L : List Msg), U.outs = L →
          wp (registerWorker env identity g (initHeaders fs []).1 (initHeaders fs []).2) U
            (fun _ _ => True) (fun _ s' => s'.outs = L) := by
        intro U L hU
        simp only [registerWorker, wp_bind, wp_get, wp_liftE, hcr]
        exact hU
      have hfd : s.workers.find? (fun w => w.identity == identity) = regFind identity s.workers := rfl
      simp only [Spec.lastWords, hws, hfd]
      cases hfind : regFind identity s.workers with
      | none =>
        simp only
        exact hreg _ _ (by rw [hout]; simp)
      | some w =>
        simp only
        split
        · trivial
        · simp only [notifyError, wp_bind, wp_respond]
          refine hreg _ _ ?_
          simp [hout, keyNotifier]
    exact wp_err h1 hs
  | @done w j st rest hk hd hw hi =>
    simp only at hk hd hw
    subst hk; subst hd
    have h1 : wp (onRequest cfg env ⟨"workers", identity, "done" :: j :: st :: rest⟩)
        { s with outs := [] } (fun _ _ => True) (fun _ s' => s'.outs = []) := by
      simp only [onRequest]
      rw [if_pos (by rfl)]
      refine touch ?_
      simp only [workerCommand]
      rw [if_neg (by decide), if_pos trivial]
      generalize hT : HState.heard cfg identity { s with outs := [] } = T at hh ⊢
      have hout : T.outs = [] := by rw [hh]
      have hws : T.workers = s.workers := by rw [hh]
      have hq : T.queue = s.queue := by rw [hh]
      have hfd : regFind identity s.workers = some w := hw
      simp only [processDone, wp_bind, wp_get, hws, hfd, qCurrent, wp_modify, wp_pure, hq, hi,
        wp_undef]
      exact hout
    rw [wp_err h1 hs]
    simp [Spec.lastWords]
  | evalAlone hk hd =>
    simp only at hk hd
    subst hk; subst hd
    have h1 : wp (onRequest cfg env ⟨"clients", identity, ["eval"]⟩) { s with outs := [] }
        (fun _ _ => True) (fun _ s' => s'.outs = [⟨"clients", identity, ["ack"]⟩]) := by
      simp only [onRequest]
      rw [if_neg (by decide), if_pos (by rfl)]
      simp [clientCommand, processEval, wp_bind, wp_respond, wp_raise, keyClients]
    rw [wp_err h1 hs]
    simp [Spec.lastWords]
  | @evalShort j hk hd =>
    simp only at hk hd
    subst hk; subst hd
    have h1 : wp (onRequest cfg env ⟨"clients", identity, ["eval", j]⟩) { s with outs := [] }
        (fun _ _ => True) (fun _ s' => s'.outs = [⟨"clients", identity, ["ack"]⟩]) := by
      simp only [onRequest]
      rw [if_neg (by decide), if_pos (by rfl)]
      simp [clientCommand, processEval, wp_bind, wp_respond, wp_undef, keyClients, evalHeaders]
    rw [wp_err h1 hs]
    simp [Spec.lastWords]
  | @eval j fs x w hk hd hdel hfr hw hx =>
    simp only at hk hd
    subst hk; subst hd
    have h1 : wp (onRequest cfg env ⟨"clients", identity, "eval" :: j :: fs⟩) { s with outs := [] }
        (fun _ _ => True) (fun _ s' => s'.outs = [⟨"clients", identity, ["ack"]⟩]) := by
      simp only [onRequest]
      rw [if_neg (by decide), if_pos (by rfl)]
      obtain ⟨⟨hs, md, ex⟩, hp⟩ := evalHeaders_exists [] [] hdel
      simp only [clientCommand, if_true, processEval, wp_bind, wp_respond, List.getElem?_cons_succ,
        List.getElem?_cons_zero, List.drop_succ_cons, List.drop_zero, hp, wp_get, hfr,
        Bool.false_eq_true, if_false, submit, wp_set, qEnqueue, wp_liftE]
      split
      · simp only [wp_modify, wp_pure]
        split
        · split <;> simp [sendRequest, wp_bind, wp_respond]
        · simp [notifyMonitor, wp_bind, wp_respond]
      · simp [keyClients]
    rw [wp_err h1 hs]
    simp [Spec.lastWords]
  | timerEmpty hk hd =>
    simp only at hk hd
    subst hk; subst hd
    have h1 : wp (onRequest cfg env ⟨"timer", identity, []⟩) { s with outs := [] }
        (fun _ _ => True) (fun _ s' => s'.outs = []) := by
      simp only [onRequest]
      rw [if_neg (by decide), if_neg (by decide), if_pos (by rfl)]
      simp only [processTimer, wp_undef]
    rw [wp_err h1 hs]
    simp [Spec.lastWords]
  | @timer f rest x hk hd hx =>
    simp only at hk hd
    subst hk; subst hd
    have h1 : wp (onRequest cfg env ⟨"timer", identity, f :: rest⟩) { s with outs := [] }
        (fun _ _ => True) (fun _ s' => s'.outs = []) := by
      simp only [onRequest]
      rw [if_neg (by decide), if_neg (by decide), if_pos (by rfl)]
      simp only [processTimer, wp_bind, wp_liftE, (stoll_error_iff _ _).2 hx]
    rw [wp_err h1 hs]
    simp [Spec.lastWords]

/-! ## Non-vacuity -/

/-- A worker that declares `threads`: the request ends the broker although its `zone` fits nobody. -/
example : outcome Multi [fromW "w" ["init", "g", "env=c", "threads=4"]]
    (fromC "c" ["eval", "J", "zone=x", "threads=two", "env=c", ""]) =
      some (some (.exn .invalidArgument)) := by decide +kernel

/-- A number that is too large; a smaller one before it. -/
example : outcome Single [fromW "w" ["init", "g", "env=c", "threads=4"]]
    (fromC "c" ["eval", "J", "threads=2", "threads=18446744073709551616", ""]) =
      some (some (.exn .outOfRange)) := by decide +kernel

/-- The broker survives if the worker does not satisfy an earlier header ... -/
example : outcome Multi [fromW "w" ["init", "g", "env=c", "threads=4"]]
    (fromC "c" ["eval", "J", "threads=two", "env=java", ""]) = some none := by decide +kernel

/-- ... or an earlier `threads` header. -/
example : outcome Single [fromW "w" ["init", "g", "env=c", "threads=4"]]
    (fromC "c" ["eval", "J", "threads=8", "threads=two", ""]) = some none := by decide +kernel

/-- A reachable state, a message it does not survive and one with the same defect it survives. -/
example : ∃ (h : List (Tr Multi)) (s : HState Multi), Run cfg0 env0 h s ∧
    Spec.Fatal (fromC "c" ["eval", "J", "threads=two", "env=c", ""]) s (.exn .invalidArgument) ∧
    Spec.lastWords (fromC "c" ["eval", "J", "threads=two", "env=c", ""]) s =
      [⟨"clients", "c", ["ack"]⟩] ∧
    ∀ e, ¬ Spec.Fatal (fromC "c" ["eval", "J", "threads=two", "env=java", ""]) s e := by
  obtain ⟨h, s, hr, hp⟩ := exists_run (Q := Multi) (cfg := cfg0) (env := env0)
    [fromW "w" ["init", "g", "env=c", "threads=4"]]
    (fun _ s =>
      (match step cfg0 env0 (fromC "c" ["eval", "J", "threads=two", "env=c", ""]) s with
        | .error e _ => decide (e = .exn .invalidArgument) | .ok _ _ => false) &&
      (match step cfg0 env0 (fromC "c" ["eval", "J", "threads=two", "env=java", ""]) s with
        | .error _ _ => false | .ok _ _ => true)) (by decide +kernel)
  rw [Bool.and_eq_true] at hp
  refine ⟨h, s, hr, ?_, by simp [Spec.lastWords, fromC], ?_⟩
  · refine (C108_exact hr _ _).1 ?_
    have h1 := hp.1
    split at h1
    · rename_i e s' hs
      exact ⟨s', by rw [hs, of_decide_eq_true h1]⟩
    · cases h1
  · refine (C108_survives hr _).1 ?_
    have h2 := hp.2
    split at h2
    · cases h2
    · rename_i s' hs
      exact ⟨s', hs⟩

/-- An `init` under a known identity: the frontend is told before the broker ends. -/
example : ∃ (h : List (Tr Single)) (s : HState Single), Run cfg0 env0 h s ∧
    (∃ s', step cfg0 env0 (fromW "w" ["init", "g", "threads=two"]) s =
      .error (.exn .invalidArgument) s') ∧
    (Spec.lastWords (fromW "w" ["init", "g", "threads=two"]) s).length = 1 := by
  obtain ⟨h, s, hr, hp⟩ := exists_run (Q := Single) (cfg := cfg0) (env := env0)
    [fromW "w" ["init", "g", "env=c", "threads=4"]]
    (fun _ s => decide (s.workers.map (·.identity) = ["w"])) (by decide +kernel)
  have hp := of_decide_eq_true hp
  refine ⟨h, s, hr, (C108_exact hr _ _).2 (.init rfl rfl ⟨[], "two", [], by decide +kernel, by simp,
    (stoul_error_iff _ _).1 (by decide +kernel)⟩), ?_⟩
  obtain ⟨w, hw, hi⟩ := List.map_eq_singleton_iff.1 hp
  simp [Spec.lastWords, fromW, hw, hi]

end Broker
