import Verif.Props.Matching

/-!
# C67: job ids, identities of clients and the data of jobs are opaque

The broker compares job ids for equality, uses the identity of a client only to answer it, and does
not look at the data of a job at all.
-/

namespace Broker

variable {Q : Type} [QueueManager Q]

theorem rename_run [BareQM Q] {cfg : HConfig} {env : Env} (he : BareQM.okSort Q env.srt)
    (ρ : Spec.Renaming) {h : List (Tr Q)} {s : HState Q} (hr : Run cfg env h s) :
    ∃ h' s', Run cfg env h' s' ∧ h'.map (·.msg) = h.map (fun t => ρ.inp t.msg) ∧
      h'.map Tr.outs = h.map (fun t => t.outs.map ρ.out) ∧ s.ren ρ = s'.ren Spec.Renaming.id := by
  induction hr with
  | nil =>
    refine ⟨[], _, .nil, rfl, rfl, ?_⟩
    unfold HState.ren
    simp only [HState.init, BareQM.empty, List.map_nil]
  | @snoc h s m s' hr hs ih =>
    obtain ⟨h', t, hr', e1, e2, e3⟩ := ih
    have hst := step_ren (cfg := cfg) (ρ := ρ) he (m := m) (.inl rfl) e3
    rw [hs] at hst
    cases ht : step cfg env (ρ.inp m) t with
    | error e u => rw [ht] at hst; simp [renRes] at hst
    | ok u t' =>
      rw [ht] at hst
      simp only [renRes, EStateM.Result.ok.injEq, true_and] at hst
      refine ⟨_, t', hr'.snoc ht, by simp [e1], ?_, hst⟩
      have h3 : (s'.ren ρ).outs = (t'.ren Spec.Renaming.id).outs := by rw [hst]
      have h4 : ∀ l : List Msg, l.map Spec.Renaming.id.out = l := fun l => by
        rw [List.map_congr_left (fun m _ => out_id m), List.map_id']
      have h5 : s'.outs.map ρ.out = t'.outs := by
        rw [← h4 t'.outs]; exact h3
      simp [e2, Tr.outs, h5]

theorem rename_error [BareQM Q] {cfg : HConfig} {env : Env} (he : BareQM.okSort Q env.srt)
    (ρ : Spec.Renaming) {s s' : HState Q} (hb : s.ren ρ = s'.ren Spec.Renaming.id) (m : Msg)
    (e : Err) :
    (∃ u, step cfg env m s = .error e u) ↔ ∃ u, step cfg env (ρ.inp m) s' = .error e u := by
  have hst := step_ren (cfg := cfg) (ρ := ρ) he (m := m) (.inl rfl) hb
  cases h1 : step cfg env m s with
  | ok a u =>
    cases h2 : step cfg env (ρ.inp m) s' with
    | ok a u => simp
    | error e u => rw [h1, h2] at hst; simp [renRes] at hst
  | error e1 u =>
    cases h2 : step cfg env (ρ.inp m) s' with
    | ok a u => rw [h1, h2] at hst; simp [renRes] at hst
    | error e2 u' =>
      rw [h1, h2] at hst
      simp only [renRes, EStateM.Result.error.injEq] at hst
      simp [hst.1]

/-- **C67 (multi-queue manager).** Replace job ids by others (different ones by different ones),
    identities of clients and the data of jobs in all messages of a history.  What the broker then
    sends is what it sent before, with the same replacements: no decision depends on them.  And the
    next message ends the broker in the one history exactly if it does in the other. -/
theorem C67_opaque_multi {cfg : HConfig} {env : Env} (ρ : Spec.Renaming) {h : List (Tr Multi)}
    {s : HState Multi} (hr : Run cfg env h s) :
    ∃ (h' : List (Tr Multi)) (s' : HState Multi), Run cfg env h' s' ∧
      h'.map (·.msg) = h.map (fun t => ρ.inp t.msg) ∧
      h'.map Tr.outs = h.map (fun t => t.outs.map ρ.out) ∧
      ∀ m (e : Err),
        (∃ u, step cfg env m s = .error e u) ↔ ∃ u, step cfg env (ρ.inp m) s' = .error e u := by
  obtain ⟨h', s', h1, h2, h3, h4⟩ := rename_run (Q := Multi) trivial ρ hr
  exact ⟨h', s', h1, h2, h3, fun m e => rename_error (Q := Multi) trivial ρ h4 m e⟩

/-- **C67 (single-queue manager).** As for the multi-queue manager; the sorting algorithm is one
    that only looks at arrival times. -/
theorem C67_opaque_single {cfg : HConfig} {env : Env} (hb : env.srt.Blind) (ρ : Spec.Renaming)
    {h : List (Tr Single)} {s : HState Single} (hr : Run cfg env h s) :
    ∃ (h' : List (Tr Single)) (s' : HState Single), Run cfg env h' s' ∧
      h'.map (·.msg) = h.map (fun t => ρ.inp t.msg) ∧
      h'.map Tr.outs = h.map (fun t => t.outs.map ρ.out) ∧
      ∀ m (e : Err),
        (∃ u, step cfg env m s = .error e u) ↔ ∃ u, step cfg env (ρ.inp m) s' = .error e u := by
  obtain ⟨h', s', h1, h2, h3, h4⟩ := rename_run (Q := Single) hb ρ hr
  exact ⟨h', s', h1, h2, h3, fun m e => rename_error (Q := Single) hb ρ h4 m e⟩

/-! ## Examples -/

/-- Ids get a prefix, all clients become one, the data is dropped. -/
def rename0 : Spec.Renaming where
  job j := String.ofList ('#' :: j.toList)
  job_inj h := by
    have h' := String.ofList_injective h
    simp only [List.cons.injEq, true_and] at h'
    exact String.toList_inj.1 h'
  client _ := "C"
  payload _ := []

/-- What becomes of messages to the broker. -/
example : (rename0.inp (fromC "A" ["eval", "J1", "env=c", "", "url"])
      == fromC "C" ["eval", "#J1", "env=c", ""] &&
    rename0.inp (fromW "W" ["init", "g", "current_job=x", "", "current_job=J2", "description=d"])
      == fromW "W" ["init", "g", "current_job=x", "", "current_job=#J2", "description=d"] &&
    rename0.inp (fromW "W" ["done", "J1", "FAILED", "J1"])
      == fromW "W" ["done", "#J1", "FAILED", "J1"]) = true := by decide +kernel

/-- A history with two clients, an adopted job, a failure and a progress message, ... -/
example : ∃ h s, Run (Q := Multi) cfg0 env0 h s ∧
    (emitted h == [⟨"clients", "A", ["ack"]⟩, ⟨"clients", "A", ["accept"]⟩,
      ⟨"monitor", "recodex-monitor", ["J2", "x"]⟩,
      ⟨"status_notifier", "", ["type", "job-status", "id", "J2", "status", "OK"]⟩,
      ⟨"workers", "W", ["eval", "J1", "url"]⟩,
      ⟨"status_notifier", "",
        ["type", "job-status", "id", "J1", "status", "FAILED", "message", "t"]⟩,
      ⟨"clients", "B", ["ack"]⟩, ⟨"workers", "W", ["eval", "J3", "u", "v"]⟩,
      ⟨"clients", "B", ["accept"]⟩]) = true :=
  exists_run [fromW "W" ["init", "g", "", "current_job=J2"], fromC "A" ["eval", "J1", "", "url"],
    fromW "W" ["progress", "J2", "x"], fromW "W" ["done", "J2", "OK"],
    fromW "W" ["done", "J1", "FAILED", "t"], fromC "B" ["eval", "J3", "", "u", "v"]]
    _ (by decide +kernel)

/-- ... and the same history renamed. -/
example : ∃ h s, Run (Q := Multi) cfg0 env0 h s ∧
    (emitted h == [⟨"clients", "C", ["ack"]⟩, ⟨"clients", "C", ["accept"]⟩,
      ⟨"monitor", "recodex-monitor", ["#J2", "x"]⟩,
      ⟨"status_notifier", "", ["type", "job-status", "id", "#J2", "status", "OK"]⟩,
      ⟨"workers", "W", ["eval", "#J1"]⟩,
      ⟨"status_notifier", "",
        ["type", "job-status", "id", "#J1", "status", "FAILED", "message", "t"]⟩,
      ⟨"clients", "C", ["ack"]⟩, ⟨"workers", "W", ["eval", "#J3"]⟩,
      ⟨"clients", "C", ["accept"]⟩]) = true :=
  exists_run ([fromW "W" ["init", "g", "", "current_job=J2"], fromC "A" ["eval", "J1", "", "url"],
    fromW "W" ["progress", "J2", "x"], fromW "W" ["done", "J2", "OK"],
    fromW "W" ["done", "J1", "FAILED", "t"], fromC "B" ["eval", "J3", "", "u", "v"]].map rename0.inp)
    _ (by decide +kernel)

/-- The sorting algorithm of the examples only looks at arrival times. -/
example : env0.srt.Blind := insSorter_blind

end Broker
