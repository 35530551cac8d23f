import Verif.Proof.Total
import Verif.Proof.Headers
import Verif.Props.Dispatch

/-!
# C07-C12, C28, C41, C42: replies to commands
-/

namespace Broker

open LawfulQM

variable {Q : Type} [QueueManager Q] [LawfulQM Q]

/-! ## C07 -/

/-- **C07, well-formed messages.** A well-formed `eval` message is always handled, the first message
    emitted is the `ack`, and the messages for clients are exactly `ack` and one of `accept` and
    `reject`, both to the sender. -/
theorem C07_eval_reply {cfg : HConfig} {env : Env} {h : List (Tr Q)} {s : HState Q} {m : Msg}
    (hr : Run cfg env h s) (hk : m.key = "clients") (hw : Spec.WellFormedEval m.data) :
    ∃ s', step cfg env m s = .ok () s' ∧
      s'.outs.head? = some ⟨"clients", m.identity, ["ack"]⟩ ∧
      ∃ answer, (answer = ["accept"] ∨ ∃ text, answer = ["reject", text]) ∧
        Spec.toClients s'.outs =
          [⟨"clients", m.identity, ["ack"]⟩, ⟨"clients", m.identity, answer⟩] := by
  obtain ⟨s', hs⟩ := eval_total (cfg := cfg) (env := env) hr.inv.1 hk hw
  refine ⟨s', hs, ?_⟩
  obtain ⟨evs, hi⟩ := step_info hr.inv.1 hs
  obtain ⟨j, fs, hd, hdel, hnum⟩ := hw
  have ho := hi.outs
  obtain ⟨_, hscr⟩ := hi.script.eval_inv hk (by rw [hd]; rfl)
  rw [ho]
  cases hscr with
  | malformed h =>
    obtain ⟨j', rest, hd', hp⟩ := h
    rw [hd] at hd'
    simp only [List.cons.injEq, true_and] at hd'
    have := (evalHeaders_none rest [] []).1 hp
    rw [← hd'.2] at this
    exact absurd hdel this.2
  | frozen hf h =>
    exact ⟨rfl, ["reject", "The broker is frozen."], Or.inr ⟨_, rfl⟩,
      by simp [Ev.msgs, Spec.toClients, keyClients]⟩
  | submit hf hm hp h =>
    refine ⟨rfl, ?_⟩
    cases h with
    | reject =>
      exact ⟨["reject", rejectMessage _], Or.inr ⟨_, rfl⟩,
        by simp [Ev.msgs, Spec.toClients, keyClients, monMsg, keyMonitor]; rfl⟩
    | give w =>
      exact ⟨["accept"], Or.inl rfl,
        by simp [Ev.msgs, Spec.toClients, keyClients, sendMsg, keyWorkers]⟩
    | wait => exact ⟨["accept"], Or.inl rfl, by simp [Ev.msgs, Spec.toClients, keyClients]⟩

/-- **C07, no delimiter.** An `eval` message with something after the job id but no empty frame is
    answered with `ack` only and changes nothing. -/
theorem C07_eval_malformed {cfg : HConfig} {env : Env} {h : List (Tr Q)} {s : HState Q} {m : Msg}
    (hr : Run cfg env h s) (hk : m.key = "clients") {j : String} {fs : List String}
    (hd : m.data = "eval" :: j :: fs) (hne : fs ≠ []) (hdel : "" ∉ fs) :
    step cfg env m s = .ok () { s with outs := [⟨"clients", m.identity, ["ack"]⟩] } := by
  have hp : evalHeaders fs [] [] = .ok none := (evalHeaders_none fs [] []).2 ⟨hne, hdel⟩
  have htot : ∃ s', step cfg env m s = .ok () s' := by
    refine step_total hr.inv.1 ?_
    intro e he
    cases he with
    | empty _ hd' _ => rw [hd] at hd'; cases hd'
    | init hk' => rw [hk] at hk'; exact absurd hk' (by decide)
    | done hk' => rw [hk] at hk'; exact absurd hk' (by decide)
    | timer hk' => rw [hk] at hk'; exact absurd hk' (by decide)
    | eval _ _ he =>
      rcases he with ⟨h, _⟩ | ⟨j', h, _⟩ | ⟨_, j', rest, hs, md, extra, h, hp', _⟩
      · rw [hd] at h; simp at h
      · rw [hd] at h; simp only [List.cons.injEq, true_and] at h; exact hne h.2
      · rw [hd] at h
        simp only [List.cons.injEq, true_and] at h
        rw [← h.2, hp] at hp'; cases hp'
  obtain ⟨s', hs⟩ := htot
  rw [hs]
  obtain ⟨evs, hi⟩ := step_info hr.inv.1 hs
  have ho := hi.outs
  obtain ⟨_, hscr⟩ := hi.script.eval_inv hk (by rw [hd]; rfl)
  cases hscr with
  | malformed h heq =>
    rw [heq, ho]; rfl
  | frozen hf h =>
    obtain ⟨j', rest, x, hd', hp'⟩ := h
    rw [hd] at hd'
    simp only [List.cons.injEq, true_and] at hd'
    rw [← hd'.2, hp] at hp'; cases hp'
  | submit hf hm hp' h =>
    rw [hd] at hm
    simp only [List.cons.injEq, true_and] at hm
    rw [← hm.2, hp] at hp'; cases hp'

/-! ## C08, C09 -/

omit [QueueManager Q] [LawfulQM Q] in
theorem isCommand_iff {c : String} {m : Msg} :
    Spec.isCommand c m = true ↔ m.key = "clients" ∧ m.data.head? = some c := by
  simp [Spec.isCommand]

/-- The flag is what the history of `freeze` and `unfreeze` commands says. -/
theorem frozen_after {cfg : HConfig} {env : Env} {h : List (Tr Q)} {s : HState Q}
    (hr : Run cfg env h s) : s.frozen = Spec.frozenAfter (h.map (·.msg)) := by
  induction hr with
  | nil => rfl
  | snoc hr hs ih =>
    rename_i h s m s'
    have h1 : s'.frozen = (s.rs.step cfg env m).frozen := by rw [← step_rs hs]; rfl
    rw [h1]
    simp only [Spec.frozenAfter, List.map_append, List.map_cons, List.map_nil, List.foldl_append,
      List.foldl_cons, List.foldl_nil]
    change _ = if Spec.isCommand "freeze" m = true then true
      else if Spec.isCommand "unfreeze" m = true then false
      else Spec.frozenAfter (h.map (·.msg))
    rw [← ih]
    have ht : ∀ (data : List String) (p : RState), (p.timer cfg data).frozen = p.frozen := by
      intro data p
      unfold RState.timer
      have tk1 : ∀ (t : Int) (w : Worker) (p : RState), (p.tick1 cfg t w).2.frozen = p.frozen := by
        intro t w p; unfold RState.tick1; split <;> rfl
      have tk : ∀ (t : Int) (ws : List Worker) (p : RState),
          (p.tick cfg t ws).2.frozen = p.frozen := by
        intro t ws
        induction ws with
        | nil => intro p; rfl
        | cons w ws ih => intro p; simp only [RState.tick]; rw [ih, tk1]
      split
      · rfl
      · split
        · rfl
        · exact tk _ _ _
    have hh : ∀ (i : String) (p : RState), (p.heard cfg i).frozen = p.frozen := by
      intro i p; unfold RState.heard; split <;> rfl
    have hreg : ∀ (i g : String) (hs : Headers) (x : List String) (p : RState),
        (p.register env i g hs x).frozen = p.frozen := by
      intro i g hs x p; unfold RState.register; split <;> rfl
    have hin : ∀ (i : String) (d : List String) (p : RState),
        (p.init' env i d).frozen = p.frozen := by
      intro i d p
      unfold RState.init'
      split
      · split
        · split
          · rfl
          · exact hreg _ _ _ _ _
        · exact hreg _ _ _ _ _
      · rfl
    by_cases hk : m.key = keyClients
    · have hnw : m.key ≠ keyWorkers := by rw [hk]; decide
      simp only [RState.step, if_neg hnw, if_pos hk]
      have hc : ∀ c, Spec.isCommand c m = true ↔ m.data.head? = some c := by
        intro c; rw [isCommand_iff]; exact ⟨fun h => h.2, fun h => ⟨hk, h⟩⟩
      by_cases hf : m.data.head? = some "freeze"
      · rw [if_pos hf, if_pos ((hc _).2 hf)]
      · rw [if_neg hf, if_neg (fun h => hf ((hc _).1 h))]
        by_cases hu : m.data.head? = some "unfreeze"
        · rw [if_pos hu, if_pos ((hc _).2 hu)]
        · rw [if_neg hu, if_neg (fun h => hu ((hc _).1 h))]; rfl
    · have hc : ∀ c, Spec.isCommand c m ≠ true := by
        intro c h; exact hk (isCommand_iff.1 h).1
      rw [if_neg (hc _), if_neg (hc _)]
      simp only [RState.step, if_neg hk]
      split
      · split
        · rw [hin, hh]; rfl
        · rw [hh]; rfl
      · split
        · rw [ht]; rfl
        · rfl

/-- Whether a worker can process a request, in terms of any `init` message that registered it. -/
theorem origin_can {cfg : HConfig} {env : Env} {h : List (Tr Q)} {s : HState Q}
    (hr : Run cfg env h s) {w : Worker} {i : Tr Q} {ds fs : List String}
    {x : Headers × Metadata × List String} (hx : evalHeaders fs [] [] = .ok (some x))
    (hih : i ∈ h) (ho : WorkerOrigin i w ds) :
    w.Can x.1 ↔ Spec.Capable w.hwgroup (Spec.headerFrames ds) (Spec.headerFrames fs) := by
  obtain ⟨h1, h2, rfl⟩ := List.append_of_mem hih
  obtain ⟨hr1, hst, _⟩ := hr.prefix
  obtain ⟨evs', hi'⟩ := step_info hr1.inv.1 hst
  have hreg : ∃ e ∈ evs', e.registers = some w := by
    have hm : w ∈ (ls i.post 0).reg := hi'.inv.mem_reg.1 ho.new.2
    rcases hi'.steps.mem_reg hm with hm' | hm'
    · exact absurd (hr1.inv.1.mem_reg.2 hm') ho.new.1
    · exact hm'
  obtain ⟨e, he, hre⟩ := hreg
  obtain ⟨rest, hif⟩ := step_registers hi' e he w hre
  have : rest = ds := by
    have h1 := hif.data
    have h2 := ho.data
    rw [h1] at h2
    simpa using h2
  subst this
  exact can_iff hif.created hx

/-- **C08.** A well-formed `eval` is accepted iff the broker is not frozen and some registered worker
    declared everything the request asks for. -/
theorem C08_acceptance {cfg : HConfig} {env : Env} {h : List (Tr Q)} {s s' : HState Q} {m : Msg}
    (hr : Run cfg env h s) (hk : m.key = "clients") {j : String} {fs : List String}
    (hd : m.data = "eval" :: j :: fs) (hdel : "" ∈ fs) (hs : step cfg env m s = .ok () s') :
    Spec.accepts j (⟨s, m, s'⟩ : Tr Q) = true ↔
      Spec.frozenAfter (h.map (·.msg)) = false ∧
      ∃ i ∈ h, ∃ w ds, WorkerOrigin i w ds ∧ w ∈ s.workers ∧
        Spec.Capable w.hwgroup (Spec.headerFrames ds) (Spec.headerFrames fs) := by
  obtain ⟨evs, hi⟩ := step_info hr.inv.1 hs
  rw [← frozen_after hr]
  have ho : s'.outs = msgsOf evs := hi.outs
  have hacc : Spec.accepts j (⟨s, m, s'⟩ : Tr Q) = true ↔
      (⟨"clients", m.identity, ["accept"]⟩ : Msg) ∈ s'.outs := by
    simp [Spec.accepts, hk, hd, Tr.outs]
  rw [hacc, ho]
  obtain ⟨x, hx⟩ := evalHeaders_exists [] [] hdel
  obtain ⟨hs1, md1, ex1⟩ := x
  have worigin : ∀ {w : Worker}, w ∈ s.workers → ∃ i ∈ h, ∃ ds, WorkerOrigin i w ds ∧
      (w.Can hs1 ↔ Spec.Capable w.hwgroup (Spec.headerFrames ds) (Spec.headerFrames fs)) := by
    intro w hw
    obtain ⟨i, hih, ds, hif⟩ := hr.prov.2 w (hr.inv.1.mem_reg.1 hw)
    refine ⟨i, hih, ds, ⟨hif.key, hif.identity, hif.data, ?_, ?_⟩, can_iff hif.created hx⟩
    · intro hm; exact hif.fresh (List.mem_map.2 ⟨w, hm, rfl⟩)
    · rw [hif.new]; simp
  obtain ⟨_, hscr⟩ := hi.script.eval_inv hk (by rw [hd]; rfl)
  cases hscr with
  | malformed h =>
    obtain ⟨j', rest, hd', hp⟩ := h
    rw [hd] at hd'
    simp only [List.cons.injEq, true_and] at hd'
    rw [← hd'.2, hx] at hp; cases hp
  | frozen hf h =>
    have hf' : s.frozen = true := hf
    simp [hf', Ev.msgs]
  | submit hf hm hp h =>
    have hf' : s.frozen = false := hf
    rw [hd] at hm
    simp only [List.cons.injEq, true_and] at hm
    obtain ⟨rfl, rfl⟩ := hm
    rw [hx] at hp
    cases hp
    simp only [hf', true_and]
    cases h with
    | reject hno =>
      constructor
      · intro hm; simp [Ev.msgs, monMsg, keyClients, keyMonitor] at hm
      · rintro ⟨i, hih, w, ds, hwo, hw, hc⟩
        have h1 := (origin_can hr hx hih hwo).2 hc
        have h2 := hno w hw
        rw [h1] at h2; cases h2
    | give w =>
      refine iff_of_true (by simp [Ev.msgs, keyClients]) ?_
      have := hi.steps
      cases this with
      | cons h1 h2 =>
        cases h1
        cases h2 with
        | cons h3 h4 =>
          cases h3 with
          | accept r hid hc hcan =>
            obtain ⟨w, hw, hwc⟩ := hcan
            have hw' := hr.inv.1.mem_reg.2 hw
            obtain ⟨i, hih, ds, hwo, hiff⟩ := worigin hw'
            exact ⟨i, hih, w, ds, hwo, hw', hiff.1 hwc⟩
    | wait =>
      refine iff_of_true (by simp [Ev.msgs, keyClients]) ?_
      have := hi.steps
      cases this with
      | cons h1 h2 =>
        cases h1
        cases h2 with
        | cons h3 h4 =>
          cases h3 with
          | accept r hid hc hcan =>
            obtain ⟨w, hw, hwc⟩ := hcan
            have hw' := hr.inv.1.mem_reg.2 hw
            obtain ⟨i, hih, ds, hwo, hiff⟩ := worigin hw'
            exact ⟨i, hih, w, ds, hwo, hw', hiff.1 hwc⟩

/-- **C08, same decision for both queue managers.** Two brokers with different queue managers that
    handled the same messages accept the same requests. -/
theorem C08_same_for_both {Q' : Type} [QueueManager Q'] [LawfulQM Q'] {cfg : HConfig} {env : Env}
    {h : List (Tr Q)} {s s' : HState Q} {g : List (Tr Q')} {t t' : HState Q'} {m : Msg}
    (hr : Run cfg env h s) (hg : Run cfg env g t)
    (hsame : h.map (·.msg) = g.map (·.msg)) (hk : m.key = "clients") {j : String}
    {fs : List String} (hd : m.data = "eval" :: j :: fs) (hdel : "" ∈ fs)
    (hs : step cfg env m s = .ok () s') (ht : step cfg env m t = .ok () t') :
    Spec.accepts j (⟨s, m, s'⟩ : Tr Q) = Spec.accepts j (⟨t, m, t'⟩ : Tr Q') := by
  have hrs : s.rs = t.rs := by rw [hr.rs, hg.rs, hsame]
  have hws : s.workers = t.workers := congrArg RState.workers hrs
  have hfr : s.frozen = t.frozen := congrArg RState.frozen hrs
  obtain ⟨x, hx⟩ := evalHeaders_exists [] [] hdel
  have key : ∀ {P : Type} [QueueManager P] [LawfulQM P] {k : List (Tr P)} {u u' : HState P},
      Run cfg env k u → step cfg env m u = .ok () u' →
      (Spec.accepts j (⟨u, m, u'⟩ : Tr P) = true ↔
        u.frozen = false ∧ ∃ w ∈ u.workers, w.Can x.1) := by
    intro P _ _ k u u' hru hsu
    rw [C08_acceptance hru hk hd hdel hsu, ← frozen_after hru]
    refine and_congr Iff.rfl ?_
    constructor
    · rintro ⟨i, hi, w, ds, ho, hw, hc⟩
      exact ⟨w, hw, (origin_can hru hx hi ho).2 hc⟩
    · rintro ⟨w, hw, hc⟩
      obtain ⟨i', hi', ds', hif⟩ := hru.prov.2 w (hru.inv.1.mem_reg.1 hw)
      refine ⟨i', hi', w, ds', ⟨hif.key, hif.identity, hif.data, ?_, ?_⟩, hw,
        (can_iff hif.created hx).1 hc⟩
      · intro hm; exact hif.fresh (List.mem_map.2 ⟨w, hm, rfl⟩)
      · rw [hif.new]; simp
  have k1 := key hr hs
  have k2 := key hg ht
  rw [hws, hfr, ← k2] at k1
  exact Bool.eq_iff_iff.2 k1

/-- Messages for the checks: a request that is accepted, one nobody can process, one without
    delimiter. -/
def evalMsgs : List Msg :=
  [fromW "w1" ["init", "group", "env=c", "threads=4", "", ""],
   fromC "client" ["eval", "J1", "env=c", "threads=2", "hwgroup=other|group", "meta.x=1", "", "x"],
   fromC "client" ["eval", "J2", "env=c", "threads=8", "", "x"],
   fromC "client" ["eval", "J3", "env=c"]]

/-- The replies to them. -/
def evalCheck {Q : Type} [QueueManager Q] (h : List (Tr Q)) : Bool :=
  h.map (fun t => (Spec.toClients t.outs).map (·.data)) ==
    [[], [["ack"], ["accept"]],
     [["ack"], ["reject", "No worker available for given headers: env=c; threads=8; "]], [["ack"]]]

example : ∃ h s, Run (Q := Single) cfg0 env0 h s ∧ evalCheck h = true :=
  exists_run evalMsgs (fun h _ => evalCheck h) (by decide +kernel)

example : ∃ h s, Run (Q := Multi) cfg0 env0 h s ∧ evalCheck h = true :=
  exists_run evalMsgs (fun h _ => evalCheck h) (by decide +kernel)

example : Spec.WellFormedEval ["eval", "J1", "env=c", "threads=2", "", "x"] :=
  ⟨"J1", ["env=c", "threads=2", "", "x"], rfl, by simp, by
    intro f hf hk
    simp [Spec.headerFrames] at hf
    rcases hf with rfl | rfl
    · exact absurd hk (by decide)
    · exact ⟨2, (stoul_iff _ _).1 (by decide)⟩⟩

end Broker
