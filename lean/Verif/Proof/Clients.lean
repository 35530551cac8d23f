import Verif.Props.Commands
import Verif.Props.Texts
import Verif.Props.Replies
import Verif.Spec.Clients

/-!
# What clients are told: lemmas
-/

set_option linter.unusedSectionVars false

namespace Broker

open QueueManager LawfulQM Spec

variable {Q : Type} [QueueManager Q] [LawfulQM Q]

/-- A request is accepted iff the broker is not frozen and some registered worker can process it. -/
theorem accepts_iff_can {cfg : HConfig} {env : Env} {h : List (Tr Q)} {s s' : HState Q} {m : Msg}
    (hr : Run cfg env h s) (hk : m.key = "clients") {j : String} {fs : List String}
    (hd : m.data = "eval" :: j :: fs) (hs : step cfg env m s = .ok () s')
    {x : Headers × Metadata × List String} (hx : evalHeaders fs [] [] = .ok (some x))
    (hdel : "" ∈ fs) : Spec.accepts j (⟨s, m, s'⟩ : Tr Q) = true ↔
      s.frozen = false ∧ ∃ w ∈ s.workers, w.Can x.1 := by
  rw [C08_acceptance hr hk hd hdel hs, ← frozen_after hr]
  refine and_congr Iff.rfl ?_
  constructor
  · rintro ⟨i, hi, w, ds, ho, hw, hc⟩
    exact ⟨w, hw, (origin_can hr hx hi ho).2 hc⟩
  · rintro ⟨w, hw, hc⟩
    obtain ⟨i', hi', ds', hif⟩ := hr.prov.2 w (hr.inv.1.mem_reg.1 hw)
    refine ⟨i', hi', w, ds', ⟨hif.key, hif.identity, hif.data, ?_, ?_⟩, hw,
      (can_iff hif.created hx).1 hc⟩
    · intro hm; exact hif.fresh (List.mem_map.2 ⟨w, hm, rfl⟩)
    · rw [hif.new]; simp

/-- The replies to a client, given whether the broker is frozen and whether a worker can process the
    request. -/
noncomputable def replyWith (i : String) (frozen : Bool) (ws : List Worker) (data : List String) : List Msg :=
  open Classical in
  match data with
  | "eval" :: _ :: fs => match evalHeaders fs [] [] with
    | .ok (some x) => [⟨"clients", i, ["ack"]⟩, ⟨"clients", i,
        if frozen = true then ["reject", "The broker is frozen."]
        else if ∃ w ∈ ws, w.Can x.1 then ["accept"] else ["reject", rejectMessage x.1]⟩]
    | _ => [⟨"clients", i, ["ack"]⟩]
  | "freeze" :: _ => [⟨"clients", i, ["ack"]⟩]
  | "unfreeze" :: _ => [⟨"clients", i, ["ack"]⟩]
  | _ => []

theorem client_reply {cfg : HConfig} {env : Env} {h : List (Tr Q)} {s s' : HState Q} {m : Msg}
    (hr : Run cfg env h s) (hs : step cfg env m s = .ok () s') (hk : m.key = "clients")
    (hq : asksStats m = false) :
    s'.outs.filter (fun o => o.key == "clients") =
      replyWith m.identity s.frozen s.workers m.data := by
  obtain ⟨evs, hi⟩ := step_info hr.inv.1 hs
  have hout : s'.outs = msgsOf evs := hi.outs
  have hscr := hi.script
  cases hscr with
  | init hk' => exact absurd (hk'.symm.trans hk) wkey_ne_ckey
  | done hk' => exact absurd (hk'.symm.trans hk) wkey_ne_ckey
  | ping hk' => exact absurd (hk'.symm.trans hk) wkey_ne_ckey
  | progress hk' => exact absurd (hk'.symm.trans hk) wkey_ne_ckey
  | workerUnknown hk' => exact absurd (hk'.symm.trans hk) wkey_ne_ckey
  | timer hk' => rw [hk] at hk'; exact absurd hk' (by decide)
  | other hk' => exact absurd hk hk'.2.1
  | stats _ hd => simp [asksStats, hk, hd] at hq
  | freeze _ hd => rw [hout, hd]; simp [Ev.msgs, keyClients, replyWith]
  | unfreeze _ hd => rw [hout, hd]; simp [Ev.msgs, keyClients, replyWith]
  | clientUnknown _ hd hc =>
    rw [hout, hd]
    unfold replyWith
    split
    · simp_all
    · simp_all
    · simp_all
    · rfl
  | eval _ hd hf hscr =>
    cases hscr with
    | malformed h =>
      obtain ⟨j, rest, hd', hp⟩ := h
      rw [hout, hd']
      simp [Ev.msgs, keyClients, replyWith, hp]
    | frozen hfz h =>
      obtain ⟨j, rest, x, hd', hp⟩ := h
      have hfz : s.frozen = true := hfz
      rw [hout, hd']
      simp [Ev.msgs, keyClients, replyWith, hp, hfz]
    | @submit hfz j rest hs1 md extra hd' hp evs h =>
      have hfz : s.frozen = false := hfz
      have hdel : "" ∈ rest := (evalHeaders_some _ _ _ _ hp).1
      have hacc := accepts_iff_can hr hk hd' hs hp hdel
      have hin : Spec.accepts j (⟨s, m, s'⟩ : Tr Q) = true ↔
          (⟨"clients", m.identity, ["accept"]⟩ : Msg) ∈ s'.outs := by
        simp [Spec.accepts, hk, hd', Tr.outs]
      rw [hin, hout] at hacc
      rw [hout, hd']
      cases h with
      | reject =>
        have hn : ¬ ∃ w ∈ s.workers, w.Can hs1 := by
          intro hc
          have := hacc.2 ⟨hfz, hc⟩
          simp [Ev.msgs, keyClients, monMsg, keyMonitor] at this
        simp [Ev.msgs, keyClients, monMsg, keyMonitor, replyWith, hp, hfz, hn]
      | give w =>
        have hy : ∃ w ∈ s.workers, w.Can hs1 := (hacc.1 (by simp [Ev.msgs, keyClients])).2
        simp only [replyWith, hp, hfz, if_pos hy]
        simp [Ev.msgs, keyClients, sendMsg, keyWorkers]
      | wait =>
        have hy : ∃ w ∈ s.workers, w.Can hs1 := (hacc.1 (by simp [Ev.msgs, keyClients])).2
        simp only [replyWith, hp, hfz, if_pos hy]
        simp [Ev.msgs, keyClients]

/-- Messages that are not from the client are not answered to it. -/
theorem onlyFor_other {cfg : HConfig} {env : Env} {h : List (Tr Q)} {s s' : HState Q} {m : Msg}
    (hr : Run cfg env h s) (hs : step cfg env m s = .ok () s') {i : String}
    (hm : ¬ (m.key = "clients" ∧ m.identity = i)) : onlyFor i s'.outs = [] := by
  have hr' : Run cfg env (h ++ ⟨s, m, s'⟩ :: []) s' := .snoc hr hs
  rw [onlyFor, List.filter_eq_nil_iff]
  intro o ho hc
  simp only [Bool.and_eq_true, beq_iff_eq] at hc
  have := (C10_addressing hr' (t := ⟨s, m, s'⟩) (o := o) ho).2.1 hc.1
  exact hm ⟨this.1, this.2.symm.trans hc.2⟩

/-- The registry depends on the facts only. -/
def factStep (cfg : HConfig) (env : Env) (p : RState) : Fact → RState
  | .heard i => p.heard cfg i
  | .hello i data => (p.heard cfg i).init' env i data
  | .time data => p.timer cfg data
  | .frozen b => { p with frozen := b }
  | .mine data => p.step cfg env ⟨"clients", "", data⟩

theorem rs_fact {cfg : HConfig} {env : Env} {p : RState} (i : String) (m : Msg) :
    p.step cfg env m = match fact? i m with
      | none => p
      | some f => factStep cfg env p f := by
  obtain ⟨k, n, d⟩ := m
  unfold RState.step fact?
  simp only [keyWorkers, keyClients, keyTimer]
  by_cases hw : k = "workers"
  · simp only [hw, if_true]
    by_cases h1 : d.head? = some "init"
    · simp [h1, factStep]
    · simp [h1, factStep]
  · simp only [hw, if_false]
    by_cases hc : k = "clients"
    · simp only [hc, if_true]
      by_cases hi : n = i
      · simp only [hi, if_true]
        by_cases h0 : d.head? = some "get-runtime-stats"
        · simp [h0]
        · simp [h0, factStep, RState.step, keyWorkers, keyClients]
      · simp only [hi, if_false]
        by_cases h1 : d.head? = some "freeze"
        · simp [h1, factStep]
        · by_cases h2 : d.head? = some "unfreeze"
          · simp [h2, factStep]
          · simp [h1, h2]
    · simp only [hc, if_false]
      by_cases ht : k = "timer"
      · simp [ht, factStep]
      · simp [ht]

/-- The replies to the client `i` as a function of the facts. -/
noncomputable def tell (cfg : HConfig) (env : Env) (i : String) : RState → List Fact → List Msg
  | _, [] => []
  | p, f :: fs => (match f with
      | .mine data => replyWith i p.frozen p.workers data
      | _ => []) ++ tell cfg env i (factStep cfg env p f) fs

theorem tell_append (cfg : HConfig) (env : Env) (i : String) (fs gs : List Fact) (p : RState) :
    tell cfg env i p (fs ++ gs) = tell cfg env i p fs ++
      tell cfg env i (fs.foldl (factStep cfg env) p) gs := by
  induction fs generalizing p with
  | nil => rfl
  | cons f fs ih => simp [tell, ih]

theorem told_eq {cfg : HConfig} {env : Env} {h : List (Tr Q)} {s : HState Q}
    (hr : Run cfg env h s) (i : String) :
    s.rs = (factsFor i h).foldl (factStep cfg env) RState.init ∧
      toldTo i h = tell cfg env i RState.init (factsFor i h) := by
  induction hr with
  | nil => exact ⟨rfl, rfl⟩
  | @snoc h s m s' hr hs ih =>
    obtain ⟨ih1, ih2⟩ := ih
    have hf : factsFor i (h ++ [⟨s, m, s'⟩]) = factsFor i h ++ (fact? i m).toList := by
      rw [factsFor, List.filterMap_append]
      congr 1
    have ht : toldTo i (h ++ [⟨s, m, s'⟩]) = toldTo i h ++
        (if asksStats m then [] else onlyFor i s'.outs) := by
      rw [toldTo, List.filter_append, List.flatMap_append]
      congr 1
      cases hq : asksStats m <;> simp [hq, Tr.outs]
    have hrs : s'.rs = _ := (step_rs hs).trans (rs_fact i m)
    constructor
    · rw [hf, List.foldl_append, hrs, ← ih1]
      cases fact? i m <;> rfl
    · rw [hf, ht, tell_append, ih2, ← ih1]
      congr 1
      by_cases hm : m.key = "clients" ∧ m.identity = i
      · obtain ⟨hk, rfl⟩ := hm
        by_cases hq : asksStats m = true
        · have : fact? m.identity m = none := by
            simp only [asksStats, Bool.and_eq_true, beq_iff_eq] at hq
            simp [fact?, hk, hq.2]
          rw [this, hq]
          rfl
        · have hq : asksStats m = false := by simpa using hq
          have hnq : ¬ m.data.head? = some "get-runtime-stats" := by
            simpa [asksStats, hk] using hq
          have : fact? m.identity m = some (.mine m.data) := by
            simp [fact?, hk, hnq]
          rw [this, hq]
          have hc := client_reply hr hs hk hq
          show onlyFor m.identity s'.outs = replyWith m.identity s.frozen s.workers m.data ++ []
          rw [List.append_nil, ← hc, onlyFor]
          refine List.filter_congr (fun o ho => ?_)
          have hr' : Run cfg env (h ++ ⟨s, m, s'⟩ :: []) s' := .snoc hr hs
          have had := (C10_addressing hr' (t := ⟨s, m, s'⟩) (o := o) ho).2.1
          by_cases ho : o.key = "clients"
          · simp [ho, (had ho).2]
          · simp [ho]
      · have h1 : (if asksStats m = true then [] else onlyFor i s'.outs) = [] := by
          rw [onlyFor_other hr hs hm]; simp
        rw [h1]
        have h2 : ∀ f, fact? i m = some f → ∀ d, f ≠ .mine d := by
          intro f hf' d hd
          subst hd
          unfold fact? at hf'
          split at hf'
          · split at hf' <;> cases hf'
          · split at hf'
            · rename_i hk
              split at hf'
              · rename_i hi
                exact hm ⟨hk, hi⟩
              · split at hf'
                · cases hf'
                · split at hf' <;> cases hf'
            · split at hf' <;> cases hf'
        cases hff : fact? i m with
        | none => rfl
        | some f =>
          cases f with
          | mine d => exact absurd rfl (h2 _ hff d)
          | _ => rfl

end Broker
