import Verif.Proof.Registry
import Verif.Proof.Capability
import Verif.Proof.Provenance
import Verif.Spec.Protocol

/-! # When handling a message ends normally -/

set_option linter.unusedSectionVars false
set_option linter.unusedSimpArgs false

namespace Broker

open QueueManager LawfulQM

/-- Headers whose `threads` values are numbers never make matching throw. -/
theorem safe_of_counts {hs : Headers}
    (h : ∀ e ∈ hs, e.1 = "threads" → ∃ n, stoul e.2 = .ok n) : SafeHeaders hs := by
  intro w hw
  induction hs with
  | nil => exact ⟨true, rfl⟩
  | cons a t ih =>
    obtain ⟨k, v⟩ := a
    obtain ⟨c, hc⟩ := ih (fun e he => h e (List.mem_cons_of_mem _ he))
    have hb : ∃ b, w.checkHeader k v = .ok b := by
      refine anyMatch_total ?_
      by_cases hk : k = "threads"
      · right; exact h (k, v) (by simp) hk
      · left
        intro m hm n he
        exact hk ((hw (k, m) (mem_mmRange.1 hm)).2 ⟨n, he⟩)
    obtain ⟨b, hb⟩ := hb
    cases b with
    | true => exact ⟨c, by simp [Worker.checkHeaders, hb, hc]⟩
    | false => exact ⟨false, by simp [Worker.checkHeaders, hb]⟩

theorem safe_of_numeric {fs : List String} {hs : Headers} {md : Metadata} {extra : List String}
    (h : Spec.Numeric (Spec.headerFrames fs))
    (hp : evalHeaders fs [] [] = .ok (some (hs, md, extra))) : SafeHeaders hs := by
  refine safe_of_counts ?_
  intro e he hk
  obtain ⟨_, _, h3⟩ := evalHeaders_some _ _ _ _ hp
  rcases (h3 e).1 he with h4 | ⟨f, hf, _, rfl⟩
  · simp at h4
  · obtain ⟨n, hn⟩ := h f hf hk
    exact ⟨n, (stoul_iff _ _).2 hn⟩

variable {Q : Type} [QueueManager Q] [LawfulQM Q]

/-- A step without a possible error ends normally. -/
theorem step_total {cfg : HConfig} {env : Env} {m : Msg} {s : HState Q} (h : HInv s)
    (hno : ∀ e, ¬ StepErr cfg env m { s with outs := [] } e) :
    ∃ s', step cfg env m s = .ok () s' := by
  cases hs : step cfg env m s with
  | ok u s' => exact ⟨s', rfl⟩
  | error e s' => exact absurd (step_err h hs) (hno e)

theorem evalErr_false {s : HState Q} {m : Msg} {e : Err} (hi : HInv s)
    (hw : Spec.WellFormedEval m.data) : ¬ EvalErr s m.data e := by
  obtain ⟨j, fs, hd, hdel, hnum⟩ := hw
  rintro (⟨h, _⟩ | ⟨j', h, _⟩ | ⟨_, j', rest, hs, md, extra, h, hp, w, hwm, x, _, hx⟩)
  · rw [hd] at h; simp at h
  · rw [hd] at h
    simp only [List.cons.injEq, true_and] at h
    rw [h.2] at hdel; simp at hdel
  · rw [hd] at h
    simp only [List.cons.injEq, true_and] at h
    obtain ⟨_, rfl⟩ := h
    obtain ⟨b, hb⟩ := safe_of_numeric hnum hp w (hi.wf hwm)
    rw [hb] at hx; cases hx

theorem eval_total {cfg : HConfig} {env : Env} {m : Msg} {s : HState Q} (h : HInv s)
    (hk : m.key = keyClients) (hw : Spec.WellFormedEval m.data) :
    ∃ s', step cfg env m s = .ok () s' := by
  refine step_total h ?_
  intro e he
  have h0 : HInv ({ s with outs := [] } : HState Q) := h.of_eq rfl rfl
  cases he with
  | empty _ hd _ => obtain ⟨j, fs, hd', _⟩ := hw; rw [hd'] at hd; cases hd
  | init hk' => rw [hk] at hk'; exact absurd hk' (by decide)
  | done hk' => rw [hk] at hk'; exact absurd hk' (by decide)
  | eval _ _ he => exact evalErr_false h0 hw he
  | timer hk' => rw [hk] at hk'; exact absurd hk' (by decide)

theorem stoll_iff (s : String) (t : Int) : stoll s = .ok t ↔ Spec.IsElapsed s t := by
  unfold Spec.IsElapsed stoll
  constructor
  · intro h
    cases hp : numParse s with
    | none => rw [hp] at h; cases h
    | some x =>
      obtain ⟨neg, m⟩ := x
      rw [hp] at h
      obtain ⟨ws, sign, ds, rest, h1, h2, h3, h4, h5, h6, h7, h8⟩ := (numParse_iff _ _ _).1 hp
      refine ⟨ws, sign, ds, rest, h1, h2, h3, h4, h5, h6, ?_⟩
      subst h7 h8
      by_cases hs : sign = ['-'] <;> simp [hs] at h ⊢
      · split at h
        · cases h
        · cases h; omega
      · split at h
        · cases h
        · cases h; omega
  · rintro ⟨ws, sign, ds, rest, h1, h2, h3, h4, h5, h6, h7, h8, h9⟩
    have hp := (numParse_iff s (decide (sign = ['-'])) (Spec.decimal ds)).2
      ⟨ws, sign, ds, rest, h1, h2, h3, h4, h5, h6, rfl, rfl⟩
    rw [hp]
    by_cases hs : sign = ['-'] <;> simp [hs] at h7 ⊢
    · subst h7
      rw [if_neg (by omega)]
    · subst h7
      rw [if_neg (by omega)]

/-! ## Inversion of scripts by command -/

theorem wkey_ne_ckey : keyWorkers ≠ keyClients := by decide
theorem wkey_ne_tkey : keyWorkers ≠ keyTimer := by decide
theorem ckey_ne_tkey : keyClients ≠ keyTimer := by decide

theorem Script.eval_inv {cfg : HConfig} {env : Env} {m : Msg} {s0 s' : HState Q} {evs : List Ev}
    (h : Script cfg env m s0 s' evs) (hk : m.key = keyClients) (hd : m.data.head? = some "eval") :
    Frame s0 s' ∧ EvalScript s0 s' m.identity m.data evs := by
  cases h with
  | eval _ _ hf h => exact ⟨hf, h⟩
  | init hk' => exact absurd (hk'.symm.trans hk) wkey_ne_ckey
  | done hk' => exact absurd (hk'.symm.trans hk) wkey_ne_ckey
  | ping hk' => exact absurd (hk'.symm.trans hk) wkey_ne_ckey
  | progress hk' => exact absurd (hk'.symm.trans hk) wkey_ne_ckey
  | workerUnknown hk' => exact absurd (hk'.symm.trans hk) wkey_ne_ckey
  | stats _ hd' => rw [hd'] at hd; simp at hd
  | freeze _ hd' => rw [hd'] at hd; simp at hd
  | unfreeze _ hd' => rw [hd'] at hd; simp at hd
  | clientUnknown _ hd' hc =>
    rw [hd'] at hd; simp only [List.head?_cons, Option.some.injEq] at hd; exact absurd hd hc.1
  | timer hk' => exact absurd (hk.symm.trans hk') ckey_ne_tkey
  | other hk' => exact absurd hk hk'.2.1

theorem Script.init_inv {cfg : HConfig} {env : Env} {m : Msg} {s0 s' : HState Q} {evs : List Ev}
    (h : Script cfg env m s0 s' evs) (hk : m.key = keyWorkers) (hd : m.data.head? = some "init") :
    InitScript (s0.heard cfg m.identity) env m.identity m.data s' evs := by
  cases h with
  | init _ _ h => exact h
  | done _ hd' => rw [hd'] at hd; simp at hd
  | ping _ hd' => rw [hd'] at hd; simp at hd
  | progress _ hd' => rw [hd'] at hd; simp at hd
  | workerUnknown _ hd' hc =>
    rw [hd'] at hd; simp only [List.head?_cons, Option.some.injEq] at hd; exact absurd hd hc.1
  | eval hk' => exact absurd (hk.symm.trans hk') wkey_ne_ckey
  | stats hk' => exact absurd (hk.symm.trans hk') wkey_ne_ckey
  | freeze hk' => exact absurd (hk.symm.trans hk') wkey_ne_ckey
  | unfreeze hk' => exact absurd (hk.symm.trans hk') wkey_ne_ckey
  | clientUnknown hk' => exact absurd (hk.symm.trans hk') wkey_ne_ckey
  | timer hk' => exact absurd (hk.symm.trans hk') wkey_ne_tkey
  | other hk' => exact absurd hk hk'.1

theorem Script.done_inv {cfg : HConfig} {env : Env} {m : Msg} {s0 s' : HState Q} {evs : List Ev}
    (h : Script cfg env m s0 s' evs) (hk : m.key = keyWorkers) (hd : m.data.head? = some "done") :
    DoneCase cfg.maxFailures (s0.heard cfg m.identity) s' m.identity m.data evs := by
  cases h with
  | done _ _ h => exact h
  | init _ hd' => rw [hd'] at hd; simp at hd
  | ping _ hd' => rw [hd'] at hd; simp at hd
  | progress _ hd' => rw [hd'] at hd; simp at hd
  | workerUnknown _ hd' hc =>
    rw [hd'] at hd; simp only [List.head?_cons, Option.some.injEq] at hd; exact absurd hd hc.2.1
  | eval hk' => exact absurd (hk.symm.trans hk') wkey_ne_ckey
  | stats hk' => exact absurd (hk.symm.trans hk') wkey_ne_ckey
  | freeze hk' => exact absurd (hk.symm.trans hk') wkey_ne_ckey
  | unfreeze hk' => exact absurd (hk.symm.trans hk') wkey_ne_ckey
  | clientUnknown hk' => exact absurd (hk.symm.trans hk') wkey_ne_ckey
  | timer hk' => exact absurd (hk.symm.trans hk') wkey_ne_tkey
  | other hk' => exact absurd hk hk'.1

theorem Script.timer_inv {cfg : HConfig} {env : Env} {m : Msg} {s0 s' : HState Q} {evs : List Ev}
    (h : Script cfg env m s0 s' evs) (hk : m.key = keyTimer) :
    ∃ f rest time xs, m.data = f :: rest ∧ stoll f = .ok time ∧
      TimerCase cfg time s0 s' xs evs := by
  cases h with
  | timer _ hd ht h => exact ⟨_, _, _, _, hd, ht, h⟩
  | init hk' => exact absurd (hk'.symm.trans hk) wkey_ne_tkey
  | done hk' => exact absurd (hk'.symm.trans hk) wkey_ne_tkey
  | ping hk' => exact absurd (hk'.symm.trans hk) wkey_ne_tkey
  | progress hk' => exact absurd (hk'.symm.trans hk) wkey_ne_tkey
  | workerUnknown hk' => exact absurd (hk'.symm.trans hk) wkey_ne_tkey
  | eval hk' => exact absurd (hk'.symm.trans hk) ckey_ne_tkey
  | stats hk' => exact absurd (hk'.symm.trans hk) ckey_ne_tkey
  | freeze hk' => exact absurd (hk'.symm.trans hk) ckey_ne_tkey
  | unfreeze hk' => exact absurd (hk'.symm.trans hk) ckey_ne_tkey
  | clientUnknown hk' => exact absurd (hk'.symm.trans hk) ckey_ne_tkey
  | other hk' => exact absurd hk hk'.2.2

theorem Script.ping_inv {cfg : HConfig} {env : Env} {m : Msg} {s0 s' : HState Q} {evs : List Ev}
    (h : Script cfg env m s0 s' evs) (hk : m.key = keyWorkers) {rest : List String}
    (hd : m.data = "ping" :: rest) :
    s' = { s0.heard cfg m.identity with
      outs := s0.outs ++ [⟨keyWorkers, m.identity,
        [if (regFind m.identity s0.workers).isSome then "pong" else "intro"]⟩] } := by
  cases h with
  | ping _ hd' h =>
    exact h
  | init _ hd' => rw [hd] at hd'; simp at hd'
  | done _ hd' => rw [hd] at hd'; simp at hd'
  | progress _ hd' => rw [hd] at hd'; simp at hd'
  | workerUnknown _ hd' hc =>
    rw [hd] at hd'; simp only [List.cons.injEq] at hd'; exact absurd hd'.1.symm hc.2.2.1
  | eval hk' => exact absurd (hk.symm.trans hk') wkey_ne_ckey
  | stats hk' => exact absurd (hk.symm.trans hk') wkey_ne_ckey
  | freeze hk' => exact absurd (hk.symm.trans hk') wkey_ne_ckey
  | unfreeze hk' => exact absurd (hk.symm.trans hk') wkey_ne_ckey
  | clientUnknown hk' => exact absurd (hk.symm.trans hk') wkey_ne_ckey
  | timer hk' => exact absurd (hk.symm.trans hk') wkey_ne_tkey
  | other hk' => exact absurd hk hk'.1

theorem Script.progress_inv {cfg : HConfig} {env : Env} {m : Msg} {s0 s' : HState Q} {evs : List Ev}
    (h : Script cfg env m s0 s' evs) (hk : m.key = keyWorkers) {rest : List String}
    (hd : m.data = "progress" :: rest) :
    s' = { s0.heard cfg m.identity with outs := s0.outs ++ [⟨keyMonitor, monitorIdentity, rest⟩] } := by
  cases h with
  | progress _ hd' h =>
    rw [hd] at hd'; cases hd'; exact h
  | init _ hd' => rw [hd] at hd'; simp at hd'
  | done _ hd' => rw [hd] at hd'; simp at hd'
  | ping _ hd' => rw [hd] at hd'; simp at hd'
  | workerUnknown _ hd' hc =>
    rw [hd] at hd'; simp only [List.cons.injEq] at hd'; exact absurd hd'.1.symm hc.2.2.2
  | eval hk' => exact absurd (hk.symm.trans hk') wkey_ne_ckey
  | stats hk' => exact absurd (hk.symm.trans hk') wkey_ne_ckey
  | freeze hk' => exact absurd (hk.symm.trans hk') wkey_ne_ckey
  | unfreeze hk' => exact absurd (hk.symm.trans hk') wkey_ne_ckey
  | clientUnknown hk' => exact absurd (hk.symm.trans hk') wkey_ne_ckey
  | timer hk' => exact absurd (hk.symm.trans hk') wkey_ne_tkey
  | other hk' => exact absurd hk hk'.1

theorem Script.unknown_inv {cfg : HConfig} {env : Env} {m : Msg} {s0 s' : HState Q} {evs : List Ev}
    (h : Script cfg env m s0 s' evs) (hk : m.key = keyWorkers) {c : String} {rest : List String}
    (hd : m.data = c :: rest) (hc : c ≠ "init" ∧ c ≠ "done" ∧ c ≠ "ping" ∧ c ≠ "progress") :
    s' = s0.heard cfg m.identity := by
  cases h with
  | workerUnknown _ _ _ h => exact h
  | init _ hd' => rw [hd] at hd'; simp only [List.cons.injEq] at hd'; exact absurd hd'.1 hc.1
  | done _ hd' => rw [hd] at hd'; simp only [List.cons.injEq] at hd'; exact absurd hd'.1 hc.2.1
  | ping _ hd' => rw [hd] at hd'; simp only [List.cons.injEq] at hd'; exact absurd hd'.1 hc.2.2.1
  | progress _ hd' => rw [hd] at hd'; simp only [List.cons.injEq] at hd'; exact absurd hd'.1 hc.2.2.2
  | eval hk' => exact absurd (hk.symm.trans hk') wkey_ne_ckey
  | stats hk' => exact absurd (hk.symm.trans hk') wkey_ne_ckey
  | freeze hk' => exact absurd (hk.symm.trans hk') wkey_ne_ckey
  | unfreeze hk' => exact absurd (hk.symm.trans hk') wkey_ne_ckey
  | clientUnknown hk' => exact absurd (hk.symm.trans hk') wkey_ne_ckey
  | timer hk' => exact absurd (hk.symm.trans hk') wkey_ne_tkey
  | other hk' => exact absurd hk hk'.1

/-- A step that is none of the commands that can fail ends normally. -/
theorem simple_total {cfg : HConfig} {env : Env} {m : Msg} {s : HState Q} (h : HInv s) {c : String}
    {rest : List String} (hd : m.data = c :: rest) (hk : m.key ≠ keyTimer)
    (hi : m.key = keyWorkers → c ≠ "init" ∧ c ≠ "done") (he : m.key = keyClients → c ≠ "eval") :
    ∃ s', step cfg env m s = .ok () s' := by
  refine step_total h ?_
  intro e hse
  cases hse with
  | empty _ hd' _ => rw [hd] at hd'; cases hd'
  | init hk' hd' => rw [hd] at hd'; simp only [List.cons.injEq] at hd'; exact (hi hk').1 hd'.1
  | done hk' hd' => rw [hd] at hd'; simp only [List.cons.injEq] at hd'; exact (hi hk').2 hd'.1
  | eval hk' hd' => rw [hd] at hd'; simp only [List.cons.injEq] at hd'; exact he hk' hd'.1
  | timer hk' => exact hk hk'

end Broker
