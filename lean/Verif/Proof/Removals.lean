import Verif.Proof.Patience

/-!
# Time matters only through removals

Two brokers that remove the same workers at the same ticks do the same.
-/

set_option linter.unusedSectionVars false
set_option linter.unusedSimpArgs false

namespace Broker

namespace Spec

/-- The messages are the same, except that the timer may report another time. -/
def SameButTime (m m' : Msg) : Prop :=
  m = m' ∨ ∃ x y, IsTick m x ∧ IsTick m' y

/-- While two brokers handle their messages, one after the other, their registries hold the same
    workers after every message. -/
def SameRemovals {Q : Type} [QueueManager Q] (a b : HConfig) (env : Env) :
    HState Q → HState Q → List Msg → List Msg → Prop
  | s, t, m :: ms, m' :: ms' =>
    match step a env m s, step b env m' t with
    | .ok _ s', .ok _ t' => s'.workers = t'.workers ∧ SameRemovals a b env s' t' ms ms'
    | .ok _ s', .error _ t' => s'.workers = t'.workers
    | .error _ s', .ok _ t' => s'.workers = t'.workers
    | .error _ s', .error _ t' => s'.workers = t'.workers
  | _, _, _, _ => True

end Spec

open QueueManager LawfulQM Spec

variable {Q : Type} [QueueManager Q]

theorem Unmoved.settle (a b : HConfig) (env : Env) : ∀ rs : List Req,
    Unmoved (Q := Q) (apart a b) (settleRequests a env rs) (settleRequests b env rs)
  | [] => Unmoved.pure _ _
  | r :: rs => by
    unfold settleRequests
    have ih := Unmoved.settle a b env rs
    refine Unmoved.ite ?_ ?_
    · exact Unmoved.bind (Unmoved.respond _ _ _ _) fun _ =>
        Unmoved.bind (Unmoved.respond _ _ _ _) fun _ => ih
    · refine Unmoved.bind (Unmoved.checkFailureCount _ _ _ _) fun c => Unmoved.ite ?_ ih
      refine Unmoved.bind (Unmoved.reassign _ _ _) fun c => Unmoved.ite ?_ ?_
      · exact Unmoved.bind (Unmoved.respond _ _ _ _) fun _ => ih
      · exact Unmoved.bind ih fun _ => Unmoved.pure _ _

theorem Unmoved.rejectAll (P : Prop × Prop) (d : String) :
    ∀ rs : List Req, Unmoved1 (Q := Q) P (rejectAll d rs)
  | [] => Unmoved.pure _ _
  | _ :: rs => Unmoved.bind (Unmoved.respond _ _ _ _) fun _ => Unmoved.rejectAll P d rs

theorem Unmoved.expire (a b : HConfig) (env : Env) (w : Worker) :
    Unmoved (Q := Q) (apart a b) (expireWorker a env w) (expireWorker b env w) := by
  unfold expireWorker
  refine Unmoved.bind (Unmoved.modify (fun _ => by simp [HState.forget])) fun _ => ?_
  refine Unmoved.bind (Unmoved.qCurrent _ _) fun o => ?_
  have h : Unmoved (Q := Q) (apart a b)
      (do
        let requests ← Broker.qTerminated w
        let unassigned ← settleRequests a env requests
        Broker.rejectAll ("Worker " ++ w.getDescription ++ " dieded") unassigned)
      (do
        let requests ← Broker.qTerminated w
        let unassigned ← settleRequests b env requests
        Broker.rejectAll ("Worker " ++ w.getDescription ++ " dieded") unassigned) :=
    Unmoved.bind (Unmoved.qTerminated _ _) fun _ => Unmoved.bind (Unmoved.settle _ _ _ _) fun _ =>
      Unmoved.rejectAll _ _ _
  cases o with
  | none => exact h
  | some r => exact Unmoved.bind (Unmoved.bump _ _) fun _ => h

variable [LawfulQM Q]

/-- In which order two workers expire is determined by the registry. -/
theorem pair_order {x y : Worker} : ∀ {W : List Worker}, W.Nodup → [x, y].Sublist W →
    [y, x].Sublist W → False
  | [], _, h, _ => by cases h
  | w :: W, hn, h1, h2 => by
    rw [List.nodup_cons] at hn
    cases h1 with
    | cons _ h1 =>
      cases h2 with
      | cons _ h2 => exact pair_order hn.2 h1 h2
      | cons_cons _ h2 => exact hn.1 (h1.subset (by simp))
    | cons_cons _ h1 =>
      cases h2 with
      | cons _ h2 => exact hn.1 (h2.subset (by simp))
      | cons_cons _ h2 => exact hn.1 (h1.subset (by simp))

theorem regRemove_eq_filter {x : Worker} : ∀ {ws : List Worker}, (ws.map (·.addr)).Nodup →
    regRemove x ws = ws.filter (fun w => w.addr ≠ x.addr)
  | [], _ => rfl
  | w :: t, hn => by
    simp only [List.map_cons, List.nodup_cons] at hn
    unfold regRemove
    by_cases h : w.addr = x.addr
    · rw [if_pos h, List.filter_cons_of_neg (by simpa using h)]
      symm
      rw [List.filter_eq_self]
      intro z hz
      have : z.addr ≠ x.addr := fun he => hn.1 (List.mem_map.2 ⟨z, hz, he.trans h.symm⟩)
      simpa using this
    · rw [if_neg h, List.filter_cons_of_pos (by simpa using h), regRemove_eq_filter hn.2]

theorem sublist_regRemove {x : Worker} {xs ws : List Worker} (hn : (ws.map (·.addr)).Nodup)
    (h : (x :: xs).Sublist ws) : xs.Sublist (regRemove x ws) := by
  rw [regRemove_eq_filter hn]
  have h1 := (h.map (·.addr)).nodup hn
  simp only [List.map_cons, List.nodup_cons] at h1
  have h2 : xs.filter (fun w => w.addr ≠ x.addr) = xs := by
    rw [List.filter_eq_self]
    intro z hz
    have : z.addr ≠ x.addr := fun he => h1.1 (List.mem_map.2 ⟨z, hz, he⟩)
    simpa using this
  rw [← h2]
  exact ((List.sublist_cons_self x xs).trans h).filter _

/-- `process_timer` after the loop over workers. -/
abbrev finishTick (cfg : HConfig) (env : Env) (xs : List Worker) : HM Q Unit := do
  expireWorkers cfg env xs
  Broker.updateGauges

theorem Unmoved.finish (a b : HConfig) (env : Env) (xs : List Worker) :
    Unmoved (Q := Q) (apart a b) (finishTick a env xs) (finishTick b env xs) := by
  refine Unmoved.bind ?_ fun _ => Unmoved.updateGauges _
  induction xs with
  | nil => exact Unmoved.pure _ _
  | cons x xs ih =>
    unfold expireWorkers
    exact Unmoved.bind (Unmoved.expire _ _ _ _) fun _ => ih

theorem finish_cons (cfg : HConfig) (env : Env) (x : Worker) (xs : List Worker) :
    (finishTick cfg env (x :: xs) : HM Q Unit) =
      (do expireWorker cfg env x; finishTick cfg env xs) := by
  funext s
  simp only [finishTick, expireWorkers, Bind.bind, EStateM.bind]
  cases expireWorker cfg env x s <;> rfl

/-- Who is not on the list stays. -/
theorem finish_stays {cfg : HConfig} {env : Env} {w : Worker} : ∀ {xs : List Worker} {s : HState Q},
    w.addr ∉ xs.map (·.addr) → w ∈ s.workers → w ∈ (endState (finishTick cfg env xs s)).workers
  | [], s, _, hw => by
    have := SameReg.updateGauges (Q := Q) s
    rw [show finishTick cfg env [] s = Broker.updateGauges s from rfl, this]
    exact hw
  | x :: xs, s, hn, hw => by
    simp only [List.map_cons, List.mem_cons, not_or] at hn
    obtain ⟨k, hk, he⟩ := expire_eq (Q := Q) cfg env x
    have h : (endState (k { s with workers := regRemove x s.workers })).workers =
      regRemove x s.workers := hk _
    have hm : ∀ ws : List Worker, w ∈ ws → w ∈ regRemove x ws := by
      intro ws
      induction ws with
      | nil => exact fun h => h
      | cons z t ih =>
        intro hz
        unfold regRemove
        split
        · rename_i hzx
          rcases List.mem_cons.1 hz with rfl | hz
          · exact absurd hzx hn.1
          · exact hz
        · rcases List.mem_cons.1 hz with rfl | hz
          · exact List.mem_cons_self
          · exact List.mem_cons_of_mem _ (ih hz)
    rw [finish_cons]
    simp only [Bind.bind, EStateM.bind, he s]
    cases hs : k { s with workers := regRemove x s.workers } with
    | ok u s' =>
      rw [hs] at h
      have h' : s'.workers = regRemove x s.workers := h
      exact finish_stays hn.2 (h' ▸ hm _ hw)
    | error e s' =>
      rw [hs] at h
      have h' : s'.workers = regRemove x s.workers := h
      exact h' ▸ hm _ hw

theorem finish_same {a b : HConfig} {env : Env} : ∀ {xs ys : List Worker} {s t : HState Q},
    (s.workers.map (·.addr)).Nodup → xs.Sublist s.workers → ys.Sublist t.workers →
    s.forget = t.forget →
    (endState (finishTick a env xs s)).workers = (endState (finishTick b env ys t)).workers →
    Concur (apart a b) (finishTick a env xs s) (finishTick b env ys t) := by
  intro xs
  induction xs with
  | nil =>
    intro ys s t hn hx hy hf he
    cases ys with
    | nil => exact (Unmoved.finish a b env []).rel s t hf
    | cons y ys =>
      exfalso
      have hw := forget_workers hf
      have h1 : y ∈ (endState (finishTick a env [] s)).workers :=
        finish_stays (by simp) (hw ▸ hy.subset (by simp))
      rw [he] at h1
      exact expires_loses (hw ▸ hn) h1
  | cons x xs ih =>
    intro ys s t hn hx hy hf he
    have hw := forget_workers hf
    have hxl : x ∉ (endState (finishTick a env (x :: xs) s)).workers := expires_loses hn
    cases ys with
    | nil =>
      exfalso
      rw [he] at hxl
      exact hxl (finish_stays (by simp) (hw ▸ hx.subset (by simp)))
    | cons y ys =>
      have hyl : y ∉ (endState (finishTick b env (y :: ys) t)).workers := expires_loses (hw ▸ hn)
      by_cases hxy : x = y
      · subst hxy
        rw [finish_cons, finish_cons] at he ⊢
        have hU := Unmoved.expire (Q := Q) a b env x
        have hL := (Unmoved.finish (Q := Q) a a env xs).left
        have hR := (Unmoved.finish (Q := Q) b b env ys).left
        rcases hU.rel s t hf with h1 | h1 | h1
        · exact .inl ⟨h1.1, h1.2.mono (bind_outs (fun _ => hL) s)⟩
        · exact .inr (.inl ⟨h1.1, h1.2.mono (bind_outs (fun _ => hR) t)⟩)
        · have reg : ∀ (c : HConfig) (u : HState Q),
              (endState (expireWorker c env x u)).workers = regRemove x u.workers := by
            intro c u
            obtain ⟨k, hk, hke⟩ := expire_eq (Q := Q) c env x
            rw [hke u]; exact hk _
          have r1 := reg a s
          have r2 := reg b t
          simp only [Bind.bind, EStateM.bind] at he ⊢
          rcases Twin.of h1 with ⟨e1, e2, hf'⟩ | ⟨e1, e2, hf'⟩
          · rw [e1] at he r1 ⊢
            rw [e2] at he r2 ⊢
            rename_i s' t'
            have r1' : s'.workers = regRemove x s.workers := r1
            have r2' : t'.workers = regRemove x t.workers := r2
            refine ih ?_ ?_ ?_ hf' he
            · rw [r1']; exact ((regRemove_sublist _ _).map _).nodup hn
            · rw [r1']; exact sublist_regRemove hn hx
            · rw [r2']; exact sublist_regRemove (hw ▸ hn) hy
          · rw [e1, e2]
            exact .inr (.inr (congrArg (EStateM.Result.error _) hf'))
      · exfalso
        have hinj : ∀ u v, u ∈ s.workers → v ∈ s.workers → u.addr = v.addr → u = v :=
          fun u v hu hv h => List.inj_on_of_nodup_map hn hu hv h
        have hxs : x ∈ s.workers := hx.subset (by simp)
        have hys : y ∈ s.workers := hw ▸ hy.subset (by simp)
        have h1 : x ∈ ys := by
          by_contra hc
          rw [he] at hxl
          refine hxl (finish_stays ?_ (hw ▸ hxs))
          intro hm
          obtain ⟨z, hz, hza⟩ := List.mem_map.1 hm
          have := hinj z x (hw ▸ hy.subset hz) hxs hza
          subst this
          rcases List.mem_cons.1 hz with rfl | hz
          · exact hxy rfl
          · exact hc hz
        have h2 : y ∈ xs := by
          by_contra hc
          rw [← he] at hyl
          refine hyl (finish_stays ?_ hys)
          intro hm
          obtain ⟨z, hz, hza⟩ := List.mem_map.1 hm
          have := hinj z y (hx.subset hz) hys hza
          subst this
          rcases List.mem_cons.1 hz with rfl | hz
          · exact hxy rfl
          · exact hc hz
        exact pair_order (List.Nodup.of_map _ hn)
          (((List.singleton_sublist.2 h2).cons_cons x).trans hx)
          (hw ▸ ((List.singleton_sublist.2 h1).cons_cons y).trans hy)

theorem tick_shape (c : HConfig) (env : Env) {m : Msg} {x : Int} {u : HState Q} (hm : IsTick m x)
    (hn : (u.workers.map (·.addr)).Nodup) :
    ∃ xs u1, step c env m u = finishTick c env xs u1 ∧ xs.Sublist u.workers ∧
      u1.workers = u.workers ∧
      u1.forget = { HState.forget { u with outs := [] } with
        timers := u.workers.foldl (fun m w => m.put w 0) u.forget.timers } := by
  obtain ⟨hk, f, rest, hd, hx⟩ := hm
  have hx := (stoll_iff _ _).2 hx
  obtain ⟨xs, u1, e1, f1⟩ := tick_forget c x u.workers { u with outs := [] }
  obtain ⟨_, hsub, _⟩ := wp_ok (wp_tickWorkers (E := fun _ _ => True) hn) e1
  have e : step c env m u = processTimer c env (f :: rest) { u with outs := [] } := by
    obtain ⟨k, i, d⟩ := m
    simp only at hk hd
    subst hk hd
    rfl
  refine ⟨xs, u1, ?_, hsub, ?_, f1⟩
  · rw [e, timer_eq hx e1]
  · exact congrArg (·.workers) f1

theorem tick_same {a b : HConfig} {env : Env} {m m' : Msg} {s t : HState Q} {x y : Int}
    (hm : IsTick m x) (hm' : IsTick m' y) (hn : (s.workers.map (·.addr)).Nodup)
    (hf : s.forget = t.forget)
    (hw : (endState (step a env m s)).workers = (endState (step b env m' t)).workers) :
    Concur (apart a b) (step a env m s) (step b env m' t) := by
  have hst := forget_workers hf
  obtain ⟨xs, s1, e1, hx, w1, f1⟩ := tick_shape a env hm hn
  obtain ⟨ys, t1, e2, hy, w2, f2⟩ := tick_shape b env hm' (u := t) (hst ▸ hn)
  rw [e1, e2] at hw ⊢
  refine finish_same (w1 ▸ hn) (w1 ▸ hx) (w2 ▸ hy) ?_ hw
  rw [f1, f2, forget_clear hf, hst, hf]

/-- A message under two configurations, if the registries agree afterwards. -/
theorem step_removals {a b : HConfig} {env : Env} {m m' : Msg} {s t : HState Q}
    (hm : SameButTime m m') (hn : (s.workers.map (·.addr)).Nodup) (hf : s.forget = t.forget)
    (hab : a.maxFailures = b.maxFailures)
    (hw : (endState (step a env m s)).workers = (endState (step b env m' t)).workers) :
    Twin (step a env m s) (step b env m' t) := by
  have h : Concur (apart a b) (step a env m s) (step b env m' t) := by
    by_cases hc : ∃ x y, IsTick m x ∧ IsTick m' y
    · obtain ⟨x, y, h1, h2⟩ := hc
      exact tick_same h1 h2 hn hf hw
    · have he : m = m' := hm.resolve_right hc
      subst he
      refine request_alike (forget_clear hf) fun hk f rest time hd hx => ?_
      exact absurd ⟨time, time, ⟨hk, f, rest, hd, (stoll_iff _ _).1 hx⟩,
        ⟨hk, f, rest, hd, (stoll_iff _ _).1 hx⟩⟩ hc
  rcases h with h | h | h
  · exact absurd h.1 (by show ¬ (_ < _); rw [hab]; exact Nat.lt_irrefl _)
  · exact absurd h.1 (by show ¬ (_ < _); rw [hab]; exact Nat.lt_irrefl _)
  · exact .of h

theorem removals_head {a b : HConfig} {env : Env} {m m' : Msg} {ms ms' : List Msg}
    {s t : HState Q} (h : SameRemovals a b env s t (m :: ms) (m' :: ms')) :
    (endState (step a env m s)).workers = (endState (step b env m' t)).workers := by
  unfold SameRemovals at h
  revert h
  cases step a env m s <;> cases step b env m' t <;> intro h
  · exact h.1
  · exact h
  · exact h
  · exact h

theorem removals_same {a b : HConfig} {env : Env} (hab : a.maxFailures = b.maxFailures) :
    ∀ {ms ms' : List Msg} {s t : HState Q}, HInv s → HInv t → s.forget = t.forget →
    List.Forall₂ SameButTime ms ms' → SameRemovals a b env s t ms ms' →
    transcript a env s ms = transcript b env t ms' := by
  intro ms ms' s t is it hf hm
  induction hm generalizing s t with
  | nil => intros; rfl
  | @cons m m' ms ms' h1 _ ih =>
    intro hr
    have hT := step_removals (a := a) (b := b) (env := env) h1 is.addr_nodup hf hab
      (removals_head hr)
    unfold SameRemovals at hr
    unfold transcript
    cases hT with
    | ok e e' hf' =>
      rw [e] at hr ⊢
      rw [e'] at hr ⊢
      obtain ⟨_, i1⟩ := step_info is e
      obtain ⟨_, i2⟩ := step_info it e'
      simp only [forget_outs hf', ih i1.inv i2.inv hf' hr.2]
    | error e e' hf' =>
      rw [e, e']
      simp only [forget_outs hf']

end Broker
