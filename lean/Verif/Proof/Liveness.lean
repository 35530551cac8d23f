import Verif.Proof.Expiry

/-! # Timers and liveness counters of workers -/

set_option linter.unusedSectionVars false
set_option linter.unusedSimpArgs false

namespace Broker

open QueueManager LawfulQM

variable {Q : Type} [QueueManager Q] [LawfulQM Q]

theorem mem_removeAll : ∀ {xs ws : List Worker}, (ws.map (·.addr)).Nodup → xs.Nodup →
    (∀ x ∈ xs, x ∈ ws) → ∀ v, v ∈ removeAll xs ws ↔ v ∈ ws ∧ v ∉ xs := by
  intro xs
  induction xs with
  | nil => intro ws _ _ _ v; simp [removeAll]
  | cons x t ih =>
    intro ws hn hnx hsub v
    rw [List.nodup_cons] at hnx
    have hx := hsub x (by simp)
    have hp := regRemove_perm hn hx
    have hn' : ((regRemove x ws).map (·.addr)).Nodup := by
      have := (hp.map (·.addr)).nodup_iff.1 hn
      simp only [List.map_cons, List.nodup_cons] at this
      exact this.2
    have hmem : ∀ v, v ∈ ws ↔ v = x ∨ v ∈ regRemove x ws := fun v => by
      rw [hp.mem_iff, List.mem_cons]
    have hxr : x ∉ regRemove x ws := by
      have := (hp.map (·.addr)).nodup_iff.1 hn
      simp only [List.map_cons, List.nodup_cons] at this
      exact fun h => this.1 (List.mem_map.2 ⟨x, h, rfl⟩)
    rw [removeAll, ih hn' hnx.2 (fun y hy => by
      rcases (hmem y).1 (hsub y (List.mem_cons_of_mem _ hy)) with rfl | h
      · exact absurd hy hnx.1
      · exact h)]
    rw [hmem v, List.mem_cons]
    constructor
    · rintro ⟨h1, h2⟩
      refine ⟨.inr h1, ?_⟩
      rintro (rfl | h)
      · exact hxr h1
      · exact h2 h
    · rintro ⟨h1 | h1, h2⟩
      · exact absurd (.inl h1) h2
      · exact ⟨h1, fun h => h2 (.inr h)⟩

/-- What a step does to the timer and the liveness of a registered worker. -/
inductive Beat (cfg : HConfig) (m : Msg) (s s' : HState Q) (w : Worker) : Prop
  | heard (hk : m.key = keyWorkers) (hf : regFind m.identity s.workers = some w)
      (hw : w ∈ s'.workers) (ht : s'.timers.getD w 0 = 0) (hl : s'.live w.addr = cfg.maxLiveness)
  | tick {f : String} {rest : List String} {time : Int} (hk : m.key = keyTimer)
      (hd : m.data = f :: rest) (ht : stoll f = .ok time)
      (h : Ticked cfg time s s' (w ∉ s'.workers) w)
  | still (hk : m.key ≠ keyTimer)
      (hn : ¬ (m.key = keyWorkers ∧ regFind m.identity s.workers = some w))
      (hw : w ∈ s'.workers) (ht : s'.timers.getD w 0 = s.timers.getD w 0)
      (hl : s'.live w.addr = s.live w.addr)

/-- Registration leaves the other workers alone. -/
theorem RState.register_other (env : Env) (i g : String) (hs : Headers) (x : List String)
    (p : RState) {w : Worker} (hw : w ∈ p.workers) :
    w ∈ (p.register env i g hs x).workers ∧
    (p.register env i g hs x).timers.getD w 0 = p.timers.getD w 0 ∧
    (p.register env i g hs x).live w.addr = p.live w.addr := by
  unfold RState.register
  cases hc : Worker.create (env.alloc p.allocs p.addrs) i g hs (initExtra x "" none).1 with
  | error e => exact ⟨hw, rfl, rfl⟩
  | ok v =>
    have hne : w.addr ≠ env.alloc p.allocs p.addrs := by
      intro h
      refine env.alloc_fresh p.allocs p.addrs ?_
      rw [← h]
      exact List.mem_append.2 (.inl (List.mem_map.2 ⟨w, hw, rfl⟩))
    have hva : v.addr = env.alloc p.allocs p.addrs := (Worker.create_fields hc).1
    refine ⟨by simp [hw], ?_, by simp [upd, hne]⟩
    simp only [WMap.getD]
    rw [WMap.find_emplace_of_ne (by rw [hva]; exact hne)]

theorem RState.init'_other (env : Env) (i : String) (d : List String) (p : RState) {w : Worker}
    (hw : w ∈ p.workers) :
    w ∈ (p.init' env i d).workers ∧
    (p.init' env i d).timers.getD w 0 = p.timers.getD w 0 ∧
    (p.init' env i d).live w.addr = p.live w.addr := by
  unfold RState.init'
  split
  · split
    · split
      · exact ⟨hw, rfl, rfl⟩
      · exact RState.register_other env _ _ _ _ p hw
    · exact RState.register_other env _ _ _ _ p hw
  · exact ⟨hw, rfl, rfl⟩

theorem step_beat {cfg : HConfig} {env : Env} {m : Msg} {s s' : HState Q} (h : HInv s)
    (hs : step cfg env m s = .ok () s') {w : Worker} (hw : w ∈ s.workers) :
    Beat cfg m s s' w := by
  have hrs := step_rs hs
  obtain ⟨evs, hi⟩ := step_info h hs
  by_cases hkt : m.key = keyTimer
  · obtain ⟨f, rest, time, xs, hd, ht, hc⟩ := hi.script.timer_inv hkt
    refine .tick hkt hd ht ?_
    have h1 := hc.ticked w hw
    have hsub : xs.Sublist s.workers := hc.sub
    have hmem := mem_removeAll h.addr_nodup (hsub.nodup (List.Nodup.of_map _ h.addr_nodup))
      (fun x hx => hsub.subset hx) w
    have hws : s'.workers = removeAll xs s.workers := hc.workers
    rw [← hws] at hmem
    have : w ∈ xs ↔ w ∉ s'.workers := by
      rw [hmem]
      constructor
      · intro h1 h2; exact h2.2 h1
      · intro h1; exact Classical.byContradiction fun h2 => h1 ⟨hw, h2⟩
    unfold Ticked at h1 ⊢
    simp only [this] at h1
    exact h1
  · have e1 : s'.workers = (s.rs.step cfg env m).workers := congrArg RState.workers hrs
    have e2 : s'.timers = (s.rs.step cfg env m).timers := congrArg RState.timers hrs
    have e3 : s'.live = (s.rs.step cfg env m).live := congrArg RState.live hrs
    by_cases hkw : m.key = keyWorkers
    · have hstep : ∀ P : RState → Prop, (P (s.rs.heard cfg m.identity)) →
          (P ((s.rs.heard cfg m.identity).init' env m.identity m.data)) → P (s.rs.step cfg env m) := by
        intro P h1 h2
        unfold RState.step
        rw [if_pos hkw]
        split
        · exact h2
        · exact h1
      have hheard : w ∈ (s.rs.heard cfg m.identity).workers := by
        unfold RState.heard; split <;> exact hw
      have hinit := RState.init'_other env m.identity m.data _ hheard
      have hall : w ∈ s'.workers ∧
          s'.timers.getD w 0 = (s.rs.heard cfg m.identity).timers.getD w 0 ∧
          s'.live w.addr = (s.rs.heard cfg m.identity).live w.addr := by
        rw [e1, e2, e3]
        exact hstep (fun p => w ∈ p.workers ∧ p.timers.getD w 0 = _ ∧ p.live w.addr = _)
          ⟨hheard, rfl, rfl⟩ hinit
      obtain ⟨a1, a2, a3⟩ := hall
      by_cases hf : regFind m.identity s.workers = some w
      · refine .heard hkw hf a1 ?_ ?_
        · rw [a2]; unfold RState.heard
          have : regFind m.identity s.rs.workers = some w := hf
          simp [this, WMap.getD, WMap.find_put_self]
        · rw [a3]; unfold RState.heard
          have : regFind m.identity s.rs.workers = some w := hf
          simp [this, upd]
      · refine .still hkt (fun h => hf h.2) a1 ?_ ?_
        · rw [a2]; unfold RState.heard
          split
          · rfl
          · rename_i v hv
            have hv : regFind m.identity s.workers = some v := hv
            have : w.addr ≠ v.addr := fun he =>
              hf (by rw [hv, h.eq_of_addr hw (regFind_mem hv).1 he])
            simp only [WMap.getD]
            rw [WMap.find_put_of_ne this]
            rfl
        · rw [a3]; unfold RState.heard
          split
          · rfl
          · rename_i v hv
            have hv : regFind m.identity s.workers = some v := hv
            have : w.addr ≠ v.addr := fun he =>
              hf (by rw [hv, h.eq_of_addr hw (regFind_mem hv).1 he])
            simp [upd, this]
            rfl
    · have hsame : (s.rs.step cfg env m).workers = s.workers ∧
          (s.rs.step cfg env m).timers = s.timers ∧ (s.rs.step cfg env m).live = s.live := by
        unfold RState.step
        rw [if_neg hkw]
        split
        · split
          · exact ⟨rfl, rfl, rfl⟩
          · split <;> exact ⟨rfl, rfl, rfl⟩
        · exact ⟨rfl, rfl, rfl⟩
      obtain ⟨a1, a2, a3⟩ := hsame
      exact .still hkt (fun h => hkw h.1) (by rw [e1, a1]; exact hw) (by rw [e2, a2])
        (by rw [e3, a3])

/-- Induction over the steps after a point of a history, with the messages handled since. -/
theorem Run.induct_after {cfg : HConfig} {env : Env} {P : List (Tr Q) → HState Q → Prop}
    {h1 h2 : List (Tr Q)} {s : HState Q} (hr : Run cfg env (h1 ++ h2) s)
    (h0 : ∀ s, Run cfg env h1 s → P [] s)
    (hstep : ∀ h t h', h2 = h ++ t :: h' → Run cfg env (h1 ++ h) t.pre →
      step cfg env t.msg t.pre = .ok () t.post → P h t.pre → P (h ++ [t]) t.post) : P h2 s := by
  have aux : ∀ (h h' : List (Tr Q)) (s : HState Q), h2 = h ++ h' → Run cfg env (h1 ++ h) s → P h s := by
    intro h
    induction h using List.reverseRecOn with
    | nil => intro h' s _ hr; exact h0 s (by simpa using hr)
    | append_singleton h t ih =>
      intro h' s hh hr
      rw [← List.append_assoc] at hr
      obtain ⟨hr1, hs, hr2⟩ := Run.prefix (h2 := []) hr
      have hs' : s = t.post := by
        generalize hh : h1 ++ h ++ [t] = l at hr
        cases hr with
        | nil => simp at hh
        | snoc hr hs =>
          have := List.append_inj_right' hh rfl
          simp at this
          rw [this]
      rw [hs']
      have hh' : h2 = h ++ t :: h' := by rw [hh]; simp
      exact hstep h t h' hh' hr1 hs (ih _ _ hh' hr1)
  exact aux h2 [] s (by simp) hr

/-- The state at the end of a history. -/
theorem Run.last {cfg : HConfig} {env : Env} {h : List (Tr Q)} {t : Tr Q} {s : HState Q}
    (hr : Run cfg env (h ++ [t]) s) : s = t.post := by
  generalize hh : h ++ [t] = l at hr
  cases hr with
  | nil => simp at hh
  | snoc hr hs =>
    have := List.append_inj_right' hh rfl
    simp at this
    rw [this]

end Broker
