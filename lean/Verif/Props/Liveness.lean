import Verif.Props.Workers

/-!
# C13, C14: heartbeats and expiry
-/

set_option linter.unusedSectionVars false

namespace Broker

open LawfulQM

variable {Q : Type} [QueueManager Q] [LawfulQM Q]

theorem elapsed_append : ∀ {a b : List Msg} {T : Int}, Spec.Elapsed (a ++ b) T →
    ∃ T1 T2, Spec.Elapsed a T1 ∧ Spec.Elapsed b T2 ∧ T = T1 + T2 := by
  intro a
  induction a with
  | nil => intro b T h; exact ⟨0, T, rfl, h, by omega⟩
  | cons m ms ih =>
    intro b T h
    rcases h with ⟨hk, h⟩ | ⟨t, T', ht, h, rfl⟩
    · obtain ⟨T1, T2, h1, h2, rfl⟩ := ih h
      exact ⟨T1, T2, .inl ⟨hk, h1⟩, h2, rfl⟩
    · obtain ⟨T1, T2, h1, h2, rfl⟩ := ih h
      exact ⟨t + T1, T2, .inr ⟨t, T1, ht, h1, rfl⟩, h2, by omega⟩

theorem elapsed_snoc {a : List Msg} {m : Msg} {T : Int} (h : Spec.Elapsed (a ++ [m]) T) :
    ∃ T1, Spec.Elapsed a T1 ∧ ((m.key ≠ "timer" ∧ T = T1) ∨ ∃ t, Spec.IsTick m t ∧ T = T1 + t) := by
  obtain ⟨T1, T2, h1, h2, rfl⟩ := elapsed_append h
  refine ⟨T1, h1, ?_⟩
  rcases h2 with ⟨hk, h2⟩ | ⟨t, T', ht, h2, rfl⟩
  · have : T2 = 0 := h2
    exact .inl ⟨hk, by omega⟩
  · have : T' = 0 := h2
    exact .inr ⟨t, ht, by omega⟩

theorem tick_time {m : Msg} {f : String} {rest : List String} {time t : Int}
    (hd : m.data = f :: rest) (ht : stoll f = .ok time) (hi : Spec.IsTick m t) : time = t := by
  obtain ⟨_, f', rest', hd', he⟩ := hi
  rw [hd] at hd'
  simp only [List.cons.injEq] at hd'
  obtain ⟨rfl, rfl⟩ := hd'
  rw [(stoll_iff f t).2 he] at ht
  cases ht; rfl

/-- **C13.** A registered worker the broker hears from stays registered as long as the timer
    messages since then report at most `max_liveness * ping_interval`, whatever else happens. -/
theorem C13_no_premature_expiry {cfg : HConfig} {env : Env} {h1 h2 : List (Tr Q)} {t : Tr Q}
    {s : HState Q} (hr : Run cfg env (h1 ++ t :: h2) s) (hlive : 1 ≤ cfg.maxLiveness) {w : Worker}
    (hk : t.msg.key = "workers")
    (hw : t.pre.workers.find? (fun w => w.identity == t.msg.identity) = some w)
    (hpos : ∀ t' ∈ h2, ∀ x, Spec.IsTick t'.msg x → 0 ≤ x) {T : Int}
    (hT : Spec.Elapsed (h2.map (·.msg)) T) (hle : T ≤ cfg.maxLiveness * cfg.pingInterval) :
    w ∈ s.workers := by
  have hr' : Run cfg env ((h1 ++ [t]) ++ h2) s := by simpa using hr
  obtain ⟨hr1, hs1, _⟩ := hr.prefix
  have hfind := regFind_of_find hw
  have key := Run.induct_after (P := fun h s => ∀ T, Spec.Elapsed (h.map (·.msg)) T →
    T ≤ cfg.maxLiveness * cfg.pingInterval → 0 ≤ T ∧ w ∈ s.workers ∧ ∃ c : Nat,
      s.live w.addr + c = cfg.maxLiveness ∧ 1 ≤ s.live w.addr ∧
      c * (cfg.pingInterval + 1) + s.timers.getD w 0 ≤ T) hr' ?_ ?_
  · exact (key T hT hle).2.1
  · intro s2 hr2 T hT _
    have hs2 := hr2.last
    subst hs2
    have hT0 : T = 0 := hT
    subst hT0
    cases step_beat hr1.inv.1 hs1 (regFind_mem hfind).1 with
    | heard _ _ hw' ht hl => exact ⟨by omega, hw', 0, by rw [hl]; rfl, by rw [hl]; exact hlive, by rw [ht]; simp⟩
    | tick hk' => exact absurd (hk.symm.trans hk') wkey_ne_tkey
    | still _ hn => exact absurd ⟨hk, hfind⟩ hn
  · intro h t' h' hh hrt hst ih T hT hle
    rw [List.map_append] at hT
    obtain ⟨T1, hT1, hcase⟩ := elapsed_snoc hT
    have hmem : t' ∈ h2 := by rw [hh]; simp
    have hT1le : T1 ≤ T := by
      rcases hcase with ⟨_, rfl⟩ | ⟨x, hx, rfl⟩
      · omega
      · have := hpos t' hmem x hx; omega
    obtain ⟨i1, i2, c, i3, i4, i5⟩ := ih T1 hT1 (by omega)
    refine ⟨by omega, ?_⟩
    cases step_beat hrt.inv.1 hst i2 with
    | heard _ _ hw' ht hl =>
      exact ⟨hw', 0, by rw [hl]; rfl, by rw [hl]; exact hlive, by rw [ht]; simp; omega⟩
    | still _ _ hw' ht hl => exact ⟨hw', c, by rw [hl]; exact i3, by rw [hl]; exact i4, by
        rw [ht]; omega⟩
    | @tick f rest time hk' hd ht hx =>
      rcases hcase with ⟨hk2, _⟩ | ⟨x, hx', rfl⟩
      · exact absurd hk' hk2
      · have htx := tick_time hd ht hx'
        subst htx
        unfold Ticked at hx
        by_cases hc : t'.pre.timers.getD w 0 + time > cfg.pingInterval
        · rw [if_pos hc] at hx
          obtain ⟨x1, x2, x3⟩ := hx
          have hdec : szDec (t'.pre.live w.addr) = t'.pre.live w.addr - 1 := by
            have := cfg.maxLiveness_lt
            simp only [szDec, SZ] at this ⊢
            omega
          have hstep : ((c + 1 : Nat) : Int) * (cfg.pingInterval + 1) ≤ T1 + time := by
            have : ((c + 1 : Nat) : Int) * (cfg.pingInterval + 1)
              = c * (cfg.pingInterval + 1) + (cfg.pingInterval + 1) := by
              rw [Int.natCast_add, Int.add_mul]; simp
            omega
          rw [hdec] at x2 x3
          by_cases hone : t'.pre.live w.addr = 1
          · exfalso
            have hcm : c + 1 = cfg.maxLiveness := by omega
            rw [hcm, Int.mul_add] at hstep
            omega
          · have hin : w ∈ t'.post.workers := by
              by_cases hin : w ∈ t'.post.workers
              · exact hin
              · have := x3.1 hin; omega
            exact ⟨hin, c + 1, by omega, by omega, by rw [x1]; omega⟩
        · rw [if_neg hc] at hx
          obtain ⟨x1, x2, x3⟩ := hx
          exact ⟨by simpa using x3, c, by omega, by omega, by omega⟩

/-- **C14, partial.** A worker the broker heard from and then no more is removed once the timer
    messages report more than `max_liveness` intervals, each prolonged by the longest tick `D`.
    Missing compared to the full statement: workers from which nothing but their first `init` was
    heard, and the configuration `max_liveness = 0`; for both it is false (see `C14_refuted`,
    `C14_fresh_survives`). -/
theorem C14_silent_expires_partial {cfg : HConfig} {env : Env} {h1 h2 : List (Tr Q)} {t : Tr Q}
    {s : HState Q} (hr : Run cfg env (h1 ++ t :: h2) s) (hlive : 1 ≤ cfg.maxLiveness)
    (hping : 0 ≤ cfg.pingInterval) {w : Worker} (hk : t.msg.key = "workers")
    (hw : t.pre.workers.find? (fun w => w.identity == t.msg.identity) = some w)
    (hsilent : ∀ t' ∈ h2, ¬ (t'.msg.key = "workers" ∧ t'.msg.identity = w.identity)) {D : Int}
    (hD : 0 ≤ D) (htick : ∀ t' ∈ h2, ∀ x, Spec.IsTick t'.msg x → x ≤ D) {T : Int}
    (hT : Spec.Elapsed (h2.map (·.msg)) T)
    (hlt : cfg.maxLiveness * (cfg.pingInterval + D) < T) : w ∉ s.workers := by
  have hr' : Run cfg env ((h1 ++ [t]) ++ h2) s := by simpa using hr
  obtain ⟨hr1, hs1, _⟩ := hr.prefix
  have hfind := regFind_of_find hw
  have key := Run.induct_after (P := fun h s => ∀ T, Spec.Elapsed (h.map (·.msg)) T →
    w ∈ s.workers → ∃ c : Nat, s.live w.addr + c = cfg.maxLiveness ∧ 1 ≤ s.live w.addr ∧
      T ≤ c * (cfg.pingInterval + D) + s.timers.getD w 0 ∧
      s.timers.getD w 0 ≤ cfg.pingInterval) hr' ?_ ?_
  · intro hin
    obtain ⟨c, k1, k2, k3, k4⟩ := key T hT hin
    have : ((c : Nat) : Int) * (cfg.pingInterval + D)
        ≤ ((cfg.maxLiveness : Int) - 1) * (cfg.pingInterval + D) :=
      Int.mul_le_mul_of_nonneg_right (by omega) (by omega)
    rw [Int.sub_mul] at this
    omega
  · intro s2 hr2 T hT _
    have hs2 := hr2.last
    subst hs2
    have hT0 : T = 0 := hT
    subst hT0
    cases step_beat hr1.inv.1 hs1 (regFind_mem hfind).1 with
    | heard _ _ hw' ht hl =>
      exact ⟨0, by rw [hl]; rfl, by rw [hl]; exact hlive, by rw [ht]; simp, by rw [ht]; exact hping⟩
    | tick hk' => exact absurd (hk.symm.trans hk') wkey_ne_tkey
    | still _ hn => exact absurd ⟨hk, hfind⟩ hn
  · intro h t' h' hh hrt hst ih T hT hin
    rw [List.map_append] at hT
    obtain ⟨T1, hT1, hcase⟩ := elapsed_snoc hT
    have hmem : t' ∈ h2 := by rw [hh]; simp
    have hsil := hsilent t' hmem
    obtain ⟨evs, hi⟩ := step_info hrt.inv.1 hst
    have hpre : w ∈ t'.pre.workers :=
      hi.was_registered hrt.inv.1 (fun h => hsil ⟨h.1, h.2.1⟩) hin
    obtain ⟨c, i3, i4, i5, i6⟩ := ih T1 hT1 hpre
    cases step_beat hrt.inv.1 hst hpre with
    | heard hk' hf => exact absurd ⟨hk', (regFind_mem hf).2.symm⟩ hsil
    | still hk' _ hw' ht hl =>
      rcases hcase with ⟨_, rfl⟩ | ⟨x, hx, rfl⟩
      · exact ⟨c, by rw [hl]; exact i3, by rw [hl]; exact i4, by rw [ht]; omega, by rw [ht]; exact i6⟩
      · exact absurd hx.1 hk'
    | @tick f rest time hk' hd ht hx =>
      rcases hcase with ⟨hk2, _⟩ | ⟨x, hx', rfl⟩
      · exact absurd hk' hk2
      · have htx := tick_time hd ht hx'
        subst htx
        have htD := htick t' hmem time hx'
        unfold Ticked at hx
        by_cases hc : t'.pre.timers.getD w 0 + time > cfg.pingInterval
        · rw [if_pos hc] at hx
          obtain ⟨x1, x2, x3⟩ := hx
          have hdec : szDec (t'.pre.live w.addr) = t'.pre.live w.addr - 1 := by
            have := cfg.maxLiveness_lt
            simp only [szDec, SZ] at this ⊢
            omega
          rw [hdec] at x2 x3
          have hne : t'.pre.live w.addr - 1 ≠ 0 := fun h0 => x3.2 h0 hin
          have hstep : ((c + 1 : Nat) : Int) * (cfg.pingInterval + D)
              = c * (cfg.pingInterval + D) + (cfg.pingInterval + D) := by
            rw [Int.natCast_add, Int.add_mul]; simp
          exact ⟨c + 1, by omega, by omega, by rw [x1]; omega, by rw [x1]; omega⟩
        · rw [if_neg hc] at hx
          obtain ⟨x1, x2, x3⟩ := hx
          exact ⟨c, by omega, by omega, by omega, by omega⟩

/-- The liveness of a worker right after its registration is zero. -/
theorem fresh_live {cfg : HConfig} {env : Env} {m : Msg} {s s' : HState Q} (h : HInv s)
    (hs : step cfg env m s = .ok () s') {w : Worker} (hn : w ∉ s.workers) (hw : w ∈ s'.workers) :
    s'.live w.addr = 0 := by
  obtain ⟨evs, hi⟩ := step_info h hs
  rcases hi.steps.mem_reg (hi.inv.mem_reg.1 hw) with h1 | ⟨e, he, hre⟩
  · exact absurd (h.mem_reg.2 h1) hn
  · obtain ⟨ds, hif⟩ := step_registers hi e he w hre
    have hd : m.data = "init" :: w.hwgroup :: ds := hif.data
    have hscr := hi.script.init_inv hif.key (by rw [hd]; rfl)
    have hwsh : (({ s with outs := [] } : HState Q).heard cfg m.identity).workers = s.workers := by
      rw [heard_frame]
    have main : ∀ {w' : Worker},
        RegFrame (({ s with outs := [] } : HState Q).heard cfg m.identity) s' w' →
        s'.live w.addr = 0 := by
      intro w' hf
      have h1 : s'.workers = s.workers ++ [w] := hif.new
      have h2 := hf.workers
      rw [h1, hwsh] at h2
      have : w = w' := by simpa using List.append_cancel_left h2
      subst this
      rw [hf.live]
      simp [upd]
    cases hscr with
    | short => simp at he
    | same => simp at he
    | fresh hm hw hn hf hr => exact main hf
    | again hm hw hne hn hf hr => exact main hf

/-- **C14 fails for new workers.** A worker that registers and is never heard from again outlives
    every history with fewer than 2^64 timer messages, however much time they report: its liveness
    counter starts at zero and the first decrement wraps around. -/
theorem C14_fresh_survives {cfg : HConfig} {env : Env} {h1 h2 : List (Tr Q)} {t : Tr Q}
    {s : HState Q} (hr : Run cfg env (h1 ++ t :: h2) s) {w : Worker}
    (hn : w ∉ t.pre.workers) (hw : w ∈ t.post.workers)
    (hsilent : ∀ t' ∈ h2, ¬ (t'.msg.key = "workers" ∧ t'.msg.identity = w.identity))
    (hfew : h2.countP (fun t' => t'.msg.key == "timer") < 2 ^ 64) : w ∈ s.workers := by
  have hr' : Run cfg env ((h1 ++ [t]) ++ h2) s := by simpa using hr
  obtain ⟨hr1, hs1, _⟩ := hr.prefix
  have key := Run.induct_after (P := fun h s => h.countP (fun t' => t'.msg.key == "timer") < 2 ^ 64 →
    w ∈ s.workers ∧ ∃ k, k ≤ h.countP (fun t' => t'.msg.key == "timer") ∧
      s.live w.addr = (2 ^ 64 - k) % 2 ^ 64) hr' ?_ ?_
  · exact (key hfew).1
  · intro s2 hr2 _
    have hs2 := hr2.last
    subst hs2
    exact ⟨hw, 0, by simp, fresh_live hr1.inv.1 hs1 hn hw⟩
  · intro h t' h' hh hrt hst ih hcount
    have hmem : t' ∈ h2 := by rw [hh]; simp
    have hsil := hsilent t' hmem
    rw [List.countP_append, List.countP_singleton] at hcount
    rw [List.countP_append, List.countP_singleton]
    obtain ⟨i1, k, i2, i3⟩ := ih (by omega)
    cases step_beat hrt.inv.1 hst i1 with
    | heard hk' hf => exact absurd ⟨hk', (regFind_mem hf).2.symm⟩ hsil
    | still hk' _ hw' ht hl => exact ⟨hw', k, by omega, by rw [hl]; exact i3⟩
    | @tick f rest time hk' hd ht hx =>
      have hkt : (t'.msg.key == "timer") = true := by
        simp [show t'.msg.key = "timer" from hk']
      rw [hkt] at hcount ⊢
      simp only [if_true] at hcount ⊢
      unfold Ticked at hx
      by_cases hc : t'.pre.timers.getD w 0 + time > cfg.pingInterval
      · rw [if_pos hc] at hx
        obtain ⟨x1, x2, x3⟩ := hx
        have hdec : szDec (t'.pre.live w.addr) = (2 ^ 64 - (k + 1)) % 2 ^ 64 := by
          rw [i3]
          simp only [szDec, SZ]
          omega
        rw [hdec] at x2 x3
        refine ⟨?_, k + 1, by omega, x2⟩
        by_cases hin : w ∈ t'.post.workers
        · exact hin
        · have := x3.1 hin
          omega
      · rw [if_neg hc] at hx
        obtain ⟨x1, x2, x3⟩ := hx
        exact ⟨by simpa using x3, k, by omega, by rw [x2]; exact i3⟩

/-- **C14 is false.** A worker registers and then says nothing; five timer messages of one minute each
    (with the default configuration, four intervals of one second) do not remove it. -/
theorem C14_refuted : ¬ ∀ (h1 h2 : List (Tr Single)) (t : Tr Single) (s : HState Single),
    Run cfg0 env0 (h1 ++ t :: h2) s → ∀ (w : Worker) (D T : Int), w ∈ t.post.workers →
    (∀ t' ∈ h2, ¬ (t'.msg.key = "workers" ∧ t'.msg.identity = w.identity)) →
    (∀ t' ∈ h2, ∀ x, Spec.IsTick t'.msg x → x ≤ D) → Spec.Elapsed (h2.map (·.msg)) T →
    cfg0.maxLiveness * (cfg0.pingInterval + D) < T → w ∉ s.workers := by
  obtain ⟨h1, t, h2, s, hr, _, _, hm, hp⟩ := exists_split (Q := Single) (cfg := cfg0) (env := env0)
    [] (fromW "w1" ["init", "group", "env=c"])
    [tick "60000", tick "60000", tick "60000", tick "60000", tick "60000"]
    (fun t s => t.post.workers.any (fun w => s.workers.contains w)) (by decide +kernel)
  intro H
  simp only [List.any_eq_true, List.contains_iff_mem] at hp
  obtain ⟨w, hw, hws⟩ := hp
  have hall : ∀ t' ∈ h2, t'.msg = tick "60000" := by
    intro t' ht'
    have : t'.msg ∈ h2.map (·.msg) := List.mem_map.2 ⟨t', ht', rfl⟩
    rw [hm] at this
    simpa using this
  have hst : stoll "60000" = .ok 60000 := by decide +kernel
  have htick : Spec.IsTick (tick "60000") 60000 := ⟨rfl, _, _, rfl, (stoll_iff _ _).1 hst⟩
  refine H h1 h2 t s hr w 60000 300000 hw ?_ ?_ ?_ (by decide +kernel) hws
  · intro t' ht' h
    rw [hall t' ht'] at h
    exact absurd h.1 (by decide)
  · intro t' ht' x hx
    rw [hall t' ht'] at hx
    rw [← tick_time rfl hst hx]
  · rw [hm]
    exact .inr ⟨60000, 240000, htick, .inr ⟨60000, 180000, htick, .inr ⟨60000, 120000, htick,
      .inr ⟨60000, 60000, htick, .inr ⟨60000, 0, htick, rfl, by omega⟩, by omega⟩, by omega⟩,
      by omega⟩, by omega⟩

/-- Hypotheses of C13 and C14 in a concrete history: `w1` pings, is then silent; with ticks of 1001
    ms it is still registered after three of them and gone after the fourth. -/
example : ∃ (h1 : List (Tr Multi)) (t : Tr Multi) (h2 : List (Tr Multi)) (s : HState Multi)
    (w : Worker), Run cfg0 env0 (h1 ++ t :: h2) s ∧ t.msg.key = "workers" ∧
    t.pre.workers.find? (fun w => w.identity == t.msg.identity) = some w ∧
    Spec.Elapsed (h2.map (·.msg)) 3003 ∧ (3003 : Int) ≤ cfg0.maxLiveness * cfg0.pingInterval ∧
    w ∈ s.workers := by
  obtain ⟨h1, t, h2, s, hr, _, hm1, hm, hp⟩ := exists_split (Q := Multi) (cfg := cfg0) (env := env0)
    [fromW "w1" ["init", "group", "env=c"]] (fromW "w1" ["ping"])
    [tick "1001", tick "1001", fromC "c" ["eval", "J1", "env=c", "", "x"], tick "1001"]
    (fun t s => (t.pre.workers.find? (fun w => w.identity == t.msg.identity)).any
      (fun w => s.workers.contains w)) (by decide +kernel)
  have htick : Spec.IsTick (tick "1001") 1001 :=
    ⟨rfl, _, _, rfl, (stoll_iff _ _).1 (by decide +kernel)⟩
  obtain ⟨w, hw, hws⟩ := (Option.any_eq_true _ _).1 hp
  refine ⟨h1, t, h2, s, w, hr, by rw [hm1]; rfl, hw, ?_, by decide +kernel, by simpa using hws⟩
  rw [hm]
  exact .inr ⟨1001, 2002, htick, .inr ⟨1001, 1001, htick, .inl ⟨by decide, .inr ⟨1001, 0, htick, rfl,
    by omega⟩⟩, by omega⟩, by omega⟩

example : ∃ (h1 : List (Tr Multi)) (t : Tr Multi) (h2 : List (Tr Multi)) (s : HState Multi)
    (w : Worker), Run cfg0 env0 (h1 ++ t :: h2) s ∧ t.msg.key = "workers" ∧
    t.pre.workers.find? (fun w => w.identity == t.msg.identity) = some w ∧
    Spec.Elapsed (h2.map (·.msg)) 8006 ∧ (cfg0.maxLiveness : Int) * (cfg0.pingInterval + 1001) < 8006 ∧
    w ∉ s.workers := by
  obtain ⟨h1, t, h2, s, hr, _, hm1, hm, hp⟩ := exists_split (Q := Multi) (cfg := cfg0) (env := env0)
    [fromW "w1" ["init", "group", "env=c"]] (fromW "w1" ["ping"])
    [tick "1001", tick "1001", tick "1001", tick "1001", tick "1001", tick "1001", tick "1001",
     tick "999"]
    (fun t s => (t.pre.workers.find? (fun w => w.identity == t.msg.identity)).any
      (fun w => !s.workers.contains w)) (by decide +kernel)
  have htick : Spec.IsTick (tick "1001") 1001 :=
    ⟨rfl, _, _, rfl, (stoll_iff _ _).1 (by decide +kernel)⟩
  have htick2 : Spec.IsTick (tick "999") 999 :=
    ⟨rfl, _, _, rfl, (stoll_iff _ _).1 (by decide +kernel)⟩
  obtain ⟨w, hw, hws⟩ := (Option.any_eq_true _ _).1 hp
  refine ⟨h1, t, h2, s, w, hr, by rw [hm1]; rfl, hw, ?_, by decide +kernel, by simpa using hws⟩
  rw [hm]
  refine .inr ⟨1001, 7005, htick, .inr ⟨1001, 6004, htick, .inr ⟨1001, 5003, htick, .inr ⟨1001, 4002,
    htick, .inr ⟨1001, 3001, htick, .inr ⟨1001, 2000, htick, .inr ⟨1001, 999, htick,
    .inr ⟨999, 0, htick2, rfl, by omega⟩, by omega⟩, by omega⟩, by omega⟩, by omega⟩, by omega⟩,
    by omega⟩, by omega⟩

/-! ## C46 -/

/-- **C46, partial.** The single-queue manager keeps entries for registered workers only.  Missing
    compared to the full statement: the timers of the handler, for which it is false (see
    `C46_refuted`). -/
theorem C46_single_partial {cfg : HConfig} {env : Env} {h : List (Tr Single)} {s : HState Single}
    (hr : Run cfg env h s) :
    (∀ w, w ∈ s.queue.workers ↔ w ∈ s.workers) ∧ ∀ p ∈ s.queue.current, p.1 ∈ s.workers := by
  have hi := hr.inv.1
  have hq : s.queue.Inv := hi.qinv
  have hmem : ∀ w, w ∈ s.queue.workers ↔ w ∈ s.workers := by
    intro w
    rw [hi.mem_reg]
    show _ ↔ w ∈ (s.queue.workers : Multiset Worker)
    simp
  refine ⟨hmem, fun p hp => ?_⟩
  exact (hmem _).1 (hq.keysCur.mem_iff.1 (List.mem_map.2 ⟨p, hp, rfl⟩))

/-- **C46, partial.** The multi-queue manager keeps queues and entries for registered workers only. -/
theorem C46_multi_partial {cfg : HConfig} {env : Env} {h : List (Tr Multi)} {s : HState Multi}
    (hr : Run cfg env h s) :
    (∀ w, w ∈ s.queue.ring ↔ w ∈ s.workers) ∧ (∀ p ∈ s.queue.current, p.1 ∈ s.workers) ∧
      ∀ p ∈ s.queue.queues, p.1 ∈ s.workers := by
  have hi := hr.inv.1
  have hq : s.queue.Inv := hi.qinv
  have hmem : ∀ w, w ∈ s.queue.ring ↔ w ∈ s.workers := by
    intro w
    rw [hi.mem_reg]
    show _ ↔ w ∈ (s.queue.ring : Multiset Worker)
    simp
  refine ⟨hmem, fun p hp => ?_, fun p hp => ?_⟩
  · exact (hmem _).1 (hq.keysCur.mem_iff.1 (List.mem_map.2 ⟨p, hp, rfl⟩))
  · exact (hmem _).1 (hq.keysQue.mem_iff.1 (List.mem_map.2 ⟨p, hp, rfl⟩))

/-- **C46 is false.** The handler keeps the timer of an expired worker (and with it the worker
    object) forever. -/
theorem C46_refuted : ¬ ∀ (h : List (Tr Single)) (s : HState Single), Run cfg0 env0 h s →
    ∀ p ∈ s.timers, p.1 ∈ s.workers := by
  obtain ⟨h, s, hr, hp⟩ := exists_run (Q := Single) (cfg := cfg0) (env := env0)
    [fromW "w1" ["init", "group", "env=c"], fromW "w1" ["ping"], tick "1001", tick "1001",
      tick "1001", tick "1001", tick "1001"]
    (fun _ s => s.timers.any (fun p => !s.workers.contains p.1)) (by decide +kernel)
  intro H
  simp only [List.any_eq_true, Bool.not_eq_true', List.contains_eq_mem, decide_eq_false_iff_not] at hp
  obtain ⟨p, hp1, hp2⟩ := hp
  exact hp2 (H h s hr p hp1)

end Broker
