import Verif.Proof.Heard
import Verif.Props.Unseen

/-!
# C112: when a worker gives a sign of life between two ticks cannot be observed
-/

set_option linter.unusedSectionVars false

namespace Broker

namespace Spec

/-- A message of a worker that is not about its registration or a result: `ping`, `progress`, or
    something that is not understood. -/
def Sign (i : String) (p : Msg) : Prop :=
  p.key = "workers" ∧ p.identity = i ∧ p.data ≠ [] ∧ p.data.head? ≠ some "init" ∧
    p.data.head? ≠ some "done"

/-- A worker with this identity is registered. -/
def Known {Q : Type} (i : String) (s : HState Q) : Prop := ∃ w ∈ s.workers, w.identity = i

instance (i : String) (p : Msg) : Decidable (Sign i p) := by unfold Sign; exact inferInstance

/-- No tick, and no registration of the worker unless it is registered. -/
def Still (i : String) (known : Prop) (m : Msg) : Prop :=
  m.key ≠ "timer" ∧ (m.key = "workers" → m.identity = i → m.data.head? = some "init" → known)

end Spec

section
variable {Q : Type} [QueueManager Q] [LawfulQM Q]

/-- What is sent because of a sign of life. -/
def signOuts (p : Msg) (known : Bool) : List Msg :=
  if p.data.head? = some "ping" then [⟨keyWorkers, p.identity, [if known then "pong" else "intro"]⟩]
  else if p.data.head? = some "progress" then [⟨keyMonitor, monitorIdentity, p.data.tail⟩] else []

theorem regFind_known {i : String} {s : HState Q} : Spec.Known i s ↔ (regFind i s.workers).isSome := by
  simp [Spec.Known, regFind, List.find?_isSome]

theorem sign_step {cfg : HConfig} {env : Env} {i : String} {p : Msg} (hp : Spec.Sign i p)
    {s : HState Q} (ht : s.rs.Timed) :
    step cfg env p s = .ok () (match regFind i s.workers with
      | none => { s with outs := signOuts p false }
      | some w => HState.hear (w.addr, cfg.maxLiveness) { s with outs := signOuts p true }) := by
  obtain ⟨h1, h2, h3, h4, h5⟩ := hp
  obtain ⟨c, d, hd⟩ := List.exists_cons_of_ne_nil h3
  have h4' : c ≠ "init" := fun h => h4 (by rw [hd, h]; rfl)
  have h5' : c ≠ "done" := fun h => h5 (by rw [hd, h]; rfl)
  have hk : p.key = keyWorkers := h1
  unfold step onRequest
  simp only [if_pos hk, Bind.bind, EStateM.bind, touchWorker, MonadState.get, getThe,
    MonadStateOf.get, EStateM.get, h2, hd]
  have hc : ∀ t : HState Q, t.outs = [] → workerCommand cfg env c i (c :: d) t =
      .ok () { t with outs := signOuts p (regFind i t.workers).isSome } := by
    intro t ht
    unfold workerCommand
    rw [if_neg h4', if_neg h5']
    unfold signOuts
    rw [hd, h2]
    simp only [List.head?_cons, Option.some.injEq, List.tail_cons]
    by_cases hc1 : c = "ping"
    · rw [if_pos hc1, if_pos hc1]
      unfold processPing
      simp only [Bind.bind, EStateM.bind, MonadState.get, getThe, MonadStateOf.get, EStateM.get]
      cases regFind i t.workers with
      | none =>
        show EStateM.Result.ok () { t with outs := t.outs ++ _ } = _
        rw [ht]; rfl
      | some w =>
        show EStateM.Result.ok () { t with outs := t.outs ++ _ } = _
        rw [ht]; rfl
    · rw [if_neg hc1, if_neg hc1]
      by_cases hc2 : c = "progress"
      · rw [if_pos hc2, if_pos hc2]
        show EStateM.Result.ok () { t with outs := t.outs ++ _ } = _
        rw [ht]; rfl
      · rw [if_neg hc2, if_neg hc2, ← ht]
        rfl
  cases hf : regFind i s.workers with
  | none =>
    simp only [Pure.pure, EStateM.pure]
    rw [hc _ rfl]
    simp only [hf, Option.isSome_none]
  | some w =>
    simp only [MonadStateOf.set, EStateM.set]
    rw [hc _ rfl]
    have hw : w ∈ s.rs.workers := List.mem_of_find?_eq_some hf
    have e : s.timers.put w 0 = s.timers.reset w.addr :=
      WMap.put_eq_reset ht.sorted (ht.mem w hw)
    simp only [hf, Option.isSome_some, HState.hear, e]

theorem still_regFind {cfg : HConfig} {env : Env} {i : String} {m : Msg} {s t : HState Q}
    (hm : Spec.Still i (Spec.Known i s) m) (hs : step cfg env m s = .ok () t) :
    regFind i t.workers = regFind i s.workers := by
  have e : t.workers = (s.rs.step cfg env m).workers := by rw [← step_rs hs]; rfl
  have hh : ∀ (p : RState) j, (p.heard cfg j).workers = p.workers := by
    intro p j; unfold RState.heard; split <;> rfl
  have hreg : ∀ (p : RState) j g hs x, (j = i → (regFind i p.workers).isSome) →
      regFind i (p.register env j g hs x).workers = regFind i p.workers := by
    intro p j g hs x hj
    unfold RState.register
    split
    · rfl
    · rename_i w hw
      show List.find? _ (p.workers ++ [w]) = _
      rw [List.find?_append]
      by_cases hji : j = i
      · have := hj hji
        unfold regFind at this ⊢
        cases hf : List.find? (fun w => w.identity == i) p.workers with
        | none => rw [hf] at this; cases this
        | some _ => rfl
      · have hw' : w.identity = j := (Worker.create_fields hw).2.1
        have : List.find? (fun w => w.identity == i) [w] = none := by
          simp [hw', hji]
        rw [this, Option.or_none]; rfl
  rw [e]
  unfold RState.step
  split
  · rename_i h1
    split
    · rename_i h2
      have hj : m.identity = i → (regFind i s.workers).isSome :=
        fun h => regFind_known.1 (hm.2 h1 h h2)
      unfold RState.init'
      split
      · split
        · split
          · rw [hh]; rfl
          · rw [hreg _ _ _ _ _ (by rw [hh]; exact hj), hh]; rfl
        · rw [hreg _ _ _ _ _ (by rw [hh]; exact hj), hh]; rfl
      · rw [hh]; rfl
    · rw [hh]; rfl
  · split
    · split
      · rfl
      · split <;> rfl
    · rw [if_neg (show ¬ m.key = keyTimer from hm.1)]; rfl

/-! ## One message -/

/-- **C112.**  A sign of life and another message that is neither a tick nor the registration of the
    worker can be exchanged: each of them is answered as before, and nothing else changes. -/
theorem C112_swap {cfg : HConfig} {env : Env} {h : List (Tr Q)} {s : HState Q}
    (hr : Run cfg env h s) {i : String} {p m : Msg} (hp : Spec.Sign i p)
    (hm : Spec.Still i (Spec.Known i s) m) (ms : List Msg) :
    ∃ op om r rest, transcript cfg env s (p :: m :: ms) = (op, none) :: (om, r) :: rest ∧
      transcript cfg env s (m :: p :: ms) =
        (om, r) :: (if r = none then (op, none) :: rest else []) ∧ (r ≠ none → rest = []) := by
  have hs := sign_step (cfg := cfg) (env := env) hp hr.timed
  cases hf : regFind i s.workers with
  | none =>
    rw [hf] at hs
    simp only at hs
    have h1 : ∀ l, transcript cfg env s (p :: l) = (signOuts p false, none) :: transcript cfg env s l := by
      intro l
      simp only [transcript, hs]
      exact congrArg _ (transcript_outs (by exact rfl) l)
    rw [h1]
    cases hmm : step cfg env m s with
    | error e t =>
      refine ⟨signOuts p false, t.outs, some e, [], ?_, ?_, fun _ => rfl⟩ <;> simp [transcript, hmm]
    | ok u t =>
      have ht := still_regFind hm hmm
      have hs' := sign_step (cfg := cfg) (env := env) hp (hr.snoc hmm).timed
      rw [ht, hf] at hs'
      simp only at hs'
      refine ⟨signOuts p false, t.outs, none, transcript cfg env t ms, ?_, ?_, fun h => absurd rfl h⟩
      · simp [transcript, hmm]
      · simp only [transcript, hmm, hs', if_true]
        exact congrArg (fun x => _ :: _ :: x) (transcript_outs (by exact rfl) ms)
  | some w =>
    rw [hf] at hs
    simp only at hs
    have hw : w.addr ∈ s.workers.map (·.addr) := List.mem_map_of_mem (List.mem_of_find?_eq_some hf)
    have hc := hear_request (cfg := cfg) (env := env) hm.1 (a := w.addr) (s := { s with outs := [] }) hw
    have hpm : step cfg env m (HState.hear (w.addr, cfg.maxLiveness) { s with outs := signOuts p true }) =
        mapRes (·.hear (w.addr, cfg.maxLiveness)) (step cfg env m s) := hc
    cases hmm : step cfg env m s with
    | error e t =>
      rw [hmm] at hpm
      refine ⟨signOuts p true, t.outs, some e, [], ?_, ?_, fun _ => rfl⟩
      · simp only [transcript, hs, hpm, mapRes]
        rfl
      · simp [transcript, hmm]
    | ok u t =>
      rw [hmm] at hpm
      have ht := still_regFind hm hmm
      have hs' := sign_step (cfg := cfg) (env := env) hp (hr.snoc hmm).timed
      rw [ht, hf] at hs'
      simp only at hs'
      refine ⟨signOuts p true, t.outs, none,
        transcript cfg env (t.hear (w.addr, cfg.maxLiveness)) ms, ?_, ?_, fun h => absurd rfl h⟩
      · simp only [transcript, hs, hpm, mapRes]
        rfl
      · simp only [transcript, hmm, hs', if_true]
        exact congrArg (fun x => _ :: _ :: x) (transcript_outs (by exact rfl) ms)

/-- **C112.**  Right after any message of a registered worker a sign of life has no effect but its
    answer. -/
theorem C112_again {cfg : HConfig} {env : Env} {h : List (Tr Q)} {s : HState Q}
    (hr : Run cfg env h s) {i : String} {p m : Msg} (hp : Spec.Sign i p) (hk : Spec.Known i s)
    (hm : m.key = "workers" ∧ m.identity = i) {om : List Msg} {rest : List (List Msg × Option Err)}
    {ms : List Msg} (hmm : transcript cfg env s (m :: ms) = (om, none) :: rest) :
    ∃ op, transcript cfg env s (m :: p :: ms) = (om, none) :: (op, none) :: rest := by
  obtain ⟨w, hf⟩ := Option.isSome_iff_exists.1 (regFind_known.1 hk)
  have hw : w ∈ s.workers := List.mem_of_find?_eq_some hf
  have hst : Spec.Still i (Spec.Known i s) m :=
    ⟨by rw [hm.1]; decide, fun _ _ _ => hk⟩
  let b := (w.addr, cfg.maxLiveness)
  have ht : s.timers.put w 0 = s.timers.reset w.addr :=
    WMap.put_eq_reset hr.timed.sorted (hr.timed.mem w hw)
  -- the message does what it does after the worker was heard
  have h1 : step cfg env m s = step cfg env m (s.hear b) := by
    have h1 : touchWorker cfg i { s with outs := [] } = .ok () (HState.hear b { s with outs := [] }) := by
      simp only [touchWorker, Bind.bind, EStateM.bind, MonadState.get, getThe, MonadStateOf.get,
        EStateM.get, hf, MonadStateOf.set, EStateM.set, HState.hear, b, ht]
    have h2 : touchWorker cfg i (HState.hear b { s with outs := [] }) =
        .ok () (HState.hear b { s with outs := [] }) := by
      rw [HComm.touch w.addr cfg i, h1]
      exact congrArg (EStateM.Result.ok ()) (HState.hear_hear b _)
    show onRequest cfg env m { s with outs := [] } =
      onRequest cfg env m (HState.hear b { s with outs := [] })
    unfold onRequest
    have hk : m.key = keyWorkers := hm.1
    simp only [if_pos hk, Bind.bind, EStateM.bind, hm.2, h1, h2]
  have hc : step cfg env m (s.hear b) = mapRes (·.hear b) (step cfg env m s) :=
    hear_request (cfg := cfg) (env := env) hst.1 (a := w.addr) (s := { s with outs := [] })
      (List.mem_map_of_mem hw)
  cases hs : step cfg env m s with
  | error e t => simp [transcript, hs] at hmm
  | ok u t =>
    have hs' := sign_step (cfg := cfg) (env := env) hp (hr.snoc hs).timed
    rw [still_regFind hst hs, hf] at hs'
    simp only at hs'
    rw [← h1, hs] at hc
    have e : t = t.hear b := by simpa [mapRes] using hc
    simp only [transcript, hs, List.cons.injEq, Prod.mk.injEq, and_true] at hmm
    refine ⟨signOuts p true, ?_⟩
    simp only [transcript, hs, hs', List.cons.injEq, Prod.mk.injEq, and_true]
    refine ⟨hmm.1, rfl, ?_⟩
    rw [← hmm.2]
    refine transcript_outs ?_ ms
    conv => rhs; rw [e]
    rfl

/-! ## Any number of messages -/

theorem still_known {cfg : HConfig} {env : Env} {i : String} {m : Msg} {s t : HState Q}
    (hm : Spec.Still i (Spec.Known i s) m) (hs : step cfg env m s = .ok () t) :
    Spec.Known i t ↔ Spec.Known i s := by
  rw [regFind_known, regFind_known, still_regFind hm hs]

/-- **C112.**  A sign of life can be moved over any number of messages that are neither ticks nor the
    registration of the worker. -/
theorem C112_move {cfg : HConfig} {env : Env} {h : List (Tr Q)} {s : HState Q}
    (hr : Run cfg env h s) {i : String} {p : Msg} (hp : Spec.Sign i p) {l : List Msg}
    (hl : ∀ m ∈ l, Spec.Still i (Spec.Known i s) m) (hok : ∀ x ∈ transcript cfg env s l, x.2 = none)
    (ms : List Msg) :
    ∃ op rest, transcript cfg env s (p :: (l ++ ms)) = (op, none) :: (transcript cfg env s l ++ rest) ∧
      transcript cfg env s (l ++ p :: ms) = transcript cfg env s l ++ (op, none) :: rest := by
  induction l generalizing h s with
  | nil =>
    have hs := sign_step (cfg := cfg) (env := env) hp hr.timed
    generalize hx : (match regFind i s.workers with
      | none => { s with outs := signOuts p false }
      | some w => HState.hear (w.addr, cfg.maxLiveness) { s with outs := signOuts p true }) = x at hs
    refine ⟨x.outs, transcript cfg env x ms, ?_, ?_⟩ <;> simp only [List.nil_append, transcript, hs]
  | cons m l ih =>
    have hm := hl m (List.mem_cons_self ..)
    obtain ⟨op, om, r, rest, h1, h2, -⟩ := C112_swap hr hp hm (l ++ ms)
    cases hs : step cfg env m s with
    | error e t =>
      have := hok (t.outs, some e) (by simp [transcript, hs])
      cases this
    | ok u t =>
      have hk := still_known hm hs
      obtain ⟨op', rest', h3, h4⟩ := ih (hr.snoc hs)
        (fun x hx => ⟨(hl x (List.mem_cons_of_mem _ hx)).1,
          fun a b c => hk.2 ((hl x (List.mem_cons_of_mem _ hx)).2 a b c)⟩)
        (fun x hx => hok x (by simp [transcript, hs, hx]))
      have e : ∀ k, transcript cfg env s (m :: k) = (t.outs, none) :: transcript cfg env t k := by
        intro k; simp only [transcript, hs]
      rw [e, h3] at h2
      obtain ⟨h5, h6⟩ := List.cons.inj h2
      obtain ⟨rfl, rfl⟩ := Prod.mk.inj h5
      rw [if_pos rfl] at h6
      obtain ⟨h7, rfl⟩ := List.cons.inj h6
      obtain ⟨rfl, -⟩ := Prod.mk.inj h7
      refine ⟨op', rest', ?_, ?_⟩
      · rw [List.cons_append, h1, e, List.cons_append]
      · rw [List.cons_append, e, h4, e, List.cons_append]

/-- **C112.**  One message of a registered worker between two ticks is as good as many: a sign of life
    after it has no effect but its answer. -/
theorem C112_enough {cfg : HConfig} {env : Env} {h : List (Tr Q)} {s : HState Q}
    (hr : Run cfg env h s) {i : String} {p m : Msg} (hp : Spec.Sign i p) (hk : Spec.Known i s)
    (hm : m.key = "workers" ∧ m.identity = i) {l : List Msg} (hl : ∀ x ∈ l, x.key ≠ "timer")
    (hok : ∀ x ∈ transcript cfg env s (m :: l), x.2 = none) (ms : List Msg) :
    ∃ op rest, transcript cfg env s (m :: l ++ ms) = transcript cfg env s (m :: l) ++ rest ∧
      transcript cfg env s (m :: l ++ p :: ms) = transcript cfg env s (m :: l) ++ (op, none) :: rest := by
  cases hs : step cfg env m s with
  | error e t =>
    have := hok (t.outs, some e) (by simp [transcript, hs])
    cases this
  | ok u t =>
    have e : ∀ k, transcript cfg env s (m :: k) = (t.outs, none) :: transcript cfg env t k := by
      intro k; simp only [transcript, hs]
    have hst : Spec.Still i (Spec.Known i s) m := ⟨by rw [hm.1]; decide, fun _ _ _ => hk⟩
    have hkt := (still_known hst hs).2 hk
    obtain ⟨op, rest, h1, h2⟩ := C112_move (hr.snoc hs) hp
      (fun x hx => ⟨hl x hx, fun _ _ _ => hkt⟩) (fun x hx => hok x (by rw [e]; simp [hx])) ms
    obtain ⟨op', h3⟩ := C112_again hr hp hk hm (ms := l ++ ms) (e _)
    rw [e, h1] at h3
    obtain ⟨-, h4⟩ := List.cons.inj h3
    obtain ⟨-, h5⟩ := List.cons.inj h4
    refine ⟨op, rest, ?_, ?_⟩
    · rw [List.cons_append, e, ← h5, e, List.cons_append]
    · rw [List.cons_append, e, h2, e, List.cons_append]

end

/-! ## Concrete cases -/

/-- A worker registers, pings and gets a job. -/
def signStart : List Msg :=
  [fromW "a" ["init", "g"], fromW "a" ["ping"], fromC "c" ["eval", "j1", "hwgroup=g", ""]]

/-- Another worker registers, another job comes, the first one is done. -/
def signMiddle : List Msg :=
  [fromW "b" ["init", "g"], fromC "c" ["eval", "j2", "hwgroup=g", ""], fromW "a" ["done", "j1", "OK"]]

/-- The hypotheses of `C112_swap`, `C112_again`, `C112_move` and `C112_enough`: a history, a sign of
    life and messages that go well. -/
example : ∃ h s, Run (Q := Multi) cfg0 env0 h s ∧ h.map (·.msg) = signStart ∧ Spec.Known "a" s ∧
    Spec.Sign "a" (fromW "a" ["ping"]) ∧ (∀ m ∈ signMiddle, Spec.Still "a" (Spec.Known "a" s) m) ∧
    (∀ x ∈ transcript cfg0 env0 s signMiddle, x.2 = none) ∧
    (∀ x ∈ transcript cfg0 env0 s (fromW "a" ["progress", "j1"] :: signMiddle), x.2 = none) ∧
    jobsGiven (transcript cfg0 env0 s signMiddle) = [["eval", "j2"]] := by
  obtain ⟨h, s, hr, hd⟩ := exists_run (Q := Multi) (cfg := cfg0) (env := env0) signStart
    (fun h s => decide (h.map (·.msg) = signStart ∧ (∃ w ∈ s.workers, w.identity = "a") ∧
      (∀ x ∈ transcript cfg0 env0 s signMiddle, x.2 = none) ∧
      (∀ x ∈ transcript cfg0 env0 s (fromW "a" ["progress", "j1"] :: signMiddle), x.2 = none) ∧
      jobsGiven (transcript cfg0 env0 s signMiddle) = [["eval", "j2"]])) (by decide +kernel)
  have hd := of_decide_eq_true hd
  refine ⟨h, s, hr, hd.1, hd.2.1, by decide, fun m hm => ?_, hd.2.2⟩
  refine ⟨?_, fun _ _ _ => hd.2.1⟩
  revert m
  decide

/-- The same with the single-queue manager. -/
example : ∃ h s, Run (Q := Single) cfg0 env0 h s ∧ h.map (·.msg) = signStart ∧ Spec.Known "a" s ∧
    (∀ x ∈ transcript cfg0 env0 s signMiddle, x.2 = none) ∧
    jobsGiven (transcript cfg0 env0 s signMiddle) = [["eval", "j2"]] := by
  obtain ⟨h, s, hr, hd⟩ := exists_run (Q := Single) (cfg := cfg0) (env := env0) signStart
    (fun h s => decide (h.map (·.msg) = signStart ∧ (∃ w ∈ s.workers, w.identity = "a") ∧
      (∀ x ∈ transcript cfg0 env0 s signMiddle, x.2 = none) ∧
      jobsGiven (transcript cfg0 env0 s signMiddle) = [["eval", "j2"]])) (by decide +kernel)
  have hd := of_decide_eq_true hd
  exact ⟨h, s, hr, hd.1, hd.2.1, hd.2.2⟩

/-- Ticks may not be passed: the worker expires with one order and stays with the other one. -/
theorem C112_tick_needed : ¬ ∀ (s : HState Multi) (h : List (Tr Multi)), Run cfg0 env0 h s →
    ∀ (p m : Msg), Spec.Sign "a" p → m.key = "timer" → ∀ ms,
      ∃ op om r rest, transcript cfg0 env0 s (p :: m :: ms) = (op, none) :: (om, r) :: rest ∧
        transcript cfg0 env0 s (m :: p :: ms) =
          (om, r) :: (if r = none then (op, none) :: rest else []) := by
  intro hall
  obtain ⟨h, s, hr, hd⟩ := exists_run (Q := Multi) (cfg := cfg0) (env := env0)
    (signStart ++ [tick "1001", tick "1001", tick "1001"])
    (fun _ s => decide ((transcript cfg0 env0 s [fromW "a" ["ping"], tick "1001"]).drop 1 ≠
      (transcript cfg0 env0 s [tick "1001", fromW "a" ["ping"]]).take 1)) (by decide +kernel)
  have hd := of_decide_eq_true hd
  obtain ⟨op, om, r, rest, h1, h2⟩ :=
    hall s h hr (fromW "a" ["ping"]) (tick "1001") (by decide) rfl []
  refine hd ?_
  have hlen : rest = [] := by
    have hle : ∀ (ms : List Msg) (s : HState Multi), (transcript cfg0 env0 s ms).length ≤ ms.length := by
      intro ms
      induction ms with
      | nil => exact fun s => Nat.le_refl _
      | cons m ms ih =>
        intro s
        unfold transcript
        split
        · exact Nat.succ_le_succ (ih _)
        · simp
    have := hle [fromW "a" ["ping"], tick "1001"] s
    rw [h1] at this
    have h3 : rest.length + 2 ≤ 2 := this
    exact List.length_eq_zero_iff.1 (by omega)
  subst hlen
  rw [h1, h2]
  rfl

end Broker
