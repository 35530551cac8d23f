import Verif.Proof.Balance

/-!
# C79: the multi-queue manager spreads the jobs evenly

`load s w` is the number of jobs the worker `w` is responsible for.  A message *gives* a job to a
worker if it comes from a client and raises that number.
-/

namespace Broker

open LawfulQM

/-- The number of jobs a worker is responsible for: the one it processes and those waiting in its
    queue. -/
def load (s : HState Multi) (w : Worker) : Nat :=
  (QueueManager.currentRequest s.queue w).1.toList.length + (s.queue.of w).length

/-- The message comes from a client, and the worker is responsible for more jobs after it. -/
def gives (w : Worker) (t : Tr Multi) : Bool :=
  t.msg.key == "clients" && decide (load t.pre w < load t.post w)

/-- The jobs in the part `h` of a history were given to `w` this many times. -/
def given (h : List (Tr Multi)) (w : Worker) : Nat := h.countP (gives w)

/-- What a message of a client does: nothing, or it is an evaluation request, and the job goes to the
    first worker of the ring that declared all it asks for; this worker moves to the end. -/
theorem client_gives {cfg : HConfig} {env : Env} {h1 h2 : List (Tr Multi)} {t : Tr Multi}
    {s : HState Multi} (hr : Run cfg env (h1 ++ t :: h2) s) (hk : t.msg.key = "clients") :
    t.post.queue = t.pre.queue ∨ ∃ j fs l1 w l2, t.msg.data = "eval" :: j :: fs ∧
      t.pre.queue.ring = l1 ++ w :: l2 ∧ t.post.queue.ring = l1 ++ l2 ++ [w] ∧
      DeclaredFor h1 w fs ∧ (∀ x ∈ l1, ¬ DeclaredFor h1 x fs) ∧
      load t.post w = load t.pre w + 1 ∧
      ∀ x ∈ t.pre.queue.ring, x ≠ w → load t.post x = load t.pre x := by
  obtain ⟨hr1, hst, _⟩ := hr.prefix
  obtain ⟨ops, hp, hsh, _⟩ := step_ops hr1.inv.1 hst
  have hi : Multi.Inv t.pre.queue := hr1.inv.1.qinv
  cases hsh with
  | none => exact .inl hp.nil_inv
  | @eval r now res fs extra hk' hd hev hf hc =>
    have hcan : ∀ w ∈ t.pre.queue.ring, w.Can r.headers ↔ DeclaredFor h1 w fs := by
      intro w hw
      have hw' : w ∈ t.pre.workers := hr1.inv.1.mem_reg.2 (by simpa [LawfulQM.reg] using hw)
      constructor
      · intro hc
        obtain ⟨i, hih, ds, ho⟩ := hr1.worker_origin hw'
        exact ⟨i, hih, ds, ho, (origin_can hr1 hev hih ho).1 hc⟩
      · rintro ⟨i, hih, ds, ho, hcap⟩
        exact (origin_can hr1 hev hih ho).2 hcap
    cases hp with
    | @cons _ q1 _ _ _ hs1 ht =>
      have e1 := ht.nil_inv
      cases hs1 with
      | enq henq =>
        rcases Multi.enqueue_load hi henq with hsame | ⟨l1, w, l2, g1, g2, g3, g4, g5, g6⟩
        · exact .inl (e1.trans hsame)
        · have hmem : ∀ x ∈ l1 ++ w :: l2, x ∈ t.pre.queue.ring := by rw [g1]; exact fun _ h => h
          refine .inr ⟨r.jobId, fs, l1, w, l2, hd, g1, by rw [e1]; exact g2,
            (hcan w (hmem w (by simp))).1 g3, ?_, ?_, ?_⟩
          · intro x hx hdx
            have hc := (hcan x (hmem x (by simp [hx]))).2 hdx
            rw [Worker.Can, g4 x hx] at hc; cases hc
          · show t.post.queue.load w = _; rw [e1]; exact g5
          · intro x hx hne
            show t.post.queue.load x = _; rw [e1]; exact g6 x hx hne
  | init hk' => exact absurd (hk.symm.trans hk') (by decide)
  | ok hk' => exact absurd (hk.symm.trans hk') (by decide)
  | failed hk' => exact absurd (hk.symm.trans hk') (by decide)
  | adopted hk' => exact absurd (hk.symm.trans hk') (by decide)
  | again hk' => exact absurd (hk.symm.trans hk') (by decide)
  | timer hk' => exact absurd (hk.symm.trans hk') (by decide)

theorem ring_workers {cfg : HConfig} {env : Env} {h : List (Tr Multi)} {s : HState Multi}
    (hr : Run cfg env h s) {w : Worker} : w ∈ s.queue.ring ↔ w ∈ s.workers := by
  have := hr.inv.1.mem_reg (w := w)
  simp only [LawfulQM.reg, Multiset.mem_coe] at this
  exact this.symm

theorem gives_of_ne {w : Worker} {t : Tr Multi} (hk : t.msg.key ≠ "clients") :
    gives w t = false := by simp [gives, hk]

/-- **C79, one worker.** Multi-queue manager: an accepted job raises the number of jobs of exactly one
    registered worker, by one, and this worker declared all the job asks for. -/
theorem C79_one {cfg : HConfig} {env : Env} {h1 h2 : List (Tr Multi)} {t : Tr Multi}
    {s : HState Multi} (hr : Run cfg env (h1 ++ t :: h2) s) {j : String} {fs : List String}
    (hd : t.msg.data = "eval" :: j :: fs) (ha : Spec.accepts j t = true) :
    ∃ w ∈ t.pre.workers, DeclaredFor h1 w fs ∧ load t.post w = load t.pre w + 1 ∧
      ∀ x ∈ t.pre.workers, x ≠ w → load t.post x = load t.pre x := by
  obtain ⟨hr1, hst, _⟩ := hr.prefix
  have hch := accept_changes hr1.inv.1 hst ha
  have hk : t.msg.key = keyClients := by
    have := ha
    simp [Spec.accepts] at this
    exact this.1.1
  rcases client_gives hr hk with h | ⟨j', fs', l1, w, l2, g1, g2, _, g4, _, g6, g7⟩
  · exact absurd h hch
  · rw [hd] at g1
    simp only [List.cons.injEq, true_and] at g1
    obtain ⟨rfl, rfl⟩ := g1
    refine ⟨w, (ring_workers hr1).1 (by rw [g2]; simp), g4, g6, ?_⟩
    intro x hx hne
    exact g7 x ((ring_workers hr1).2 hx) hne

/-- The ring of the group of workers `P`: those in front were given `c` jobs, the others one more. -/
theorem ring_counts {cfg : HConfig} {env : Env} {P : Worker → Bool} {h1 : List (Tr Multi)} :
    ∀ (h2 : List (Tr Multi)) {s : HState Multi}, Run cfg env (h1 ++ h2) s →
    (∀ t ∈ h2, t.post.workers = t.pre.workers) →
    (∀ t ∈ h2, ∀ j text, t.msg.key = "workers" → t.msg.data ≠ ["done", j, "INTERNAL_ERROR", text]) →
    (∀ a t b, h2 = a ++ t :: b → t.msg.key = "clients" → ∀ j fs, t.msg.data = "eval" :: j :: fs →
      (∀ w ∈ t.pre.workers, DeclaredFor (h1 ++ a) w fs ↔ P w = true) ∨
      ∀ w ∈ t.pre.workers, DeclaredFor (h1 ++ a) w fs → P w = false) →
    ∃ A B c, s.queue.ring.filter P = A ++ B ∧ (∀ w ∈ A, given h2 w = c) ∧
      ∀ w ∈ B, given h2 w = c + 1 := by
  intro h2
  induction h2 using List.reverseRecOn with
  | nil =>
    intro s hr _ _ _
    exact ⟨s.queue.ring.filter P, [], 0, by simp, fun w _ => rfl, by simp⟩
  | append_singleton h2 t ih =>
    intro s hr hw he hc
    have hr' : Run cfg env ((h1 ++ h2) ++ t :: []) s := by rw [List.append_assoc]; exact hr
    obtain ⟨hr1, hst, hr2⟩ := hr'.prefix
    have hs : s = t.post := by
      generalize hh : h1 ++ h2 ++ [t] = h at hr'
      cases hr' with
      | nil => simp at hh
      | snoc h3 h4 =>
        have := (List.append_inj' hh rfl).2
        simp only [List.cons.injEq, and_true] at this
        rw [this]
    subst hs
    obtain ⟨A, B, c, k1, k2, k3⟩ := ih hr1 (fun x hx => hw x (by simp [hx]))
      (fun x hx => he x (by simp [hx]))
      (fun a x b e => hc a x (b ++ [t]) (by rw [e]; simp))
    have hsnoc : ∀ w, given (h2 ++ [t]) w = given h2 w + if gives w t then 1 else 0 := by
      intro w
      simp [given, List.countP_append, List.countP_cons]
    have same : (∀ w ∈ t.pre.queue.ring, P w = true → gives w t = false) →
        t.post.queue.ring.filter P = t.pre.queue.ring.filter P →
        ∃ A B c, t.post.queue.ring.filter P = A ++ B ∧ (∀ w ∈ A, given (h2 ++ [t]) w = c) ∧
          ∀ w ∈ B, given (h2 ++ [t]) w = c + 1 := by
      intro hg hrg
      have hin : ∀ w ∈ A ++ B, gives w t = false := by
        intro w hw
        rw [← k1] at hw
        exact hg w (List.mem_filter.1 hw).1 (List.mem_filter.1 hw).2
      refine ⟨A, B, c, by rw [hrg, k1], ?_, ?_⟩
      · intro w hw
        rw [hsnoc, k2 w hw, hin w (by simp [hw])]; rfl
      · intro w hw
        rw [hsnoc, k3 w hw, hin w (by simp [hw])]; rfl
    by_cases hk : t.msg.key = "clients"
    · rcases client_gives hr' hk with hq | ⟨j, fs, l1, w, l2, g1, g2, g3, g4, g5, g6, g7⟩
      · refine same ?_ (by rw [hq])
        intro w _ _
        simp [gives, load, hq]
      · have hgw : gives w t = true := by simp [gives, hk, g6]
        have hgx : ∀ x ∈ t.pre.queue.ring, x ≠ w → gives x t = false := by
          intro x hx hne
          simp [gives, g7 x hx hne]
        have hwr : w ∈ t.pre.queue.ring := by rw [g2]; simp
        have hnd : t.pre.queue.ring.Nodup :=
          List.Nodup.of_map _ (Multi.Inv.addr_nodup hr1.inv.1.qinv)
        rcases hc h2 t [] rfl hk j fs g1 with hall | hnone
        · have hpw : P w = true := (hall w ((ring_workers hr1).1 hwr)).1 g4
          have hl1 : l1.filter P = [] := by
            rw [List.filter_eq_nil_iff]
            intro x hx hp
            refine g5 x hx ((hall x ((ring_workers hr1).1 ?_)).2 hp)
            rw [g2]; simp [hx]
          have e1 : t.pre.queue.ring.filter P = w :: l2.filter P := by
            rw [g2, List.filter_append, hl1, List.filter_cons]; simp [hpw]
          have e2 : t.post.queue.ring.filter P = l2.filter P ++ [w] := by
            rw [g3, List.filter_append, List.filter_append, hl1]; simp [hpw]
          have hne : ∀ x ∈ l2.filter P, x ≠ w ∧ x ∈ t.pre.queue.ring := by
            intro x hx
            have hx2 := (List.mem_filter.1 hx).1
            constructor
            · rintro rfl
              rw [g2] at hnd
              have := (List.nodup_append.1 hnd).2.1
              rw [List.nodup_cons] at this
              exact this.1 hx2
            · rw [g2]; simp [hx2]
          have hold : ∀ x ∈ l2.filter P, given (h2 ++ [t]) x = given h2 x := by
            intro x hx
            rw [hsnoc, hgx x (hne x hx).2 (hne x hx).1]; rfl
          have hnew : given (h2 ++ [t]) w = given h2 w + 1 := by rw [hsnoc, hgw]; rfl
          cases A with
          | nil =>
            have e3 : B = w :: l2.filter P := by rw [← e1, k1]; rfl
            subst e3
            refine ⟨l2.filter P, [w], c + 1, e2, ?_, ?_⟩
            · intro x hx; rw [hold x hx]; exact k3 x (by simp [hx])
            · intro x hx
              rw [List.mem_singleton] at hx
              subst hx
              rw [hnew, k3 x (by simp)]
          | cons a A =>
            have e3 : w :: l2.filter P = a :: (A ++ B) := by rw [← e1, k1]; rfl
            simp only [List.cons.injEq] at e3
            obtain ⟨rfl, e3⟩ := e3
            refine ⟨A, B ++ [w], c, by rw [e2, e3, List.append_assoc], ?_, ?_⟩
            · intro x hx
              rw [hold x (by rw [e3]; simp [hx])]; exact k2 x (by simp [hx])
            · intro x hx
              rcases List.mem_append.1 hx with hx | hx
              · rw [hold x (by rw [e3]; simp [hx])]; exact k3 x hx
              · rw [List.mem_singleton] at hx
                subst hx
                rw [hnew, k2 x (by simp)]
        · have hpw : P w = false := hnone w ((ring_workers hr1).1 hwr) g4
          refine same ?_ ?_
          · intro x hx hp
            refine hgx x hx ?_
            rintro rfl
            rw [hpw] at hp; cases hp
          · rw [g2, g3]
            simp [List.filter_append, hpw]
    · refine same (fun w _ _ => gives_of_ne hk) ?_
      by_cases hkt : t.msg.key = "timer"
      · rw [step_timer_quiet hr1.inv.1 hkt hst (hw t (by simp))]
      · rcases C19_ring_step hr' hkt with h | ⟨w, _, g2, g3, _⟩ | ⟨_, _, _, _, _, g3⟩
        · rw [h]
        · rw [hw t (by simp)] at g3; exact absurd g3 g2
        · rcases g3 with ⟨g3, _⟩ | ⟨g3, j, text, g4⟩
          · exact absurd g3 hk
          · exact absurd g4 (he t (by simp) j text g3)

/-- **C79, evenly (partial).** Multi-queue manager: while no worker registers or is removed and no
    internal error is reported, let every job asked for be one for exactly the workers of a group, or
    for none of that group.  Then the numbers of jobs given to any two workers of the group differ by
    at most one, however fast or slow the two are.  Missing: jobs given in between to some workers of
    the group only, internal errors and expired workers, whose jobs are given to other workers: with
    them the numbers may differ by more (`C79_refuted`). -/
theorem C79_evenly_partial {cfg : HConfig} {env : Env} {P : Worker → Bool}
    {h1 h2 : List (Tr Multi)} {s : HState Multi} (hr : Run cfg env (h1 ++ h2) s)
    (hw : ∀ t ∈ h2, t.post.workers = t.pre.workers)
    (he : ∀ t ∈ h2, ∀ j text, t.msg.key = "workers" →
      t.msg.data ≠ ["done", j, "INTERNAL_ERROR", text])
    (hc : ∀ a t b, h2 = a ++ t :: b → t.msg.key = "clients" →
      ∀ j fs, t.msg.data = "eval" :: j :: fs →
        (∀ w ∈ t.pre.workers, DeclaredFor (h1 ++ a) w fs ↔ P w = true) ∨
        ∀ w ∈ t.pre.workers, DeclaredFor (h1 ++ a) w fs → P w = false)
    {v w : Worker} (hv : v ∈ s.workers) (hv' : P v = true) (hw' : w ∈ s.workers)
    (hw'' : P w = true) : given h2 v ≤ given h2 w + 1 := by
  obtain ⟨A, B, c, k1, k2, k3⟩ := ring_counts h2 hr hw he hc
  have key : ∀ {x : Worker}, x ∈ s.workers → P x = true → given h2 x = c ∨ given h2 x = c + 1 := by
    intro x hx hp
    have : x ∈ A ++ B := by
      rw [← k1]; exact List.mem_filter.2 ⟨(ring_workers hr).2 hx, hp⟩
    rcases List.mem_append.1 this with h | h
    · exact .inl (k2 x h)
    · exact .inr (k3 x h)
  have h1 := key hv hv'
  have h2 := key hw' hw''
  omega

/-- For registered workers, having declared all a request asks for can be computed. -/
theorem declared_iff {Q : Type} [QueueManager Q] [LawfulQM Q] {cfg : HConfig} {env : Env} {h : List (Tr Q)} {s : HState Q}
    (hr : Run cfg env h s) {w : Worker} (hw : w ∈ s.workers) {fs : List String}
    {x : Headers × Metadata × List String} (hx : evalHeaders fs [] [] = .ok (some x)) :
    DeclaredFor h w fs ↔ w.Can x.1 := by
  constructor
  · rintro ⟨i, hih, ds, ho, hcap⟩
    exact (origin_can hr hx hih ho).2 hcap
  · intro hc
    obtain ⟨i, hih, ds, ho⟩ := hr.worker_origin hw
    exact ⟨i, hih, ds, ho, (origin_can hr hx hih ho).1 hc⟩

/-- **C79, single queue.** Single-queue manager: if an idle worker declared all an accepted job asks
    for, the job is sent at once, to such a worker.  Otherwise it is not sent and joins the end of the
    queue. -/
theorem C79_single {cfg : HConfig} {env : Env} {h1 h2 : List (Tr Single)} {t : Tr Single}
    {s : HState Single} (hr : Run cfg env (h1 ++ t :: h2) s) {j : String} {fs : List String}
    (hd : t.msg.data = "eval" :: j :: fs) (ha : Spec.accepts j t = true) :
    (∃ w ∈ t.pre.workers, Idle t.pre w ∧ DeclaredFor h1 w fs ∧
      t.outs.filter Spec.isEval =
        [⟨"workers", w.identity, "eval" :: j :: Spec.payloadFrames fs⟩] ∧
      t.post.queue.jobs = t.pre.queue.jobs) ∨
    ((∀ w ∈ t.pre.workers, Idle t.pre w → ¬ DeclaredFor h1 w fs) ∧
      t.outs.filter Spec.isEval = [] ∧
      ∃ r now, r.jobId = j ∧ r.frames = "eval" :: j :: Spec.payloadFrames fs ∧
        t.post.queue.jobs = t.pre.queue.jobs ++ [(r, now)]) := by
  obtain ⟨hr1, hst, _⟩ := hr.prefix
  obtain ⟨ops, hp, hsh, hout⟩ := step_ops hr1.inv.1 hst
  have hch := accept_changes hr1.inv.1 hst ha
  have hk : t.msg.key = keyClients := by
    have := ha
    simp [Spec.accepts] at this
    exact this.1.1
  have hi : Single.Inv t.pre.queue := hr1.inv.1.qinv
  have hreg : ∀ {w}, w ∈ t.pre.queue.workers ↔ w ∈ t.pre.workers := by
    intro w
    have := hr1.inv.1.mem_reg (w := w)
    simp only [LawfulQM.reg, Multiset.mem_coe] at this
    exact this.symm
  cases hsh with
  | none => exact absurd hp.nil_inv hch
  | @eval r now res fs' extra hk' hd' hev hf hc =>
    rw [hd] at hd'
    simp only [List.cons.injEq, true_and] at hd'
    obtain ⟨rfl, rfl⟩ := hd'
    obtain ⟨_, e2, _⟩ := evalHeaders_some _ _ _ _ hev
    have hfr : r.frames = "eval" :: r.jobId :: Spec.payloadFrames fs := by
      rw [hf]; simp only at e2; rw [e2]
    have hcan : ∀ w ∈ t.pre.workers, DeclaredFor h1 w fs ↔ w.Can r.headers :=
      fun w hw => declared_iff hr1 hw hev
    cases hp with
    | @cons _ q1 _ _ _ hs1 ht =>
      have e1 := ht.nil_inv
      cases hs1 with
      | enq henq =>
        have hev' : t.outs.filter Spec.isEval =
            ([QOp.enq now r res].flatMap QOp.sends).filter Spec.isEval := by
          show t.post.outs.filter Spec.isEval = _
          rw [← evals_isEval t.post.outs, hout, evals_isEval]
        change Single.enqueueRequest t.pre.queue now r = _ at henq
        simp only [Single.enqueueRequest, Except.bind_eq_ok] at henq
        obtain ⟨o, ho, henq⟩ := henq
        rcases Single.select_ok ho with ⟨v, rfl, hv, hvc⟩ | ⟨rfl, hall⟩
        · left
          have hvw : v ∈ t.pre.workers := hreg.1 (hi.memCur.1 (List.mem_map.2 ⟨_, hv, rfl⟩))
          simp only [Except.pure_eq_ok, Except.ok.injEq, Prod.mk.injEq] at henq
          refine ⟨v, hvw, ?_, (hcan v hvw).2 hvc, ?_, ?_⟩
          · obtain ⟨u, l, r', g1, g2, _⟩ := hi.splitCur (hreg.2 hvw)
            have hu : (v, u) ∈ t.pre.queue.current := by rw [g1]; simp
            show t.pre.queue.current.getD v none = none
            rw [g2]
            exact (hi.curSorted.unique hu hv rfl).2
          · rw [hev', ← henq.1]
            simp [QOp.sends, QOp.gives, Spec.isEval, sendMsg, keyWorkers, hfr]
          · rw [e1, ← henq.2]
        · right
          have hq : res = ⟨none, true⟩ ∧ q1.jobs = t.pre.queue.jobs ++ [(r, now)] := by
            simp only [Except.bind_eq_ok] at henq
            obtain ⟨b, _, henq⟩ := henq
            cases b with
            | true =>
              simp only [if_true, Except.pure_eq_ok, Except.ok.injEq, Prod.mk.injEq] at henq
              exact ⟨henq.1.symm, by rw [← henq.2]⟩
            | false =>
              simp only [Bool.false_eq_true, if_false, Except.pure_eq_ok, Except.ok.injEq,
                Prod.mk.injEq] at henq
              exact absurd (e1.trans henq.2.symm) hch
          refine ⟨?_, ?_, r, now, rfl, hfr, by rw [e1, hq.2]⟩
          · intro w hw hidle hdw
            have hw' := hreg.2 hw
            have hm : (w, none) ∈ t.pre.queue.current := by
              obtain ⟨u, l, r', g1, g2, _⟩ := hi.splitCur hw'
              have hu : u = none := g2.symm.trans hidle
              rw [g1, hu]; simp
            have h3 := (hcan w hw).1 hdw
            rw [Worker.Can, hall w hm] at h3
            cases h3
          · rw [hev', hq.1]; simp [QOp.sends, QOp.gives]
  | init hk' => exact absurd (hk.symm.trans hk') (by decide)
  | ok hk' => exact absurd (hk.symm.trans hk') (by decide)
  | failed hk' => exact absurd (hk.symm.trans hk') (by decide)
  | adopted hk' => exact absurd (hk.symm.trans hk') (by decide)
  | again hk' => exact absurd (hk.symm.trans hk') (by decide)
  | timer hk' => exact absurd (hk.symm.trans hk') (by decide)

/-! ## Examples -/

/-- The condition on the requests of `C79_evenly_partial`, computed. -/
def groupCheck (P : Worker → Bool) (t : Tr Multi) : Bool :=
  match t.msg.data with
  | "eval" :: _ :: fs =>
    match evalHeaders fs [] [] with
    | .ok (some x) =>
      t.pre.workers.all (fun w => decide (w.checkHeaders x.1 = .ok (P w))) ||
      t.pre.workers.all (fun w => !(P w && decide (w.checkHeaders x.1 = .ok true)))
    | _ => false
  | _ => true

theorem groupCheck_sound {cfg : HConfig} {env : Env} {P : Worker → Bool} {h1 h2 : List (Tr Multi)}
    {s : HState Multi} (hr : Run cfg env (h1 ++ h2) s) (hg : h2.all (groupCheck P) = true) :
    ∀ a t b, h2 = a ++ t :: b → t.msg.key = "clients" →
      ∀ j fs, t.msg.data = "eval" :: j :: fs →
        (∀ w ∈ t.pre.workers, DeclaredFor (h1 ++ a) w fs ↔ P w = true) ∨
        ∀ w ∈ t.pre.workers, DeclaredFor (h1 ++ a) w fs → P w = false := by
  intro a t b e hk j fs hd
  have hr' : Run cfg env ((h1 ++ a) ++ t :: b) s := by rw [List.append_assoc, ← e]; exact hr
  have hr1 := hr'.prefix.1
  have h1 := List.all_eq_true.1 hg t (by rw [e]; simp)
  simp only [groupCheck, hd] at h1
  split at h1
  · rename_i x hx
    rw [Bool.or_eq_true] at h1
    rcases h1 with h1 | h1
    · left
      intro w hw
      have := List.all_eq_true.1 h1 w hw
      rw [declared_iff hr1 hw hx, Worker.Can, of_decide_eq_true this]
      simp
    · right
      intro w hw hdw
      have := List.all_eq_true.1 h1 w hw
      rw [declared_iff hr1 hw hx, Worker.Can] at hdw
      rw [hdw] at this
      simpa using this
  · cases h1

/-- Two workers for `c` and one for `java`. -/
def groupMsgs : List Msg :=
  [fromW "w1" ["init", "group", "env=c"], fromW "w2" ["init", "group", "env=c"],
   fromW "w3" ["init", "group", "env=java"]]

/-- Requests for both groups; `w2` is fast and `w1` does nothing. -/
def groupJobs : List Msg :=
  [fromC "client" ["eval", "J1", "env=c", "", "a"], fromC "client" ["eval", "J2", "env=java", "", "b"],
   fromC "client" ["eval", "J3", "env=c", "", "c"], fromW "w2" ["done", "J1", "OK"], tick "1000",
   fromC "client" ["eval", "J4", "env=c", "", "d"], fromW "w2" ["done", "J4", "OK"],
   fromC "client" ["eval", "J5", "env=c", "", "e"], fromC "client" ["eval", "J6", "env=c", "", "f"]]

/-- The condition on the workers' reports, computed. -/
def noInternal (t : Tr Multi) : Bool :=
  match t.msg.data with
  | ["done", _, "INTERNAL_ERROR", _] => false
  | _ => true

/-- C79: all hypotheses hold, the fast worker is given three jobs and the slow one two, of which one
    waits for it. -/
example : ∃ h1 h2 s, Run (Q := Multi) cfg0 env0 (h1 ++ h2) s ∧
    (∀ t ∈ h2, t.post.workers = t.pre.workers) ∧
    (∀ t ∈ h2, ∀ j text, t.msg.key = "workers" → t.msg.data ≠ ["done", j, "INTERNAL_ERROR", text]) ∧
    (∀ a t b, h2 = a ++ t :: b → t.msg.key = "clients" →
      ∀ j fs, t.msg.data = "eval" :: j :: fs →
        (∀ w ∈ t.pre.workers, DeclaredFor (h1 ++ a) w fs ↔ (w.identity != "w3") = true) ∨
        ∀ w ∈ t.pre.workers, DeclaredFor (h1 ++ a) w fs → (w.identity != "w3") = false) ∧
    s.workers.map (fun w => (w.identity, given h2 w, load s w)) =
      [("w1", 2, 2), ("w2", 3, 1), ("w3", 1, 1)] := by
  obtain ⟨h, s, hr, hp⟩ := exists_run (Q := Multi) (cfg := cfg0) (env := env0)
    (groupMsgs ++ groupJobs) (fun h s =>
      (h.drop 3).all (fun t => decide (t.post.workers = t.pre.workers)) &&
      (h.drop 3).all noInternal &&
      (h.drop 3).all (groupCheck (fun w => w.identity != "w3")) &&
      s.workers.map (fun w => (w.identity, given (h.drop 3) w, load s w)) ==
        [("w1", 2, 2), ("w2", 3, 1), ("w3", 1, 1)]) (by decide +kernel)
  simp only [Bool.and_eq_true] at hp
  obtain ⟨⟨⟨p1, p2⟩, p3⟩, p4⟩ := hp
  have hr' : Run cfg0 env0 (h.take 3 ++ h.drop 3) s := by rw [List.take_append_drop]; exact hr
  refine ⟨h.take 3, h.drop 3, s, hr', ?_, ?_, groupCheck_sound hr' p3, by simpa using p4⟩
  · intro t ht
    exact of_decide_eq_true (List.all_eq_true.1 p1 t ht)
  · intro t ht j text _ hd
    have := List.all_eq_true.1 p2 t ht
    simp [noInternal, hd] at this

/-- C79, single queue: the first job is sent to one of two idle workers, the third one waits. -/
example : ∃ h1 t h2 s, Run (Q := Single) cfg0 env0 (h1 ++ t :: h2) s ∧
    h1.map (·.msg) = groupMsgs ++ [fromC "client" ["eval", "J1", "env=c", "", "a"]] ∧
    t.msg = fromC "client" ["eval", "J2", "env=c", "", "b"] ∧
    h2.map (·.msg) = [fromC "client" ["eval", "J3", "env=c", "", "c"]] ∧
    (Spec.accepts "J2" t && (t.outs.filter Spec.isEval).map (·.identity) == ["w2"] &&
      t.post.queue.jobs.isEmpty && s.queue.jobs.map (·.1.jobId) == ["J3"]) = true :=
  exists_split _ _ _ _ (by decide +kernel)

/-- **C79 is false after an internal error.** Both workers can do all jobs.  The job the first worker
    could not do moves to the second one, whose turn it was, and the next job goes to the first one
    again: two jobs were given to it and none to the other. -/
theorem C79_refuted : ¬ ∀ (P : Worker → Bool) (h1 h2 : List (Tr Multi)) (s : HState Multi),
    Run cfg0 env0 (h1 ++ h2) s →
    (∀ t ∈ h2, t.post.workers = t.pre.workers) →
    (∀ a t b, h2 = a ++ t :: b → t.msg.key = "clients" →
      ∀ j fs, t.msg.data = "eval" :: j :: fs →
        (∀ w ∈ t.pre.workers, DeclaredFor (h1 ++ a) w fs ↔ P w = true) ∨
        ∀ w ∈ t.pre.workers, DeclaredFor (h1 ++ a) w fs → P w = false) →
    ∀ v ∈ s.workers, P v = true → ∀ w ∈ s.workers, P w = true → given h2 v ≤ given h2 w + 1 := by
  intro hall
  obtain ⟨h, s, hr, hp⟩ := exists_run (Q := Multi) (cfg := cfg0) (env := env0)
    [fromW "w1" ["init", "group", "env=c"], fromW "w2" ["init", "group", "env=c"],
     fromC "client" ["eval", "J1", "env=c", "", "a"],
     fromW "w2" ["done", "J1", "INTERNAL_ERROR", "e"],
     fromC "client" ["eval", "J2", "env=c", "", "b"]] (fun h s =>
      (h.drop 2).all (fun t => decide (t.post.workers = t.pre.workers)) &&
      (h.drop 2).all (groupCheck (fun _ => true)) &&
      s.workers.any (fun v => s.workers.any (fun w =>
        decide (given (h.drop 2) w + 1 < given (h.drop 2) v)))) (by decide +kernel)
  simp only [Bool.and_eq_true] at hp
  obtain ⟨⟨p1, p3⟩, p4⟩ := hp
  have hr' : Run cfg0 env0 (h.take 2 ++ h.drop 2) s := by rw [List.take_append_drop]; exact hr
  simp only [List.any_eq_true, decide_eq_true_eq] at p4
  obtain ⟨v, hv, w, hw, hlt⟩ := p4
  have := hall _ _ _ s hr' (fun t ht => of_decide_eq_true (List.all_eq_true.1 p1 t ht))
    (groupCheck_sound hr' p3) v hv rfl w hw rfl
  omega

/-- **C79, the load is not looked at.** Multi-queue manager: it is false that an accepted job is sent
    to a worker at once if an idle worker declared all it asks for.  It may wait for a busy worker
    while another one, just as able, does nothing. -/
theorem C79_refuted_idle : ¬ ∀ (h1 : List (Tr Multi)) (t : Tr Multi) (h2 : List (Tr Multi))
    (s : HState Multi) (j : String) (fs : List String), Run cfg0 env0 (h1 ++ t :: h2) s →
    t.msg.data = "eval" :: j :: fs → Spec.accepts j t = true →
    (∃ v ∈ t.pre.workers, DeclaredFor h1 v fs ∧ Idle t.pre v) →
    t.outs.any (Spec.isEvalOf j) = true := by
  intro hall
  obtain ⟨h1, t, h2, s, hr, _, hm, _, hp⟩ := exists_split (Q := Multi) (cfg := cfg0) (env := env0)
    [fromW "w1" ["init", "group", "env=c"], fromW "w2" ["init", "group", "env=c"],
     fromC "client" ["eval", "J1", "env=c", "", "a"], fromC "client" ["eval", "J2", "env=c", "", "b"],
     fromW "w1" ["done", "J2", "OK"]]
    (fromC "client" ["eval", "J3", "env=c", "", "c"]) [] (fun t _ =>
      Spec.accepts "J3" t && t.pre.workers.any (fun v => isIdleBool t.pre v &&
        decide (v.checkHeaders [("env", "c")] = .ok true)) &&
      !(t.outs.any (Spec.isEvalOf "J3"))) (by decide +kernel)
  simp only [Bool.and_eq_true] at hp
  obtain ⟨⟨p1, p3⟩, p4⟩ := hp
  obtain ⟨v, hv, hidle⟩ := List.any_eq_true.1 p3
  simp only [Bool.and_eq_true] at hidle
  have hd : t.msg.data = "eval" :: "J3" :: ["env=c", "", "c"] := by rw [hm]; rfl
  have hi : Idle t.pre v := by simpa [isIdleBool, Idle] using hidle.1
  have hx : evalHeaders ["env=c", "", "c"] [] [] = .ok (some ([("env", "c")], [], ["c"])) := by
    decide +kernel
  have hcan : v.checkHeaders [("env", "c")] = .ok true := of_decide_eq_true hidle.2
  have := hall h1 t h2 s "J3" _ hr hd p1 ⟨v, hv, (declared_iff hr.prefix.1 hv hx).2 hcan, hi⟩
  rw [this] at p4; cases p4

end Broker
