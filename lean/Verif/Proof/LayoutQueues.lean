import Verif.Proof.Layout

/-! # The queue managers in two memory layouts -/

namespace Broker

/-! ## Multi-queue manager -/

/-- Number of requests in a map of queues. -/
def WMap.total (m : WMap (List Req)) : Nat := (m.map (fun e => e.2.length)).sum

theorem WMap.total_put {m : WMap (List Req)} (hs : m.Sorted) (w : Worker) (v : List Req) :
    (m.put w v).total + (m.getD w []).length = m.total + v.length := by
  induction m with
  | nil => simp [WMap.put, WMap.total, WMap.getD, WMap.find]
  | cons a t ih =>
    obtain ⟨x, u⟩ := a
    obtain ⟨h1, h2⟩ := List.pairwise_cons.1 hs
    have := ih h2
    simp only [WMap.put, WMap.getD, WMap.find, WMap.total] at this ⊢
    split
    · simp; omega
    · split
      · rename_i hlt
        have hf : WMap.find w t = none := WMap.find_fresh (fun p hp => by
          have := h1 p hp; simp only at this; omega)
        rw [hf]; simp; omega
      · simp; omega

theorem WMap.total_emplace {m : WMap (List Req)} (w : Worker) :
    (m.emplace w []).total = m.total := by
  induction m with
  | nil => simp [WMap.emplace, WMap.total]
  | cons a t ih =>
    obtain ⟨x, u⟩ := a
    simp only [WMap.emplace, WMap.total] at ih ⊢
    split
    · rfl
    · split
      · simp
      · simp [ih]

theorem WMap.total_erase {m : WMap (List Req)} (w : Worker) :
    (m.erase w).total + (m.getD w []).length = m.total := by
  induction m with
  | nil => simp [WMap.erase, WMap.total, WMap.getD, WMap.find]
  | cons a t ih =>
    obtain ⟨x, u⟩ := a
    simp only [WMap.erase, WMap.total, WMap.getD, WMap.find] at ih ⊢
    split
    · simp; omega
    · simp; omega

namespace Multi

/-- Corresponding states of the multi-queue manager. -/
structure LR (ρ : LRel) (q q' : Multi) : Prop where
  queues : MapRel ρ q.queues q'.queues
  current : MapRel ρ q.current q'.current
  ring : List.Forall₂ (WN ρ) q.ring q'.ring
  count : q.queues.total = q'.queues.total

theorem forall2_remove {ρ : LRel} (ho : ρ.rel.OneOne) {w w' : Worker} (hw : WN ρ w w') {l l' : List Worker}
    (h : List.Forall₂ (WN ρ) l l') : List.Forall₂ (WN ρ) (listRemove w l) (listRemove w' l') := by
  induction h with
  | nil => exact .nil
  | @cons x x' t t' hx _ ih =>
    simp only [listRemove, List.filter_cons] at ih ⊢
    have := hw.addr_iff ho hx
    by_cases e : x.addr = w.addr
    · have e' := this.1 e
      simpa [e, e'] using ih
    · have e' : ¬ x'.addr = w'.addr := fun e' => e (this.2 e')
      simp only [ne_eq, e, not_false_eq_true, decide_true, if_true, e']
      exact .cons hx ih

theorem findWorker_layout {ρ : LRel} {hs : Headers} (ha : ρ.asked hs) {l l' : List Worker}
    (h : List.Forall₂ (WN ρ) l l') : RelE (WNo ρ) (findWorker hs l) (findWorker hs l') := by
  induction h with
  | nil => exact .ok .none
  | @cons x x' t t' hx _ ih =>
    simp only [findWorker, hx.checkHeaders _ ha]
    refine RelE.bind (A := Eq) (RelE.refl (fun _ => rfl) _) ?_
    rintro b _ rfl
    cases b with
    | true => exact .ok (.some hx)
    | false => exact ih

theorem assign_layout {ρ : LRel} (ho : ρ.rel.OneOne) {q q' : Multi} (h : LR ρ q q') {w w' : Worker}
    (hw : WN ρ w w') : (q.assignRequest w).1 = (q'.assignRequest w').1 ∧
      LR ρ (q.assignRequest w).2 (q'.assignRequest w').2 := by
  have e := h.queues.getD hw []
  unfold assignRequest
  rw [e]
  cases hq : q.queues.getD w [] with
  | nil =>
    exact ⟨rfl, h.queues.emplace ho hw _, h.current, h.ring, by
      simp only [WMap.total_emplace]; exact h.count⟩
  | cons r t =>
    refine ⟨rfl, h.queues.put ho hw _, h.current.put ho hw _, h.ring, ?_⟩
    have h1 := WMap.total_put h.queues.sorted w t
    have h2 := WMap.total_put h.queues.sorted' w' t
    have h3 := h.count
    rw [e] at h2
    show (q.queues.put w t).total = (q'.queues.put w' t).total
    omega

instance : LayoutQM Multi where
  EnvR _ _ _ := True
  Good _ := True
  QR := LR
  good_empty _ _ _ _ _ := trivial
  good_ext _ _ _ _ := trivial
  empty ρ := ⟨MapRel.nil, MapRel.nil, .nil, rfl⟩
  ext h ha hb := ⟨h.queues.ext ha hb, h.current.ext ha hb,
    h.ring.imp (fun _ _ hw => hw.ext _ _), h.count⟩
  addWorker cur _ ho _ h _ hw := .ok ⟨rfl, h.queues.emplace ho hw _, h.current.emplace ho hw _,
    .cons hw h.ring, by
      show (WMap.emplace _ _ _).total = (WMap.emplace _ _ _).total
      rw [WMap.total_emplace, WMap.total_emplace]; exact h.count⟩
  assignRequest _ ho _ h _ hw := .ok (assign_layout ho h hw)
  workerFinished {env env' ρ q q' w w'} _ ho _ h _ hw := by
    have h' : LR ρ { q with current := q.current.put w none }
        { q' with current := q'.current.put w' none } :=
      ⟨h.queues, h.current.put ho hw none, h.ring, h.count⟩
    exact .ok (assign_layout ho h' hw)
  workerTerminated {ρ q q' w w'} ho _ h _ hw := by
    refine .ok ⟨?_, h.queues.erase ho hw, h.current.erase ho hw, forall2_remove ho hw h.ring, ?_⟩
    · simp only [workerTerminated, h.queues.getD hw, h.current.getD hw]
    · have h1 := WMap.total_erase (m := q.queues) w
      have h2 := WMap.total_erase (m := q'.queues) w'
      have h3 := h.count
      have e := h.queues.getD hw []
      rw [e] at h2
      show (q.queues.erase w).total = (q'.queues.erase w').total
      omega
  enqueueRequest {env env' ρ q q'} n r _ ho _ h hr := by
    simp only [QueueManager.enqueueRequest, enqueueRequest]
    refine RelE.bind (findWorker_layout hr h.ring) ?_
    intro a b hab
    cases hab with
    | none => exact .ok ⟨.none, rfl, h⟩
    | @some w w' hw =>
      have hring : List.Forall₂ (WN ρ) (listRemove w q.ring ++ [w]) (listRemove w' q'.ring ++ [w']) :=
        List.rel_append (forall2_remove ho hw h.ring) (.cons hw .nil)
      simp only [h.current.getD hw]
      cases q.current.getD w none with
      | none => exact .ok ⟨.some hw, rfl, h.queues, h.current.put ho hw _, hring, h.count⟩
      | some c =>
        have e := h.queues.getD hw []
        simp only [e]
        refine .ok ⟨.none, rfl, h.queues.put ho hw _, h.current, hring, ?_⟩
        have h1 := WMap.total_put h.queues.sorted w (q.queues.getD w [] ++ [r])
        have h2 := WMap.total_put h.queues.sorted' w' (q.queues.getD w [] ++ [r])
        have h3 := h.count
        rw [e] at h2
        show (q.queues.put w _).total = (q'.queues.put w' _).total
        omega
  queuedCount h := h.count
  currentRequest ho _ h hw := ⟨(h.current.getD hw _).symm, h.queues, h.current.emplace ho hw _, h.ring,
    h.count⟩
  workerCancelled ho _ h hw := ⟨(h.current.getD hw _).symm, h.queues, h.current.put ho hw _, h.ring,
    h.count⟩

end Multi

/-! ## Single-queue manager -/

/-- Both environments read the same times and sort in the same way, and objects created later get
    higher addresses or the allocators are the same. -/
structure SameOrder (σ : Prop) (env env' : Env) : Prop where
  clock : env'.clock = env.clock
  srt : env'.srt = env.srt
  up : (¬ σ ∧ (∀ n l, ∀ a ∈ l, a < env.alloc n l) ∧ ∀ n l, ∀ a ∈ l, a < env'.alloc n l) ∨
    (σ ∧ env'.alloc = env.alloc)

/-- Corresponding maps with the entries in the same order. -/
def MapSame {V : Type} (ρ : LRel) (m m' : WMap V) : Prop :=
  List.Forall₂ (fun p p' => WN ρ p.1 p'.1 ∧ p.2 = p'.2) m m'

/-- The correspondence keeps the order. -/
def ARel.Mono (ρ : ARel) : Prop := ∀ a b a' b', ρ a b → ρ a' b' → (a < a' ↔ b < b')

namespace MapSame
variable {V : Type} {ρ : LRel} {m m' : WMap V}

theorem getD (h : MapSame ρ m m') (ho : ρ.rel.OneOne) {w w' : Worker} (hw : WN ρ w w') (d : V) :
    m'.getD w' d = m.getD w d := by
  suffices h' : m'.find w' = m.find w by rw [WMap.getD, WMap.getD, h']
  induction h with
  | nil => rfl
  | @cons p p' t t' hp _ ih =>
    obtain ⟨x, u⟩ := p
    obtain ⟨x', u'⟩ := p'
    obtain ⟨hx, rfl⟩ := hp
    have := hw.addr_iff ho hx
    simp only [WMap.find, ← this, ih]

theorem put (h : MapSame ρ m m') (ho : ρ.rel.OneOne) (hm : ρ.rel.Mono) {w w' : Worker} (hw : WN ρ w w')
    (v : V) : MapSame ρ (m.put w v) (m'.put w' v) := by
  induction h with
  | nil => exact .cons ⟨hw, rfl⟩ .nil
  | @cons p p' t t' hp ht ih =>
    obtain ⟨x, u⟩ := p
    obtain ⟨x', u'⟩ := p'
    obtain ⟨hx, rfl⟩ := hp
    have h1 := hw.addr_iff ho hx
    have h2 := hm _ _ _ _ hw.rel hx.rel
    simp only [WMap.put, ← h1, ← h2]
    split
    · exact .cons ⟨hx, rfl⟩ ht
    · split
      · exact .cons ⟨hw, rfl⟩ (.cons ⟨hx, rfl⟩ ht)
      · exact .cons ⟨hx, rfl⟩ ih

theorem emplace (h : MapSame ρ m m') (ho : ρ.rel.OneOne) (hm : ρ.rel.Mono) {w w' : Worker} (hw : WN ρ w w')
    (v : V) : MapSame ρ (m.emplace w v) (m'.emplace w' v) := by
  induction h with
  | nil => exact .cons ⟨hw, rfl⟩ .nil
  | @cons p p' t t' hp ht ih =>
    obtain ⟨x, u⟩ := p
    obtain ⟨x', u'⟩ := p'
    obtain ⟨hx, rfl⟩ := hp
    have h1 := hw.addr_iff ho hx
    have h2 := hm _ _ _ _ hw.rel hx.rel
    simp only [WMap.emplace, ← h1, ← h2]
    split
    · exact .cons ⟨hx, rfl⟩ ht
    · split
      · exact .cons ⟨hw, rfl⟩ (.cons ⟨hx, rfl⟩ ht)
      · exact .cons ⟨hx, rfl⟩ ih

theorem erase (h : MapSame ρ m m') (ho : ρ.rel.OneOne) {w w' : Worker} (hw : WN ρ w w') :
    MapSame ρ (m.erase w) (m'.erase w') := by
  induction h with
  | nil => exact .nil
  | @cons p p' t t' hp ht ih =>
    obtain ⟨x, u⟩ := p
    obtain ⟨x', u'⟩ := p'
    obtain ⟨hx, rfl⟩ := hp
    have h1 := hw.addr_iff ho hx
    simp only [WMap.erase, ← h1]
    split
    · exact ht
    · exact .cons ⟨hx, rfl⟩ ih

end MapSame

namespace Single

/-- Corresponding states of the single-queue manager. -/
structure LR (ρ : LRel) (q q' : Single) : Prop where
  jobs : q.jobs = q'.jobs
  current : MapSame ρ q.current q'.current
  workers : List.Forall₂ (WN ρ) q.workers q'.workers

theorem isAssignable_layout {ρ : LRel} {r : Req} (ha : ρ.asked r.headers) {l l' : List Worker}
    (h : List.Forall₂ (WN ρ) l l') : isAssignable r l' = isAssignable r l := by
  induction h with
  | nil => rfl
  | @cons x x' t t' hx _ ih => simp only [isAssignable, hx.checkHeaders _ ha, ih]

theorem select_layout {ρ : LRel} {r : Req} (ha : ρ.asked r.headers) {m m' : WMap (Option Req)}
    (h : MapSame ρ m m') :
    RelE (WNo ρ) (select r m) (select r m') := by
  induction h with
  | nil => exact .ok .none
  | @cons p p' t t' hp ht ih =>
    obtain ⟨x, u⟩ := p
    obtain ⟨x', u'⟩ := p'
    obtain ⟨hx, rfl⟩ := hp
    cases u with
    | some c => exact ih
    | none =>
      simp only [select, hx.checkHeaders _ ha]
      refine RelE.bind (A := Eq) (RelE.refl (fun _ => rfl) _) ?_
      rintro b _ rfl
      cases b with
      | true => exact .ok (.some hx)
      | false => exact ih

theorem takeFirst_layout {ρ : LRel} {w w' : Worker} (hw : WN ρ w w') {l : List Entry}
    (ha : ∀ e ∈ l, ρ.asked e.1.headers) : takeFirst w' l = takeFirst w l := by
  induction l with
  | nil => rfl
  | cons e t ih =>
    simp only [takeFirst, hw.checkHeaders _ (ha e (.head _)), ih fun x hx => ha x (.tail _ hx)]

theorem splitJobs_layout {ρ : LRel} {l l' : List Worker} (h : List.Forall₂ (WN ρ) l l')
    {es : List Entry} (ha : ∀ e ∈ es, ρ.asked e.1.headers) : splitJobs l' es = splitJobs l es := by
  induction es with
  | nil => rfl
  | cons e t ih =>
    simp only [splitJobs, isAssignable_layout (ha e (.head _)) h, ih fun x hx => ha x (.tail _ hx)]

theorem assign_layout {srt : Sorter} {ρ : LRel} (ho : ρ.rel.OneOne) (hm : ρ.rel.Mono) {q q' : Single}
    (h : LR ρ q q') (ha : ∀ e ∈ q.jobs, ρ.asked e.1.headers) {w w' : Worker} (hw : WN ρ w w') :
    RelE (fun x y => x.1 = y.1 ∧ LR ρ x.2 y.2) (q.assignRequest srt w) (q'.assignRequest srt w') := by
  simp only [assignRequest, ← h.jobs,
    takeFirst_layout hw fun e he => ha e ((srt.perm q.jobs).mem_iff.1 he)]
  refine RelE.bind (A := Eq) (RelE.refl (fun _ => rfl) _) ?_
  rintro ⟨o, rest⟩ _ rfl
  cases o with
  | none => exact .ok ⟨rfl, rfl, h.current.put ho hm hw _, h.workers⟩
  | some r => exact .ok ⟨rfl, rfl, h.current.put ho hm hw _, h.workers⟩

theorem asked_jobs {ρ : LRel} {q : Single} (h : ∀ r, Carries.holds q r → ρ.asked r.headers) :
    ∀ e ∈ q.jobs, ρ.asked e.1.headers := fun e he => h e.1 (.inr ⟨e, he, rfl⟩)

instance : LayoutQM Single where
  EnvR := SameOrder
  Good ρ := ρ.rel.Mono ∧ (ρ.sync → ∀ a b, ρ.rel a b → a = b)
  QR := LR
  good_empty _ _ _ _ _ := ⟨fun _ _ _ _ h => h.elim, fun _ _ _ h => h.elim⟩
  good_ext {env env' ρ n n' l l'} he hg hd hs := by
    rcases he.up with ⟨hσ, up, up'⟩ | ⟨hσ, hup⟩
    · refine ⟨?_, fun h => absurd h hσ⟩
      rintro a b a' b' (h1 | ⟨rfl, rfl⟩) (h2 | ⟨rfl, rfl⟩)
      · exact hg.1 _ _ _ _ h1 h2
      · have := up n l a (hd _ _ h1).1
        have := up' n' l' b (hd _ _ h1).2
        constructor <;> intro <;> assumption
      · have := up n l a' (hd _ _ h2).1
        have := up' n' l' b' (hd _ _ h2).2
        omega
      · simp
    · have heq := hg.2 hσ
      obtain ⟨rfl, rfl⟩ := hs heq
      rw [hup]
      have hall : ∀ a b, (ρ.ext (env.alloc n' l') (env.alloc n' l')).rel a b → a = b := by
        rintro a b (h1 | ⟨rfl, rfl⟩)
        · exact heq _ _ h1
        · rfl
      refine ⟨?_, fun _ => hall⟩
      intro a b a' b' h1 h2
      rw [hall _ _ h1, hall _ _ h2]
  empty ρ := ⟨rfl, .nil, .nil⟩
  ext h ha hb := ⟨h.jobs, h.current.imp (fun _ _ hw => ⟨hw.1.ext _ _, hw.2⟩),
    h.workers.imp (fun _ _ hw => hw.ext _ _)⟩
  addWorker {env env' ρ q q' w w'} cur he ho hg h ha hw := by
    have hwk : List.Forall₂ (WN ρ) (q.workers ++ [w]) (q'.workers ++ [w']) :=
      List.rel_append h.workers (.cons hw .nil)
    simp only [QueueManager.addWorker, addWorker]
    cases cur with
    | some r => exact .ok ⟨rfl, h.jobs, h.current.put ho hg.1 hw _, hwk⟩
    | none =>
      rw [he.srt]
      have h' : LR ρ { q with current := q.current.put w none, workers := q.workers ++ [w] }
          { q' with current := q'.current.put w' none, workers := q'.workers ++ [w'] } :=
        ⟨h.jobs, h.current.put ho hg.1 hw _, hwk⟩
      exact assign_layout ho hg.1 h' (asked_jobs (q := q) ha) hw
  assignRequest he ho hg h ha hw := by
    rw [he.srt]; exact assign_layout ho hg.1 h (asked_jobs ha) hw
  workerFinished he ho hg h ha hw := by
    rw [he.srt]; exact assign_layout ho hg.1 h (asked_jobs ha) hw
  workerTerminated {ρ q q' w w'} ho hg h ha hw := by
    simp only [QueueManager.workerTerminated, workerTerminated]
    have hwk := Multi.forall2_remove ho hw h.workers
    simp only [Multi.listRemove] at hwk
    rw [← h.jobs, splitJobs_layout hwk (asked_jobs ha), h.current.getD ho hw]
    refine RelE.bind (A := Eq) (RelE.refl (fun _ => rfl) _) ?_
    rintro ⟨out, keep⟩ _ rfl
    exact .ok ⟨rfl, rfl, h.current.erase ho hw, hwk⟩
  enqueueRequest {env env' ρ q q'} n r he ho hg h hr := by
    simp only [QueueManager.enqueueRequest, enqueueRequest, he.clock]
    refine RelE.bind (select_layout hr h.current) ?_
    intro a b hab
    cases hab with
    | some hw => exact .ok ⟨.some hw, rfl, h.jobs, h.current.put ho hg.1 hw _, h.workers⟩
    | none =>
      simp only [isAssignable_layout hr h.workers]
      refine RelE.bind (A := Eq) (RelE.refl (fun _ => rfl) _) ?_
      rintro b _ rfl
      cases b with
      | true => exact .ok ⟨.none, rfl, by show _ ++ _ = _ ++ _; rw [h.jobs], h.current, h.workers⟩
      | false => exact .ok ⟨.none, rfl, h⟩
  queuedCount h := congrArg List.length h.jobs
  currentRequest ho hg h hw := ⟨(h.current.getD ho hw _).symm, h.jobs, h.current.emplace ho hg.1 hw _,
    h.workers⟩
  workerCancelled ho hg h hw := ⟨(h.current.getD ho hw _).symm, h.jobs, h.current.put ho hg.1 hw _,
    h.workers⟩

end Single
end Broker
