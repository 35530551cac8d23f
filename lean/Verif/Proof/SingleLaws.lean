import Verif.Model.Single
import Verif.Proof.Busy
import Verif.Proof.Laws

/-! # The single-queue manager satisfies `LawfulQM` -/

namespace Broker
namespace Single

/-- Representation invariant of the single-queue manager. -/
structure Inv (q : Single) : Prop where
  curSorted : q.current.Sorted
  keysCur : (q.current.map (·.1)).Perm q.workers
  wf : ∀ w ∈ q.workers, w.WF
  can : ∀ e ∈ q.jobs, ∃ w ∈ q.workers, w.Can e.1.headers

theorem Inv.addr_nodup {q : Single} (h : q.Inv) : (q.workers.map (·.addr)).Nodup := by
  have h1 := h.curSorted.addr_nodup
  have h2 : (q.current.map (·.1.addr)).Perm (q.workers.map (·.addr)) := by
    have := h.keysCur.map (·.addr)
    simpa [List.map_map, Function.comp_def] using this
  exact h2.nodup_iff.1 h1

theorem Inv.memCur {q : Single} (h : q.Inv) {w : Worker} :
    w ∈ q.current.map (·.1) ↔ w ∈ q.workers := h.keysCur.mem_iff

theorem Inv.splitCur {q : Single} (h : q.Inv) {w : Worker} (hw : w ∈ q.workers) :
    ∃ v l r, q.current = l ++ (w, v) :: r ∧ q.current.getD w none = v ∧
      (∀ v', q.current.put w v' = l ++ (w, v') :: r) ∧ q.current.erase w = l ++ r ∧
      (∀ d, q.current.emplace w d = q.current) := by
  obtain ⟨v, l, r, h1, h2, h3, h4, h5⟩ := WMap.split h.curSorted (h.memCur.2 hw)
  exact ⟨v, l, r, h1, by simp [WMap.getD, h2], h3, h4, h5⟩

theorem Inv.busy_iff {q : Single} (h : q.Inv) {w : Worker} (hw : w ∈ q.workers) (r : Req) :
    (w, r) ∈ busyList q.current ↔ q.current.getD w none = some r := by
  obtain ⟨v, l, t, h1, h2, -⟩ := h.splitCur hw
  rw [h2, mem_busyList]
  have hv : (w, v) ∈ q.current := by rw [h1]; simp
  constructor
  · intro hr
    exact (h.curSorted.unique hv hr rfl).2
  · intro hr; subst hr; exact hv

theorem Inv.busy_mem {q : Single} (h : q.Inv) {p : Worker × Req}
    (hp : p ∈ busyList q.current) : p.1 ∈ q.workers :=
  h.memCur.1 (List.mem_map.2 ⟨_, mem_busyList.1 hp, rfl⟩)

theorem Inv.setCur {q : Single} (h : q.Inv) {w : Worker} (hw : w ∈ q.workers) (v : Option Req) :
    Inv { q with current := q.current.put w v } := by
  obtain ⟨u, l, r, h1, h2, h3, -⟩ := h.splitCur hw
  have hk : (l ++ (w, v) :: r).map (·.1) = q.current.map (·.1) := by rw [h1]; simp
  refine ⟨?_, ?_, h.wf, h.can⟩
  · show WMap.Sorted (q.current.put w v)
    rw [h3]; exact h.curSorted.of_keys hk
  · show ((q.current.put w v).map (·.1)).Perm q.workers
    rw [h3, hk]; exact h.keysCur

theorem Inv.setJobs {q : Single} (h : q.Inv) {l : List Entry}
    (hl : ∀ e ∈ l, ∃ w ∈ q.workers, w.Can e.1.headers) : Inv { q with jobs := l } :=
  ⟨h.curSorted, h.keysCur, h.wf, hl⟩

theorem isAssignable_ok {r : Req} : ∀ {l : List Worker} {b : Bool},
    isAssignable r l = .ok b →
    (b = true ∧ ∃ w ∈ l, w.Can r.headers) ∨
    (b = false ∧ ∀ w ∈ l, w.checkHeaders r.headers = .ok false) := by
  intro l
  induction l with
  | nil => intro b h; simp [isAssignable] at h; subst h; right; simp
  | cons x t ih =>
    intro b h
    simp only [isAssignable, Except.bind_eq_ok] at h
    obtain ⟨c, hc, h⟩ := h
    cases c with
    | true =>
      simp at h; subst h
      exact Or.inl ⟨rfl, x, by simp, hc⟩
    | false =>
      simp at h
      rcases ih h with ⟨h1, w, h2, h3⟩ | ⟨h1, h2⟩
      · exact Or.inl ⟨h1, w, List.mem_cons_of_mem _ h2, h3⟩
      · refine Or.inr ⟨h1, ?_⟩
        intro w hw
        rcases List.mem_cons.1 hw with rfl | hw
        · exact hc
        · exact h2 w hw

theorem isAssignable_error {r : Req} {e : Exn} : ∀ {l : List Worker},
    isAssignable r l = .error e → ∃ w ∈ l, w.checkHeaders r.headers = .error e := by
  intro l
  induction l with
  | nil => intro h; simp [isAssignable] at h
  | cons x t ih =>
    intro h
    simp only [isAssignable, Except.bind_eq_error] at h
    rcases h with h | ⟨b, hb, h⟩
    · exact ⟨x, by simp, h⟩
    · cases b with
      | true => simp at h
      | false =>
        simp at h
        obtain ⟨w, hw, h⟩ := ih h
        exact ⟨w, List.mem_cons_of_mem _ hw, h⟩

theorem select_ok {r : Req} : ∀ {m : WMap (Option Req)} {o : Option Worker},
    select r m = .ok o →
    (∃ w, o = some w ∧ (w, none) ∈ m ∧ w.Can r.headers) ∨
    (o = none ∧ ∀ w, (w, none) ∈ m → w.checkHeaders r.headers = .ok false) := by
  intro m
  induction m with
  | nil => intro o h; simp [select] at h; subst h; right; simp
  | cons a t ih =>
    intro o h
    obtain ⟨x, c⟩ := a
    cases c with
    | some c =>
      simp only [select] at h
      rcases ih h with ⟨w, h1, h2, h3⟩ | ⟨h1, h2⟩
      · exact Or.inl ⟨w, h1, List.mem_cons_of_mem _ h2, h3⟩
      · refine Or.inr ⟨h1, ?_⟩
        intro w hw
        simp at hw
        exact h2 w hw
    | none =>
      simp only [select, Except.bind_eq_ok] at h
      obtain ⟨c, hc, h⟩ := h
      cases c with
      | true =>
        simp at h; subst h
        exact Or.inl ⟨x, rfl, by simp, hc⟩
      | false =>
        simp at h
        rcases ih h with ⟨w, h1, h2, h3⟩ | ⟨h1, h2⟩
        · exact Or.inl ⟨w, h1, List.mem_cons_of_mem _ h2, h3⟩
        · refine Or.inr ⟨h1, ?_⟩
          intro w hw
          simp at hw
          rcases hw with rfl | hw
          · exact hc
          · exact h2 w hw

theorem select_error {r : Req} {e : Exn} : ∀ {m : WMap (Option Req)},
    select r m = .error e → ∃ w, (w, none) ∈ m ∧ w.checkHeaders r.headers = .error e := by
  intro m
  induction m with
  | nil => intro h; simp [select] at h
  | cons a t ih =>
    intro h
    obtain ⟨x, c⟩ := a
    cases c with
    | some c =>
      simp only [select] at h
      obtain ⟨w, h1, h2⟩ := ih h
      exact ⟨w, by simp [h1], h2⟩
    | none =>
      simp only [select, Except.bind_eq_error] at h
      rcases h with h | ⟨b, hb, h⟩
      · exact ⟨x, by simp, h⟩
      · cases b with
        | true => simp at h
        | false =>
          simp at h
          obtain ⟨w, hw, h⟩ := ih h
          exact ⟨w, by simp [hw], h⟩

/-- The scan of the sorted queue. -/
theorem takeFirst_spec {w : Worker} : ∀ {l : List Entry},
    (∀ e ∈ l, ∃ b, w.checkHeaders e.1.headers = .ok b) →
    ∃ o rest, takeFirst w l = .ok (o, rest) ∧
      ((o = none ∧ rest = l ∧ ∀ e ∈ l, w.checkHeaders e.1.headers = .ok false) ∨
       ∃ l1 e l2, l = l1 ++ e :: l2 ∧ rest = l1 ++ l2 ∧ o = some e.1 ∧ w.Can e.1.headers ∧
         ∀ x ∈ l1, w.checkHeaders x.1.headers = .ok false) := by
  intro l
  induction l with
  | nil => intro _; exact ⟨none, [], rfl, Or.inl ⟨rfl, rfl, by simp⟩⟩
  | cons a t ih =>
    intro h
    obtain ⟨b, hb⟩ := h a (by simp)
    cases b with
    | true =>
      refine ⟨some a.1, t, by simp [takeFirst, hb], Or.inr ⟨[], a, t, rfl, rfl, rfl, hb, by simp⟩⟩
    | false =>
      obtain ⟨o, rest, h1, h2⟩ := ih (fun e he => h e (List.mem_cons_of_mem _ he))
      refine ⟨o, a :: rest, by simp [takeFirst, hb, h1], ?_⟩
      rcases h2 with ⟨rfl, rfl, h4⟩ | ⟨l1, e, l2, rfl, rfl, h5, h6, h7⟩
      · left
        refine ⟨rfl, rfl, ?_⟩
        intro e he
        rcases List.mem_cons.1 he with rfl | he
        · exact hb
        · exact h4 e he
      · right
        refine ⟨a :: l1, e, l2, by simp, by simp, h5, h6, ?_⟩
        intro x hx
        rcases List.mem_cons.1 hx with rfl | hx
        · exact hb
        · exact h7 x hx

/-- The filtering loop of `worker_terminated`. -/
theorem splitJobs_spec {ws : List Worker} : ∀ {l : List Entry},
    (∀ e ∈ l, ∃ b, isAssignable e.1 ws = .ok b) →
    ∃ out keep, splitJobs ws l = .ok (out, keep) ∧
      (∀ e ∈ keep, e ∈ l ∧ ∃ w ∈ ws, w.Can e.1.headers) ∧
      (∀ r ∈ out, ∀ w ∈ ws, w.checkHeaders r.headers = .ok false) ∧
      (l.map (·.1)).Perm (out ++ keep.map (·.1)) := by
  intro l
  induction l with
  | nil => intro _; exact ⟨[], [], rfl, by simp, by simp, by simp⟩
  | cons a t ih =>
    intro h
    obtain ⟨out, keep, h1, h2, h3, h4⟩ := ih (fun e he => h e (List.mem_cons_of_mem _ he))
    obtain ⟨b, hb⟩ := h a (by simp)
    cases b with
    | true =>
      refine ⟨out, a :: keep, by simp [splitJobs, hb, h1], ?_, h3, ?_⟩
      · intro e he
        rcases List.mem_cons.1 he with rfl | he
        · rcases isAssignable_ok hb with ⟨-, hw⟩ | ⟨hf, -⟩
          · exact ⟨by simp, hw⟩
          · cases hf
        · exact ⟨List.mem_cons_of_mem _ (h2 e he).1, (h2 e he).2⟩
      · simp only [List.map_cons]
        exact (h4.cons a.1).trans List.perm_middle.symm
    | false =>
      refine ⟨a.1 :: out, keep, by simp [splitJobs, hb, h1], ?_, ?_, ?_⟩
      · intro e he
        exact ⟨List.mem_cons_of_mem _ (h2 e he).1, (h2 e he).2⟩
      · intro r hr
        rcases List.mem_cons.1 hr with rfl | hr
        · rcases isAssignable_ok hb with ⟨hf, -⟩ | ⟨-, hw⟩
          · cases hf
          · exact hw
        · exact h3 r hr
      · simp only [List.map_cons, List.cons_append]
        exact h4.cons a.1

theorem Inv.safe {q : Single} (h : q.Inv) {e : Entry} (he : e ∈ q.jobs) :
    SafeHeaders e.1.headers := by
  obtain ⟨w, hw, hc⟩ := h.can e he
  exact safe_of_can (h.wf w hw) hc

theorem isAssignable_total {r : Req} (hr : SafeHeaders r.headers) {l : List Worker}
    (hl : ∀ w ∈ l, w.WF) : ∃ b, isAssignable r l = .ok b := by
  cases h : isAssignable r l with
  | ok b => exact ⟨b, rfl⟩
  | error e =>
    obtain ⟨w, hw, he⟩ := isAssignable_error h
    obtain ⟨b, hb⟩ := hr w (hl w hw)
    rw [hb] at he; cases he

/-- Requests waiting in the queue. -/
def queList (l : List Entry) : List Req := l.map (·.1)

/-- `assign_request`, whatever the worker did before. -/
theorem Inv.assign {q : Single} (srt : Sorter) (h : q.Inv) {w : Worker} (hw : w ∈ q.workers) :
    ∃ o q', q.assignRequest srt w = .ok (o, q') ∧ Inv q' ∧ q'.workers = q.workers ∧
      Assigned w ↑(busyList (q.current.put w none)) ↑(queList q.jobs) o
        ↑(busyList q'.current) ↑(queList q'.jobs) := by
  have hp := srt.perm q.jobs
  have htot : ∀ e ∈ srt.sort q.jobs, ∃ b, w.checkHeaders e.1.headers = .ok b := by
    intro e he
    exact h.safe (hp.mem_iff.1 he) w (h.wf w hw)
  have hcan : ∀ e ∈ srt.sort q.jobs, ∃ w ∈ q.workers, w.Can e.1.headers := by
    intro e he
    exact h.can e (hp.mem_iff.1 he)
  obtain ⟨v, l, r, h1, h2, h3, h4, h5⟩ := h.splitCur hw
  obtain ⟨o, rest, ht, hcase⟩ := takeFirst_spec htot
  rcases hcase with ⟨rfl, rfl, hno⟩ | ⟨l1, e, l2, hl, rfl, rfl, hc, hno⟩
  · refine ⟨none, { q with jobs := srt.sort q.jobs, current := q.current.put w none }, ?_,
      (h.setCur hw none).setJobs hcan, rfl, Or.inl ⟨rfl, rfl, ?_⟩⟩
    · simp [assignRequest, ht]
    · exact Multiset.coe_eq_coe.2 (hp.map _)
  · refine ⟨some e.1, { q with jobs := l1 ++ l2, current := q.current.put w (some e.1) }, ?_,
      (h.setCur hw (some e.1)).setJobs ?_, rfl, Or.inr ⟨e.1, rfl, hc, ?_, ?_⟩⟩
    · simp [assignRequest, ht]
    · intro x hx
      refine hcan x ?_
      rw [hl]
      simp only [List.mem_append, List.mem_cons] at hx ⊢
      rcases hx with hx | hx <;> simp [hx]
    · have : (queList q.jobs).Perm (queList (srt.sort q.jobs)) := (hp.map _).symm
      rw [hl] at this
      rw [Multiset.cons_coe, Multiset.coe_eq_coe]
      refine this.trans ?_
      simp only [queList, List.map_append, List.map_cons]
      exact List.perm_middle
    · show (↑(busyList (q.current.put w (some e.1))) : Multiset (Worker × Req)) = _
      rw [h3, h3]
      simp [List.perm_middle]

theorem Inv.idle_put {q : Single} (h : q.Inv) {w : Worker} (hw : w ∈ q.workers)
    (hi : ∀ r, (w, r) ∉ busyList q.current) : q.current.put w none = q.current := by
  obtain ⟨v, l, r, h1, h2, h3, h4, h5⟩ := h.splitCur hw
  cases v with
  | some c => exact absurd ((h.busy_iff hw c).2 h2) (hi c)
  | none => rw [h3, h1]

/-- Registering a worker. -/
theorem Inv.add {q : Single} (h : q.Inv) {w : Worker} (hw : w.WF)
    (hf : w.addr ∉ q.workers.map (·.addr)) (cur : Option Req) :
    Inv { q with current := q.current.put w cur, workers := q.workers ++ [w] } ∧
    (busyList (q.current.put w cur)).Perm
      ((cur.map (fun r => (w, r))).toList ++ busyList q.current) := by
  have hfc : w.addr ∉ q.current.map (·.1.addr) := by
    intro hc
    obtain ⟨e, he, ha⟩ := List.mem_map.1 hc
    exact hf (List.mem_map.2 ⟨e.1, h.memCur.1 (List.mem_map.2 ⟨e, he, rfl⟩), ha⟩)
  obtain ⟨l, r, h1, h2, h3, h4, h5⟩ := WMap.split_fresh h.curSorted hfc
  refine ⟨⟨?_, ?_, ?_, ?_⟩, ?_⟩
  · show WMap.Sorted (q.current.put w cur); rw [h3]; exact h5 _
  · show ((q.current.put w cur).map (·.1)).Perm (q.workers ++ [w])
    rw [h3]
    simp only [List.map_append, List.map_cons]
    refine List.perm_middle.trans ?_
    have := h.keysCur; rw [h1] at this
    refine ((by simpa using this : (l.map (·.1) ++ r.map (·.1)).Perm q.workers).cons w).trans ?_
    simpa using (List.perm_append_comm (l₁ := [w]) (l₂ := q.workers))
  · intro x hx
    simp only [List.mem_append, List.mem_singleton] at hx
    rcases hx with hx | rfl
    · exact h.wf x hx
    · exact hw
  · intro e he
    obtain ⟨x, hx, hc⟩ := h.can e he
    exact ⟨x, by simp [hx], hc⟩
  · rw [h3, h1]
    cases cur with
    | none => simp
    | some c => simp [List.perm_middle]

theorem filter_perm {l : List Worker} {w : Worker} (hn : (l.map (·.addr)).Nodup)
    (hw : w ∈ l) : l.Perm (w :: l.filter (fun x => x.addr ≠ w.addr)) := by
  induction l with
  | nil => simp at hw
  | cons x t ih =>
    simp only [List.map_cons, List.nodup_cons] at hn
    by_cases hx : x = w
    · subst hx
      have : (x :: t).filter (fun y => y.addr ≠ x.addr) = t := by
        simp only [List.filter_cons, ne_eq, not_true_eq_false, decide_false]
        simp only [Bool.false_eq_true, if_false, List.filter_eq_self]
        intro a ha
        simp only [decide_eq_true_eq]
        intro h
        exact hn.1 (List.mem_map.2 ⟨a, ha, h⟩)
      rw [this]
    · have hwt : w ∈ t := by
        rcases List.mem_cons.1 hw with h | h
        · exact absurd h.symm hx
        · exact h
      have hne : x.addr ≠ w.addr := by
        intro h; exact hn.1 (List.mem_map.2 ⟨w, hwt, h.symm⟩)
      have : (x :: t).filter (fun y => y.addr ≠ w.addr)
          = x :: t.filter (fun y => y.addr ≠ w.addr) := by
        simp [hne]
      rw [this]
      exact ((ih hn.2 hwt).cons x).trans (List.Perm.swap _ _ _)

instance : LawfulQM Single where
  Inv := Inv
  reg q := q.workers
  busy q := busyList q.current
  que q := queList q.jobs
  inv_empty := by
    refine ⟨List.Pairwise.nil, List.Perm.refl _, ?_, ?_⟩ <;> simp [QueueManager.empty]
  reg_empty := rfl
  busy_empty := rfl
  que_empty := rfl
  reg_wf h w hw := h.wf w (by simpa using hw)
  reg_nodup h := by simpa using h.addr_nodup
  busy_reg h p hp := by simpa using h.busy_mem (by simpa using hp)
  busy_nodup {q} h := by
    have := (busyList_addr_sublist q.current).nodup h.curSorted.addr_nodup
    simpa using this
  que_can {q} h r hr := by
    have hr : r ∈ queList q.jobs := by simpa using hr
    obtain ⟨e, he, rfl⟩ := List.mem_map.1 hr
    obtain ⟨w, hw, hc⟩ := h.can e he
    exact ⟨w, by simpa using hw, hc⟩
  queued_card {q} _ := by
    simp [QueueManager.queuedCount, queList]
  add {q} srt w cur h hw hf := by
    have hf' : w.addr ∉ q.workers.map (·.addr) := by simpa using hf
    obtain ⟨h1, h2⟩ := h.add hw hf' cur
    cases cur with
    | some c =>
      refine ⟨some c, _, rfl, h1, ?_, Or.inr rfl, ?_, rfl⟩
      · simp
      · exact Multiset.coe_eq_coe.2 (by simpa using h2)
    | none =>
      obtain ⟨o, q', g1, g2, g3, g4⟩ := h1.assign srt (w := w) (by simp)
      refine ⟨o, q', g1, g2, ?_, ?_⟩
      · rw [g3]; simp
      · have e1 : WMap.put w none (q.current.put w none) = q.current.put w none :=
          h1.idle_put (w := w) (by simp) (by
            intro r hr
            have hr2 : (w, r) ∈ busyList q.current := by
              have := h2.mem_iff.1 hr; simpa using this
            exact hf' (List.mem_map.2 ⟨w, h.busy_mem hr2, rfl⟩))
        have e2 : (↑(busyList (q.current.put w none)) : Multiset (Worker × Req))
            = ↑(busyList q.current) := Multiset.coe_eq_coe.2 (by simpa using h2)
        change Assigned w ↑(busyList (WMap.put w none (q.current.put w none))) _ _ _ _ at g4
        rw [e1, e2] at g4
        exact g4
  assign {q} srt w h hw hi := by
    have hw' : w ∈ q.workers := by simpa using hw
    obtain ⟨o, q', g1, g2, g3, g4⟩ := h.assign srt hw'
    refine ⟨o, q', g1, g2, congrArg (fun l : List Worker => (↑l : Multiset Worker)) g3, ?_⟩
    rw [h.idle_put hw' (by simpa using hi)] at g4
    exact g4
  finished {q} srt w r b h hb := by
    have hm : (w, r) ∈ busyList q.current := by
      have : (w, r) ∈ (↑(busyList q.current) : Multiset (Worker × Req)) := by rw [hb]; simp
      simpa using this
    have hw : w ∈ q.workers := h.busy_mem hm
    have hcur := (h.busy_iff hw r).1 hm
    obtain ⟨v, l, t, h1, h2, h3, h4, h5⟩ := h.splitCur hw
    obtain ⟨o, q', g1, g2, g3, g4⟩ := h.assign srt hw
    refine ⟨o, q', g1, g2, congrArg (fun l : List Worker => (↑l : Multiset Worker)) g3, ?_⟩
    have hbb : (↑(busyList (q.current.put w none)) : Multiset (Worker × Req)) = b := by
      have hv : v = some r := by rw [← h2]; exact hcur
      subst hv
      rw [h1] at hb
      rw [h3]
      have : (w, r) ::ₘ (↑(busyList (l ++ (w, none) :: t)) : Multiset (Worker × Req)) =
          (w, r) ::ₘ b := by
        rw [← hb]
        simp [List.perm_middle.symm]
      exact (Multiset.cons_inj_right _).1 this
    rw [← hbb]
    exact g4
  current {q w} h hw := by
    have hw' : w ∈ q.workers := by simpa using hw
    obtain ⟨v, l, t, h1, h2, h3, h4, h5⟩ := h.splitCur hw'
    refine ⟨?_, ?_⟩
    · show (⟨q.jobs, q.current.emplace w none, q.workers⟩ : Single) = q
      rw [h5]
    · intro r
      have := h.busy_iff hw' r
      simpa [QueueManager.currentRequest, currentRequest] using this.symm
  cancelled {q w r} h hm := by
    have hm : (w, r) ∈ busyList q.current := by simpa using hm
    have hw : w ∈ q.workers := h.busy_mem hm
    have hcur := (h.busy_iff hw r).1 hm
    obtain ⟨v, l, t, h1, h2, h3, h4, h5⟩ := h.splitCur hw
    refine ⟨(q.workerCancelled w).2, ?_, h.setCur hw none, rfl, ?_, rfl⟩
    · simp [QueueManager.workerCancelled, workerCancelled, hcur]
    · have hv : v = some r := by rw [← h2]; exact hcur
      subst hv
      show (↑(busyList q.current) : Multiset (Worker × Req)) =
        (w, r) ::ₘ ↑(busyList (q.current.put w none))
      rw [h3, h1]
      simp [List.perm_middle]
  terminated {q w} h hw := by
    have hw' : w ∈ q.workers := by simpa using hw
    obtain ⟨v, l, t, h1, h2, h3, h4, h5⟩ := h.splitCur hw'
    have hp := filter_perm h.addr_nodup hw'
    have hwf : ∀ x ∈ q.workers.filter (fun x => x.addr ≠ w.addr), x.WF :=
      fun x hx => h.wf x (List.mem_of_mem_filter hx)
    obtain ⟨out, keep, g1, g2, g3, g4⟩ := splitJobs_spec (l := q.jobs)
      (fun e he => isAssignable_total (h.safe he) hwf)
    refine ⟨v, out, ⟨keep, q.current.erase w, q.workers.filter (fun x => x.addr ≠ w.addr)⟩,
      ?_, ⟨?_, ?_, ?_, ?_⟩, ?_, ?_, ?_⟩
    · simp only [QueueManager.workerTerminated, workerTerminated, g1, h2]
      simp
    · show WMap.Sorted (q.current.erase w)
      rw [h4]; exact h.curSorted.sublist (by rw [h1]; simp)
    · show ((q.current.erase w).map (·.1)).Perm (q.workers.filter (fun x => x.addr ≠ w.addr))
      rw [h4]
      have := h.keysCur.trans hp
      rw [h1] at this
      simp only [List.map_append, List.map_cons] at this
      have := List.perm_middle.symm.trans this
      simpa using (List.perm_cons w).1 this
    · exact hwf
    · intro e he
      exact (g2 e he).2
    · exact Multiset.coe_eq_coe.2 hp
    · show (↑(queList q.jobs) : Multiset Req) = ↑out + ↑(queList keep)
      rw [Multiset.coe_add, Multiset.coe_eq_coe]
      exact g4
    · show (↑(busyList q.current) : Multiset (Worker × Req)) =
        ↑(v.map (fun r => (w, r))).toList + ↑(busyList (q.current.erase w))
      rw [h4, h1]
      cases v with
      | none => simp
      | some c => simp [List.perm_middle]
  enqueue {q} now r res q' h heq := by
    change q.enqueueRequest now r = .ok (res, q') at heq
    simp only [enqueueRequest, Except.bind_eq_ok] at heq
    obtain ⟨o, ho, heq⟩ := heq
    rcases select_ok ho with ⟨w, rfl, hw, hcan⟩ | ⟨rfl, hall⟩
    · have hw' : w ∈ q.workers := h.memCur.1 (List.mem_map.2 ⟨_, hw, rfl⟩)
      obtain ⟨v, l, t, h1, h2, h3, h4, h5⟩ := h.splitCur hw'
      have hv : v = none := (h.curSorted.unique (by rw [h1]; simp) hw rfl).2
      subst hv
      simp at heq
      obtain ⟨rfl, rfl⟩ := heq
      refine ⟨h.setCur hw' (some r), rfl, Or.inl ⟨w, rfl, by simpa using hw', ?_, hcan, ?_, rfl⟩⟩
      · intro r' hr'
        have := (h.busy_iff hw' r').1 (by simpa using hr')
        rw [h2] at this; cases this
      · show (↑(busyList (q.current.put w (some r))) : Multiset (Worker × Req)) = _
        rw [h3, h1]; simp [List.perm_middle]
    · simp only [Except.bind_eq_ok] at heq
      obtain ⟨b, hb, heq⟩ := heq
      rcases isAssignable_ok hb with ⟨rfl, w, hw, hcan⟩ | ⟨rfl, hno⟩
      · simp at heq
        obtain ⟨rfl, rfl⟩ := heq
        refine ⟨h.setJobs ?_, rfl, Or.inr (Or.inl ⟨rfl, ⟨w, by simpa using hw, hcan⟩, rfl, ?_⟩)⟩
        · intro e he
          simp only [List.mem_append, List.mem_singleton] at he
          rcases he with he | rfl
          · exact h.can e he
          · exact ⟨w, hw, hcan⟩
        · show (↑(queList (q.jobs ++ [(r, now)])) : Multiset Req) = r ::ₘ ↑(queList q.jobs)
          simp only [queList, List.map_append, List.map_cons, List.map_nil, Multiset.cons_coe,
            Multiset.coe_eq_coe]
          simp
      · simp at heq
        obtain ⟨rfl, rfl⟩ := heq
        exact ⟨h, rfl, Or.inr (Or.inr ⟨rfl, by simpa using hno, rfl, rfl⟩)⟩
  enqueue_error {q} now r e h heq := by
    change q.enqueueRequest now r = .error e at heq
    simp only [enqueueRequest, Except.bind_eq_error] at heq
    rcases heq with heq | ⟨o, ho, heq⟩
    · obtain ⟨w, hw, he⟩ := select_error heq
      exact ⟨w, by simpa using h.memCur.1 (List.mem_map.2 ⟨_, hw, rfl⟩), he⟩
    · cases o with
      | some w => simp at heq
      | none =>
        simp only [Except.bind_eq_error] at heq
        rcases heq with heq | ⟨b, hb, heq⟩
        · simpa using isAssignable_error heq
        · cases b <;> simp at heq

end Single
end Broker
