import Verif.Model.Multi
import Verif.Proof.Busy
import Verif.Proof.Laws

/-! # The multi-queue manager satisfies `LawfulQM` -/

namespace Broker

namespace Multi

/-- Representation invariant of the multi-queue manager. -/
structure Inv (q : Multi) : Prop where
  curSorted : q.current.Sorted
  queSorted : q.queues.Sorted
  keysCur : (q.current.map (·.1)).Perm q.ring
  keysQue : (q.queues.map (·.1)).Perm q.ring
  wf : ∀ w ∈ q.ring, w.WF
  can : ∀ e ∈ q.queues, ∀ r ∈ e.2, e.1.Can r.headers

/-- Waiting requests of the map of queues. -/
def queList (m : WMap (List Req)) : List Req := m.flatMap (·.2)

@[simp] theorem queList_append (a b : WMap (List Req)) :
    queList (a ++ b) = queList a ++ queList b := by simp [queList]

@[simp] theorem queList_cons (w : Worker) (l : List Req) (b : WMap (List Req)) :
    queList ((w, l) :: b) = l ++ queList b := by simp [queList]

theorem Inv.addr_nodup {q : Multi} (h : q.Inv) : (q.ring.map (·.addr)).Nodup := by
  have h1 := h.curSorted.addr_nodup
  have h2 : (q.current.map (·.1.addr)).Perm (q.ring.map (·.addr)) := by
    have := h.keysCur.map (·.addr)
    simpa [List.map_map, Function.comp_def] using this
  exact h2.nodup_iff.1 h1

theorem Inv.memCur {q : Multi} (h : q.Inv) {w : Worker} :
    w ∈ q.current.map (·.1) ↔ w ∈ q.ring := h.keysCur.mem_iff

theorem Inv.memQue {q : Multi} (h : q.Inv) {w : Worker} :
    w ∈ q.queues.map (·.1) ↔ w ∈ q.ring := h.keysQue.mem_iff

theorem Inv.freshCur {q : Multi} (h : q.Inv) {w : Worker} (hw : w.addr ∉ q.ring.map (·.addr)) :
    w.addr ∉ q.current.map (·.1.addr) := by
  intro hc
  obtain ⟨e, he, ha⟩ := List.mem_map.1 hc
  exact hw (List.mem_map.2 ⟨e.1, h.memCur.1 (List.mem_map.2 ⟨e, he, rfl⟩), ha⟩)

theorem Inv.freshQue {q : Multi} (h : q.Inv) {w : Worker} (hw : w.addr ∉ q.ring.map (·.addr)) :
    w.addr ∉ q.queues.map (·.1.addr) := by
  intro hc
  obtain ⟨e, he, ha⟩ := List.mem_map.1 hc
  exact hw (List.mem_map.2 ⟨e.1, h.memQue.1 (List.mem_map.2 ⟨e, he, rfl⟩), ha⟩)

/-- Removing a worker from the ring removes exactly that worker. -/
theorem listRemove_perm {l : List Worker} {w : Worker} (hn : (l.map (·.addr)).Nodup)
    (hw : w ∈ l) : l.Perm (w :: listRemove w l) := by
  induction l with
  | nil => simp at hw
  | cons x t ih =>
    simp only [List.map_cons, List.nodup_cons] at hn
    by_cases hx : x = w
    · subst hx
      have : listRemove x (x :: t) = t := by
        simp only [listRemove, List.filter_cons, ne_eq, not_true_eq_false, decide_false]
        simp only [Bool.false_eq_true, if_false, List.filter_eq_self]
        intro a ha
        simp only [decide_eq_true_eq]
        intro h
        exact hn.1 (List.mem_map.2 ⟨a, ha, h⟩)
      rw [this]
    · have hwt : w ∈ t := by
        rcases List.mem_cons.1 hw with h | h
        · exact absurd h.symm hx
        · exact h
      have hne : x.addr ≠ w.addr := by
        intro h; exact hn.1 (List.mem_map.2 ⟨w, hwt, h.symm⟩)
      have : listRemove w (x :: t) = x :: listRemove w t := by
        simp [listRemove, hne]
      rw [this]
      exact ((ih hn.2 hwt).cons x).trans (List.Perm.swap _ _ _)

theorem findWorker_ok {hs : Headers} : ∀ {l : List Worker} {o : Option Worker},
    findWorker hs l = .ok o →
    (∃ w, o = some w ∧ w ∈ l ∧ w.Can hs) ∨
    (o = none ∧ ∀ w ∈ l, w.checkHeaders hs = .ok false) := by
  intro l
  induction l with
  | nil => intro o h; simp [findWorker] at h; subst h; right; simp
  | cons x t ih =>
    intro o h
    simp only [findWorker, Except.bind_eq_ok] at h
    obtain ⟨b, hb, h⟩ := h
    cases b with
    | true =>
      simp at h; subst h
      exact Or.inl ⟨x, rfl, by simp, hb⟩
    | false =>
      simp at h
      rcases ih h with ⟨w, h1, h2, h3⟩ | ⟨h1, h2⟩
      · exact Or.inl ⟨w, h1, List.mem_cons_of_mem _ h2, h3⟩
      · refine Or.inr ⟨h1, ?_⟩
        intro w hw
        rcases List.mem_cons.1 hw with rfl | hw
        · exact hb
        · exact h2 w hw

theorem findWorker_error {hs : Headers} {e : Exn} : ∀ {l : List Worker},
    findWorker hs l = .error e → ∃ w ∈ l, w.checkHeaders hs = .error e := by
  intro l
  induction l with
  | nil => intro h; simp [findWorker] at h
  | cons x t ih =>
    intro h
    simp only [findWorker, Except.bind_eq_error] at h
    rcases h with h | ⟨b, hb, h⟩
    · exact ⟨x, by simp, h⟩
    · cases b with
      | true => simp at h
      | false =>
        simp at h
        obtain ⟨w, hw, h⟩ := ih h
        exact ⟨w, List.mem_cons_of_mem _ hw, h⟩

/-- Current request of a registered worker, with the decomposition of the map. -/
theorem Inv.splitCur {q : Multi} (h : q.Inv) {w : Worker} (hw : w ∈ q.ring) :
    ∃ v l r, q.current = l ++ (w, v) :: r ∧ q.current.getD w none = v ∧
      (∀ v', q.current.put w v' = l ++ (w, v') :: r) ∧ q.current.erase w = l ++ r ∧
      (∀ d, q.current.emplace w d = q.current) := by
  obtain ⟨v, l, r, h1, h2, h3, h4, h5⟩ := WMap.split h.curSorted (h.memCur.2 hw)
  exact ⟨v, l, r, h1, by simp [WMap.getD, h2], h3, h4, h5⟩

theorem Inv.splitQue {q : Multi} (h : q.Inv) {w : Worker} (hw : w ∈ q.ring) :
    ∃ v l r, q.queues = l ++ (w, v) :: r ∧ q.queues.getD w [] = v ∧
      (∀ v', q.queues.put w v' = l ++ (w, v') :: r) ∧ q.queues.erase w = l ++ r ∧
      (∀ d, q.queues.emplace w d = q.queues) := by
  obtain ⟨v, l, r, h1, h2, h3, h4, h5⟩ := WMap.split h.queSorted (h.memQue.2 hw)
  exact ⟨v, l, r, h1, by simp [WMap.getD, h2], h3, h4, h5⟩

/-- The busy pairs of a worker are its current request. -/
theorem Inv.busy_iff {q : Multi} (h : q.Inv) {w : Worker} (hw : w ∈ q.ring) (r : Req) :
    (w, r) ∈ busyList q.current ↔ q.current.getD w none = some r := by
  obtain ⟨v, l, t, h1, h2, -⟩ := h.splitCur hw
  rw [h2, mem_busyList]
  have hv : (w, v) ∈ q.current := by rw [h1]; simp
  constructor
  · intro hr
    exact (h.curSorted.unique hv hr rfl).2
  · intro hr; subst hr; exact hv

theorem Inv.busy_mem_ring {q : Multi} (h : q.Inv) {p : Worker × Req}
    (hp : p ∈ busyList q.current) : p.1 ∈ q.ring :=
  h.memCur.1 (List.mem_map.2 ⟨_, mem_busyList.1 hp, rfl⟩)

/-- Changing the value stored for a worker keeps the invariant. -/
theorem Inv.setCur {q : Multi} (h : q.Inv) {w : Worker} (hw : w ∈ q.ring) (v : Option Req) :
    Inv { q with current := q.current.put w v } := by
  obtain ⟨u, l, r, h1, h2, h3, -⟩ := h.splitCur hw
  have hk : (l ++ (w, v) :: r).map (·.1) = q.current.map (·.1) := by rw [h1]; simp
  refine ⟨?_, h.queSorted, ?_, h.keysQue, h.wf, h.can⟩
  · show WMap.Sorted (q.current.put w v)
    rw [h3]; exact h.curSorted.of_keys hk
  · show ((q.current.put w v).map (·.1)).Perm q.ring
    rw [h3, hk]; exact h.keysCur

theorem Inv.setQue {q : Multi} (h : q.Inv) {w : Worker} (hw : w ∈ q.ring) (v : List Req)
    (hv : ∀ r ∈ v, w.Can r.headers) :
    Inv { q with queues := q.queues.put w v } := by
  obtain ⟨u, l, r, h1, h2, h3, -⟩ := h.splitQue hw
  have hk : (l ++ (w, v) :: r).map (·.1) = q.queues.map (·.1) := by rw [h1]; simp
  refine ⟨h.curSorted, ?_, h.keysCur, ?_, h.wf, ?_⟩
  · show WMap.Sorted (q.queues.put w v)
    rw [h3]; exact h.queSorted.of_keys hk
  · show ((q.queues.put w v).map (·.1)).Perm q.ring
    rw [h3, hk]; exact h.keysQue
  · show ∀ e ∈ q.queues.put w v, ∀ r ∈ e.2, e.1.Can r.headers
    rw [h3]
    intro e he
    simp only [List.mem_append, List.mem_cons] at he
    have hc := h.can
    rw [h1] at hc
    rcases he with he | rfl | he
    · exact hc e (by simp [he])
    · exact hv
    · exact hc e (by simp [he])

theorem Inv.setRing {q : Multi} (h : q.Inv) {l : List Worker} (hl : q.ring.Perm l) :
    Inv { q with ring := l } :=
  ⟨h.curSorted, h.queSorted, h.keysCur.trans hl, h.keysQue.trans hl,
    fun w hw => h.wf w (hl.mem_iff.2 hw), h.can⟩

theorem Inv.add {q : Multi} (h : q.Inv) {w : Worker} (hw : w.WF)
    (hf : w.addr ∉ q.ring.map (·.addr)) (cur : Option Req) :
    Inv (q.addWorker w cur).2 ∧ (busyList (q.addWorker w cur).2.current).Perm
      ((cur.map (fun r => (w, r))).toList ++ busyList q.current) ∧
      queList (q.addWorker w cur).2.queues = queList q.queues := by
  obtain ⟨l, r, h1, h2, h3, h4, h5⟩ := WMap.split_fresh h.curSorted (h.freshCur hf)
  obtain ⟨l', r', h1', h2', h3', h4', h5'⟩ := WMap.split_fresh h.queSorted (h.freshQue hf)
  refine ⟨⟨?_, ?_, ?_, ?_, ?_, ?_⟩, ?_, ?_⟩
  · show WMap.Sorted (q.current.emplace w cur); rw [h4]; exact h5 _
  · show WMap.Sorted (q.queues.emplace w []); rw [h4']; exact h5' _
  · show ((q.current.emplace w cur).map (·.1)).Perm (w :: q.ring)
    rw [h4]
    simp only [List.map_append, List.map_cons]
    refine List.perm_middle.trans (List.Perm.cons _ ?_)
    have := h.keysCur; rw [h1] at this; simpa using this
  · show ((q.queues.emplace w []).map (·.1)).Perm (w :: q.ring)
    rw [h4']
    simp only [List.map_append, List.map_cons]
    refine List.perm_middle.trans (List.Perm.cons _ ?_)
    have := h.keysQue; rw [h1'] at this; simpa using this
  · intro x hx
    rcases List.mem_cons.1 hx with rfl | hx
    · exact hw
    · exact h.wf x hx
  · show ∀ e ∈ q.queues.emplace w [], ∀ r ∈ e.2, e.1.Can r.headers
    rw [h4']
    have hc := h.can
    rw [h1'] at hc
    intro e he
    simp only [List.mem_append, List.mem_cons] at he
    rcases he with he | rfl | he
    · exact hc e (by simp [he])
    · intro r hr; simp at hr
    · exact hc e (by simp [he])
  · show (busyList (q.current.emplace w cur)).Perm _
    rw [h4, h1]
    cases cur with
    | none => simp
    | some c => simp [List.perm_middle]
  · show queList (q.queues.emplace w []) = _
    rw [h4', h1']; simp

/-- `assign_request` for an idle worker. -/
theorem Inv.assign {q : Multi} (h : q.Inv) {w : Worker} (hw : w ∈ q.ring)
    (hi : q.current.getD w none = none) :
    Inv (q.assignRequest w).2 ∧ (q.assignRequest w).2.ring = q.ring ∧
    Assigned w ↑(busyList q.current) ↑(queList q.queues) (q.assignRequest w).1
      ↑(busyList (q.assignRequest w).2.current) ↑(queList (q.assignRequest w).2.queues) := by
  obtain ⟨v, l, r, h1, h2, h3, h4, h5⟩ := h.splitCur hw
  obtain ⟨v', l', r', h1', h2', h3', h4', h5'⟩ := h.splitQue hw
  have hv : v = none := by rw [← h2]; exact hi
  subst hv
  cases v' with
  | nil =>
    have : q.assignRequest w = (none, q) := by
      simp [assignRequest, h2', h5']
    rw [this]
    exact ⟨h, rfl, Or.inl ⟨rfl, rfl, rfl⟩⟩
  | cons c t =>
    have hcan : ∀ x ∈ c :: t, w.Can x.headers := by
      have := h.can (w, c :: t) (by rw [h1']; simp)
      exact this
    have : q.assignRequest w =
        (some c, { q with queues := q.queues.put w t, current := q.current.put w (some c) }) := by
      simp [assignRequest, h2']
    rw [this]
    refine ⟨?_, rfl, Or.inr ⟨c, rfl, hcan c (by simp), ?_, ?_⟩⟩
    · exact (h.setCur hw (some c)).setQue hw t (fun x hx => hcan x (by simp [hx]))
    · show (↑(queList q.queues) : Multiset Req) = c ::ₘ ↑(queList (q.queues.put w t))
      rw [h3', h1']
      simp [List.perm_middle]
    · show (↑(busyList (q.current.put w (some c))) : Multiset (Worker × Req)) = _
      rw [h3, h1]
      simp [List.perm_middle]

instance : LawfulQM Multi where
  Inv := Inv
  reg q := q.ring
  busy q := busyList q.current
  que q := queList q.queues
  inv_empty := by
    refine ⟨List.Pairwise.nil, List.Pairwise.nil, List.Perm.refl _, List.Perm.refl _, ?_, ?_⟩ <;>
      simp [QueueManager.empty]
  reg_empty := rfl
  busy_empty := rfl
  que_empty := rfl
  reg_wf h w hw := h.wf w (by simpa using hw)
  reg_nodup h := by simpa using h.addr_nodup
  busy_reg h p hp := by simpa using h.busy_mem_ring (by simpa using hp)
  busy_nodup {q} h := by
    have := (busyList_addr_sublist q.current).nodup h.curSorted.addr_nodup
    simpa using this
  que_can {q} h r hr := by
    have hr : r ∈ queList q.queues := by simpa using hr
    obtain ⟨e, he, hr⟩ := List.mem_flatMap.1 hr
    exact ⟨e.1, by simpa using h.memQue.1 (List.mem_map.2 ⟨e, he, rfl⟩), h.can e he r hr⟩
  queued_card {q} _ := by
    simp [QueueManager.queuedCount, queuedCount, queList, List.length_flatMap]
  add {q} srt w cur h hw hf := by
    have hf' : w.addr ∉ q.ring.map (·.addr) := by simpa using hf
    obtain ⟨h1, h2, h3⟩ := h.add hw hf' cur
    refine ⟨none, (q.addWorker w cur).2, rfl, h1, rfl, ?_⟩
    cases cur with
    | none =>
      refine Or.inl ⟨rfl, ?_, ?_⟩
      · exact Multiset.coe_eq_coe.2 (by simpa using h2)
      · rw [h3]
    | some c =>
      refine ⟨Or.inl rfl, ?_, ?_⟩
      · exact Multiset.coe_eq_coe.2 (by simpa using h2)
      · rw [h3]
  assign {q} srt w h hw hi := by
    have hw' : w ∈ q.ring := by simpa using hw
    have hi' : q.current.getD w none = none := by
      cases hc : q.current.getD w none with
      | none => rfl
      | some c => exact absurd (by simpa using (h.busy_iff hw' c).2 hc) (hi c)
    obtain ⟨h1, h2, h3⟩ := h.assign hw' hi'
    exact ⟨_, _, rfl, h1, congrArg (fun l : List Worker => (↑l : Multiset Worker)) h2, h3⟩
  finished {q} srt w r b h hb := by
    have hm : (w, r) ∈ busyList q.current := by
      have : (w, r) ∈ (↑(busyList q.current) : Multiset (Worker × Req)) := by rw [hb]; simp
      simpa using this
    have hw : w ∈ q.ring := h.busy_mem_ring hm
    have hcur := (h.busy_iff hw r).1 hm
    obtain ⟨v, l, t, h1, h2, h3, h4, h5⟩ := h.splitCur hw
    have h0 := h.setCur hw none
    have hi : (WMap.getD w none (q.current.put w none)) = none := by
      simp [WMap.getD, WMap.find_put_self]
    obtain ⟨g1, g2, g3⟩ := h0.assign hw hi
    refine ⟨_, _, rfl, g1, congrArg (fun l : List Worker => (↑l : Multiset Worker)) g2, ?_⟩
    have hbb : (↑(busyList (q.current.put w none)) : Multiset (Worker × Req)) = b := by
      have hv : v = some r := by rw [← h2]; exact hcur
      subst hv
      rw [h1] at hb
      rw [h3]
      have : (w, r) ::ₘ (↑(busyList (l ++ (w, none) :: t)) : Multiset (Worker × Req)) =
          (w, r) ::ₘ b := by
        rw [← hb]
        simp [List.perm_middle.symm]
      exact (Multiset.cons_inj_right _).1 this
    rw [← hbb]
    exact g3
  current {q w} h hw := by
    have hw' : w ∈ q.ring := by simpa using hw
    obtain ⟨v, l, t, h1, h2, h3, h4, h5⟩ := h.splitCur hw'
    refine ⟨?_, ?_⟩
    · show (⟨q.queues, q.current.emplace w none, q.ring⟩ : Multi) = q
      rw [h5]
    · intro r
      have := h.busy_iff hw' r
      simpa [QueueManager.currentRequest, currentRequest] using this.symm
  cancelled {q w r} h hm := by
    have hm : (w, r) ∈ busyList q.current := by simpa using hm
    have hw : w ∈ q.ring := h.busy_mem_ring hm
    have hcur := (h.busy_iff hw r).1 hm
    obtain ⟨v, l, t, h1, h2, h3, h4, h5⟩ := h.splitCur hw
    refine ⟨(q.workerCancelled w).2, ?_, h.setCur hw none, rfl, ?_, rfl⟩
    · simp [QueueManager.workerCancelled, workerCancelled, hcur]
    · have hv : v = some r := by rw [← h2]; exact hcur
      subst hv
      show (↑(busyList q.current) : Multiset (Worker × Req)) =
        (w, r) ::ₘ ↑(busyList (q.current.put w none))
      rw [h3, h1]
      simp [List.perm_middle]
  terminated {q w} h hw := by
    have hw' : w ∈ q.ring := by simpa using hw
    obtain ⟨v, l, t, h1, h2, h3, h4, h5⟩ := h.splitCur hw'
    obtain ⟨v', l', t', h1', h2', h3', h4', h5'⟩ := h.splitQue hw'
    have hp := listRemove_perm h.addr_nodup hw'
    refine ⟨v, v', (q.workerTerminated w).2, ?_, ⟨?_, ?_, ?_, ?_, ?_, ?_⟩, ?_, ?_, ?_⟩
    · simp [QueueManager.workerTerminated, workerTerminated, h2, h2']
    · show WMap.Sorted (q.current.erase w)
      rw [h4]; exact h.curSorted.sublist (by rw [h1]; simp)
    · show WMap.Sorted (q.queues.erase w)
      rw [h4']; exact h.queSorted.sublist (by rw [h1']; simp)
    · show ((q.current.erase w).map (·.1)).Perm (listRemove w q.ring)
      rw [h4]
      have := h.keysCur.trans hp
      rw [h1] at this
      simp only [List.map_append, List.map_cons] at this
      have := List.perm_middle.symm.trans this
      simpa using (List.perm_cons w).1 this
    · show ((q.queues.erase w).map (·.1)).Perm (listRemove w q.ring)
      rw [h4']
      have := h.keysQue.trans hp
      rw [h1'] at this
      simp only [List.map_append, List.map_cons] at this
      have := List.perm_middle.symm.trans this
      simpa using (List.perm_cons w).1 this
    · intro x hx
      exact h.wf x (List.mem_of_mem_filter hx)
    · show ∀ e ∈ q.queues.erase w, ∀ r ∈ e.2, e.1.Can r.headers
      rw [h4']
      intro e he
      refine h.can e ?_
      rw [h1']; simp only [List.mem_append, List.mem_cons] at he ⊢
      rcases he with he | he <;> simp [he]
    · show (↑q.ring : Multiset Worker) = w ::ₘ ↑(listRemove w q.ring)
      simpa using hp
    · show (↑(queList q.queues) : Multiset Req) = ↑v' + ↑(queList (q.queues.erase w))
      rw [h4', h1']
      simp only [queList_append, queList_cons, Multiset.coe_add, Multiset.coe_eq_coe]
      rw [← List.append_assoc, ← List.append_assoc]
      exact (List.perm_append_comm).append_right _
    · show (↑(busyList q.current) : Multiset (Worker × Req)) =
        ↑(v.map (fun r => (w, r))).toList + ↑(busyList (q.current.erase w))
      rw [h4, h1]
      cases v with
      | none => simp
      | some c => simp [List.perm_middle]
  enqueue {q} now r res q' h heq := by
    change q.enqueueRequest r = .ok (res, q') at heq
    simp only [enqueueRequest, Except.bind_eq_ok] at heq
    obtain ⟨o, ho, heq⟩ := heq
    rcases findWorker_ok ho with ⟨w, rfl, hw, hcan⟩ | ⟨rfl, hall⟩
    · have hp : q.ring.Perm (listRemove w q.ring ++ [w]) :=
        (listRemove_perm h.addr_nodup hw).trans
          (by simpa using (List.perm_append_comm (l₁ := [w]) (l₂ := listRemove w q.ring)))
      obtain ⟨v, l, t, h1, h2, h3, h4, h5⟩ := h.splitCur hw
      obtain ⟨v', l', t', h1', h2', h3', h4', h5'⟩ := h.splitQue hw
      have hr := h.setRing hp
      cases v with
      | none =>
        simp only [h2] at heq
        simp at heq
        obtain ⟨rfl, rfl⟩ := heq
        refine ⟨?_, ?_, Or.inl ⟨w, rfl, by simpa using hw, ?_, hcan, ?_, rfl⟩⟩
        · exact hr.setCur (w := w) (by simp) (some r)
        · exact (Multiset.coe_eq_coe.2 hp).symm
        · intro r' hr'
          have := (h.busy_iff hw r').1 (by simpa using hr')
          rw [h2] at this; cases this
        · show (↑(busyList (q.current.put w (some r))) : Multiset (Worker × Req)) = _
          rw [h3, h1]; simp [List.perm_middle]
      | some c =>
        simp only [h2] at heq
        simp at heq
        obtain ⟨rfl, rfl⟩ := heq
        refine ⟨?_, ?_, Or.inr (Or.inl ⟨rfl, ⟨w, by simpa using hw, hcan⟩, rfl, ?_⟩)⟩
        · refine hr.setQue (w := w) (by simp) _ ?_
          intro x hx
          simp only [List.mem_append, List.mem_singleton] at hx
          rcases hx with hx | rfl
          · rw [h2'] at hx
            exact h.can (w, v') (by rw [h1']; simp) x hx
          · exact hcan
        · exact (Multiset.coe_eq_coe.2 hp).symm
        · show (↑(queList (q.queues.put w (q.queues.getD w [] ++ [r]))) : Multiset Req) = _
          rw [h3', h2', h1']
          simp only [queList_append, queList_cons, Multiset.cons_coe, Multiset.coe_eq_coe]
          simp only [List.append_assoc, List.singleton_append]
          rw [← List.append_assoc, ← List.append_assoc]
          exact List.perm_middle
    · simp at heq
      obtain ⟨rfl, rfl⟩ := heq
      exact ⟨h, rfl, Or.inr (Or.inr ⟨rfl, by simpa using hall, rfl, rfl⟩)⟩
  enqueue_error {q} now r e h heq := by
    change q.enqueueRequest r = .error e at heq
    simp only [enqueueRequest, Except.bind_eq_error] at heq
    rcases heq with heq | ⟨o, ho, heq⟩
    · simpa using findWorker_error heq
    · cases o with
      | none => simp at heq
      | some w =>
        simp only at heq
        split at heq <;> simp at heq

end Multi
end Broker
