import Mathlib.Data.Finset.Card
import Mathlib.Data.List.Nodup
import Verif.Proof.Skip
import Verif.Proof.Layout
import Verif.Proof.Memory

/-!
# A broker and its past

Handling messages does not depend on how many request objects were created, how often the clock was
read, how many worker objects were created and which timers of expired workers are still kept.
-/

set_option linter.unusedSectionVars false

namespace Broker

/-! ## The past -/

/-- What was used up in the past: request objects, clock readings, worker objects, the addresses of
    worker objects that are still kept, and whether the statistics are the same.  `new`: a worker
    object that has no timer yet. -/
structure Past where
  reqs : Nat
  reads : Nat
  allocs : Nat
  kept : List Nat
  stats : Bool
  new : List Nat

/-- The request as it is after `k` others. -/
def Req.shift (k : Nat) (r : Req) : Req := { r with rid := r.rid + k }

theorem Req.shift_headers (k : Nat) (r : Req) : (r.shift k).headers = r.headers := rfl

/-- The addresses in use, given those in use of a broker without the past: workers in the registry,
    then the keys of `worker_timers_`, among which are those of the workers. -/
def withKept (kept l : List Nat) : List Nat :=
  l.take (l.length - l.toFinset.card) ++
    (l.drop (l.length - l.toFinset.card) ++ kept).mergeSort (fun a b => decide (a ≤ b))

theorem mem_withKept {kept l : List Nat} {a : Nat} (h : a ∈ l) : a ∈ withKept kept l := by
  rw [← List.take_append_drop (l.length - l.toFinset.card) l] at h
  unfold withKept
  rcases List.mem_append.1 h with h | h
  · exact List.mem_append_left _ h
  · exact List.mem_append_right _ ((List.mergeSort_perm _ _).mem_iff.2 (List.mem_append_left _ h))

theorem withKept_eq {ws ts ts' kept : List Nat} (hs : ts'.Pairwise (· < ·)) (hs0 : ts.Pairwise (· < ·))
    (hw : ws ⊆ ts) (hk : kept.Nodup) (hd : ∀ a, a ∈ ts' ↔ a ∈ ts ∨ a ∈ kept)
    (ha : ∀ a ∈ ts, a ∉ kept) : withKept kept (ws ++ ts) = ws ++ ts' := by
  have hn : ts.Nodup := hs0.imp fun h => Nat.ne_of_lt h
  have hn' : ts'.Nodup := hs.imp fun h => Nat.ne_of_lt h
  have hc : (ws ++ ts).toFinset.card = ts.length := by
    have : (ws ++ ts).toFinset = ts.toFinset := by
      ext a
      simp only [List.toFinset_append, Finset.mem_union, List.mem_toFinset]
      exact ⟨fun h => h.elim (fun h => hw h) id, Or.inr⟩
    rw [this, List.toFinset_card_of_nodup hn]
  have hl : (ws ++ ts).length - (ws ++ ts).toFinset.card = ws.length := by
    rw [hc, List.length_append]; omega
  unfold withKept
  rw [hl, List.take_left', List.drop_left']
  · congr 1
    have hp : ((ts ++ kept).mergeSort (fun a b => decide (a ≤ b))).Perm ts' := by
      refine (List.mergeSort_perm _ _).trans ?_
      refine (List.perm_ext_iff_of_nodup ?_ hn').2 fun a => ?_
      · exact List.nodup_append'.2 ⟨hn, hk, fun a h1 h2 => ha a h1 h2⟩
      · rw [hd, List.mem_append]
    refine List.Perm.eq_of_pairwise (le := fun a b => a ≤ b) (fun a b _ _ h1 h2 => Nat.le_antisymm h1 h2) ?_ ?_ hp
    · have := List.pairwise_mergeSort (le := fun a b : Nat => decide (a ≤ b))
        (fun a b c h1 h2 => by simp at *; omega) (fun a b => by simp; omega) (ts ++ kept)
      exact this.imp fun h => of_decide_eq_true h
    · exact hs.imp fun h => Nat.le_of_lt h
  · rfl
  · rfl

/-- The environment after the past. -/
def Env.after (env : Env) (p : Past) : Env where
  alloc n l := env.alloc (n + p.allocs) (withKept p.kept l)
  alloc_fresh _ _ h := env.alloc_fresh _ _ (mem_withKept h)
  clock n := env.clock (n + p.reads)
  srt := env.srt

/-! ## Maps without some keys -/

namespace WMap
variable {V : Type}

/-- The entries at other addresses. -/
def without (d : List Nat) (m : WMap V) : WMap V := m.filter fun e => decide (e.1.addr ∉ d)

theorem find_without {d : List Nat} {w : Worker} (h : w.addr ∉ d) (m : WMap V) :
    (m.without d).find w = m.find w := by
  induction m with
  | nil => rfl
  | cons a t ih =>
    obtain ⟨x, v⟩ := a
    unfold without at ih ⊢
    by_cases hx : x.addr ∈ d
    · rw [List.filter_cons_of_neg (by simpa using hx), ih]
      have : x.addr ≠ w.addr := fun e => h (e ▸ hx)
      simp only [find, if_neg this]
    · rw [List.filter_cons_of_pos (by simpa using hx)]
      simp only [find, ih]

theorem without_cons_of_lt {d : List Nat} {w : Worker} {f : WMap V → WMap V} {m : WMap V}
    (hm : ∀ e ∈ m, w.addr < e.1.addr) (c : V)
    (h0 : f [] = [(w, c)]) (hf : ∀ x u t, w.addr < x.addr → f ((x, u) :: t) = (w, c) :: (x, u) :: t) :
    f (m.without d) = (w, c) :: m.without d := by
  cases hw : m.without d with
  | nil => exact h0
  | cons a t =>
    obtain ⟨x, u⟩ := a
    have : (x, u) ∈ m := List.mem_of_mem_filter (by unfold without at hw; rw [hw]; simp)
    exact hf x u t (hm _ this)

theorem put_without {d : List Nat} {w : Worker} (h : w.addr ∉ d) (c : V) {m : WMap V}
    (hs : m.Sorted) : (m.without d).put w c = (m.put w c).without d := by
  induction m with
  | nil => simp [without, put, h]
  | cons a t ih =>
    obtain ⟨x, u⟩ := a
    obtain ⟨h1, h2⟩ := List.pairwise_cons.1 hs
    have ih := ih h2
    unfold without at ih ⊢
    simp only [put]
    by_cases hx : x.addr ∈ d
    · have hne : x.addr ≠ w.addr := fun e => h (e ▸ hx)
      rw [List.filter_cons_of_neg (by simpa using hx), if_neg hne]
      split
      · rename_i hlt
        rw [List.filter_cons_of_pos (by simpa using h), List.filter_cons_of_neg (by simpa using hx)]
        exact without_cons_of_lt (f := WMap.put w c) (m := t) (fun e he => Nat.lt_trans hlt (h1 e he)) c rfl
          (fun y v l hy => by simp only [put]; rw [if_neg (by omega), if_pos hy])
      · rw [List.filter_cons_of_neg (by simpa using hx), ih]
    · rw [List.filter_cons_of_pos (by simpa using hx)]
      simp only [put]
      split
      · rw [List.filter_cons_of_pos (by simpa using hx)]
      · split
        · rw [List.filter_cons_of_pos (by simpa using h), List.filter_cons_of_pos (by simpa using hx)]
        · rw [List.filter_cons_of_pos (by simpa using hx), ih]

theorem emplace_without {d : List Nat} {w : Worker} (h : w.addr ∉ d) (c : V) {m : WMap V}
    (hs : m.Sorted) : (m.without d).emplace w c = (m.emplace w c).without d := by
  induction m with
  | nil => simp [without, emplace, h]
  | cons a t ih =>
    obtain ⟨x, u⟩ := a
    obtain ⟨h1, h2⟩ := List.pairwise_cons.1 hs
    have ih := ih h2
    unfold without at ih ⊢
    simp only [emplace]
    by_cases hx : x.addr ∈ d
    · have hne : x.addr ≠ w.addr := fun e => h (e ▸ hx)
      rw [List.filter_cons_of_neg (by simpa using hx), if_neg hne]
      split
      · rename_i hlt
        rw [List.filter_cons_of_pos (by simpa using h), List.filter_cons_of_neg (by simpa using hx)]
        exact without_cons_of_lt (f := WMap.emplace w c) (m := t) (fun e he => Nat.lt_trans hlt (h1 e he)) c rfl
          (fun y v l hy => by simp only [emplace]; rw [if_neg (by omega), if_pos hy])
      · rw [List.filter_cons_of_neg (by simpa using hx), ih]
    · rw [List.filter_cons_of_pos (by simpa using hx)]
      simp only [emplace]
      split
      · rw [List.filter_cons_of_pos (by simpa using hx)]
      · split
        · rw [List.filter_cons_of_pos (by simpa using h), List.filter_cons_of_pos (by simpa using hx)]
        · rw [List.filter_cons_of_pos (by simpa using hx), ih]

theorem addr_mem_put (m : WMap V) (w : Worker) (c : V) {a : Nat}
    (h : a ∈ m.map (·.1.addr) ∨ a = w.addr) : a ∈ (m.put w c).map (·.1.addr) := by
  induction m with
  | nil => rcases h with h | h <;> simp_all [put]
  | cons e t ih =>
    obtain ⟨x, u⟩ := e
    simp only [put]
    split
    · rename_i he
      rcases h with h | h
      · simpa using h
      · simp [h, he]
    · split
      · rcases h with h | h
        · exact List.mem_cons_of_mem _ h
        · simp [h]
      · simp only [List.map_cons, List.mem_cons] at h ⊢
        rcases h with (h | h) | h
        · exact .inl h
        · exact .inr (ih (.inl h))
        · exact .inr (ih (.inr h))

theorem addr_mem_emplace (m : WMap V) (w : Worker) (c : V) {a : Nat}
    (h : a ∈ m.map (·.1.addr) ∨ a = w.addr) : a ∈ (m.emplace w c).map (·.1.addr) := by
  induction m with
  | nil => rcases h with h | h <;> simp_all [emplace]
  | cons e t ih =>
    obtain ⟨x, u⟩ := e
    simp only [emplace]
    split
    · rename_i he
      rcases h with h | h
      · simpa using h
      · simp [h, he]
    · split
      · rcases h with h | h
        · exact List.mem_cons_of_mem _ h
        · simp [h]
      · simp only [List.map_cons, List.mem_cons] at h ⊢
        rcases h with (h | h) | h
        · exact .inl h
        · exact .inr (ih (.inl h))
        · exact .inr (ih (.inr h))

end WMap

/-! ## A broker with the past and one without -/

variable {Q : Type} [QueueManager Q] [BareQM Q]

/-- `s` is the state of a broker with the past `p`, `u` that of one without. -/
structure Anew (p : Past) (u s : HState Q) : Prop where
  workers : s.workers = u.workers
  queue : s.queue = BareQM.ren (Req.shift p.reqs) u.queue
  timers : u.timers = s.timers.without p.kept
  sorted : s.timers.Sorted
  nodup : p.kept.Nodup
  kept : ∀ a ∈ p.kept, a ∈ s.timers.map (·.1.addr)
  apart : ∀ w ∈ u.workers, w.addr ∉ p.kept
  known : ∀ w ∈ u.workers, w.addr ∈ s.timers.map (·.1.addr) ∨ w.addr ∈ p.new
  live : ∀ a, a ∉ p.kept → s.live a = u.live a
  fc : ∀ x, s.fc (x + p.reqs) = u.fc x
  nextRid : s.nextRid = u.nextRid + p.reqs
  allocs : s.allocs = u.allocs + p.allocs
  clockReads : s.clockReads = u.clockReads + p.reads
  stats : p.stats = true → s.stats = u.stats
  frozen : s.frozen = u.frozen
  outs : s.outs = u.outs

/-- `y` does with the past what `x` does without. -/
def Anews (p p' : Past) {α : Type} (f : α → α) (x y : HM Q α) : Prop :=
  ∀ u s, Anew p u s → match x u, y s with
    | .ok a u', .ok b s' => b = f a ∧ Anew p' u' s'
    | .error e u', .error e' s' => e' = e ∧ s'.outs = u'.outs
    | _, _ => False

variable {p p' p'' : Past}

theorem Anews.bind {α β : Type} {f : α → α} {g : β → β} {x y : HM Q α} {k l : α → HM Q β}
    (h : Anews p p' f x y) (hk : ∀ a, Anews p' p'' g (k a) (l (f a))) :
    Anews p p'' g (x >>= k) (y >>= l) := by
  intro u s hs
  have h0 := h u s hs
  show match EStateM.bind x k u, EStateM.bind y l s with
    | .ok a u', .ok b s' => b = g a ∧ Anew p'' u' s'
    | .error e u', .error e' s' => e' = e ∧ s'.outs = u'.outs
    | _, _ => False
  simp only [EStateM.bind]
  cases hx : x u with
  | ok a u' =>
    cases hy : y s with
    | ok b s' =>
      rw [hx, hy] at h0
      simp only at h0 ⊢
      rw [h0.1]
      exact hk a u' s' h0.2
    | error e s' => rw [hx, hy] at h0; exact h0.elim
  | error e u' =>
    cases hy : y s with
    | ok b s' => rw [hx, hy] at h0; exact h0.elim
    | error e' s' => rw [hx, hy] at h0; exact h0

theorem Anews.getBind {β : Type} {g : β → β} {k l : HState Q → HM Q β}
    (h : ∀ u s, Anew p u s → Anews p p' g (k u) (l s)) :
    Anews p p' g (MonadState.get >>= k) (MonadState.get >>= l) := fun u s hs => h u s hs u s hs

theorem Anews.pure {α : Type} {f : α → α} (a : α) :
    Anews (Q := Q) p p f (pure a) (pure (f a)) := fun _ _ hs => ⟨rfl, hs⟩

theorem Anews.unit : Anews (Q := Q) p p id (Pure.pure ()) (Pure.pure ()) := fun _ _ hs => ⟨rfl, hs⟩

theorem Anews.raise {α : Type} {f : α → α} (e : Exn) :
    Anews (Q := Q) p p' f (Broker.raise e) (Broker.raise e) := fun _ _ h => ⟨rfl, h.outs⟩

theorem Anews.undef {α : Type} {f : α → α} (e : UB) :
    Anews (Q := Q) p p' f (Broker.undef e) (Broker.undef e) := fun _ _ h => ⟨rfl, h.outs⟩

theorem Anews.set {u s : HState Q} (h : Anew p' u s) :
    Anews (Q := Q) (α := PUnit) p p' id (MonadStateOf.set u) (MonadStateOf.set s) :=
  fun _ _ _ => ⟨rfl, h⟩

theorem Anews.modify {f g : HState Q → HState Q} (h : ∀ u s, Anew p u s → Anew p' (f u) (g s)) :
    Anews (Q := Q) (α := PUnit) p p' id (_root_.modify f) (_root_.modify g) :=
  fun u s hs => ⟨rfl, h u s hs⟩

theorem Anews.liftE {α : Type} {f : α → α} {x y : Except Exn α} (h : y = x.map f) :
    Anews (Q := Q) p p f (Broker.liftE x) (Broker.liftE y) := by
  subst h
  cases x with
  | ok a => exact fun _ _ hs => ⟨rfl, hs⟩
  | error e => exact fun _ _ hs => ⟨rfl, hs.outs⟩

theorem Anews.okBind {α β : Type} {g : β → β} {w : α} {k l : α → HM Q β}
    (h : Anews p p' g (k w) (l w)) :
    Anews p p' g (Broker.liftE (.ok w) >>= k) (Broker.liftE (.ok w) >>= l) := h

theorem Anews.ite {α : Type} {f : α → α} {c : Prop} [Decidable c] {x x' y y' : HM Q α}
    (h : Anews p p' f x y) (h' : Anews p p' f x' y') :
    Anews p p' f (if c then x else x') (if c then y else y') := by
  split <;> assumption

theorem Anews.respond {key identity : String} {data : List String} :
    Anews (Q := Q) p p id (Broker.respond key identity data) (Broker.respond key identity data) :=
  Anews.modify fun _ _ h => { h with outs := by show _ ++ _ = _ ++ _; rw [h.outs] }

theorem anews_send (w : Worker) (r : Req) :
    Anews (Q := Q) p p id (sendRequest w r) (sendRequest w (r.shift p.reqs)) := Anews.respond

theorem anews_sendIf (w : Worker) (r : Option Req) :
    Anews (Q := Q) p p id (sendIfSome w r) (sendIfSome w (r.map (Req.shift p.reqs))) := by
  cases r with
  | none => exact Anews.unit
  | some r => exact anews_send w r

theorem anews_check (cfg : HConfig) (r : Req) (t : String) :
    Anews (Q := Q) p p id (checkFailureCount cfg r t)
      (checkFailureCount cfg (r.shift p.reqs) t) := by
  unfold checkFailureCount
  refine Anews.getBind fun u s h => ?_
  have e1 : s.fc (r.shift p.reqs).rid = u.fc r.rid := h.fc _
  rw [e1]
  refine Anews.ite ?_ (Anews.pure (f := id) _)
  refine Anews.respond.bind fun _ => ?_
  exact Anews.respond.bind fun _ => Anews.pure (f := id) _

theorem Anew.setQueue {u s : HState Q} (h : Anew p u s) {q q' : Q}
    (hq : q' = BareQM.ren (Req.shift p.reqs) q) :
    Anew p { u with queue := q } { s with queue := q' } := { h with queue := hq }

theorem anews_qAddWorker {env : Env} (he : BareQM.okSort Q env.srt) (w : Worker)
    (c : Option Req) :
    Anews (Q := Q) p p (Option.map (Req.shift p.reqs)) (qAddWorker (env.after p') w c)
      (qAddWorker env w (c.map (Req.shift p.reqs))) := by
  unfold qAddWorker
  refine Anews.getBind fun u s h => ?_
  rw [h.queue]
  refine (Anews.liftE (BareQM.addWorker he _ (Req.shift_headers p.reqs) _ _ _)).bind fun x => ?_
  exact Anews.bind (Anews.modify fun _ _ h => h.setQueue rfl) fun _ => Anews.pure _

theorem anews_qAssign {env : Env} (he : BareQM.okSort Q env.srt) (w : Worker) :
    Anews (Q := Q) p p (Option.map (Req.shift p.reqs)) (qAssign (env.after p') w)
      (qAssign env w) := by
  unfold qAssign
  refine Anews.getBind fun u s h => ?_
  rw [h.queue]
  refine (Anews.liftE (BareQM.assignRequest he _ (Req.shift_headers p.reqs) _ _)).bind fun x => ?_
  exact Anews.bind (Anews.modify fun _ _ h => h.setQueue rfl) fun _ => Anews.pure _

theorem anews_qFinished {env : Env} (he : BareQM.okSort Q env.srt) (w : Worker) :
    Anews (Q := Q) p p (Option.map (Req.shift p.reqs)) (qFinished (env.after p') w)
      (qFinished env w) := by
  unfold qFinished
  refine Anews.getBind fun u s h => ?_
  rw [h.queue]
  refine (Anews.liftE (BareQM.workerFinished he _ (Req.shift_headers p.reqs) _ _)).bind fun x => ?_
  exact Anews.bind (Anews.modify fun _ _ h => h.setQueue rfl) fun _ => Anews.pure _

theorem anews_qTerminated (w : Worker) :
    Anews (Q := Q) p p (List.map (Req.shift p.reqs)) (qTerminated w) (qTerminated w) := by
  unfold qTerminated
  refine Anews.getBind fun u s h => ?_
  rw [h.queue]
  refine (Anews.liftE (BareQM.workerTerminated _ (Req.shift_headers p.reqs) _ _)).bind fun x => ?_
  exact Anews.bind (Anews.modify fun _ _ h => h.setQueue rfl) fun _ => Anews.pure _

theorem anews_qEnqueue (env : Env) (r : Req) :
    Anews (Q := Q) p p id (qEnqueue (env.after p) r) (qEnqueue env (r.shift p.reqs)) := by
  unfold qEnqueue
  refine Anews.getBind fun u s h => ?_
  rw [h.queue, h.clockReads]
  refine (Anews.liftE (BareQM.enqueueRequest _ (Req.shift_headers p.reqs) _ _ _)).bind fun x => ?_
  refine Anews.bind (Anews.modify fun u s h => { h with queue := rfl, clockReads := ?_ })
    fun _ => Anews.pure _
  show s.clockReads + 1 = u.clockReads + 1 + p.reads
  rw [h.clockReads]; omega

theorem anews_qCurrent (w : Worker) :
    Anews (Q := Q) p p (Option.map (Req.shift p.reqs)) (qCurrent w) (qCurrent w) := by
  unfold qCurrent
  refine Anews.getBind fun u s h => ?_
  rw [h.queue, BareQM.currentRequest _ (Req.shift_headers p.reqs)]
  exact Anews.bind (Anews.modify fun _ _ h => h.setQueue rfl) fun _ => Anews.pure _

theorem anews_qCancelled (w : Worker) :
    Anews (Q := Q) p p (Option.map (Req.shift p.reqs)) (qCancelled w) (qCancelled w) := by
  unfold qCancelled
  refine Anews.getBind fun u s h => ?_
  rw [h.queue, BareQM.workerCancelled _ (Req.shift_headers p.reqs)]
  exact Anews.bind (Anews.modify fun _ _ h => h.setQueue rfl) fun _ => Anews.pure _

theorem anews_reassign (env : Env) (r : Req) :
    Anews (Q := Q) p p id (reassignRequest (env.after p) r)
      (reassignRequest env (r.shift p.reqs)) := by
  unfold reassignRequest
  refine (anews_qEnqueue env r).bind fun res => ?_
  refine Anews.ite ?_ ?_
  · dsimp only [id]
    cases res.assignedTo with
    | none => exact Anews.pure _
    | some w => exact (anews_send w r).bind fun _ => Anews.pure _
  · exact Anews.respond.bind fun _ => Anews.pure _

/-! ### Client commands -/

theorem shift_upd {f g : Nat → Nat} {k : Nat} (h : ∀ x, f (x + k) = g x) (n v x : Nat) :
    upd f (n + k) v (x + k) = upd g n v x := by
  simp only [upd, h, Nat.add_right_cancel_iff]

theorem anews_submit (env : Env) (i j : String) (hs : Headers) (md : Metadata)
    (ex : List String) :
    Anews (Q := Q) p p id (submit (env.after p) i j hs md ex) (submit env i j hs md ex) := by
  unfold submit
  refine Anews.getBind fun u s h => ?_
  rw [h.nextRid]
  refine (Anews.set (p' := p) (by
    exact { h with nextRid := Nat.add_right_comm _ _ _
                   fc := fun x => shift_upd h.fc _ _ _ })).bind fun _ => ?_
  have e : Req.full (u.nextRid + p.reqs) hs md j ex
      = (Req.full u.nextRid hs md j ex).shift p.reqs := rfl
  rw [e]
  refine (anews_qEnqueue env _).bind fun res => ?_
  refine Anews.ite ?_ ?_
  · dsimp only [id]
    cases res.assignedTo with
    | none => exact Anews.respond
    | some w => exact Anews.bind (anews_send w _) fun _ => Anews.respond
  · exact Anews.bind Anews.respond fun _ => Anews.respond

theorem anews_eval (env : Env) (i : String) (m : List String) :
    Anews (Q := Q) p p id (processEval (env.after p) i m) (processEval env i m) := by
  unfold processEval
  refine Anews.respond.bind fun _ => ?_
  cases m[1]? with
  | none => exact Anews.raise _
  | some j =>
    dsimp only
    cases evalHeaders (m.drop 2) [] [] with
    | error u => exact Anews.undef _
    | ok o =>
      cases o with
      | none => exact Anews.unit
      | some x =>
        obtain ⟨hs, md, ex⟩ := x
        dsimp only
        refine Anews.getBind fun u s h => ?_
        rw [h.frozen]
        exact Anews.ite Anews.respond (anews_submit _ _ _ _ _ _)

theorem anews_stats (hp : p.stats = true) (i : String) :
    Anews (Q := Q) p p id (processStats i) (processStats i) := by
  unfold processStats
  refine Anews.getBind fun u s h => ?_
  rw [h.stats hp, h.frozen]
  exact Anews.respond

theorem anews_freeze (i : String) :
    Anews (Q := Q) p p id (processFreeze i) (processFreeze i) := by
  unfold processFreeze
  exact Anews.bind (Anews.modify fun _ _ h => { h with frozen := rfl }) fun _ => Anews.respond

theorem anews_unfreeze (i : String) :
    Anews (Q := Q) p p id (processUnfreeze i) (processUnfreeze i) := by
  unfold processUnfreeze
  exact Anews.bind (Anews.modify fun _ _ h => { h with frozen := rfl }) fun _ => Anews.respond

/-! ### Worker commands -/

theorem Anew.addr_iff {u s : HState Q} (h : Anew p u s) (a : Nat) :
    a ∈ s.timers.map (·.1.addr) ↔ a ∈ u.timers.map (·.1.addr) ∨ a ∈ p.kept := by
  rw [h.timers]
  simp only [List.mem_map, WMap.without, List.mem_filter, decide_eq_true_eq]
  constructor
  · rintro ⟨e, he, rfl⟩
    by_cases hk : e.1.addr ∈ p.kept
    · exact .inr hk
    · exact .inl ⟨e, ⟨he, hk⟩, rfl⟩
  · rintro (⟨e, ⟨he, -⟩, rfl⟩ | hk)
    · exact ⟨e, he, rfl⟩
    · exact List.mem_map.1 (h.kept a hk)

/-- The objects in use. -/
theorem Anew.addrs {u s : HState Q} (h : Anew p u s) (hn : p.new = []) :
    s.addrs = withKept p.kept u.addrs := by
  have hs : (s.timers.map (·.1.addr)).Pairwise (· < ·) := List.pairwise_map.2 h.sorted
  have hs' : u.timers.Sorted := by rw [h.timers]; exact h.sorted.sublist (List.filter_sublist)
  unfold HState.addrs
  rw [withKept_eq (ts' := s.timers.map (·.1.addr)) hs (List.pairwise_map.2 hs') ?_ h.nodup h.addr_iff,
    h.workers]
  · intro a ha hk
    rw [h.timers] at ha
    obtain ⟨e, he, rfl⟩ := List.mem_map.1 ha
    exact absurd hk (of_decide_eq_true (List.mem_filter.1 he).2)
  · intro a ha
    obtain ⟨w, hw, rfl⟩ := List.mem_map.1 ha
    rcases h.known w hw with h1 | h1
    · exact ((h.addr_iff _).1 h1).resolve_right (h.apart w hw)
    · rw [hn] at h1; cases h1

theorem anews_register {env : Env} (hn : p.new = []) (he : BareQM.okSort Q env.srt) (i g : String)
    (hs : Headers) (ex : List String) :
    Anews (Q := Q) p p id (registerWorker (env.after p) i g hs ex)
      (registerWorker env i g hs ex) := by
  unfold registerWorker
  refine Anews.getBind fun u s h => ?_
  cases initExtra ex "" none with
  | mk d j =>
    dsimp only
    have ea : env.alloc s.allocs s.addrs = (env.after p).alloc u.allocs u.addrs := by
      rw [h.addrs hn, h.allocs]; rfl
    have hf : env.alloc s.allocs s.addrs ∉ s.addrs := env.alloc_fresh _ _
    rw [ea] at hf ⊢
    generalize (env.after p).alloc u.allocs u.addrs = a at hf ⊢
    have hfk : a ∉ p.kept := fun hk => hf (List.mem_append_right _ (h.kept a hk))
    cases hc : Worker.create a i g hs d with
    | error e => exact fun _ _ h => ⟨rfl, h.outs⟩
    | ok w =>
      have hwa : w.addr = a := by
        unfold Worker.create at hc
        simp only [bind, Except.bind] at hc
        split at hc
        · cases hc
        · cases hc; rfl
      have hset : Anew { p with new := [a] }
          { u with
            live := upd u.live a 0, allocs := u.allocs + 1, fc := upd u.fc u.nextRid 0,
            nextRid := u.nextRid + 1, workers := u.workers ++ [w] }
          { s with
            live := upd s.live a 0, allocs := s.allocs + 1, fc := upd s.fc s.nextRid 0,
            nextRid := s.nextRid + 1, workers := s.workers ++ [w] } := by
        refine { h with
          workers := by show _ ++ _ = _ ++ _; rw [h.workers]
          apart := ?_, known := ?_, live := ?_, fc := ?_, nextRid := ?_, allocs := ?_ }
        · intro x hx
          rcases List.mem_append.1 hx with hx | hx
          · exact h.apart x hx
          · rw [List.mem_singleton.1 hx, hwa]; exact hfk
        · intro x hx
          rcases List.mem_append.1 hx with hx | hx
          · rcases h.known x hx with h1 | h1
            · exact .inl h1
            · rw [hn] at h1; cases h1
          · right; rw [List.mem_singleton.1 hx, hwa]; exact List.mem_singleton.2 rfl
        · intro x hx
          show upd _ _ _ _ = upd _ _ _ _
          simp only [upd, h.live x hx]
        · intro x
          show upd _ _ _ _ = _
          rw [h.nextRid]; exact shift_upd h.fc _ _ _
        · show s.nextRid + 1 = u.nextRid + 1 + p.reqs
          rw [h.nextRid]; omega
        · show s.allocs + 1 = u.allocs + 1 + p.allocs
          rw [h.allocs]; omega
      have e : Option.map (Req.incomplete s.nextRid) j
          = (Option.map (Req.incomplete u.nextRid) j).map (Req.shift p.reqs) := by
        rw [h.nextRid]
        cases j <;> rfl
      have hem : Anews (Q := Q) (α := PUnit) { p with new := [a] } p id
          (modify fun s => { s with timers := s.timers.emplace w 0 })
          (modify fun s => { s with timers := s.timers.emplace w 0 }) := by
        refine Anews.modify fun u s h => { h with
          timers := ?_, sorted := h.sorted.emplace _ _, kept := ?_, known := ?_ }
        · show u.timers.emplace w 0 = _
          rw [h.timers, WMap.emplace_without (by rw [hwa]; exact hfk) _ h.sorted]
        · intro x hx
          exact WMap.addr_mem_emplace _ _ _ (.inl (h.kept x hx))
        · intro x hx
          left
          refine WMap.addr_mem_emplace _ _ _ ?_
          rcases h.known x hx with h1 | h1
          · exact .inl h1
          · right; rw [List.mem_singleton.1 h1, hwa]
      refine Anews.okBind ?_
      refine Anews.bind (Anews.set hset) fun _ => ?_
      rw [e]
      refine Anews.bind (anews_qAddWorker (p := { p with new := [a] }) he w _) fun o => ?_
      cases o with
      | none => exact hem
      | some r => exact Anews.bind (anews_send (p := { p with new := [a] }) w r) fun _ => hem

theorem anews_init {env : Env} (hn : p.new = []) (he : BareQM.okSort Q env.srt) (i : String) (m : List String) :
    Anews (Q := Q) p p id (processInit (env.after p) i m) (processInit env i m) := by
  unfold processInit
  match m with
  | [] => exact Anews.unit
  | [_] => exact Anews.unit
  | _ :: g :: rest =>
    dsimp only
    refine Anews.getBind fun u s h => ?_
    rw [h.workers]
    cases hf : regFind i u.workers with
    | none => exact anews_register hn he _ _ _ _
    | some w =>
      refine Anews.ite Anews.unit ?_
      exact Anews.bind Anews.respond fun _ => anews_register hn he _ _ _ _

theorem anews_bump (r : Req) :
    Anews (Q := Q) p p id (bumpCount r) (bumpCount (r.shift p.reqs)) := by
  refine Anews.modify fun u s h => { h with fc := fun x => ?_ }
  have e1 : s.fc (r.shift p.reqs).rid = u.fc r.rid := h.fc _
  rw [e1]
  exact shift_upd h.fc _ _ _

theorem anews_countFailed : Anews (Q := Q) p p id countFailed countFailed := by
  refine Anews.modify fun u s h => { h with stats := fun hp => ?_ }
  dsimp only
  rw [h.stats hp]

theorem anews_countEvaluated : Anews (Q := Q) p p id countEvaluated countEvaluated := by
  refine Anews.modify fun u s h => { h with stats := fun hp => ?_ }
  dsimp only
  rw [h.stats hp]

theorem anews_doneOk {env : Env} (he : BareQM.okSort Q env.srt) (w : Worker) (j : String) :
    Anews (Q := Q) p p id (doneOk (env.after p) w j) (doneOk env w j) := by
  unfold doneOk
  refine Anews.bind Anews.respond fun _ => ?_
  refine Anews.bind (anews_qFinished he w) fun o => ?_
  exact Anews.bind (anews_sendIf w o) fun _ => anews_countEvaluated

theorem anews_doneInternal (cfg : HConfig) {env : Env} (he : BareQM.okSort Q env.srt)
    (w : Worker) (t : String) :
    Anews (Q := Q) p p id (doneInternal cfg (env.after p) w t) (doneInternal cfg env w t) := by
  unfold doneInternal
  refine Anews.bind (anews_qCancelled w) fun o => ?_
  cases o with
  | none => exact Anews.undef _
  | some r =>
    simp only [Option.map_some]
    refine Anews.bind (anews_bump r) fun _ => ?_
    have e : (r.shift p.reqs).complete = r.complete := rfl
    rw [e]
    refine Anews.ite ?_ ?_
    · exact Anews.bind Anews.respond fun _ => anews_countFailed
    · refine Anews.bind (anews_check cfg r t) fun b => ?_
      refine Anews.ite ?_ ?_
      · refine Anews.bind (anews_reassign env r) fun _ => ?_
        exact anews_countFailed
      · refine Anews.bind (anews_qAssign he w) fun o => ?_
        exact Anews.bind (anews_sendIf w o) fun _ => anews_countFailed

theorem anews_doneFailed {env : Env} (he : BareQM.okSort Q env.srt) (w : Worker)
    (j t : String) :
    Anews (Q := Q) p p id (doneFailed (env.after p) w j t)
      (doneFailed env w j t) := by
  unfold doneFailed
  refine Anews.bind Anews.respond fun _ => ?_
  refine Anews.bind (anews_qCancelled w) fun o => ?_
  cases o with
  | none => exact Anews.undef _
  | some r =>
    simp only [Option.map_some]
    refine Anews.bind (anews_bump r) fun _ => ?_
    refine Anews.bind (anews_qAssign he w) fun o => ?_
    exact Anews.bind (anews_sendIf w o) fun _ => anews_countFailed

theorem anews_current_unit (w : Worker) :
    Anews (Q := Q) p p id (do let _ ← qCurrent w) (do let _ ← qCurrent w) :=
  Anews.bind (anews_qCurrent w) fun _ => Anews.unit

theorem anews_done (cfg : HConfig) {env : Env} (he : BareQM.okSort Q env.srt) (i : String)
    (m : List String) :
    Anews (Q := Q) p p id (processDone cfg (env.after p) i m) (processDone cfg env i m) := by
  unfold processDone
  refine Anews.getBind fun u s h => ?_
  rw [h.workers]
  cases hf : regFind i u.workers with
  | none => exact Anews.unit
  | some w =>
    dsimp only
    match m with
    | [] => exact Anews.unit
    | [_] => exact Anews.unit
    | [_, _] => exact Anews.unit
    | _ :: j :: st :: rest =>
      dsimp only
      refine Anews.bind (anews_qCurrent w) fun o => ?_
      cases o with
      | none => exact Anews.undef _
      | some r =>
        simp only [Option.map_some]
        have e : (r.shift p.reqs).jobId = r.jobId := rfl
        simp only [e]
        refine Anews.ite Anews.unit (Anews.ite ?_ (Anews.ite ?_ (Anews.ite ?_ ?_)))
        · exact Anews.bind (anews_doneOk he w j) fun _ => anews_current_unit w
        · match rest with
          | [] => exact Anews.unit
          | [t] =>
            exact Anews.bind (anews_doneInternal cfg he w t) fun _ => anews_current_unit w
          | _ :: _ :: _ => exact Anews.unit
        · match rest with
          | [] => exact Anews.unit
          | [t] =>
            exact Anews.bind (anews_doneFailed he w j t) fun _ => anews_current_unit w
          | _ :: _ :: _ => exact Anews.unit
        · exact anews_current_unit w

theorem anews_ping (i : String) : Anews (Q := Q) p p id (processPing i) (processPing i) := by
  unfold processPing
  refine Anews.getBind fun u s h => ?_
  rw [h.workers]
  cases hf : regFind i u.workers <;> exact Anews.respond

theorem anews_progress (m : List String) :
    Anews (Q := Q) p p id (processProgress m) (processProgress m) := by
  unfold processProgress
  exact Anews.respond

theorem anews_worker (hn : p.new = []) (cfg : HConfig) {env : Env} (he : BareQM.okSort Q env.srt) (c i : String)
    (m : List String) :
    Anews (Q := Q) p p id (workerCommand cfg (env.after p) c i m) (workerCommand cfg env c i m) := by
  unfold workerCommand
  exact Anews.ite (anews_init hn he i m) (Anews.ite (anews_done cfg he i m)
    (Anews.ite (anews_ping i) (Anews.ite (anews_progress m) Anews.unit)))

/-! ### Timer -/

theorem regRemove_mem {w x : Worker} : ∀ {l : List Worker}, x ∈ regRemove w l → x ∈ l
  | [], h => h
  | y :: t, h => by
    simp only [regRemove] at h
    split at h
    · exact List.mem_cons_of_mem _ h
    · rcases List.mem_cons.1 h with h | h
      · simp [h]
      · exact List.mem_cons_of_mem _ (regRemove_mem h)

theorem Anew.putTimer {u s : HState Q} (h : Anew p u s) {w : Worker} (hw : w.addr ∉ p.kept)
    (t : Int) (f g : Nat → Nat) (hfg : ∀ a, a ∉ p.kept → g a = f a) :
    Anew p { u with live := f, timers := u.timers.put w t }
      { s with live := g, timers := s.timers.put w t } :=
  { h with
    timers := by
      show u.timers.put w t = _
      rw [h.timers, WMap.put_without hw _ h.sorted]
    sorted := h.sorted.put _ _
    kept := fun a ha => WMap.addr_mem_put _ _ _ (.inl (h.kept a ha))
    known := fun x hx => (h.known x hx).imp (fun h1 => WMap.addr_mem_put _ _ _ (.inl h1)) id
    live := hfg }

theorem anews_tickBody (cfg : HConfig) (t : Int) (dec : Nat → Nat) (zero : Nat → Bool) {w : Worker}
    (hw : w.addr ∉ p.kept) :
    Anews (Q := Q) p p id (tickBody cfg t dec zero w) (tickBody cfg t dec zero w) := by
  unfold tickBody
  refine Anews.getBind fun u s h => ?_
  have e : s.timers.getD w 0 = u.timers.getD w 0 := by
    unfold WMap.getD
    rw [h.timers, WMap.find_without hw]
  dsimp only
  rw [e, h.live _ hw]
  refine Anews.ite ?_ ?_
  · refine Anews.bind (Anews.set (h.putTimer hw _ _ _ ?_)) fun _ =>
      Anews.pure (f := id) (zero (dec (u.live w.addr)))
    intro a ha
    simp only [upd, h.live a ha]
  · exact Anews.bind (Anews.set (h.putTimer hw _ _ _ h.live)) fun _ => Anews.pure (f := id) false

theorem anews_tick (cfg : HConfig) (t : Int) {w : Worker} (hw : w.addr ∉ p.kept) :
    Anews (Q := Q) p p id (tickWorker cfg t w) (tickWorker cfg t w) :=
  anews_tickBody cfg t szDec (fun l => decide (l ≤ 0)) hw

theorem anews_ticks (cfg : HConfig) (t : Int) {ws : List Worker} (hw : ∀ w ∈ ws, w.addr ∉ p.kept) :
    Anews (Q := Q) p p id (tickWorkers cfg t ws) (tickWorkers cfg t ws) := by
  induction ws with
  | nil => exact Anews.pure _
  | cons w ws ih =>
    unfold tickWorkers
    refine Anews.bind (anews_tick cfg t (hw w (by simp))) fun b => ?_
    exact Anews.bind (ih fun x hx => hw x (by simp [hx])) fun r => Anews.pure _

theorem anews_settle (cfg : HConfig) (env : Env) (rs : List Req) :
    Anews (Q := Q) p p (List.map (Req.shift p.reqs)) (settleRequests cfg (env.after p) rs)
      (settleRequests cfg env (rs.map (Req.shift p.reqs))) := by
  induction rs with
  | nil => exact Anews.pure _
  | cons r rs ih =>
    unfold settleRequests
    simp only [List.map_cons]
    have e : (r.shift p.reqs).complete = r.complete := rfl
    rw [e]
    refine Anews.ite ?_ ?_
    · refine Anews.bind Anews.respond fun _ => ?_
      exact Anews.bind Anews.respond fun _ => ih
    · refine Anews.bind (anews_check cfg r timeoutMsg) fun b => ?_
      refine Anews.ite ?_ ih
      refine Anews.bind (anews_reassign env r) fun b => ?_
      refine Anews.ite ?_ ?_
      · exact Anews.bind Anews.respond fun _ => ih
      · exact Anews.bind ih fun _ => Anews.pure _

theorem anews_rejectAll (d : String) (rs : List Req) :
    Anews (Q := Q) p p id (rejectAll d rs) (rejectAll d (rs.map (Req.shift p.reqs))) := by
  induction rs with
  | nil => exact Anews.unit
  | cons r rs ih =>
    unfold rejectAll
    exact Anews.bind Anews.respond fun _ => ih

theorem anews_expire (cfg : HConfig) (env : Env) (w : Worker) :
    Anews (Q := Q) p p id (expireWorker cfg (env.after p) w) (expireWorker cfg env w) := by
  unfold expireWorker
  refine Anews.bind (Anews.modify fun u s h => { h with
    workers := by show regRemove w _ = regRemove w _; rw [h.workers]
    apart := fun x hx => h.apart x ((regRemove_mem hx))
    known := fun x hx => h.known x ((regRemove_mem hx)) }) fun _ => ?_
  refine Anews.bind (anews_qCurrent w) fun o => ?_
  have tail : Anews (Q := Q) p p id
      (do
        let requests ← qTerminated w
        let unassigned ← settleRequests cfg (env.after p) requests
        rejectAll ("Worker " ++ w.getDescription ++ " dieded") unassigned)
      (do
        let requests ← qTerminated w
        let unassigned ← settleRequests cfg env requests
        rejectAll ("Worker " ++ w.getDescription ++ " dieded") unassigned) := by
    refine Anews.bind (anews_qTerminated w) fun rs => ?_
    exact Anews.bind (anews_settle cfg env rs) fun _ => anews_rejectAll _ _
  cases o with
  | none => exact tail
  | some r => exact Anews.bind (anews_bump r) fun _ => tail

theorem anews_expires (cfg : HConfig) (env : Env) (ws : List Worker) :
    Anews (Q := Q) p p id (expireWorkers cfg (env.after p) ws) (expireWorkers cfg env ws) := by
  induction ws with
  | nil => exact Anews.unit
  | cons w ws ih => exact Anews.bind (anews_expire cfg env w) fun _ => ih

theorem anews_countIdle (ws : List Worker) :
    Anews (Q := Q) p p id (countIdle ws) (countIdle ws) := by
  induction ws with
  | nil => exact Anews.pure _
  | cons w ws ih =>
    unfold countIdle
    refine Anews.bind (anews_qCurrent w) fun o => ?_
    refine Anews.bind ih fun n => ?_
    cases o <;> exact Anews.pure _

theorem anews_gauges : Anews (Q := Q) p p id updateGauges updateGauges := by
  unfold updateGauges
  refine Anews.getBind fun u s h => ?_
  rw [h.queue, h.workers, BareQM.queuedCount _ (Req.shift_headers p.reqs)]
  refine Anews.bind (anews_countIdle _) fun n => Anews.modify fun u s h => { h with stats := fun hp => ?_ }
  dsimp only [id]
  rw [h.stats hp, h.workers]

theorem anews_timer (cfg : HConfig) (env : Env) (d : List String) :
    Anews (Q := Q) p p id (processTimer cfg (env.after p) d) (processTimer cfg env d) := by
  unfold processTimer
  match d with
  | [] => exact Anews.undef _
  | f :: _ =>
    dsimp only
    refine Anews.bind (Anews.liftE (f := id) (by cases stoll f <;> rfl)) fun t => ?_
    refine Anews.getBind fun u s h => ?_
    dsimp only [id]
    rw [h.workers]
    refine Anews.bind (anews_ticks cfg t h.apart) fun ws => ?_
    exact Anews.bind (anews_expires cfg env ws) fun _ => anews_gauges

/-! ### Events -/

theorem anews_touch (cfg : HConfig) (i : String) :
    Anews (Q := Q) p p id (touchWorker cfg i) (touchWorker cfg i) := by
  unfold touchWorker
  refine Anews.getBind fun u s h => ?_
  have e : regFind i s.workers = regFind i u.workers := by rw [h.workers]
  rw [e]
  cases hf : regFind i u.workers with
  | none => exact Anews.unit
  | some w =>
    refine Anews.set (h.putTimer (h.apart w (regFind_mem hf).1) _ _ _ ?_)
    intro a ha
    simp only [upd, h.live a ha]

theorem anews_request (hn : p.new = []) (cfg : HConfig) {env : Env} (he : BareQM.okSort Q env.srt)
    (m : Msg)
    (hq : p.stats = true ∨ m.key ≠ keyClients ∨ m.data.head? ≠ some "get-runtime-stats") :
    Anews (Q := Q) p p id (onRequest cfg (env.after p) m) (onRequest cfg env m) := by
  obtain ⟨k, i, d⟩ := m
  unfold onRequest
  refine Anews.ite ?_ ?_
  · refine Anews.bind (anews_touch cfg _) fun _ => ?_
    cases d with
    | nil => exact Anews.raise _
    | cons c t => exact anews_worker hn cfg he c i _
  · by_cases hk : k = keyClients
    · rw [if_pos hk, if_pos hk]
      cases d with
      | nil => exact Anews.raise _
      | cons c t =>
        dsimp only
        unfold clientCommand
        refine Anews.ite (anews_eval env _ _) ?_
        by_cases hc : c = "get-runtime-stats"
        · rw [if_pos hc]
          refine anews_stats ?_ _
          rcases hq with h | h | h
          · exact h
          · exact absurd hk h
          · exact absurd (by rw [hc]; rfl) h
        · rw [if_neg hc]
          exact Anews.ite (anews_freeze _) (Anews.ite (anews_unfreeze _) Anews.unit)
    · rw [if_neg hk, if_neg hk]
      exact Anews.ite (anews_timer cfg env _) Anews.unit

/-! ## Histories -/

/-- What is seen does not depend on the past. -/
theorem transcript_anew (hn : p.new = []) {cfg : HConfig} {env : Env}
    (he : BareQM.okSort Q env.srt) (ms : List Msg)
    (hq : p.stats = true ∨ ∀ m ∈ ms, m.key ≠ keyClients ∨ m.data.head? ≠ some "get-runtime-stats")
    {u s : HState Q} (h : Anew p { u with outs := [] } { s with outs := [] }) :
    transcript cfg env s ms = transcript cfg (env.after p) u ms := by
  induction ms generalizing u s with
  | nil => rfl
  | cons m ms ih =>
    have h1 := anews_request hn cfg he m (hq.imp id fun hq => hq m (by simp)) _ _ h
    have hq' := hq.imp id fun (hq : ∀ x ∈ m :: ms, _) x (hx : x ∈ ms) => hq x (by simp [hx])
    unfold transcript step
    generalize onRequest cfg (env.after p) m { u with outs := [] } = r at h1
    generalize onRequest cfg env m { s with outs := [] } = r' at h1
    cases r with
    | ok a u' =>
      cases r' with
      | ok b s' =>
        simp only at h1 ⊢
        rw [h1.2.outs, ih hq' { h1.2 with outs := rfl }]
      | error e s' => exact h1.elim
    | error e u' =>
      cases r' with
      | ok b s' => exact h1.elim
      | error e' s' =>
        simp only at h1 ⊢
        rw [h1.1, h1.2]

/-! ## Objects that do not exist -/

/-- Addresses without a timer have no liveness. -/
def RState.Cold (p : RState) : Prop := ∀ a, p.live a ≠ 0 → a ∈ p.timers.map (·.1.addr)

theorem RState.Cold.put {p : RState} (h : p.Cold) (w : Worker) (v : Int) (n : Nat) :
    RState.Cold { p with live := upd p.live w.addr n, timers := p.timers.put w v } := by
  intro a ha
  refine WMap.addr_mem_put _ _ _ ?_
  by_cases e : a = w.addr
  · exact .inr e
  · left
    refine h a ?_
    simpa only [upd, if_neg e] using ha

theorem RState.Cold.put' {p : RState} (h : p.Cold) (w : Worker) (v : Int) :
    RState.Cold { p with timers := p.timers.put w v } :=
  fun a ha => WMap.addr_mem_put _ _ _ (.inl (h a ha))

theorem RState.Cold.heard {p : RState} (h : p.Cold) (cfg : HConfig) (i : String) :
    (p.heard cfg i).Cold := by
  unfold RState.heard
  split
  · exact h
  · exact h.put _ _ _

theorem RState.Cold.tick1 {p : RState} (h : p.Cold) (cfg : HConfig) (time : Int) (w : Worker) :
    (p.tick1 cfg time w).2.Cold := by
  unfold RState.tick1
  split
  · exact h.put _ _ _
  · exact h.put' _ _

theorem RState.Cold.tick (cfg : HConfig) (time : Int) : ∀ (ws : List Worker) {p : RState}, p.Cold →
    (p.tick cfg time ws).2.Cold
  | [], _, h => h
  | w :: ws, _, h => RState.Cold.tick cfg time ws (h.tick1 cfg time w)

theorem RState.Cold.register {env : Env} {p : RState} (h : p.Cold) (i g : String) (hs : Headers)
    (x : List String) : (p.register env i g hs x).Cold := by
  unfold RState.register
  split
  · exact h
  · rename_i w hw
    have ha : w.addr = env.alloc p.allocs p.addrs := (Worker.create_fields hw).1
    intro a hl
    refine WMap.addr_mem_emplace _ _ _ ?_
    by_cases e : a = w.addr
    · exact .inr e
    · left
      refine h a ?_
      rw [ha] at e
      simpa only [upd, if_neg e] using hl

theorem RState.Cold.step {cfg : HConfig} {env : Env} {p : RState} (h : p.Cold) (m : Msg) :
    (p.step cfg env m).Cold := by
  have hh := h.heard cfg m.identity
  unfold RState.step
  split
  · split
    · unfold RState.init'
      split
      · split
        · split
          · exact hh
          · exact hh.register _ _ _ _
        · exact hh.register _ _ _ _
      · exact hh
    · exact hh
  · split
    · split
      · exact h
      · split
        · exact h
        · exact h
    · split
      · unfold RState.timer
        split
        · exact h
        · split
          · exact h
          · exact RState.Cold.tick cfg _ _ h
      · exact h

variable [LawfulQM Q]

theorem Run.cold {cfg : HConfig} {env : Env} {h : List (Tr Q)} {s : HState Q}
    (hr : Run cfg env h s) : s.rs.Cold := by
  induction hr with
  | nil => exact fun a ha => absurd rfl ha
  | snoc hr hs ih => rw [step_rs hs]; exact ih.step _

/-- What a history leaves behind besides workers and jobs. -/
def HState.past (s : HState Q) (b : Bool) : Past where
  reqs := s.nextRid
  reads := s.clockReads
  allocs := s.allocs
  kept := s.timers.map (·.1.addr)
  stats := b
  new := []

/-- Without workers and jobs there is nothing but the past. -/
theorem Run.anew {cfg : HConfig} {env : Env} {h : List (Tr Q)} {s : HState Q} (hr : Run cfg env h s)
    (hw : s.workers = []) (hq : s.queue = QueueManager.empty) (b : Bool) {st : Stats}
    (hst : b = true → s.stats = st) :
    Anew (s.past b) { HState.init Q with stats := st, frozen := s.frozen } { s with outs := [] } where
  workers := hw
  queue := by show s.queue = BareQM.ren _ QueueManager.empty; rw [BareQM.empty, hq]
  timers := by
    show [] = s.timers.filter _
    symm
    refine List.filter_eq_nil_iff.2 fun e he => ?_
    rw [decide_eq_true_eq, not_not]
    exact List.mem_map_of_mem he
  sorted := hr.timed.sorted
  nodup := (List.pairwise_map.2 hr.timed.sorted).imp fun h => Nat.ne_of_lt h
  kept _ h := h
  apart w h := by cases h
  known w h := by cases h
  live a ha := by
    show s.live a = 0
    by_contra h
    exact ha (hr.cold a h)
  fc x := by
    show s.fc (x + s.nextRid) = 0
    exact hr.fresh _ (Nat.le_add_left _ _)
  nextRid := (Nat.zero_add _).symm
  allocs := (Nat.zero_add _).symm
  clockReads := (Nat.zero_add _).symm
  stats := hst
  frozen := rfl
  outs := rfl

theorem Multi.none_left {cfg : HConfig} {env : Env} {h : List (Tr Multi)} {s : HState Multi}
    (hr : Run cfg env h s) (hw : s.workers = []) : s.queue = QueueManager.empty := by
  have hi := hr.inv.1
  have hq : s.queue.Inv := hi.qinv
  have hring : s.queue.ring = [] := by
    have e : (s.workers : Multiset Worker) = (s.queue.ring : Multiset Worker) := hi.reg_eq
    rw [hw] at e
    exact (Multiset.coe_eq_zero _).1 e.symm
  have h1 : s.queue.current = [] := by
    have := hq.keysCur
    rw [hring] at this
    exact List.map_eq_nil_iff.1 this.eq_nil
  have h2 : s.queue.queues = [] := by
    have := hq.keysQue
    rw [hring] at this
    exact List.map_eq_nil_iff.1 this.eq_nil
  show s.queue = ⟨[], [], []⟩
  cases hc : s.queue with
  | mk a b c => rw [hc] at h1 h2 hring; cases h1; cases h2; cases hring; rfl

theorem Single.none_left {cfg : HConfig} {env : Env} {h : List (Tr Single)} {s : HState Single}
    (hr : Run cfg env h s) (hw : s.workers = []) : s.queue = QueueManager.empty := by
  have hi := hr.inv.1
  have hq : s.queue.Inv := hi.qinv
  have hreg : s.queue.workers = [] := by
    have e : (s.workers : Multiset Worker) = (s.queue.workers : Multiset Worker) := hi.reg_eq
    rw [hw] at e
    exact (Multiset.coe_eq_zero _).1 e.symm
  have h1 : s.queue.current = [] := by
    have := hq.keysCur
    rw [hreg] at this
    exact List.map_eq_nil_iff.1 this.eq_nil
  have h2 : s.queue.jobs = [] := by
    cases hj : s.queue.jobs with
    | nil => rfl
    | cons e t =>
      have hm : e.1 ∈ LawfulQM.que s.queue := by
        show e.1 ∈ (Single.queList s.queue.jobs : Multiset Req)
        rw [hj]; simp [Single.queList]
      obtain ⟨w, hw', -⟩ := LawfulQM.que_can hi.qinv _ hm
      have : w ∈ (s.queue.workers : Multiset Worker) := hw'
      rw [hreg] at this; simp at this
  show s.queue = ⟨[], [], []⟩
  cases hc : s.queue with
  | mk a b c => rw [hc] at h1 h2 hreg; cases h1; cases h2; cases hreg; rfl

end Broker
