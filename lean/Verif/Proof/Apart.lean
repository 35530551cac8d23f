import Verif.Proof.Layout

/-!
# Two executions, one of them with a part of the workers and jobs only

`Corr` says which worker objects and request objects of the full execution correspond to which objects
of the other one, and which of them have no counterpart.  `ApartQM` says that a queue manager treats
the two parts independently.
-/

namespace Broker

/-! ## Lists with some elements left out -/

/-- The second list has a counterpart (`R`) for each element of the first one except for those that
    were left out (`F`). -/
inductive Proj {α β : Type} (R : α → β → Prop) (F : α → Prop) : List α → List β → Prop
  | nil : Proj R F [] []
  | both {a : α} {b : β} {l : List α} {l' : List β} (h : R a b) (ht : Proj R F l l') :
    Proj R F (a :: l) (b :: l')
  | skip {a : α} {l : List α} {l' : List β} (h : F a) (ht : Proj R F l l') : Proj R F (a :: l) l'

namespace Proj
variable {α β : Type} {R R' : α → β → Prop} {F F' : α → Prop} {l : List α} {l' : List β}

theorem append {l2 : List α} {l2' : List β} (h : Proj R F l l') (h2 : Proj R F l2 l2') :
    Proj R F (l ++ l2) (l' ++ l2') := by
  induction h with
  | nil => exact h2
  | both h _ ih => exact .both h ih
  | skip h _ ih => exact .skip h ih

theorem mono (h : Proj R F l l') (hR : ∀ a b, R a b → R' a b) (hF : ∀ a, F a → F' a) :
    Proj R' F' l l' := by
  induction h with
  | nil => exact .nil
  | both h _ ih => exact .both (hR _ _ h) ih
  | skip h _ ih => exact .skip (hF _ h) ih

theorem filter {p : α → Bool} {p' : β → Bool} (h : Proj R F l l') (hp : ∀ a b, R a b → p a = p' b) :
    Proj R (fun a => F a ∧ p a = true) (l.filter p) (l'.filter p') := by
  induction h with
  | nil => exact .nil
  | @both a b l l' h _ ih =>
    have e := hp a b h
    cases hb : p' b with
    | true => rw [List.filter_cons_of_pos (by rw [e, hb]), List.filter_cons_of_pos hb]; exact .both h ih
    | false => rw [List.filter_cons_of_neg (by rw [e, hb]; simp), List.filter_cons_of_neg (by simp [hb])]; exact ih
  | @skip a l l' h _ ih =>
    cases hb : p a with
    | true => rw [List.filter_cons_of_pos hb]; exact .skip ⟨h, hb⟩ ih
    | false => rw [List.filter_cons_of_neg (by simp [hb])]; exact ih

/-- Some of the elements that were left out disappear. -/
theorem filterF {p : α → Bool} (h : Proj R F l l') (hp : ∀ a b, R a b → p a = true) :
    Proj R F (l.filter p) l' := by
  induction h with
  | nil => exact .nil
  | @both a b l l' h _ ih => rw [List.filter_cons_of_pos (hp a b h)]; exact .both h ih
  | @skip a l l' h _ ih =>
    cases hb : p a with
    | true => rw [List.filter_cons_of_pos hb]; exact .skip h ih
    | false => rw [List.filter_cons_of_neg (by simp [hb])]; exact ih

theorem forall₂ (h : Proj R F l l') (hF : ∀ a, ¬ F a) : List.Forall₂ R l l' := by
  induction h with
  | nil => exact .nil
  | both h _ ih => exact .cons h ih
  | skip h _ ih => exact absurd h (hF _)

theorem mem (h : Proj R F l l') {a : α} (ha : a ∈ l) : (∃ b ∈ l', R a b) ∨ F a := by
  induction h with
  | nil => cases ha
  | both h _ ih =>
    rcases List.mem_cons.1 ha with rfl | ha
    · exact .inl ⟨_, by simp, h⟩
    · rcases ih ha with ⟨b, hb, hr⟩ | hf
      · exact .inl ⟨b, by simp [hb], hr⟩
      · exact .inr hf
  | skip h _ ih =>
    rcases List.mem_cons.1 ha with rfl | ha
    · exact .inr h
    · exact ih ha

theorem mem' (h : Proj R F l l') {b : β} (hb : b ∈ l') : ∃ a ∈ l, R a b := by
  induction h with
  | nil => cases hb
  | both h _ ih =>
    rcases List.mem_cons.1 hb with rfl | hb
    · exact ⟨_, by simp, h⟩
    · obtain ⟨a, ha, hr⟩ := ih hb; exact ⟨a, by simp [ha], hr⟩
  | skip h _ ih => obtain ⟨a, ha, hr⟩ := ih hb; exact ⟨a, by simp [ha], hr⟩

theorem all (h : ∀ a ∈ l, F a) : Proj R F l ([] : List β) := by
  induction l with
  | nil => exact .nil
  | cons a t ih => exact .skip (h a (by simp)) (ih fun x hx => h x (by simp [hx]))

end Proj

/-! ## The two parts -/

/-- How workers and requests are divided: our identities, the headers of our requests, the headers
    and job ids of the others. -/
structure Parts where
  mine : String → Bool
  reqA : Headers → Prop
  reqB : Headers → Prop
  jobB : String → Prop

/-- One of our workers.  It cannot process requests of the others. -/
def Parts.own (P : Parts) (w : Worker) : Prop :=
  P.mine w.identity = true ∧ ∀ hs, P.reqB hs → w.checkHeaders hs ≠ .ok true

/-- A worker of the others.  It cannot process our requests. -/
def Parts.oth (P : Parts) (w : Worker) : Prop :=
  P.mine w.identity = false ∧ ∀ hs, P.reqA hs → w.checkHeaders hs ≠ .ok true

/-- Corresponding objects: addresses of our workers (`ρ`), addresses of the others (`F`), numbers of our
    requests (`σ`), numbers of the other requests (`G`). -/
structure Corr where
  ρ : ARel
  F : Nat → Prop
  σ : ARel
  G : Nat → Prop

namespace Corr

/-- No object. -/
def none : Corr := ⟨fun _ _ => False, fun _ => False, fun _ _ => False, fun _ => False⟩

/-- Objects are in one part only and have one counterpart at most. -/
structure Ok (c : Corr) : Prop where
  one : c.ρ.OneOne
  dis : ∀ {a b}, c.ρ a b → ¬ c.F a
  oner : c.σ.OneOne
  disr : ∀ {a b}, c.σ a b → ¬ c.G a

/-- More objects. -/
structure Grows (c c' : Corr) : Prop where
  ρ : ∀ {a b}, c.ρ a b → c'.ρ a b
  F : ∀ {a}, c.F a → c'.F a
  σ : ∀ {a b}, c.σ a b → c'.σ a b
  G : ∀ {a}, c.G a → c'.G a
  newρ : ∀ {a b}, c'.ρ a b → c.ρ a b ∨ ((∀ y, ¬ c.ρ a y) ∧ ¬ c.F a ∧ ∀ x, ¬ c.ρ x b)
  newF : ∀ {a}, c'.F a → c.F a ∨ ((∀ y, ¬ c.ρ a y) ∧ ¬ c.F a)

end Corr

/-- One of our workers and its counterpart. -/
def WA (P : Parts) (c : Corr) (w w' : Worker) : Prop := WR c.ρ w w' ∧ P.own w

/-- A worker of the others. -/
def WB (P : Parts) (c : Corr) (w : Worker) : Prop := c.F w.addr ∧ P.oth w

/-- One of our requests and its counterpart. -/
structure RA (P : Parts) (c : Corr) (r r' : Req) : Prop where
  rel : c.σ r.rid r'.rid
  eq : r' = { r with rid := r'.rid }
  req : r.complete = true → P.reqA r.headers

/-- A request of the others. -/
structure RB (P : Parts) (c : Corr) (r : Req) : Prop where
  rel : c.G r.rid
  req : r.complete = true → P.reqB r.headers
  job : P.jobB r.jobId

section
variable {P : Parts} {c c' : Corr}

theorem WA.mono (h : c.Grows c') {w w' : Worker} (hw : WA P c w w') : WA P c' w w' :=
  ⟨hw.1.mono fun _ _ => h.ρ, hw.2⟩
theorem WB.mono (h : c.Grows c') {w : Worker} (hw : WB P c w) : WB P c' w := ⟨h.F hw.1, hw.2⟩
theorem RA.mono (h : c.Grows c') {r r' : Req} (hr : RA P c r r') : RA P c' r r' :=
  ⟨h.σ hr.rel, hr.eq, hr.req⟩
theorem RB.mono (h : c.Grows c') {r : Req} (hr : RB P c r) : RB P c' r := ⟨h.G hr.rel, hr.req, hr.job⟩

theorem RA.headers {r r' : Req} (h : RA P c r r') : r'.headers = r.headers := by rw [h.eq]
theorem RA.complete {r r' : Req} (h : RA P c r r') : r'.complete = r.complete := by rw [h.eq]
theorem RA.jobId {r r' : Req} (h : RA P c r r') : r'.jobId = r.jobId := by rw [h.eq]
theorem RA.frames {r r' : Req} (h : RA P c r r') : r'.frames = r.frames := by rw [h.eq]

/-- A worker of ours and a worker of the others are different objects. -/
theorem WA.ne (hc : c.Ok) {w w' x : Worker} (hw : WA P c w w') (hx : c.F x.addr) : x.addr ≠ w.addr :=
  fun e => hc.dis hw.1.rel (e ▸ hx)

end

/-! ## Queue managers -/

/-- The queue manager treats the two parts independently: an operation about one of our workers or
    requests has the same result without the others (as long as it does not throw), an operation about
    a worker or request of the others makes no difference for us. -/
class ApartQM (Q : Type) [QueueManager Q] where
  /-- what has to be assumed about the two environments -/
  EnvR : Env → Env → Prop
  /-- what the correspondence of addresses has to satisfy besides being one to one -/
  Good : ARel → Prop
  /-- corresponding states -/
  QR : Parts → Corr → Q → Q → Prop
  good_empty : Good (fun _ _ => False)
  good_ext : ∀ {env env' : Env} {ρ : ARel} {n n' : Nat} {l l' : List Nat}, EnvR env env' → Good ρ →
    (∀ a b, ρ a b → a ∈ l ∧ b ∈ l') → Good (ρ.ext (env.alloc n l) (env'.alloc n' l'))
  empty : ∀ P c, QR P c (QueueManager.empty : Q) QueueManager.empty
  grow : ∀ {P : Parts} {c c' : Corr} {q q' : Q}, c.Grows c' → QR P c q q' → QR P c' q q'
  addWorker : ∀ {P : Parts} {c : Corr} {q q' q1 : Q} {w w' : Worker} {cur cur' o : Option Req}
    (srt srt' : Sorter), c.Ok → Good c.ρ → QR P c q q' → WA P c w w' → Option.Rel (RA P c) cur cur' →
    QueueManager.addWorker srt q w cur = .ok (o, q1) → ∃ o' q1',
      QueueManager.addWorker srt' q' w' cur' = .ok (o', q1') ∧ Option.Rel (RA P c) o o' ∧ QR P c q1 q1'
  assignRequest : ∀ {P : Parts} {c : Corr} {q q' q1 : Q} {w w' : Worker} {o : Option Req}
    (srt srt' : Sorter), c.Ok → Good c.ρ → QR P c q q' → WA P c w w' →
    QueueManager.assignRequest srt q w = .ok (o, q1) → ∃ o' q1',
      QueueManager.assignRequest srt' q' w' = .ok (o', q1') ∧ Option.Rel (RA P c) o o' ∧ QR P c q1 q1'
  workerFinished : ∀ {P : Parts} {c : Corr} {q q' q1 : Q} {w w' : Worker} {o : Option Req}
    (srt srt' : Sorter), c.Ok → Good c.ρ → QR P c q q' → WA P c w w' →
    QueueManager.workerFinished srt q w = .ok (o, q1) → ∃ o' q1',
      QueueManager.workerFinished srt' q' w' = .ok (o', q1') ∧ Option.Rel (RA P c) o o' ∧ QR P c q1 q1'
  workerTerminated : ∀ {P : Parts} {c : Corr} {q q' q1 : Q} {w w' : Worker} {rs : List Req},
    c.Ok → Good c.ρ → QR P c q q' → WA P c w w' →
    QueueManager.workerTerminated q w = .ok (rs, q1) → ∃ rs' q1',
      QueueManager.workerTerminated q' w' = .ok (rs', q1') ∧ List.Forall₂ (RA P c) rs rs' ∧ QR P c q1 q1'
  enqueueRequest : ∀ {P : Parts} {c : Corr} {q q' q1 : Q} {r r' : Req} {x : EnqResult} (now now' : Int),
    c.Ok → Good c.ρ → QR P c q q' → RA P c r r' → r.complete = true →
    QueueManager.enqueueRequest q now r = .ok (x, q1) → ∃ x' q1',
      QueueManager.enqueueRequest q' now' r' = .ok (x', q1') ∧
        Option.Rel (WA P c) x.assignedTo x'.assignedTo ∧ x'.enqueued = x.enqueued ∧ QR P c q1 q1'
  currentRequest : ∀ {P : Parts} {c : Corr} {q q' : Q} {w w' : Worker}, c.Ok → Good c.ρ →
    QR P c q q' → WA P c w w' →
    Option.Rel (RA P c) (QueueManager.currentRequest q w).1 (QueueManager.currentRequest q' w').1 ∧
      QR P c (QueueManager.currentRequest q w).2 (QueueManager.currentRequest q' w').2
  workerCancelled : ∀ {P : Parts} {c : Corr} {q q' : Q} {w w' : Worker}, c.Ok → Good c.ρ →
    QR P c q q' → WA P c w w' →
    Option.Rel (RA P c) (QueueManager.workerCancelled q w).1 (QueueManager.workerCancelled q' w').1 ∧
      QR P c (QueueManager.workerCancelled q w).2 (QueueManager.workerCancelled q' w').2
  addWorkerF : ∀ {P : Parts} {c : Corr} {q q' q1 : Q} {w : Worker} {cur o : Option Req} (srt : Sorter),
    c.Ok → Good c.ρ → QR P c q q' → WB P c w → (∀ r ∈ cur, RB P c r) →
    QueueManager.addWorker srt q w cur = .ok (o, q1) → (∀ r ∈ o, RB P c r) ∧ QR P c q1 q'
  assignRequestF : ∀ {P : Parts} {c : Corr} {q q' q1 : Q} {w : Worker} {o : Option Req} (srt : Sorter),
    c.Ok → Good c.ρ → QR P c q q' → WB P c w →
    QueueManager.assignRequest srt q w = .ok (o, q1) → (∀ r ∈ o, RB P c r) ∧ QR P c q1 q'
  workerFinishedF : ∀ {P : Parts} {c : Corr} {q q' q1 : Q} {w : Worker} {o : Option Req} (srt : Sorter),
    c.Ok → Good c.ρ → QR P c q q' → WB P c w →
    QueueManager.workerFinished srt q w = .ok (o, q1) → (∀ r ∈ o, RB P c r) ∧ QR P c q1 q'
  workerTerminatedF : ∀ {P : Parts} {c : Corr} {q q' q1 : Q} {w : Worker} {rs : List Req},
    c.Ok → Good c.ρ → QR P c q q' → WB P c w →
    QueueManager.workerTerminated q w = .ok (rs, q1) → (∀ r ∈ rs, RB P c r) ∧ QR P c q1 q'
  enqueueRequestF : ∀ {P : Parts} {c : Corr} {q q' q1 : Q} {r : Req} {x : EnqResult} (now : Int),
    c.Ok → Good c.ρ → QR P c q q' → RB P c r → r.complete = true →
    QueueManager.enqueueRequest q now r = .ok (x, q1) → (∀ w ∈ x.assignedTo, WB P c w) ∧ QR P c q1 q'
  currentRequestF : ∀ {P : Parts} {c : Corr} {q q' : Q} {w : Worker}, c.Ok → Good c.ρ →
    QR P c q q' → WB P c w → (∀ r ∈ (QueueManager.currentRequest q w).1, RB P c r) ∧
      QR P c (QueueManager.currentRequest q w).2 q'
  workerCancelledF : ∀ {P : Parts} {c : Corr} {q q' : Q} {w : Worker}, c.Ok → Good c.ρ →
    QR P c q q' → WB P c w → (∀ r ∈ (QueueManager.workerCancelled q w).1, RB P c r) ∧
      QR P c (QueueManager.workerCancelled q w).2 q'

end Broker
