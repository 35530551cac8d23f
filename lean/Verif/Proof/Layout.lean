import Verif.Model.Multi
import Verif.Model.Single
import Verif.Proof.Stall
import Verif.Proof.Carries

/-!
# Two memory layouts

Two executions of the broker on the same messages may place worker objects at different addresses.
`Corr` relates the addresses; `LayoutQM` says that the operations of a queue manager respect it.
-/

namespace Broker

/-- Which address of one execution corresponds to which address of the other. -/
abbrev ARel := Nat → Nat → Prop

/-- The correspondence is one to one. -/
structure ARel.OneOne (ρ : ARel) : Prop where
  fn : ∀ {a b b'}, ρ a b → ρ a b' → b = b'
  inj : ∀ {a a' b}, ρ a b → ρ a' b → a = a'

/-- One more pair of addresses. -/
def ARel.ext (ρ : ARel) (a b : Nat) : ARel := fun x y => ρ x y ∨ (x = a ∧ y = b)

theorem ARel.OneOne.ext {ρ : ARel} (h : ρ.OneOne) {a b : Nat} (ha : ∀ y, ¬ ρ a y)
    (hb : ∀ x, ¬ ρ x b) : (ρ.ext a b).OneOne := by
  constructor
  · rintro x y y' (h1 | ⟨rfl, rfl⟩) (h2 | ⟨e1, e2⟩)
    · exact h.fn h1 h2
    · subst e1; exact absurd h1 (ha _)
    · exact absurd h2 (ha _)
    · exact e2.symm
  · rintro x x' y (h1 | ⟨rfl, rfl⟩) (h2 | ⟨e1, e2⟩)
    · exact h.inj h1 h2
    · subst e2; exact absurd h1 (hb _)
    · exact absurd h2 (hb _)
    · exact e1.symm

/-- The same worker at corresponding addresses. -/
structure WR (ρ : ARel) (w w' : Worker) : Prop where
  rel : ρ w.addr w'.addr
  eq : w' = { w with addr := w'.addr }

theorem WR.mono {ρ ρ' : ARel} (h : ∀ a b, ρ a b → ρ' a b) {w w' : Worker} (hw : WR ρ w w') :
    WR ρ' w w' := ⟨h _ _ hw.rel, hw.eq⟩

theorem WR.addr_iff {ρ : ARel} (h : ρ.OneOne) {w w' x x' : Worker} (hw : WR ρ w w')
    (hx : WR ρ x x') : x.addr = w.addr ↔ x'.addr = w'.addr := by
  constructor
  · intro e; have := hx.rel; rw [e] at this; exact (h.fn hw.rel this).symm
  · intro e; have := hx.rel; rw [e] at this; exact (h.inj hw.rel this).symm

theorem WR.identity {ρ : ARel} {w w' : Worker} (h : WR ρ w w') : w'.identity = w.identity := by
  rw [h.eq]

theorem WR.headersEqual {ρ : ARel} {w w' : Worker} (h : WR ρ w w') (hs : Headers) :
    w'.headersEqual hs = w.headersEqual hs := by rw [h.eq]; rfl

theorem WR.getDescription {ρ : ARel} {w w' : Worker} (h : WR ρ w w') :
    w'.getDescription = w.getDescription := by rw [h.eq]; rfl

theorem checkHeaders_addr (w : Worker) (a : Nat) (hs : Headers) :
    ({ w with addr := a } : Worker).checkHeaders hs = w.checkHeaders hs := by
  induction hs with
  | nil => rfl
  | cons p t ih => simp only [Worker.checkHeaders, ih]; rfl

theorem WR.checkHeaders {ρ : ARel} {w w' : Worker} (h : WR ρ w w') (hs : Headers) :
    w'.checkHeaders hs = w.checkHeaders hs := by rw [h.eq, checkHeaders_addr]

/-! ## Workers with other identities -/

/-- Two executions: corresponding addresses, what replaces the identities of workers, whether the
    addresses are the same, and what may replace the descriptions and the headers of workers
    (the headers depending on the identity); `asked`: requirements that may turn up. -/
structure LRel where
  rel : ARel
  name : String → String
  sync : Prop
  title : String → String → Prop
  like : String → Headers → Headers → Prop
  asked : Headers → Prop

/-- One more pair of addresses. -/
def LRel.ext (ρ : LRel) (a b : Nat) : LRel := { ρ with rel := ρ.rel.ext a b }

/-- The same worker at corresponding addresses, with another identity and another description; it
    meets the same of the requirements that may turn up. -/
structure WN (ρ : LRel) (w w' : Worker) : Prop where
  rel : ρ.rel w.addr w'.addr
  identity : w'.identity = ρ.name w.identity
  checkHeaders : ∀ hs : Headers, ρ.asked hs → w'.checkHeaders hs = w.checkHeaders hs
  like : ρ.like w.identity w.headers w'.headers
  title : ρ.title w.description w'.description

theorem WN.ext {ρ : LRel} {w w' : Worker} (hw : WN ρ w w') (a b : Nat) : WN (ρ.ext a b) w w' :=
  ⟨.inl hw.rel, hw.identity, hw.checkHeaders, hw.like, hw.title⟩

theorem WN.addr_iff {ρ : LRel} (h : ρ.rel.OneOne) {w w' x x' : Worker} (hw : WN ρ w w')
    (hx : WN ρ x x') : x.addr = w.addr ↔ x'.addr = w'.addr := by
  constructor
  · intro e; have := hx.rel; rw [e] at this; exact (h.fn hw.rel this).symm
  · intro e; have := hx.rel; rw [e] at this; exact (h.inj hw.rel this).symm

theorem checkHeaders_name (w : Worker) (a : Nat) (i d : String) (hs : Headers) :
    ({ w with addr := a, identity := i, description := d } : Worker).checkHeaders hs =
      w.checkHeaders hs := by
  induction hs with
  | nil => rfl
  | cons p t ih => simp only [Worker.checkHeaders, ih]; rfl

/-- Optional workers. -/
inductive WNo (ρ : LRel) : Option Worker → Option Worker → Prop
  | none : WNo ρ none none
  | some {w w' : Worker} (h : WN ρ w w') : WNo ρ (some w) (some w')

/-- Results of operations that may throw. -/
inductive RelE {α β : Type} (A : α → β → Prop) : Except Exn α → Except Exn β → Prop
  | ok {a : α} {b : β} (h : A a b) : RelE A (.ok a) (.ok b)
  | error (e : Exn) : RelE A (.error e) (.error e)

theorem RelE.bind {α β γ δ : Type} {A : α → β → Prop} {B : γ → δ → Prop} {x : Except Exn α}
    {y : Except Exn β} {f : α → Except Exn γ} {g : β → Except Exn δ} (h : RelE A x y)
    (hf : ∀ a b, A a b → RelE B (f a) (g b)) : RelE B (x >>= f) (y >>= g) := by
  cases h with
  | ok h => exact hf _ _ h
  | error e => exact .error e

/-- With the result of the first operation. -/
theorem RelE.keep {α β : Type} {A : α → β → Prop} {x : Except Exn α} {y : Except Exn β}
    (h : RelE A x y) : RelE (fun a b => A a b ∧ x = .ok a) x y := by
  cases h with
  | ok h => exact .ok ⟨h, rfl⟩
  | error e => exact .error e

theorem RelE.refl {α : Type} {A : α → α → Prop} (hA : ∀ a, A a a) (x : Except Exn α) : RelE A x x := by
  cases x with
  | ok a => exact .ok (hA a)
  | error e => exact .error e

/-! ## Maps -/

namespace WMap
variable {V : Type}

theorem find_emplace {m : WMap V} (hs : m.Sorted) {w : Worker} {v : V} :
    (m.emplace w v).find w = some ((m.find w).getD v) := by
  induction m with
  | nil => simp [emplace, find]
  | cons a t ih =>
    obtain ⟨x, u⟩ := a
    have hs' : Sorted t := hs.sublist (List.sublist_cons_self _ _)
    simp only [emplace, find]
    split
    · rename_i h; simp [find, h]
    · rename_i h
      split
      · rename_i h2
        simp only [find, if_true]
        have : find w t = none := by
          have hall : ∀ y ∈ t, x.addr < y.1.addr := (List.pairwise_cons.1 hs).1
          have : ∀ l : WMap V, (∀ y ∈ l, x.addr < y.1.addr) → find w l = none := by
            intro l hl
            induction l with
            | nil => rfl
            | cons b l ih2 =>
              obtain ⟨y, u'⟩ := b
              have := hl (y, u') (by simp)
              simp only at this
              simp only [find]
              rw [if_neg (by omega)]
              exact ih2 (fun z hz => hl z (by simp [hz]))
          exact this t hall
        rw [this]; rfl
      · simp only [find, h, if_false]
        exact ih hs'

theorem find_erase_self {m : WMap V} (hs : m.Sorted) {w : Worker} : (m.erase w).find w = none := by
  induction m with
  | nil => rfl
  | cons a t ih =>
    obtain ⟨x, u⟩ := a
    have hs' : Sorted t := hs.sublist (List.sublist_cons_self _ _)
    simp only [erase]
    split
    · rename_i h
      have hall : ∀ y ∈ t, x.addr < y.1.addr := (List.pairwise_cons.1 hs).1
      have : ∀ l : WMap V, (∀ y ∈ l, x.addr < y.1.addr) → find w l = none := by
        intro l hl
        induction l with
        | nil => rfl
        | cons b l ih2 =>
          obtain ⟨y, u'⟩ := b
          have := hl (y, u') (by simp)
          simp only at this
          simp only [find]
          rw [if_neg (by omega)]
          exact ih2 (fun z hz => hl z (by simp [hz]))
      exact this t hall
    · rename_i h
      simp only [find, h, if_false]
      exact ih hs'

theorem keys_put (m : WMap V) (w : Worker) (v : V) :
    ∀ p ∈ m.put w v, p.1.addr = w.addr ∨ p.1 ∈ m.map (·.1) := by
  induction m with
  | nil => intro p hp; simp [put] at hp; subst hp; exact .inl rfl
  | cons a t ih =>
    obtain ⟨x, u⟩ := a
    intro p hp
    simp only [put] at hp
    split at hp
    · rcases List.mem_cons.1 hp with rfl | hp
      · right; simp
      · right; simp only [List.map_cons, List.mem_cons]; exact .inr (List.mem_map.2 ⟨p, hp, rfl⟩)
    · split at hp
      · rcases List.mem_cons.1 hp with rfl | hp
        · exact .inl rfl
        · exact .inr (List.mem_map.2 ⟨p, hp, rfl⟩)
      · rcases List.mem_cons.1 hp with rfl | hp
        · right; simp
        · rcases ih p hp with h | h
          · exact .inl h
          · exact .inr (by simp only [List.map_cons, List.mem_cons]; exact .inr h)

theorem keys_emplace (m : WMap V) (w : Worker) (v : V) :
    ∀ p ∈ m.emplace w v, p.1.addr = w.addr ∨ p.1 ∈ m.map (·.1) := by
  induction m with
  | nil => intro p hp; simp [emplace] at hp; subst hp; exact .inl rfl
  | cons a t ih =>
    obtain ⟨x, u⟩ := a
    intro p hp
    simp only [emplace] at hp
    split at hp
    · exact .inr (List.mem_map.2 ⟨p, hp, rfl⟩)
    · split at hp
      · rcases List.mem_cons.1 hp with rfl | hp
        · exact .inl rfl
        · exact .inr (List.mem_map.2 ⟨p, hp, rfl⟩)
      · rcases List.mem_cons.1 hp with rfl | hp
        · right; simp
        · rcases ih p hp with h | h
          · exact .inl h
          · exact .inr (by simp only [List.map_cons, List.mem_cons]; exact .inr h)

theorem erase_sublist (m : WMap V) (w : Worker) : (m.erase w).Sublist m := by
  induction m with
  | nil => exact .slnil
  | cons a t ih =>
    obtain ⟨x, u⟩ := a
    simp only [erase]
    split
    · exact List.sublist_cons_self _ _
    · exact ih.cons_cons _

theorem Sorted.put {m : WMap V} (h : m.Sorted) (w : Worker) (v : V) : (m.put w v).Sorted := by
  induction m with
  | nil => simp [WMap.put, Sorted]
  | cons a t ih =>
    obtain ⟨x, u⟩ := a
    obtain ⟨h1, h2⟩ := List.pairwise_cons.1 h
    simp only [WMap.put]
    split
    · exact List.pairwise_cons.2 ⟨h1, h2⟩
    · split
      · rename_i hlt
        refine List.pairwise_cons.2 ⟨?_, h⟩
        intro p hp
        rcases List.mem_cons.1 hp with rfl | hp
        · exact hlt
        · exact Nat.lt_trans hlt (h1 p hp)
      · rename_i hne hge
        refine List.pairwise_cons.2 ⟨?_, ih h2⟩
        intro p hp
        rcases keys_put t w v p hp with e | e
        · simp only [e]; omega
        · obtain ⟨p', hp', e⟩ := List.mem_map.1 e
          have := h1 p' hp'
          rw [e] at this; exact this

theorem Sorted.emplace {m : WMap V} (h : m.Sorted) (w : Worker) (v : V) : (m.emplace w v).Sorted := by
  induction m with
  | nil => simp [WMap.emplace, Sorted]
  | cons a t ih =>
    obtain ⟨x, u⟩ := a
    obtain ⟨h1, h2⟩ := List.pairwise_cons.1 h
    simp only [WMap.emplace]
    split
    · exact h
    · split
      · rename_i hlt
        refine List.pairwise_cons.2 ⟨?_, h⟩
        intro p hp
        rcases List.mem_cons.1 hp with rfl | hp
        · exact hlt
        · exact Nat.lt_trans hlt (h1 p hp)
      · rename_i hne hge
        refine List.pairwise_cons.2 ⟨?_, ih h2⟩
        intro p hp
        rcases keys_emplace t w v p hp with e | e
        · simp only [e]; omega
        · obtain ⟨p', hp', e⟩ := List.mem_map.1 e
          have := h1 p' hp'
          rw [e] at this; exact this

theorem find_fresh {m : WMap V} {w : Worker} (h : ∀ p ∈ m, p.1.addr ≠ w.addr) : m.find w = none := by
  induction m with
  | nil => rfl
  | cons a t ih =>
    obtain ⟨x, u⟩ := a
    have h1 : x.addr ≠ w.addr := h (x, u) (by simp)
    simp only [find, h1, if_false]
    exact ih (fun p hp => h p (by simp [hp]))

theorem find_addr {m : WMap V} {w x : Worker} (h : w.addr = x.addr) : m.find w = m.find x := by
  induction m with
  | nil => rfl
  | cons a t ih => obtain ⟨y, u⟩ := a; simp only [find, h, ih]

end WMap

/-- Maps with the same contents at corresponding addresses. -/
structure MapRel {V : Type} (ρ : LRel) (m m' : WMap V) : Prop where
  sorted : m.Sorted
  sorted' : m'.Sorted
  dom : ∀ p ∈ m, ∃ b, ρ.rel p.1.addr b
  dom' : ∀ p ∈ m', ∃ a, ρ.rel a p.1.addr
  find : ∀ {w w' : Worker}, WN ρ w w' → m'.find w' = m.find w

namespace MapRel
variable {V : Type} {ρ : LRel} {m m' : WMap V}

theorem nil : MapRel ρ ([] : WMap V) [] :=
  ⟨List.Pairwise.nil, List.Pairwise.nil, by simp, by simp, fun _ => rfl⟩

theorem getD (h : MapRel ρ m m') {w w' : Worker} (hw : WN ρ w w') (d : V) :
    m'.getD w' d = m.getD w d := by rw [WMap.getD, WMap.getD, h.find hw]

theorem put (h : MapRel ρ m m') (ho : ρ.rel.OneOne) {w w' : Worker} (hw : WN ρ w w') (v : V) :
    MapRel ρ (m.put w v) (m'.put w' v) where
  sorted := h.sorted.put _ _
  sorted' := h.sorted'.put _ _
  dom p hp := by
    rcases WMap.keys_put _ _ _ p hp with e | e
    · exact ⟨_, by rw [e]; exact hw.rel⟩
    · obtain ⟨p', hp', e⟩ := List.mem_map.1 e
      rw [← e]; exact h.dom p' hp'
  dom' p hp := by
    rcases WMap.keys_put _ _ _ p hp with e | e
    · exact ⟨_, by rw [e]; exact hw.rel⟩
    · obtain ⟨p', hp', e⟩ := List.mem_map.1 e
      rw [← e]; exact h.dom' p' hp'
  find {x x'} hx := by
    by_cases e : x.addr = w.addr
    · have e' := (hw.addr_iff ho hx).1 e
      rw [WMap.find_addr e, WMap.find_addr e', WMap.find_put_self, WMap.find_put_self]
    · have e' : x'.addr ≠ w'.addr := fun e' => e ((hw.addr_iff ho hx).2 e')
      rw [WMap.find_put_of_ne e, WMap.find_put_of_ne e', h.find hx]

theorem emplace (h : MapRel ρ m m') (ho : ρ.rel.OneOne) {w w' : Worker} (hw : WN ρ w w') (v : V) :
    MapRel ρ (m.emplace w v) (m'.emplace w' v) where
  sorted := h.sorted.emplace _ _
  sorted' := h.sorted'.emplace _ _
  dom p hp := by
    rcases WMap.keys_emplace _ _ _ p hp with e | e
    · exact ⟨_, by rw [e]; exact hw.rel⟩
    · obtain ⟨p', hp', e⟩ := List.mem_map.1 e
      rw [← e]; exact h.dom p' hp'
  dom' p hp := by
    rcases WMap.keys_emplace _ _ _ p hp with e | e
    · exact ⟨_, by rw [e]; exact hw.rel⟩
    · obtain ⟨p', hp', e⟩ := List.mem_map.1 e
      rw [← e]; exact h.dom' p' hp'
  find {x x'} hx := by
    by_cases e : x.addr = w.addr
    · have e' := (hw.addr_iff ho hx).1 e
      rw [WMap.find_addr e, WMap.find_addr e', WMap.find_emplace h.sorted,
        WMap.find_emplace h.sorted', h.find hw]
    · have e' : x'.addr ≠ w'.addr := fun e' => e ((hw.addr_iff ho hx).2 e')
      rw [WMap.find_emplace_of_ne e, WMap.find_emplace_of_ne e', h.find hx]

theorem erase (h : MapRel ρ m m') (ho : ρ.rel.OneOne) {w w' : Worker} (hw : WN ρ w w') :
    MapRel ρ (m.erase w) (m'.erase w') where
  sorted := h.sorted.sublist (WMap.erase_sublist _ _)
  sorted' := h.sorted'.sublist (WMap.erase_sublist _ _)
  dom p hp := h.dom p ((WMap.erase_sublist _ _).subset hp)
  dom' p hp := h.dom' p ((WMap.erase_sublist _ _).subset hp)
  find {x x'} hx := by
    by_cases e : x.addr = w.addr
    · have e' := (hw.addr_iff ho hx).1 e
      rw [WMap.find_addr e, WMap.find_addr e', WMap.find_erase_self h.sorted,
        WMap.find_erase_self h.sorted']
    · have e' : x'.addr ≠ w'.addr := fun e' => e ((hw.addr_iff ho hx).2 e')
      rw [WMap.find_erase_of_ne e, WMap.find_erase_of_ne e', h.find hx]

theorem ext (h : MapRel ρ m m') {a b : Nat} (ha : ∀ y, ¬ ρ.rel a y) (hb : ∀ x, ¬ ρ.rel x b) :
    MapRel (ρ.ext a b) m m' where
  sorted := h.sorted
  sorted' := h.sorted'
  dom p hp := let ⟨y, hy⟩ := h.dom p hp; ⟨y, .inl hy⟩
  dom' p hp := let ⟨y, hy⟩ := h.dom' p hp; ⟨y, .inl hy⟩
  find {w w'} hw := by
    rcases hw.rel with hr | ⟨e1, e2⟩
    · exact h.find ⟨hr, hw.identity, hw.checkHeaders, hw.like, hw.title⟩
    · rw [WMap.find_fresh, WMap.find_fresh]
      · intro p hp e
        obtain ⟨y, hy⟩ := h.dom p hp
        rw [e, e1] at hy; exact ha _ hy
      · intro p hp e
        obtain ⟨y, hy⟩ := h.dom' p hp
        rw [e, e2] at hy; exact hb _ hy

end MapRel

/-! ## Queue managers -/

/-- The operations of the queue manager give the same results in two memory layouts. -/
class LayoutQM (Q : Type) [QueueManager Q] [Carries Q] where
  /-- what has to be assumed about the two environments; the first argument tells whether addresses
      are the same -/
  EnvR : Prop → Env → Env → Prop
  /-- what the correspondence of addresses has to satisfy besides being one to one -/
  Good : LRel → Prop
  /-- corresponding states -/
  QR : LRel → Q → Q → Prop
  good_empty : ∀ ν σ τ κ ψ, Good ⟨fun _ _ => False, ν, σ, τ, κ, ψ⟩
  good_ext : ∀ {env env' : Env} {ρ : LRel} {n n' : Nat} {l l' : List Nat},
    EnvR ρ.sync env env' → Good ρ → (∀ a b, ρ.rel a b → a ∈ l ∧ b ∈ l') →
    ((∀ a b, ρ.rel a b → a = b) → n' = n ∧ l' = l) → Good (ρ.ext (env.alloc n l) (env'.alloc n' l'))
  empty : ∀ ρ, QR ρ (QueueManager.empty : Q) QueueManager.empty
  ext : ∀ {ρ : LRel} {q q' : Q} {a b : Nat}, QR ρ q q' → (∀ y, ¬ ρ.rel a y) → (∀ x, ¬ ρ.rel x b) →
    QR (ρ.ext a b) q q'
  addWorker : ∀ {env env' : Env} {ρ : LRel} {q q' : Q} {w w' : Worker} (cur : Option Req),
    EnvR ρ.sync env env' → ρ.rel.OneOne → Good ρ → QR ρ q q' →
    (∀ r, Carries.holds q r → ρ.asked r.headers) → WN ρ w w' →
    RelE (fun x y => x.1 = y.1 ∧ QR ρ x.2 y.2) (QueueManager.addWorker env.srt q w cur)
      (QueueManager.addWorker env'.srt q' w' cur)
  assignRequest : ∀ {env env' : Env} {ρ : LRel} {q q' : Q} {w w' : Worker},
    EnvR ρ.sync env env' → ρ.rel.OneOne → Good ρ → QR ρ q q' →
    (∀ r, Carries.holds q r → ρ.asked r.headers) → WN ρ w w' →
    RelE (fun x y => x.1 = y.1 ∧ QR ρ x.2 y.2) (QueueManager.assignRequest env.srt q w)
      (QueueManager.assignRequest env'.srt q' w')
  workerFinished : ∀ {env env' : Env} {ρ : LRel} {q q' : Q} {w w' : Worker},
    EnvR ρ.sync env env' → ρ.rel.OneOne → Good ρ → QR ρ q q' →
    (∀ r, Carries.holds q r → ρ.asked r.headers) → WN ρ w w' →
    RelE (fun x y => x.1 = y.1 ∧ QR ρ x.2 y.2) (QueueManager.workerFinished env.srt q w)
      (QueueManager.workerFinished env'.srt q' w')
  workerTerminated : ∀ {ρ : LRel} {q q' : Q} {w w' : Worker},
    ρ.rel.OneOne → Good ρ → QR ρ q q' →
    (∀ r, Carries.holds q r → ρ.asked r.headers) → WN ρ w w' →
    RelE (fun x y => x.1 = y.1 ∧ QR ρ x.2 y.2) (QueueManager.workerTerminated q w)
      (QueueManager.workerTerminated q' w')
  enqueueRequest : ∀ {env env' : Env} {ρ : LRel} {q q' : Q} (n : Nat) (r : Req),
    EnvR ρ.sync env env' → ρ.rel.OneOne → Good ρ → QR ρ q q' → ρ.asked r.headers →
    RelE (fun x y => WNo ρ x.1.assignedTo y.1.assignedTo ∧ x.1.enqueued = y.1.enqueued ∧
        QR ρ x.2 y.2)
      (QueueManager.enqueueRequest q (env.clock n) r)
      (QueueManager.enqueueRequest q' (env'.clock n) r)
  queuedCount : ∀ {ρ : LRel} {q q' : Q}, QR ρ q q' →
    QueueManager.queuedCount q = QueueManager.queuedCount q'
  currentRequest : ∀ {ρ : LRel} {q q' : Q} {w w' : Worker}, ρ.rel.OneOne → Good ρ → QR ρ q q' →
    WN ρ w w' → (QueueManager.currentRequest q w).1 = (QueueManager.currentRequest q' w').1 ∧
      QR ρ (QueueManager.currentRequest q w).2 (QueueManager.currentRequest q' w').2
  workerCancelled : ∀ {ρ : LRel} {q q' : Q} {w w' : Worker}, ρ.rel.OneOne → Good ρ → QR ρ q q' →
    WN ρ w w' → (QueueManager.workerCancelled q w).1 = (QueueManager.workerCancelled q' w').1 ∧
      QR ρ (QueueManager.workerCancelled q w).2 (QueueManager.workerCancelled q' w').2

end Broker
