import Verif.Proof.Apart
import Verif.Spec.Rota

/-! # The queue manager with one line of promises treats the parts independently -/

namespace Broker
namespace Rota

/-- Corresponding states. -/
structure QR (P : Parts) (c : Corr) (q q' : Rota) : Prop where
  turns : Proj (WA P c) (WB P c) q.turns q'.turns
  doing : ∀ a b, c.ρ a b → Option.Rel (Option.Rel (RA P c)) (q.doing a) (q'.doing b)
  doingF : ∀ a r, c.F a → q.doing a = some (some r) → RB P c r
  dom : ∀ a, q.doing a ≠ none → (∃ b, c.ρ a b) ∨ c.F a
  dom' : ∀ b, q'.doing b ≠ none → ∃ a, c.ρ a b
  line : Proj (fun p p' : Nat × Req => c.ρ p.1 p'.1 ∧ RA P c p.2 p'.2)
    (fun p => c.F p.1 ∧ RB P c p.2) q.line q'.line

variable {P : Parts} {c : Corr} {q q' : Rota}

theorem QR.job (h : QR P c q q') {w w' : Worker} (hw : WA P c w w') :
    Option.Rel (RA P c) (q.job w) (q'.job w') := by
  have := h.doing _ _ hw.1.rel
  unfold Rota.job
  generalize q.doing w.addr = x at this
  generalize q'.doing w'.addr = y at this
  cases this with
  | none => exact .none
  | some h => exact h

theorem QR.jobF (h : QR P c q q') {w : Worker} (hw : WB P c w) : ∀ r ∈ q.job w, RB P c r := by
  intro r hr
  unfold Rota.job at hr
  cases hd : q.doing w.addr with
  | none => rw [hd] at hr; cases hr
  | some o =>
    rw [hd] at hr
    have : o = some r := hr
    exact h.doingF _ r hw.1 (by rw [hd, this])

theorem QR.give (hc : c.Ok) (h : QR P c q q') {w w' : Worker} (hw : WA P c w w') {r r' : Option Req}
    (hr : Option.Rel (RA P c) r r') : QR P c (q.give w r) (q'.give w' r') where
  turns := h.turns
  line := h.line
  doing a b hab := by
    show Option.Rel _ (if a = w.addr then some r else q.doing a) (if b = w'.addr then some r' else q'.doing b)
    by_cases e : a = w.addr
    · subst e
      rw [if_pos rfl, if_pos (hc.one.fn hab hw.1.rel)]
      exact .some hr
    · rw [if_neg e, if_neg fun (e' : b = w'.addr) => e (hc.one.inj (e' ▸ hab) hw.1.rel)]
      exact h.doing a b hab
  doingF a x ha hx := by
    have e : a ≠ w.addr := fun e => hc.dis hw.1.rel (e ▸ ha)
    exact h.doingF a x ha (by simpa only [Rota.give, if_neg e] using hx)
  dom a ha := by
    by_cases e : a = w.addr
    · exact .inl ⟨_, e ▸ hw.1.rel⟩
    · exact h.dom a (by simpa only [Rota.give, if_neg e] using ha)
  dom' b hb := by
    by_cases e : b = w'.addr
    · exact ⟨_, e ▸ hw.1.rel⟩
    · exact h.dom' b (by simpa only [Rota.give, if_neg e] using hb)

theorem QR.giveF (hc : c.Ok) (h : QR P c q q') {w : Worker} (hw : WB P c w) {x : Option Req}
    (hx : ∀ r ∈ x, RB P c r) : QR P c (q.give w x) q' where
  turns := h.turns
  line := h.line
  doing a b hab := by
    have e : a ≠ w.addr := fun e => hc.dis hab (e ▸ hw.1)
    show Option.Rel _ (if a = w.addr then some x else q.doing a) _
    rw [if_neg e]
    exact h.doing a b hab
  doingF a r ha hr := by
    by_cases e : a = w.addr
    · refine hx r ?_
      have : some x = some (some r) := by simpa only [Rota.give, if_pos e] using hr
      exact Option.some.inj this
    · exact h.doingF a r ha (by simpa only [Rota.give, if_neg e] using hr)
  dom a ha := by
    by_cases e : a = w.addr
    · exact .inr (e ▸ hw.1)
    · exact h.dom a (by simpa only [Rota.give, if_neg e] using ha)
  dom' := h.dom'

theorem QR.know (hc : c.Ok) (h : QR P c q q') {w w' : Worker} (hw : WA P c w w') {r r' : Option Req}
    (hr : Option.Rel (RA P c) r r') : QR P c (q.know w r) (q'.know w' r') := by
  have := h.doing _ _ hw.1.rel
  unfold Rota.know
  cases hx : q.doing w.addr with
  | none =>
    rw [hx] at this
    cases hy : q'.doing w'.addr with
    | none => rw [if_pos rfl, if_pos rfl]; exact h.give hc hw hr
    | some _ => rw [hy] at this; cases this
  | some _ =>
    rw [hx] at this
    cases hy : q'.doing w'.addr with
    | none => rw [hy] at this; cases this
    | some _ => rw [if_neg (by simp), if_neg (by simp)]; exact h

theorem QR.knowF (hc : c.Ok) (h : QR P c q q') {w : Worker} (hw : WB P c w) {x : Option Req}
    (hx : ∀ r ∈ x, RB P c r) : QR P c (q.know w x) q' := by
  unfold Rota.know
  split
  · exact h.giveF hc hw hx
  · exact h

theorem pop_ours (hc : c.Ok) {a b : Nat} (hab : c.ρ a b) {l l' : List (Nat × Req)}
    (h : Proj (fun p p' : Nat × Req => c.ρ p.1 p'.1 ∧ RA P c p.2 p'.2) (fun p => c.F p.1 ∧ RB P c p.2) l l') :
    Option.Rel (fun x x' => RA P c x.1 x'.1 ∧ Proj (fun p p' : Nat × Req => c.ρ p.1 p'.1 ∧ RA P c p.2 p'.2)
      (fun p => c.F p.1 ∧ RB P c p.2) x.2 x'.2) (pop a l) (pop b l') := by
  induction h with
  | nil => exact .none
  | @both p p' l l' hp ht ih =>
    unfold pop
    by_cases e : p.1 = a
    · rw [if_pos e, if_pos (hc.one.fn (e ▸ hp.1) hab)]
      exact .some ⟨hp.2, ht⟩
    · rw [if_neg e, if_neg fun (e' : p'.1 = b) => e (hc.one.inj (e' ▸ hp.1) hab)]
      generalize pop a l = x at ih
      generalize pop b l' = y at ih
      cases ih with
      | none => exact .none
      | some h => exact .some ⟨h.1, .both hp h.2⟩
  | @skip p l l' hp ht ih =>
    unfold pop
    rw [if_neg fun (e : p.1 = a) => hc.dis hab (e ▸ hp.1)]
    generalize pop a l = x at ih
    cases hy : pop b l' with
    | none =>
      rw [hy] at ih
      cases ih
      have : pop b l' = none := hy
      unfold pop at this
      rw [this]
      exact .none
    | some y =>
      rw [hy] at ih
      cases ih with
      | some h =>
        have : pop b l' = some y := hy
        unfold pop at this
        rw [this]
        exact .some ⟨h.1, .skip hp h.2⟩

theorem pop_others (hc : c.Ok) {a : Nat} (ha : c.F a) {l l' : List (Nat × Req)}
    (h : Proj (fun p p' : Nat × Req => c.ρ p.1 p'.1 ∧ RA P c p.2 p'.2) (fun p => c.F p.1 ∧ RB P c p.2) l l') :
    ∀ x, pop a l = some x → RB P c x.1 ∧ Proj (fun p p' : Nat × Req => c.ρ p.1 p'.1 ∧ RA P c p.2 p'.2)
      (fun p => c.F p.1 ∧ RB P c p.2) x.2 l' := by
  induction h with
  | nil => intro x hx; cases hx
  | @both p p' l l' hp ht ih =>
    intro x hx
    unfold pop at hx
    rw [if_neg fun e => hc.dis hp.1 (by rw [e]; exact ha)] at hx
    cases hy : pop a l with
    | none => rw [hy] at hx; cases hx
    | some y =>
      rw [hy] at hx
      cases hx
      exact ⟨(ih y hy).1, .both hp (ih y hy).2⟩
  | @skip p l l' hp ht ih =>
    intro x hx
    unfold pop at hx
    by_cases e : p.1 = a
    · rw [if_pos e] at hx
      cases hx
      exact ⟨hp.2, ht⟩
    · rw [if_neg e] at hx
      cases hy : pop a l with
      | none => rw [hy] at hx; cases hx
      | some y =>
        rw [hy] at hx
        cases hx
        exact ⟨(ih y hy).1, .skip hp (ih y hy).2⟩

theorem QR.next (hc : c.Ok) (h : QR P c q q') {w w' : Worker} (hw : WA P c w w') :
    Option.Rel (RA P c) (q.next w).1 (q'.next w').1 ∧ QR P c (q.next w).2 (q'.next w').2 := by
  have := pop_ours hc hw.1.rel h.line
  unfold Rota.next
  generalize pop w.addr q.line = x at this
  generalize pop w'.addr q'.line = y at this
  cases this with
  | none => exact ⟨.none, h⟩
  | @some x y hx =>
    have h1 : QR P c { q with line := x.2 } { q' with line := y.2 } :=
      { h with line := hx.2 }
    exact ⟨.some hx.1, h1.give hc hw (.some hx.1)⟩

theorem QR.nextF (hc : c.Ok) (h : QR P c q q') {w : Worker} (hw : WB P c w) :
    (∀ r ∈ (q.next w).1, RB P c r) ∧ QR P c (q.next w).2 q' := by
  have := pop_others hc hw.1 h.line
  unfold Rota.next
  generalize pop w.addr q.line = x at this
  cases x with
  | none => exact ⟨by simp, h⟩
  | some x =>
    have hx := this x rfl
    have h1 : QR P c { q with line := x.2 } q' := { h with line := hx.2 }
    have h2 : ∀ r ∈ some x.1, RB P c r := by intro r hr; cases hr; exact hx.1
    exact ⟨h2, h1.giveF hc hw h2⟩

theorem first_ours {r r' : Req} (hr : RA P c r r') (hcm : r.complete = true) {l l' : List Worker}
    (h : Proj (WA P c) (WB P c) l l') : ∀ o, first r l = .ok o →
      ∃ o', first r' l' = .ok o' ∧ Option.Rel (WA P c) o o' := by
  induction h with
  | nil => intro o ho; cases ho; exact ⟨_, rfl, .none⟩
  | @both w w' l l' hw ht ih =>
    intro o ho
    unfold first at ho ⊢
    rw [hw.1.checkHeaders, hr.headers]
    cases hk : w.checkHeaders r.headers with
    | error e => rw [hk] at ho; cases ho
    | ok b =>
      rw [hk] at ho
      cases b with
      | true => cases ho; exact ⟨_, rfl, .some hw⟩
      | false => exact ih o ho
  | @skip w l l' hw ht ih =>
    intro o ho
    unfold first at ho
    cases hk : w.checkHeaders r.headers with
    | error e => rw [hk] at ho; cases ho
    | ok b =>
      rw [hk] at ho
      cases b with
      | true => exact absurd hk (hw.2.2 _ (hr.req hcm))
      | false => exact ih o ho

theorem first_others {r : Req} (hr : RB P c r) (hcm : r.complete = true) {l l' : List Worker}
    (h : Proj (WA P c) (WB P c) l l') : ∀ w, first r l = .ok (some w) → WB P c w := by
  induction h with
  | nil => intro o ho; cases ho
  | @both w w' l l' hw ht ih =>
    intro o ho
    unfold first at ho
    cases hk : w.checkHeaders r.headers with
    | error e => rw [hk] at ho; cases ho
    | ok b =>
      rw [hk] at ho
      cases b with
      | true => exact absurd hk (hw.2.2 _ (hr.req hcm))
      | false => exact ih o ho
  | @skip w l l' hw ht ih =>
    intro o ho
    unfold first at ho
    cases hk : w.checkHeaders r.headers with
    | error e => rw [hk] at ho; cases ho
    | ok b =>
      rw [hk] at ho
      cases b with
      | true => cases ho; exact hw
      | false => exact ih o ho

theorem turns_ours (hc : c.Ok) {w w' : Worker} (hw : WA P c w w') {l l' : List Worker}
    (h : Proj (WA P c) (WB P c) l l') :
    Proj (WA P c) (WB P c) (l.filter fun x => x.addr ≠ w.addr) (l'.filter fun x => x.addr ≠ w'.addr) :=
  (h.filter (p := fun x => decide (x.addr ≠ w.addr)) (p' := fun x => decide (x.addr ≠ w'.addr))
    fun x x' hx => by simp only [ne_eq, hw.1.addr_iff hc.one hx.1]).mono (fun _ _ h => h) fun _ h => h.1

theorem turns_others (hc : c.Ok) {w : Worker} (hw : WB P c w) {l l' : List Worker}
    (h : Proj (WA P c) (WB P c) l l') :
    Proj (WA P c) (WB P c) (l.filter fun x => x.addr ≠ w.addr) l' :=
  h.filterF (p := fun x => decide (x.addr ≠ w.addr)) fun _ _ hx => decide_eq_true (hx.ne hc hw.1).symm

theorem QR.remove (hc : c.Ok) (h : QR P c q q') {w w' : Worker} (hw : WA P c w w') :
    List.Forall₂ (RA P c) (q.remove w).1 (q'.remove w').1 ∧ QR P c (q.remove w).2 (q'.remove w').2 := by
  have hiff : ∀ p p' : Nat × Req, c.ρ p.1 p'.1 ∧ RA P c p.2 p'.2 → (p.1 = w.addr ↔ p'.1 = w'.addr) :=
    fun p p' hp => ⟨fun e => hc.one.fn (e ▸ hp.1) hw.1.rel, fun e => hc.one.inj (e ▸ hp.1) hw.1.rel⟩
  constructor
  · have hj := h.job hw
    unfold Rota.remove
    simp only
    have h1 : List.Forall₂ (RA P c) (q.job w).toList (q'.job w').toList := by
      generalize q.job w = x at hj
      generalize q'.job w' = y at hj
      cases hj with
      | none => exact .nil
      | some h => exact .cons h .nil
    refine List.rel_append h1 ?_
    have h2 := (h.line.filter (p := fun p => decide (p.1 = w.addr)) (p' := fun p => decide (p.1 = w'.addr))
      fun p p' hp => by simp only [hiff p p' hp]).forall₂ (by
        rintro p ⟨⟨hF, -⟩, hp⟩
        exact hc.dis hw.1.rel (of_decide_eq_true hp ▸ hF))
    refine List.forall₂_map_left_iff.2 (List.forall₂_map_right_iff.2 ?_)
    exact h2.imp fun _ _ h => h.2
  · exact
      { turns := turns_ours hc hw h.turns
        doing := by
          intro a b hab
          show Option.Rel _ (if a = w.addr then none else q.doing a) (if b = w'.addr then none else q'.doing b)
          by_cases e : a = w.addr
          · subst e
            rw [if_pos rfl, if_pos (hc.one.fn hab hw.1.rel)]
            exact .none
          · rw [if_neg e, if_neg fun (e' : b = w'.addr) => e (hc.one.inj (e' ▸ hab) hw.1.rel)]
            exact h.doing a b hab
        doingF := by
          intro a x ha hx
          have e : a ≠ w.addr := fun e => hc.dis hw.1.rel (e ▸ ha)
          exact h.doingF a x ha (by simpa only [Rota.remove, if_neg e] using hx)
        dom := by
          intro a ha
          by_cases e : a = w.addr
          · exact .inl ⟨_, e ▸ hw.1.rel⟩
          · exact h.dom a (by simpa only [Rota.remove, if_neg e] using ha)
        dom' := by
          intro b hb
          by_cases e : b = w'.addr
          · exact ⟨_, e ▸ hw.1.rel⟩
          · exact h.dom' b (by simpa only [Rota.remove, if_neg e] using hb)
        line := (h.line.filter (p := fun p : Nat × Req => decide (p.1 ≠ w.addr)) (p' := fun p : Nat × Req => decide (p.1 ≠ w'.addr))
          fun p p' hp => by simp only [ne_eq, hiff p p' hp]).mono (fun _ _ h => h) fun _ h => h.1 }

theorem QR.removeF (hc : c.Ok) (h : QR P c q q') {w : Worker} (hw : WB P c w) :
    (∀ r ∈ (q.remove w).1, RB P c r) ∧ QR P c (q.remove w).2 q' := by
  constructor
  · intro r hr
    rcases List.mem_append.1 hr with hr | hr
    · exact h.jobF hw r (by simpa using hr)
    · obtain ⟨p, hp, rfl⟩ := List.mem_map.1 hr
      obtain ⟨hp, e⟩ := List.mem_filter.1 hp
      have e : p.1 = w.addr := of_decide_eq_true e
      rcases h.line.mem hp with ⟨p', -, hr, -⟩ | h
      · exact absurd (e ▸ hw.1) (hc.dis hr)
      · exact h.2
  · exact
      { turns := turns_others hc hw h.turns
        doing := by
          intro a b hab
          have e : a ≠ w.addr := fun e => hc.dis hab (e ▸ hw.1)
          show Option.Rel _ (if a = w.addr then none else q.doing a) _
          rw [if_neg e]
          exact h.doing a b hab
        doingF := by
          intro a r ha hr
          by_cases e : a = w.addr
          · exact absurd (show none = some (some r) by simpa only [Rota.remove, if_pos e] using hr) (by simp)
          · exact h.doingF a r ha (by simpa only [Rota.remove, if_neg e] using hr)
        dom := by
          intro a ha
          by_cases e : a = w.addr
          · exact .inr (e ▸ hw.1)
          · exact h.dom a (by simpa only [Rota.remove, if_neg e] using ha)
        dom' := h.dom'
        line := h.line.filterF (p := fun p : Nat × Req => decide (p.1 ≠ w.addr)) fun p p' hp =>
          decide_eq_true fun e => hc.dis hp.1 (by rw [e]; exact hw.1) }

/-- The turn of the worker is over. -/
def endTurn (q : Rota) (w : Worker) : Rota :=
  { q with turns := q.turns.filter (fun x => x.addr ≠ w.addr) ++ [w] }

/-- The request is promised to the worker. -/
def place (q : Rota) (w : Worker) (r : Req) : EnqResult × Rota :=
  match q.job w with
  | none => (⟨some w, true⟩, q.give w (some r))
  | some _ => (⟨none, true⟩, { q with line := q.line ++ [(w.addr, r)] })

theorem submit_eq (q : Rota) (r : Req) : q.submit r = (first r q.turns).map fun
    | none => (⟨none, false⟩, q)
    | some w => (q.endTurn w).place w r := by
  unfold Rota.submit
  cases first r q.turns with
  | error e => rfl
  | ok o =>
    cases o with
    | none => rfl
    | some w =>
      show (match (q.endTurn w).job w with
        | none => (.ok (⟨some w, true⟩, (q.endTurn w).give w (some r)) : Except Exn (EnqResult × Rota))
        | some _ => .ok (⟨none, true⟩, { q.endTurn w with line := (q.endTurn w).line ++ [(w.addr, r)] })) =
          .ok ((q.endTurn w).place w r)
      unfold place
      cases (q.endTurn w).job w <;> rfl

theorem QR.endTurn (hc : c.Ok) (h : QR P c q q') {w w' : Worker} (hw : WA P c w w') :
    QR P c (q.endTurn w) (q'.endTurn w') :=
  { h with turns := (turns_ours hc hw h.turns).append (.both hw .nil) }

theorem QR.endTurnF (hc : c.Ok) (h : QR P c q q') {w : Worker} (hw : WB P c w) :
    QR P c (q.endTurn w) q' := by
  have := (turns_others hc hw h.turns).append (Proj.skip hw (.nil : Proj (WA P c) (WB P c) [] []))
  rw [List.append_nil] at this
  exact { h with turns := this }

theorem QR.place (hc : c.Ok) (h : QR P c q q') {w w' : Worker} (hw : WA P c w w') {r r' : Req}
    (hr : RA P c r r') :
    Option.Rel (WA P c) (q.place w r).1.assignedTo (q'.place w' r').1.assignedTo ∧
      (q'.place w' r').1.enqueued = (q.place w r).1.enqueued ∧ QR P c (q.place w r).2 (q'.place w' r').2 := by
  have h4 := h.job hw
  unfold Rota.place
  generalize q.job w = y at h4
  generalize q'.job w' = y' at h4
  cases h4 with
  | none => exact ⟨.some hw, rfl, h.give hc hw (.some hr)⟩
  | some _ => exact ⟨.none, rfl, { h with line := h.line.append (.both ⟨hw.1.rel, hr⟩ .nil) }⟩

theorem QR.placeF (hc : c.Ok) (h : QR P c q q') {w : Worker} (hw : WB P c w) {r : Req} (hr : RB P c r) :
    (∀ x ∈ (q.place w r).1.assignedTo, WB P c x) ∧ QR P c (q.place w r).2 q' := by
  have h1 : ∀ x ∈ some r, RB P c x := by intro x hx; cases hx; exact hr
  have h2 : ∀ x ∈ some w, WB P c x := by intro x hx; cases hx; exact hw
  unfold Rota.place
  cases q.job w with
  | none => exact ⟨h2, h.giveF hc hw h1⟩
  | some _ =>
    have := h.line.append (l2 := [(w.addr, r)]) (l2' := []) (.skip ⟨hw.1, hr⟩ .nil)
    rw [List.append_nil] at this
    exact ⟨by simp, { h with line := this }⟩

theorem QR.submit (hc : c.Ok) (h : QR P c q q') {r r' : Req} (hr : RA P c r r') (hcm : r.complete = true)
    {x : EnqResult} {q1 : Rota} (hx : q.submit r = .ok (x, q1)) : ∃ x' q1',
      q'.submit r' = .ok (x', q1') ∧ Option.Rel (WA P c) x.assignedTo x'.assignedTo ∧
        x'.enqueued = x.enqueued ∧ QR P c q1 q1' := by
  rw [submit_eq] at hx ⊢
  cases hf : first r q.turns with
  | error e => rw [hf] at hx; cases hx
  | ok o =>
    rw [hf] at hx
    obtain ⟨o', h1, h2⟩ := first_ours hr hcm h.turns o hf
    rw [h1]
    cases h2 with
    | none => cases hx; exact ⟨_, _, rfl, .none, rfl, h⟩
    | @some w w' hw =>
      have h3 := (h.endTurn hc hw).place hc hw hr
      have e : (q.endTurn w).place w r = (x, q1) := Except.ok.inj hx
      rw [e] at h3
      exact ⟨_, _, rfl, h3⟩

theorem QR.submitF (hc : c.Ok) (h : QR P c q q') {r : Req} (hr : RB P c r) (hcm : r.complete = true)
    {x : EnqResult} {q1 : Rota} (hx : q.submit r = .ok (x, q1)) :
    (∀ w ∈ x.assignedTo, WB P c w) ∧ QR P c q1 q' := by
  rw [submit_eq] at hx
  cases hf : first r q.turns with
  | error e => rw [hf] at hx; cases hx
  | ok o =>
    rw [hf] at hx
    cases o with
    | none => cases hx; exact ⟨by simp, h⟩
    | some w =>
      have hw := first_others hr hcm h.turns w hf
      have h3 := (h.endTurnF hc hw).placeF hc hw hr
      have e : (q.endTurn w).place w r = (x, q1) := Except.ok.inj hx
      rw [e] at h3
      exact h3

theorem QR.grow {c' : Corr} (hg : c.Grows c') (h : QR P c q q') : QR P c' q q' where
  turns := h.turns.mono (fun _ _ h => h.mono hg) fun _ h => h.mono hg
  line := h.line.mono (fun _ _ h => ⟨hg.ρ h.1, h.2.mono hg⟩) fun _ h => ⟨hg.F h.1, h.2.mono hg⟩
  doing a b hab := by
    rcases hg.newρ hab with hab | ⟨h1, h2, h3⟩
    · have := h.doing a b hab
      generalize q.doing a = x at this
      generalize q'.doing b = y at this
      cases this with
      | none => exact .none
      | some h =>
        cases h with
        | none => exact .some .none
        | some h => exact .some (.some (h.mono hg))
    · have e1 : q.doing a = none := by
        by_contra hne
        rcases h.dom a hne with ⟨y, hy⟩ | hF
        · exact h1 y hy
        · exact h2 hF
      have e2 : q'.doing b = none := by
        by_contra hne
        obtain ⟨x, hx⟩ := h.dom' b hne
        exact h3 x hx
      rw [e1, e2]
      exact .none
  doingF a r ha hr := by
    rcases hg.newF ha with ha | ⟨h1, h2⟩
    · exact (h.doingF a r ha hr).mono hg
    · rcases h.dom a (by rw [hr]; simp) with ⟨y, hy⟩ | hF
      · exact absurd hy (h1 y)
      · exact absurd hF h2
  dom a ha := by
    rcases h.dom a ha with ⟨y, hy⟩ | hF
    · exact .inl ⟨y, hg.ρ hy⟩
    · exact .inr (hg.F hF)
  dom' b hb := by
    obtain ⟨x, hx⟩ := h.dom' b hb
    exact ⟨x, hg.ρ hx⟩

instance : ApartQM Rota where
  EnvR _ _ := True
  Good _ := True
  QR := QR
  good_empty := trivial
  good_ext _ _ _ := trivial
  empty _ _ :=
    { turns := .nil
      doing := fun _ _ _ => .none
      doingF := fun _ _ _ h => nomatch h
      dom := fun _ h => absurd rfl h
      dom' := fun _ h => absurd rfl h
      line := .nil }
  grow := QR.grow
  addWorker _ _ hc _ h hw hcur hx := by
    cases hx
    exact ⟨_, _, rfl, .none, { h.know hc hw hcur with turns := .both hw h.turns }⟩
  assignRequest _ _ hc _ h hw hx := by
    have e := h.next hc hw
    rw [Except.ok.inj hx] at e
    exact ⟨_, _, rfl, e⟩
  workerFinished _ _ hc _ h hw hx := by
    have e := (h.give hc hw .none).next hc hw
    rw [Except.ok.inj hx] at e
    exact ⟨_, _, rfl, e⟩
  workerTerminated hc _ h hw hx := by
    cases hx
    exact ⟨_, _, rfl, h.remove hc hw⟩
  enqueueRequest _ _ hc _ h hr hcm hx := h.submit hc hr hcm hx
  currentRequest hc _ h hw := ⟨h.job hw, h.know hc hw .none⟩
  workerCancelled hc _ h hw := ⟨h.job hw, h.give hc hw .none⟩
  addWorkerF _ hc _ h hw hcur hx := by
    cases hx
    exact ⟨by simp, { h.knowF hc hw hcur with turns := .skip hw h.turns }⟩
  assignRequestF _ hc _ h hw hx := by
    have e := h.nextF hc hw
    rw [Except.ok.inj hx] at e
    exact e
  workerFinishedF _ hc _ h hw hx := by
    have e := (h.giveF hc hw (x := none) (by simp)).nextF hc hw
    rw [Except.ok.inj hx] at e
    exact e
  workerTerminatedF hc _ h hw hx := by
    cases hx
    exact h.removeF hc hw
  enqueueRequestF _ hc _ h hr hcm hx := h.submitF hc hr hcm hx
  currentRequestF hc _ h hw := ⟨h.jobF hw, h.knowF hc hw (by simp)⟩
  workerCancelledF hc _ h hw := ⟨h.jobF hw, h.giveF hc hw (by simp)⟩

end Rota
end Broker
