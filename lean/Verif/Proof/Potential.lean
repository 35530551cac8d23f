import Verif.Proof.LifeInv
import Mathlib.Algebra.BigOperators.Group.Multiset.Basic

/-! # Potential functions over the life-cycle machine -/

set_option linter.unusedSimpArgs false

namespace Broker

/-- Weights of requests by place, depending on the failure count. -/
structure Weights where
  b : Nat → Req → Nat
  q : Nat → Req → Nat
  h : Nat → Req → Nat

/-- The potential of a machine state. -/
def pot (W : Weights) (L : LS) : Nat :=
  (L.busy.map (fun p => W.b (L.fc p.2.rid) p.2)).sum
    + (L.que.map (fun r => W.q (L.fc r.rid) r)).sum
    + (L.hand.map (fun r => W.h (L.fc r.rid) r)).sum

/-- Conditions under which an event pays `cost` from the potential and is granted `gain`. -/
structure WLaws (M : Nat) (W : Weights) (cost gain : Ev → Nat) : Prop where
  say : ∀ m, cost (.say m) ≤ gain (.say m)
  drop : cost .drop ≤ gain .drop
  accept : ∀ r, r.complete = true → W.h 0 r + cost (.accept r) ≤ gain (.accept r)
  register0 : ∀ w, cost (.register w none) ≤ gain (.register w none)
  register : ∀ w r, r.complete = false →
    W.b 0 r + cost (.register w (some r)) ≤ gain (.register w (some r))
  send : ∀ w r n, r.complete = true → n = 0 ∨ n < M →
    W.b n r + cost (.send w r) ≤ W.h n r + gain (.send w r)
  park : ∀ r n, r.complete = true → n = 0 ∨ n < M →
    W.q n r + cost (.park r) ≤ W.h n r + gain (.park r)
  pull : ∀ w r n, r.complete = true → n = 0 ∨ n < M →
    W.b n r + cost (.pull w r) ≤ W.q n r + gain (.pull w r)
  resend : ∀ w r, r.complete = false → r.frames = [] → cost (.resend w r) ≤ gain (.resend w r)
  done : ∀ w r n, (r.complete = true → n = 0 ∨ n < M) →
    cost (.done w r) ≤ W.b n r + gain (.done w r)
  failed : ∀ w r t n, (r.complete = true → n = 0 ∨ n < M) →
    cost (.failed w r t) ≤ W.b n r + gain (.failed w r t)
  cancel : ∀ w r n, (r.complete = true → n = 0 ∨ n < M) →
    W.h (szInc n) r + cost (.cancel w r) ≤ W.b n r + gain (.cancel w r)
  expireCur : ∀ r n, (r.complete = true → n = 0 ∨ n < M) → W.h (szInc n) r ≤ W.b n r
  expireQue : ∀ r n, r.complete = true → n = 0 ∨ n < M → W.h n r ≤ W.q n r
  expire : ∀ w c q, cost (.expire w c q) ≤ gain (.expire w c q)
  giveUp : ∀ r t n, (r.complete = true → n ≤ max 1 M) →
    cost (.giveUp r t) ≤ W.h n r + gain (.giveUp r t)

theorem sum_map_le {α : Type} {m : Multiset α} {f g : α → Nat} (h : ∀ x ∈ m, f x ≤ g x) :
    (m.map f).sum ≤ (m.map g).sum := by
  induction m using Multiset.induction_on with
  | empty => simp
  | cons a t ih =>
    simp only [Multiset.map_cons, Multiset.sum_cons]
    have h1 := h a (by simp)
    have h2 := ih (fun x hx => h x (Multiset.mem_cons_of_mem hx))
    omega

theorem LStep.pot {M : Nat} {W : Weights} {cost gain : Ev → Nat} (hW : WLaws M W cost gain)
    {L L' : LS} {e : Ev} (h : LStep M L e L') (hi : LInv M L) :
    Broker.pot W L' + cost e ≤ Broker.pot W L + gain e := by
  have hfc : ∀ r ∈ L.held, (∀ x, e.counts = some x → x.rid ≠ r.rid) → L'.fc r.rid = L.fc r.rid := by
    intro r hr hx
    rw [h.fc_eq (hi.lt r hr)]
    cases hc : e.counts with
    | none => rfl
    | some x => simp [Ne.symm (hx x hc)]
  have hb0 : ∀ p ∈ L.busy, p.2 ∈ L.held := fun p hp => LS.mem_held.2 (Or.inl ⟨p.1, hp⟩)
  have hq0 : ∀ r ∈ L.que, r ∈ L.held := fun r hr => LS.mem_held.2 (Or.inr (Or.inl hr))
  have hh0 : ∀ r ∈ L.hand, r ∈ L.held := fun r hr => LS.mem_held.2 (Or.inr (Or.inr hr))
  have cb : ∀ b : Multiset (Worker × Req), (∀ p ∈ b, p ∈ L.busy) →
      (∀ p ∈ b, ∀ x, e.counts = some x → x.rid ≠ p.2.rid) →
      (b.map (fun p => W.b (L'.fc p.2.rid) p.2)).sum = (b.map (fun p => W.b (L.fc p.2.rid) p.2)).sum := by
    intro b h1 h2
    congr 1
    exact Multiset.map_congr rfl (fun p hp => by rw [hfc _ (hb0 p (h1 p hp)) (h2 p hp)])
  have cq : ∀ q : Multiset Req, (∀ p ∈ q, p ∈ L.que) →
      (∀ p ∈ q, ∀ x, e.counts = some x → x.rid ≠ p.rid) →
      (q.map (fun p => W.q (L'.fc p.rid) p)).sum = (q.map (fun p => W.q (L.fc p.rid) p)).sum := by
    intro b h1 h2
    congr 1
    exact Multiset.map_congr rfl (fun p hp => by rw [hfc _ (hq0 p (h1 p hp)) (h2 p hp)])
  have ch : ∀ q : Multiset Req, (∀ p ∈ q, p ∈ L.hand) →
      (∀ p ∈ q, ∀ x, e.counts = some x → x.rid ≠ p.rid) →
      (q.map (fun p => W.h (L'.fc p.rid) p)).sum = (q.map (fun p => W.h (L.fc p.rid) p)).sum := by
    intro b h1 h2
    congr 1
    exact Multiset.map_congr rfl (fun p hp => by rw [hfc _ (hh0 p (h1 p hp)) (h2 p hp)])
  cases h with
  | say m => have := hW.say m; omega
  | resend w r hb hc hf => have := hW.resend w r hc hf; omega
  | drop =>
    have h1 := cb L.busy (fun _ h => h) (by simp [Ev.counts])
    have h2 := cq L.que (fun _ h => h) (by simp [Ev.counts])
    have h3 := ch L.hand (fun _ h => h) (by simp [Ev.counts])
    have := hW.drop
    simp only [Broker.pot] at h1 h2 h3 ⊢
    omega
  | accept r hid hc hcan =>
    have h1 := cb L.busy (fun _ h => h) (by simp [Ev.counts])
    have h2 := cq L.que (fun _ h => h) (by simp [Ev.counts])
    have h3 := ch L.hand (fun _ h => h) (by simp [Ev.counts])
    have h4 := hW.accept r hc
    have h5 : upd L.fc L.nextRid 0 r.rid = 0 := by simp [upd, hid]
    simp only [Broker.pot, Multiset.map_cons, Multiset.sum_cons] at h1 h2 h3 ⊢
    rw [h5]
    omega
  | register w cur hw hf hcur =>
    have h1 := cb L.busy (fun _ h => h) (by simp [Ev.counts])
    have h2 := cq L.que (fun _ h => h) (by simp [Ev.counts])
    have h3 := ch L.hand (fun _ h => h) (by simp [Ev.counts])
    cases cur with
    | none =>
      have h4 := hW.register0 w
      simp only [Broker.pot, Option.map_none, Option.toList_none, Multiset.coe_nil,
        zero_add] at h1 h2 h3 ⊢
      omega
    | some r =>
      obtain ⟨j, hj⟩ := hcur r rfl
      have h4 := hW.register w r (by rw [hj]; rfl)
      have h5 : upd L.fc L.nextRid 0 r.rid = 0 := by simp [upd, hj, Req.incomplete]
      simp only [Broker.pot, Option.map_some, Option.toList_some, Multiset.coe_singleton,
        Multiset.map_add, Multiset.map_singleton, Multiset.sum_add, Multiset.sum_singleton]
        at h1 h2 h3 ⊢
      rw [h5]
      omega
  | send w r hnd hh hw hidle hcan hcomp hal =>
    have h4 := hW.send w r _ hcomp hal
    simp only [Broker.pot, hh, Multiset.map_cons, Multiset.sum_cons]
    omega
  | park r hnd hh hcan hcomp hal =>
    have h4 := hW.park r _ hcomp hal
    simp only [Broker.pot, hh, Multiset.map_cons, Multiset.sum_cons]
    omega
  | pull w r q hq hw hidle hcan =>
    have hr : r ∈ L.que := by rw [hq]; simp
    have h4 := hW.pull w r _ (hi.queC r hr) (hi.aliveQ r hr)
    simp only [Broker.pot, hq, Multiset.map_cons, Multiset.sum_cons]
    omega
  | done w r b hb =>
    have h4 := hW.done w r (L.fc r.rid) (hi.aliveB (w, r) (by rw [hb]; simp))
    simp only [Broker.pot, hb, Multiset.map_cons, Multiset.sum_cons]
    omega
  | failed w r text b hb =>
    have hheld : L.held = r ::ₘ (b.map (·.2) + L.que + L.hand) := by simp [LS.held, hb]
    have hne : ∀ x ∈ b.map (·.2) + L.que + L.hand, ∀ y, (Ev.failed w r text).counts = some y →
        y.rid ≠ x.rid := by
      intro x hx y hy
      simp only [Ev.counts, Option.some.injEq] at hy
      subst hy
      exact Ne.symm (hi.rid_ne hheld hx)
    have h1 := cb b (fun p hp => by rw [hb]; exact Multiset.mem_cons_of_mem hp)
      (fun p hp => hne p.2 (by
        simp only [Multiset.mem_add]
        exact Or.inl (Or.inl (Multiset.mem_map.2 ⟨p, hp, rfl⟩))))
    have h2 := cq L.que (fun _ h => h) (fun p hp => hne p (by
        simp only [Multiset.mem_add]; exact Or.inl (Or.inr hp)))
    have h3 := ch L.hand (fun _ h => h) (fun p hp => hne p (by
        simp only [Multiset.mem_add]; exact Or.inr hp))
    have h4 := hW.failed w r text (L.fc r.rid) (hi.aliveB (w, r) (by rw [hb]; simp))
    simp only [Broker.pot, hb, Multiset.map_cons, Multiset.sum_cons] at h1 h2 h3 ⊢
    omega
  | cancel w r b hb =>
    have hheld : L.held = r ::ₘ (b.map (·.2) + L.que + L.hand) := by simp [LS.held, hb]
    have hne : ∀ x ∈ b.map (·.2) + L.que + L.hand, ∀ y, (Ev.cancel w r).counts = some y →
        y.rid ≠ x.rid := by
      intro x hx y hy
      simp only [Ev.counts, Option.some.injEq] at hy
      subst hy
      exact Ne.symm (hi.rid_ne hheld hx)
    have h1 := cb b (fun p hp => by rw [hb]; exact Multiset.mem_cons_of_mem hp)
      (fun p hp => hne p.2 (by
        simp only [Multiset.mem_add]
        exact Or.inl (Or.inl (Multiset.mem_map.2 ⟨p, hp, rfl⟩))))
    have h2 := cq L.que (fun _ h => h) (fun p hp => hne p (by
        simp only [Multiset.mem_add]; exact Or.inl (Or.inr hp)))
    have h3 := ch L.hand (fun _ h => h) (fun p hp => hne p (by
        simp only [Multiset.mem_add]; exact Or.inr hp))
    have h4 := hW.cancel w r (L.fc r.rid) (hi.aliveB (w, r) (by rw [hb]; simp))
    have h5 : bump L.fc r r.rid = szInc (L.fc r.rid) := by simp [bump, upd]
    simp only [Broker.pot, hb, Multiset.map_cons, Multiset.sum_cons] at h1 h2 h3 ⊢
    rw [h5]
    omega
  | expire w cur qs g b q hg hb hq =>
    have hb1 : ∀ p ∈ b, p ∈ L.busy := fun p hp => by rw [hb]; exact Multiset.mem_add.2 (Or.inr hp)
    have hq1 : ∀ x ∈ q, x ∈ L.que := fun x hx => by rw [hq]; exact Multiset.mem_add.2 (Or.inr hx)
    have hqs : ∀ x ∈ qs, x ∈ L.que := fun x hx => by
      rw [hq]; exact Multiset.mem_add.2 (Or.inl (by simpa using hx))
    have hne : ∀ x ∈ b.map (·.2) + L.que + L.hand, ∀ y, (Ev.expire w cur qs).counts = some y →
        y.rid ≠ x.rid := by
      intro x hx y hy
      simp only [Ev.counts] at hy
      subst hy
      have hheld : L.held = y ::ₘ (b.map (·.2) + L.que + L.hand) := by simp [LS.held, hb]
      exact Ne.symm (hi.rid_ne hheld hx)
    have h1 := cb b hb1 (fun p hp => hne p.2 (by
        simp only [Multiset.mem_add]
        exact Or.inl (Or.inl (Multiset.mem_map.2 ⟨p, hp, rfl⟩))))
    have h2 := cq q hq1 (fun p hp => hne p (by
        simp only [Multiset.mem_add]; exact Or.inl (Or.inr (hq1 p hp))))
    have h3 := ch L.hand (fun _ h => h) (fun p hp => hne p (by
        simp only [Multiset.mem_add]; exact Or.inr hp))
    have h4 : ((qs : Multiset Req).map (fun r => W.h (bumpOpt L.fc cur r.rid) r)).sum
        ≤ ((qs : Multiset Req).map (fun r => W.q (L.fc r.rid) r)).sum := by
      refine sum_map_le ?_
      intro x hx
      have hx' := hqs x (by simpa using hx)
      have hf := hfc x (hq0 x hx') (hne x (by
        simp only [Multiset.mem_add]; exact Or.inl (Or.inr hx')))
      simp only at hf
      rw [hf]
      exact hW.expireQue x _ (hi.queC x hx') (hi.aliveQ x hx')
    have h5 := hW.expire w cur qs
    cases cur with
    | none =>
      simp only [Broker.pot, hb, hq, Option.map_none, Option.toList_none, Multiset.coe_nil,
        zero_add, List.nil_append, Multiset.map_add, Multiset.sum_add] at h1 h2 h3 h4 ⊢
      omega
    | some r =>
      have h6 := hW.expireCur r (L.fc r.rid) (hi.aliveB (w, r) (by rw [hb]; simp))
      have h7 : bumpOpt L.fc (some r) r.rid = szInc (L.fc r.rid) := by simp [bumpOpt, bump, upd]
      simp only [Broker.pot, hb, hq, Option.map_some, Option.toList_some, Multiset.coe_singleton,
        List.cons_append, List.nil_append, ← Multiset.cons_coe, Multiset.map_add, Multiset.sum_add,
        Multiset.map_singleton, Multiset.sum_singleton, Multiset.map_cons, Multiset.sum_cons]
        at h1 h2 h3 h4 ⊢
      rw [h7]
      omega
  | giveUp r text hnd hh hwhy =>
    have hr : r ∈ L.hand := by rw [hh]; simp
    have h4 := hW.giveUp r text (L.fc r.rid) (fun hc => by
      rcases hi.handfc r hr with h | h
      · exact h
      · rw [hc] at h; cases h)
    simp only [Broker.pot, hh, Multiset.map_cons, Multiset.sum_cons]
    omega

theorem LSteps.pot {M : Nat} (hM : M < SZ) {W : Weights} {cost gain : Ev → Nat}
    (hW : WLaws M W cost gain) {L L' : LS} {es : List Ev} (h : LSteps M L es L') (hi : LInv M L) :
    Broker.pot W L' + (es.map cost).sum ≤ Broker.pot W L + (es.map gain).sum := by
  induction h with
  | nil => simp
  | cons h _ ih =>
    have h1 := h.pot hW hi
    have h2 := ih (h.linv hM hi)
    simp only [List.map_cons, List.sum_cons]
    omega

end Broker
