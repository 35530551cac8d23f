import Verif.Proof.Life
import Mathlib.Algebra.Order.Group.Multiset
import Mathlib.Tactic.Abel

/-! # Invariants of the life-cycle machine -/

set_option linter.unusedSimpArgs false

namespace Broker

/-- All requests the broker holds. -/
def LS.held (L : LS) : Multiset Req := L.busy.map (·.2) + L.que + L.hand

theorem LS.mem_held {L : LS} {r : Req} :
    r ∈ L.held ↔ (∃ w, (w, r) ∈ L.busy) ∨ r ∈ L.que ∨ r ∈ L.hand := by
  simp only [LS.held, Multiset.mem_add, Multiset.mem_map, or_assoc]
  constructor
  · rintro (⟨p, hp, rfl⟩ | h)
    · exact Or.inl ⟨p.1, hp⟩
    · exact Or.inr h
  · rintro (⟨w, hw⟩ | h)
    · exact Or.inl ⟨_, hw, rfl⟩
    · exact Or.inr h

/-- Requests entering with an event. -/
def Ev.enters : Ev → Multiset Req
  | .accept r => {r}
  | .register _ (some r) => {r}
  | _ => 0

/-- Requests leaving with an event. -/
def Ev.leaves : Ev → Multiset Req
  | .done _ r => {r}
  | .failed _ r _ => {r}
  | .giveUp r _ => {r}
  | _ => 0

/-- Conservation of requests. -/
theorem LStep.held_eq {M : Nat} {L L' : LS} {e : Ev} (h : LStep M L e L') :
    L'.held + e.leaves = L.held + e.enters := by
  cases h with
  | say => simp [Ev.leaves, Ev.enters]
  | drop => simp [Ev.leaves, Ev.enters, LS.held]
  | accept r hid hc hcan =>
    simp only [Ev.leaves, Ev.enters, LS.held, add_zero, ← Multiset.singleton_add, Multiset.map_add,
      Multiset.map_singleton]; abel
  | register w cur hw hf hcur =>
    cases cur with
    | none => simp [Ev.leaves, Ev.enters, LS.held]
    | some r =>
      simp only [Ev.leaves, Ev.enters, LS.held, add_zero, Option.map_some, Option.toList_some,
        Multiset.map_add, Multiset.coe_singleton, Multiset.map_singleton]; abel
  | send w r hnd hh hw hidle hcan hcomp hfc =>
    simp only [Ev.leaves, Ev.enters, LS.held, add_zero, hh, ← Multiset.singleton_add, Multiset.map_add,
      Multiset.map_singleton]; abel
  | park r hnd hh hcan hcomp hfc =>
    simp only [Ev.leaves, Ev.enters, LS.held, add_zero, hh, ← Multiset.singleton_add, Multiset.map_add,
      Multiset.map_singleton]; abel
  | pull w r q hq hw hidle hcan =>
    simp only [Ev.leaves, Ev.enters, LS.held, add_zero, hq, ← Multiset.singleton_add, Multiset.map_add,
      Multiset.map_singleton]; abel
  | resend => simp [Ev.leaves, Ev.enters]
  | done w r b hb =>
    simp only [Ev.leaves, Ev.enters, LS.held, add_zero, hb, ← Multiset.singleton_add, Multiset.map_add,
      Multiset.map_singleton]; abel
  | failed w r text b hb =>
    simp only [Ev.leaves, Ev.enters, LS.held, add_zero, hb, ← Multiset.singleton_add, Multiset.map_add,
      Multiset.map_singleton]; abel
  | cancel w r b hb =>
    simp only [Ev.leaves, Ev.enters, LS.held, add_zero, hb, ← Multiset.singleton_add, Multiset.map_add,
      Multiset.map_singleton]; abel
  | expire w cur qs g b q hg hb hq =>
    cases cur with
    | none =>
      simp only [Ev.leaves, Ev.enters, LS.held, add_zero, hb, hq, Option.map_none,
        Option.toList_none, Multiset.coe_nil, zero_add, List.nil_append]; abel
    | some r =>
      simp only [Ev.leaves, Ev.enters, LS.held, add_zero, hb, hq, Option.map_some,
        Option.toList_some, Multiset.coe_singleton, Multiset.map_add, Multiset.map_singleton,
        List.cons_append, List.nil_append, ← Multiset.cons_coe, ← Multiset.singleton_add, Multiset.map_add,
      Multiset.map_singleton]; abel
  | giveUp r text hnd hh hwhy =>
    simp only [Ev.leaves, Ev.enters, LS.held, add_zero, hh, ← Multiset.singleton_add, Multiset.map_add,
      Multiset.map_singleton]; abel

theorem LStep.mem_held {M : Nat} {L L' : LS} {e : Ev} (h : LStep M L e L') {r : Req}
    (hr : r ∈ L'.held) : r ∈ L.held ∨ r ∈ e.enters := by
  have : r ∈ L'.held + e.leaves := Multiset.mem_add.2 (Or.inl hr)
  rw [h.held_eq] at this
  exact Multiset.mem_add.1 this

/-- Requests entering get the next number. -/
theorem LStep.enters_rid {M : Nat} {L L' : LS} {e : Ev} (h : LStep M L e L') {r : Req}
    (hr : r ∈ e.enters) : r.rid = L.nextRid ∧ L'.nextRid = L.nextRid + 1 ∧ e.enters = {r} := by
  cases h with
  | accept r' hid hc hcan =>
    simp only [Ev.enters, Multiset.mem_singleton] at hr
    subst hr; exact ⟨hid, rfl, rfl⟩
  | register w cur hw hf hcur =>
    cases cur with
    | none => simp [Ev.enters] at hr
    | some r' =>
      simp only [Ev.enters, Multiset.mem_singleton] at hr
      subst hr
      obtain ⟨j, hj⟩ := hcur r rfl
      exact ⟨by rw [hj]; rfl, rfl, rfl⟩
  | _ => simp [Ev.enters] at hr

theorem LStep.nextRid_le {M : Nat} {L L' : LS} {e : Ev} (h : LStep M L e L') :
    L.nextRid ≤ L'.nextRid := by
  cases h <;> simp

/-- The failure count of a request changes only with an event that counts a failure of it. -/
def Ev.counts : Ev → Option Req
  | .failed _ r _ => some r
  | .cancel _ r => some r
  | .expire _ cur _ => cur
  | _ => none

theorem LStep.fc_eq {M : Nat} {L L' : LS} {e : Ev} (h : LStep M L e L') {n : Nat}
    (hn : n < L.nextRid) :
    L'.fc n = match e.counts with
      | some r => if n = r.rid then szInc (L.fc n) else L.fc n
      | none => L.fc n := by
  have hne : n ≠ L.nextRid := Nat.ne_of_lt hn
  cases h with
  | drop => simp [Ev.counts, upd, hne]
  | accept => simp [Ev.counts, upd, hne]
  | register => simp [Ev.counts, upd, hne]
  | failed w r text b hb =>
    simp only [Ev.counts, bump, upd]
    split <;> simp_all
  | cancel w r b hb =>
    simp only [Ev.counts, bump, upd]
    split <;> simp_all
  | expire w cur qs g b q hg hb hq =>
    cases cur with
    | none => simp [Ev.counts, bumpOpt]
    | some r =>
      simp only [Ev.counts, bumpOpt, bump, upd]
      split <;> simp_all
  | _ => rfl

/-- Invariant of the machine: request objects are distinct, jobs known only by their id run on the
    worker that brought them, and requests outside the handler's hands may still be tried. -/
structure LInv (M : Nat) (L : LS) : Prop where
  nodup : (L.held.map (·.rid)).Nodup
  lt : ∀ r ∈ L.held, r.rid < L.nextRid
  inc : ∀ r ∈ L.held, r.complete = false → ∃ n j, r = Req.incomplete n j
  queC : ∀ r ∈ L.que, r.complete = true
  aliveB : ∀ p ∈ L.busy, p.2.complete = true → Alive M L.fc p.2
  aliveQ : ∀ r ∈ L.que, Alive M L.fc r
  handfc : ∀ r ∈ L.hand, L.fc r.rid ≤ max 1 M ∨ r.complete = false

/-- Distinct numbers: a request held in one place is not the one held in another. -/
theorem LInv.rid_ne {M : Nat} {L : LS} (h : LInv M L) {r : Req} {rest : Multiset Req}
    (hh : L.held = r ::ₘ rest) {x : Req} (hx : x ∈ rest) : x.rid ≠ r.rid := by
  have hn := h.nodup
  rw [hh, Multiset.map_cons, Multiset.nodup_cons] at hn
  intro he
  exact hn.1 (Multiset.mem_map.2 ⟨x, hx, he⟩)

theorem szInc_le_max {M n : Nat} (hM : M < SZ) (h : n = 0 ∨ n < M) :
    szInc n = n + 1 ∧ n + 1 ≤ max 1 M := by
  have h1 : n + 1 ≤ max 1 M := by omega
  refine ⟨?_, h1⟩
  have hs : (1 : Nat) < SZ := by decide
  unfold szInc
  rw [Nat.mod_eq_of_lt]
  omega

theorem LInv.init (M : Nat) (L : LS) (h : L.held = 0) : LInv M L := by
  have hq : ∀ r, r ∉ L.que := fun r hr => by
    have : r ∈ L.held := LS.mem_held.2 (Or.inr (Or.inl hr))
    rw [h] at this; simp at this
  have hb : ∀ p, p ∉ L.busy := fun p hp => by
    have : p.2 ∈ L.held := LS.mem_held.2 (Or.inl ⟨p.1, hp⟩)
    rw [h] at this; simp at this
  have hh : ∀ r, r ∉ L.hand := fun r hr => by
    have : r ∈ L.held := LS.mem_held.2 (Or.inr (Or.inr hr))
    rw [h] at this; simp at this
  exact ⟨by rw [h]; simp, by rw [h]; simp, by rw [h]; simp, fun r hr => (hq r hr).elim,
    fun p hp => (hb p hp).elim, fun r hr => (hq r hr).elim, fun r hr => (hh r hr).elim⟩

theorem alive_congr {M : Nat} {fc fc' : Nat → Nat} {r : Req} (h : fc' r.rid = fc r.rid) :
    Alive M fc r → Alive M fc' r := by
  unfold Alive; rw [h]; exact id

theorem LStep.linv {M : Nat} (hM : M < SZ) {L L' : LS} {e : Ev} (h : LStep M L e L')
    (hi : LInv M L) : LInv M L' := by
  have hnodup : (L'.held.map (·.rid)).Nodup := by
    have heq := congrArg (Multiset.map (·.rid)) h.held_eq
    simp only [Multiset.map_add] at heq
    have : (L.held.map (·.rid) + e.enters.map (·.rid)).Nodup := by
      by_cases he : e.enters = 0
      · rw [he]; simpa using hi.nodup
      · obtain ⟨r, hr⟩ := Multiset.exists_mem_of_ne_zero he
        obtain ⟨h1, h2, h3⟩ := h.enters_rid hr
        rw [h3, Multiset.map_singleton, add_comm, Multiset.singleton_add, Multiset.nodup_cons]
        refine ⟨?_, hi.nodup⟩
        intro hm
        obtain ⟨x, hx, hxr⟩ := Multiset.mem_map.1 hm
        have := hi.lt x hx
        omega
    rw [← heq] at this
    exact Multiset.nodup_of_le (Multiset.le_add_right _ _) this
  have hlt : ∀ r ∈ L'.held, r.rid < L'.nextRid := by
    intro r hr
    rcases h.mem_held hr with hr | hr
    · exact Nat.lt_of_lt_of_le (hi.lt r hr) h.nextRid_le
    · obtain ⟨h1, h2, _⟩ := h.enters_rid hr
      omega
  have hfc : ∀ r ∈ L.held, (∀ x, e.counts = some x → x.rid ≠ r.rid) → L'.fc r.rid = L.fc r.rid := by
    intro r hr hx
    rw [h.fc_eq (hi.lt r hr)]
    cases hc : e.counts with
    | none => rfl
    | some x => simp [Ne.symm (hx x hc)]
  have hinc : ∀ r ∈ L'.held, r.complete = false → ∃ n j, r = Req.incomplete n j := by
    intro r hr hcf
    rcases h.mem_held hr with hr' | hr'
    · exact hi.inc r hr' hcf
    · cases h with
      | accept r' hid hc hcan =>
        simp only [Ev.enters, Multiset.mem_singleton] at hr'
        subst hr'; rw [hc] at hcf; cases hcf
      | register w cur hw hf hcur =>
        cases cur with
        | none => simp [Ev.enters] at hr'
        | some r' =>
          simp only [Ev.enters, Multiset.mem_singleton] at hr'
          subst hr'
          obtain ⟨j, hj⟩ := hcur r rfl
          exact ⟨_, j, hj⟩
      | _ => simp [Ev.enters] at hr'
  have hb0 : ∀ p ∈ L.busy, p.2 ∈ L.held := fun p hp => LS.mem_held.2 (Or.inl ⟨p.1, hp⟩)
  have hq0 : ∀ r ∈ L.que, r ∈ L.held := fun r hr => LS.mem_held.2 (Or.inr (Or.inl hr))
  have hh0 : ∀ r ∈ L.hand, r ∈ L.held := fun r hr => LS.mem_held.2 (Or.inr (Or.inr hr))
  cases h with
  | say => exact hi
  | resend => exact hi
  | drop =>
    exact ⟨hnodup, hlt, hinc, hi.queC,
      fun p hp hc => alive_congr (hfc _ (hb0 p hp) (by simp [Ev.counts])) (hi.aliveB p hp hc),
      fun r hr => alive_congr (hfc _ (hq0 r hr) (by simp [Ev.counts])) (hi.aliveQ r hr),
      fun r hr => by
        have := hfc _ (hh0 r hr) (by simp [Ev.counts])
        rw [this]; exact hi.handfc r hr⟩
  | accept r' hid hc hcan =>
    refine ⟨hnodup, hlt, hinc, hi.queC,
      fun p hp hc => alive_congr (hfc _ (hb0 p hp) (by simp [Ev.counts])) (hi.aliveB p hp hc),
      fun r hr => alive_congr (hfc _ (hq0 r hr) (by simp [Ev.counts])) (hi.aliveQ r hr), ?_⟩
    intro r hr
    rcases Multiset.mem_cons.1 hr with rfl | hr
    · left; simp [upd, hid]
    · have := hfc _ (hh0 r hr) (by simp [Ev.counts])
      rw [this]; exact hi.handfc r hr
  | register w cur hw hf hcur =>
    refine ⟨hnodup, hlt, hinc, hi.queC, ?_,
      fun r hr => alive_congr (hfc _ (hq0 r hr) (by simp [Ev.counts])) (hi.aliveQ r hr),
      fun r hr => by
        have := hfc _ (hh0 r hr) (by simp [Ev.counts])
        rw [this]; exact hi.handfc r hr⟩
    intro p hp hc
    rcases Multiset.mem_add.1 hp with hp | hp
    · cases cur with
      | none => simp at hp
      | some r =>
        obtain ⟨j, hj⟩ := hcur r rfl
        have : p = (w, r) := by simpa using hp
        rw [this, hj] at hc
        cases hc
    · exact alive_congr (hfc _ (hb0 p hp) (by simp [Ev.counts])) (hi.aliveB p hp hc)
  | send w r hnd hh hw hidle hcan hcomp hal =>
    refine ⟨hnodup, hlt, hinc, hi.queC, ?_, hi.aliveQ, fun x hx => hi.handfc x (by rw [hh]; exact Multiset.mem_cons_of_mem hx)⟩
    intro p hp hc
    rcases Multiset.mem_cons.1 hp with rfl | hp
    · exact hal
    · exact hi.aliveB p hp hc
  | park r hnd hh hcan hcomp hal =>
    refine ⟨hnodup, hlt, hinc, ?_, hi.aliveB, ?_, fun x hx => hi.handfc x (by rw [hh]; exact Multiset.mem_cons_of_mem hx)⟩
    · intro x hx
      rcases Multiset.mem_cons.1 hx with rfl | hx
      · exact hcomp
      · exact hi.queC x hx
    · intro x hx
      rcases Multiset.mem_cons.1 hx with rfl | hx
      · exact hal
      · exact hi.aliveQ x hx
  | pull w r q hq hw hidle hcan =>
    refine ⟨hnodup, hlt, hinc, fun x hx => hi.queC x (by rw [hq]; exact Multiset.mem_cons_of_mem hx),
      ?_, fun x hx => hi.aliveQ x (by rw [hq]; exact Multiset.mem_cons_of_mem hx), hi.handfc⟩
    intro p hp hc
    rcases Multiset.mem_cons.1 hp with rfl | hp
    · exact hi.aliveQ r (by rw [hq]; simp)
    · exact hi.aliveB p hp hc
  | done w r b hb =>
    exact ⟨hnodup, hlt, hinc, hi.queC,
      fun p hp hc => hi.aliveB p (by rw [hb]; exact Multiset.mem_cons_of_mem hp) hc, hi.aliveQ,
      hi.handfc⟩
  | failed w r text b hb =>
    have hheld : L.held = r ::ₘ (b.map (·.2) + L.que + L.hand) := by
      simp [LS.held, hb]
    have hne : ∀ x ∈ b.map (·.2) + L.que + L.hand, ∀ y, (some r : Option Req) = some y → y.rid ≠ x.rid := by
      intro x hx y hy
      cases hy
      exact Ne.symm (hi.rid_ne hheld hx)
    refine ⟨hnodup, hlt, hinc, hi.queC, ?_, ?_, ?_⟩
    · intro p hp hc
      have hp' : p ∈ L.busy := by rw [hb]; exact Multiset.mem_cons_of_mem hp
      refine alive_congr (hfc _ (hb0 p hp') (hne p.2 ?_)) (hi.aliveB p hp' hc)
      simp only [Multiset.mem_add]
      exact Or.inl (Or.inl (Multiset.mem_map.2 ⟨p, hp, rfl⟩))
    · intro x hx
      refine alive_congr (hfc _ (hq0 x hx) (hne x ?_)) (hi.aliveQ x hx)
      simp only [Multiset.mem_add]
      exact Or.inl (Or.inr hx)
    · intro x hx
      have := hfc _ (hh0 x hx) (hne x (by simp only [Multiset.mem_add]; exact Or.inr hx))
      rw [this]; exact hi.handfc x hx
  | cancel w r b hb =>
    have hheld : L.held = r ::ₘ (b.map (·.2) + L.que + L.hand) := by
      simp [LS.held, hb]
    have hne : ∀ x ∈ b.map (·.2) + L.que + L.hand, ∀ y, (some r : Option Req) = some y → y.rid ≠ x.rid := by
      intro x hx y hy
      cases hy
      exact Ne.symm (hi.rid_ne hheld hx)
    refine ⟨hnodup, hlt, hinc, hi.queC, ?_, ?_, ?_⟩
    · intro p hp hc
      have hp' : p ∈ L.busy := by rw [hb]; exact Multiset.mem_cons_of_mem hp
      refine alive_congr (hfc _ (hb0 p hp') (hne p.2 ?_)) (hi.aliveB p hp' hc)
      simp only [Multiset.mem_add]
      exact Or.inl (Or.inl (Multiset.mem_map.2 ⟨p, hp, rfl⟩))
    · intro x hx
      refine alive_congr (hfc _ (hq0 x hx) (hne x ?_)) (hi.aliveQ x hx)
      simp only [Multiset.mem_add]
      exact Or.inl (Or.inr hx)
    · intro x hx
      rcases Multiset.mem_cons.1 hx with rfl | hx
      · by_cases hc : x.complete = true
        · left
          have := szInc_le_max hM (hi.aliveB (w, x) (by rw [hb]; simp) hc)
          simp only [bump, upd, if_true]
          rw [this.1]; exact this.2
        · right; simpa using hc
      · have := hfc _ (hh0 x hx) (hne x (by simp only [Multiset.mem_add]; exact Or.inr hx))
        rw [this]; exact hi.handfc x hx
  | expire w cur qs g b q hg hb hq =>
    have hb1 : ∀ p ∈ b, p ∈ L.busy := fun p hp => by rw [hb]; exact Multiset.mem_add.2 (Or.inr hp)
    have hq1 : ∀ x ∈ q, x ∈ L.que := fun x hx => by rw [hq]; exact Multiset.mem_add.2 (Or.inr hx)
    have hqs : ∀ x ∈ qs, x ∈ L.que := fun x hx => by
      rw [hq]; exact Multiset.mem_add.2 (Or.inl (by simpa using hx))
    have hne : ∀ x ∈ b.map (·.2) + L.que + L.hand, ∀ y, cur = some y → y.rid ≠ x.rid := by
      intro x hx y hy
      subst hy
      have hheld : L.held = y ::ₘ (b.map (·.2) + L.que + L.hand) := by
        simp [LS.held, hb]
      exact Ne.symm (hi.rid_ne hheld hx)
    refine ⟨hnodup, hlt, hinc, fun x hx => hi.queC x (hq1 x hx), ?_, ?_, ?_⟩
    · intro p hp hc
      refine alive_congr (hfc _ (hb0 p (hb1 p hp)) (hne p.2 ?_)) (hi.aliveB p (hb1 p hp) hc)
      simp only [Multiset.mem_add]
      exact Or.inl (Or.inl (Multiset.mem_map.2 ⟨p, hp, rfl⟩))
    · intro x hx
      refine alive_congr (hfc _ (hq0 x (hq1 x hx)) (hne x ?_)) (hi.aliveQ x (hq1 x hx))
      simp only [Multiset.mem_add]
      exact Or.inl (Or.inr (hq1 x hx))
    · intro x hx
      rcases Multiset.mem_add.1 hx with hx | hx
      · have hx' : cur = some x ∨ x ∈ qs := by simpa using hx
        rcases hx' with hcx | hx
        · subst hcx
          by_cases hc : x.complete = true
          · left
            have := szInc_le_max hM (hi.aliveB (w, x) (by rw [hb]; simp) hc)
            simp only [bumpOpt, bump, upd, if_true]
            rw [this.1]; exact this.2
          · right; simpa using hc
        · left
          have h1 := hfc _ (hq0 x (hqs x hx)) (hne x
            (by simp only [Multiset.mem_add]; exact Or.inl (Or.inr (hqs x hx))))
          rw [h1]
          rcases hi.aliveQ x (hqs x hx) with h0 | h0 <;> omega
      · have := hfc _ (hh0 x hx) (hne x (by simp only [Multiset.mem_add]; exact Or.inr hx))
        rw [this]; exact hi.handfc x hx
  | giveUp r text hnd hh hwhy =>
    exact ⟨hnodup, hlt, hinc, hi.queC, hi.aliveB, hi.aliveQ,
      fun x hx => hi.handfc x (by rw [hh]; exact Multiset.mem_cons_of_mem hx)⟩

theorem LSteps.linv {M : Nat} (hM : M < SZ) {L L' : LS} {es : List Ev} (h : LSteps M L es L')
    (hi : LInv M L) : LInv M L' := by
  induction h with
  | nil => exact hi
  | cons h _ ih => exact ih (h.linv hM hi)

/-- Number of events of a kind. -/
theorem LSteps.held_count {M : Nat} {L L' : LS} {es : List Ev} (h : LSteps M L es L')
    (p : Req → Prop) [DecidablePred p] :
    L'.held.countP p + (es.map (fun e => e.leaves.countP p)).sum
      = L.held.countP p + (es.map (fun e => e.enters.countP p)).sum := by
  induction h with
  | nil => simp
  | cons h _ ih =>
    have := congrArg (Multiset.countP p) h.held_eq
    simp only [Multiset.countP_add] at this
    simp only [List.map_cons, List.sum_cons]
    omega

end Broker
