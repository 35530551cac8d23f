import Verif.Proof.Persist
import Verif.Proof.Dispatch

/-! # Expiry events and the registry -/

set_option linter.unusedSectionVars false
set_option linter.unusedSimpArgs false

namespace Broker

open QueueManager LawfulQM

variable {Q : Type} [QueueManager Q] [LawfulQM Q]

/-- The event removes a worker. -/
def Ev.isExpire : Ev → Bool
  | .expire _ _ _ => true
  | _ => false

/-- The event adds a worker. -/
def Ev.isRegister : Ev → Bool
  | .register _ _ => true
  | _ => false

theorem LSteps.reg_card {M : Nat} {L L' : LS} {evs : List Ev} (h : LSteps M L evs L') :
    L'.reg.card + evs.countP Ev.isExpire = L.reg.card + evs.countP Ev.isRegister := by
  induction h with
  | nil => rfl
  | @cons L1 L2 L3 e es h ht ih =>
    rw [List.countP_cons, List.countP_cons]
    have : L2.reg.card + (if e.isExpire = true then 1 else 0)
        = L1.reg.card + (if e.isRegister = true then 1 else 0) := by
      cases h with
      | expire w cur qs g b q hg hb hq => simp [Ev.isExpire, Ev.isRegister, hg]
      | register => simp [Ev.isExpire, Ev.isRegister]
      | _ => rfl
    omega

/-- Without expiry workers stay registered. -/
theorem LSteps.reg_mono {M : Nat} {L L' : LS} {evs : List Ev} (h : LSteps M L evs L')
    (hn : evs.countP Ev.isExpire = 0) {w : Worker} (hw : w ∈ L.reg) : w ∈ L'.reg := by
  induction h with
  | nil => exact hw
  | @cons L1 L2 L3 e es h ht ih =>
    rw [List.countP_cons] at hn
    refine ih (by omega) ?_
    cases h with
    | expire => simp [Ev.isExpire] at hn
    | register w' cur _ _ _ => exact Multiset.mem_cons_of_mem hw
    | _ => exact hw

theorem SettleScript.no_expire {M : Nat} {fc : Nat → Nat} {g : Multiset Worker} {rs : List Req}
    {evs : List Ev} {un : List Req} (h : SettleScript M fc g rs evs un) :
    ∀ e ∈ evs, e.isExpire = false ∧ e.isRegister = false := by
  induction h with
  | nil => simp
  | _ => simp_all [Ev.isExpire, Ev.isRegister]

theorem ExpireAll.no_register {M : Nat} {fc : Nat → Nat} {xs : List Worker} {evs : List Ev}
    (h : ExpireAll M fc xs evs) :
    ∀ e ∈ evs, e.isRegister = false := by
  induction h with
  | nil => simp
  | cons h ht ih =>
    intro e he
    rcases List.mem_append.1 he with he | he
    · cases h with
      | mk h hfc =>
        rcases List.mem_cons.1 he with rfl | he
        · rfl
        · rcases List.mem_append.1 he with he | he
          · exact (h.no_expire e he).2
          · obtain ⟨r, _, rfl⟩ := List.mem_map.1 he; rfl
    · exact ih e he

theorem ExpireAll.head {M : Nat} {fc : Nat → Nat} {xs : List Worker} {evs : List Ev}
    (h : ExpireAll M fc xs evs)
    {e : Ev} {t : List Ev} (he : evs = e :: t) : e.isExpire = true := by
  cases h with
  | nil => cases he
  | cons h ht => cases h; simp at he; rw [← he.1]; rfl

/-- Only a timer event removes workers. -/
theorem StepInfo.no_expire {cfg : HConfig} {env : Env} {m : Msg} {s s' : HState Q} {evs : List Ev}
    (hi : StepInfo cfg env m s s' evs) (hk : m.key ≠ keyTimer) : evs.countP Ev.isExpire = 0 := by
  rw [List.countP_eq_zero]
  intro e he
  have := hi.script.shape e he
  cases e <;> simp [Ev.isExpire]
  exact hk this

/-- In a step that removes at most one worker the receivers of jobs stay registered. -/
theorem StepInfo.receiver {cfg : HConfig} {env : Env} {m : Msg} {s s' : HState Q} {evs : List Ev}
    (hi : StepInfo cfg env m s s' evs) (h : HInv s)
    (hone : s.workers.length ≤ s'.workers.length + 1) {e : Ev} (he : e ∈ evs) {w : Worker}
    {r : Req} (hg : e.gives = some (w, r)) : w ∈ s'.workers := by
  obtain ⟨a, b, hab⟩ := List.append_of_mem he
  have hsteps := hi.steps
  rw [hab] at hsteps
  obtain ⟨L1, h1, h2⟩ := hsteps.append_inv
  cases h2 with
  | @cons _ L2 _ _ _ h3 h4 =>
    have hw : w ∈ L2.reg := by
      cases h3 <;> simp only [Ev.gives, Option.some.injEq, Prod.mk.injEq, reduceCtorEq] at hg
      all_goals (obtain ⟨rfl, rfl⟩ := hg; assumption)
    refine hi.inv.mem_reg.2 (h4.reg_mono ?_ hw)
    by_cases hk : m.key = keyTimer
    · obtain ⟨f, rest, time, xs, _, _, hc⟩ := hi.script.timer_inv hk
      have hcard := hi.steps.reg_card
      have hr0 : evs.countP Ev.isRegister = 0 := by
        rw [List.countP_eq_zero]
        intro e he; rw [hc.script.no_register e he]; simp
      have hl : (ls s 0).reg.card = s.workers.length := by
        have := congrArg Multiset.card h.reg_eq
        simpa [ls] using this.symm
      have hl' : (ls s' 0).reg.card = s'.workers.length := by
        have := congrArg Multiset.card hi.inv.reg_eq
        simpa [ls] using this.symm
      cases a with
      | nil =>
        have := hc.script.head hab
        cases e <;> simp [Ev.gives, Ev.isExpire] at hg this
      | cons x t =>
        have hx := hc.script.head hab
        have : evs.countP Ev.isExpire ≥ 1 + b.countP Ev.isExpire := by
          rw [hab, List.cons_append, List.countP_cons, List.countP_append, List.countP_cons, hx]
          simp; omega
        omega
    · have := hi.no_expire hk
      rw [hab, List.countP_append, List.countP_cons] at this
      omega

end Broker
