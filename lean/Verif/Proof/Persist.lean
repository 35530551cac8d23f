import Verif.Proof.Heartbeat
import Verif.Proof.Headers

/-! # A registered worker keeps its job until it reports or expires -/

set_option linter.unusedSectionVars false
set_option linter.unusedSimpArgs false

namespace Broker

open QueueManager LawfulQM

variable {Q : Type} [QueueManager Q] [LawfulQM Q]

theorem LStep.reg_nodup {M : Nat} {L L' : LS} {e : Ev} (h : LStep M L e L')
    (hn : (L.reg.map (·.addr)).Nodup) : (L'.reg.map (·.addr)).Nodup := by
  cases h with
  | register w cur hw hf hcur => simpa using ⟨by simpa using hf, hn⟩
  | expire w cur qs g b q hg hb hq =>
    rw [hg] at hn
    simp only [Multiset.map_cons, Multiset.nodup_cons] at hn
    exact hn.2
  | _ => exact hn

/-- The event takes a job from the worker or removes the worker. -/
def Ev.ends (w : Worker) : Ev → Prop
  | .done w' _ => w' = w
  | .failed w' _ _ => w' = w
  | .cancel w' _ => w' = w
  | _ => False

theorem LSteps.keeps {M : Nat} {L L' : LS} {evs : List Ev} (h : LSteps M L evs L') {w : Worker}
    {r : Req} (hn : (L.reg.map (·.addr)).Nodup) (hb : (w, r) ∈ L.busy)
    (hend : ∀ e ∈ evs, ¬ e.ends w) (hreg : ∀ e ∈ evs, e.registers ≠ some w) (hw : w ∈ L'.reg) :
    (w, r) ∈ L'.busy := by
  induction h with
  | nil => exact hb
  | @cons L1 L2 L3 e0 es0 h ht ih =>
    refine ih (h.reg_nodup hn) ?_ (fun e he => hend e (List.mem_cons_of_mem _ he))
      (fun e he => hreg e (List.mem_cons_of_mem _ he)) hw
    have hend' := hend _ (List.mem_cons_self ..)
    have cancelled : ∀ {w' : Worker} {r' : Req} {b : Multiset (Worker × Req)}, (w', r') ::ₘ b = L1.busy →
        w' ≠ w → (w, r) ∈ b := by
      intro w' r' b hb' hne
      rw [← hb'] at hb
      rcases Multiset.mem_cons.1 hb with h1 | h1
      · exact absurd (congrArg Prod.fst h1).symm hne
      · exact h1
    cases h with
    | done w' r' b hb' => exact cancelled hb'.symm (fun h => hend' h)
    | failed w' r' text b hb' => exact cancelled hb'.symm (fun h => hend' h)
    | cancel w' r' b hb' => exact cancelled hb'.symm (fun h => hend' h)
    | register w' cur hw' hf hcur => exact Multiset.mem_add.2 (.inr hb)
    | send w' r' hh hhe _ _ _ _ _ => exact Multiset.mem_cons_of_mem hb
    | pull w' r' q hq _ _ _ => exact Multiset.mem_cons_of_mem hb
    | expire w' cur qs g b q hg hb' hq =>
      rw [hb'] at hb
      rcases Multiset.mem_add.1 hb with h1 | h1
      · exfalso
        have hw' : w = w' := by
          cases cur with
          | none => simp at h1
          | some x => simp at h1; exact h1.1
        subst hw'
        have hng : w ∉ g := by
          intro hm
          rw [hg] at hn
          simp only [Multiset.map_cons, Multiset.nodup_cons] at hn
          exact hn.1 (Multiset.mem_map.2 ⟨w, hm, rfl⟩)
        rcases ht.mem_reg hw with h2 | ⟨e, he, h2⟩
        · exact hng h2
        · exact hreg e (List.mem_cons_of_mem _ he) h2
      · exact h1
    | _ => exact hb

/-- A step that is no `done` or `init` of the worker's identity keeps its job. -/
theorem StepInfo.keeps {cfg : HConfig} {env : Env} {m : Msg} {s s' : HState Q} {evs : List Ev}
    (hi : StepInfo cfg env m s s' evs) (h : HInv s) {w : Worker} {r : Req}
    (hb : (w, r) ∈ busy s.queue)
    (hm : ¬ (m.key = keyWorkers ∧ m.identity = w.identity ∧
      (m.data.head? = some "done" ∨ m.data.head? = some "init")))
    (hw : w ∈ s'.workers) : (w, r) ∈ busy s'.queue := by
  have hdone : ∀ e ∈ evs, e.ends w → False := by
    intro e he hx
    have hsh := hi.script.shape e he
    have hid : m.key = keyWorkers ∧ m.identity = w.identity := by
      cases e <;> simp only [Ev.ends] at hx <;> subst hx <;> exact ⟨hsh.1, hsh.2.symm⟩
    refine hm ⟨hid.1, hid.2, .inl ?_⟩
    cases hi.script with
    | done _ hd => rw [hd]; rfl
    | init hk hd h =>
      exfalso
      have reg : ∀ {w' cur evs'}, RegScript w' cur evs' → e ∈ evs' → False := by
        intro w' cur evs' hr he'
        cases hr <;> simp at he' <;> rcases he' with rfl | rfl <;> simp [Ev.ends] at hx
      cases h with
      | short => simp at he
      | same => simp at he
      | fresh hm hw hn hf hr => exact reg hr he
      | again hm hw hne hn hf hr =>
        rcases List.mem_cons.1 he with rfl | he
        · simp [Ev.ends] at hx
        · exact reg hr he
    | ping => have := List.mem_singleton.1 he; subst this; simp [Ev.ends] at hx
    | progress => have := List.mem_singleton.1 he; subst this; simp [Ev.ends] at hx
    | workerUnknown => simp at he
    | eval hk => exact absurd (hk.symm.trans hid.1) wkey_ne_ckey.symm
    | stats hk => exact absurd (hk.symm.trans hid.1) wkey_ne_ckey.symm
    | freeze hk => exact absurd (hk.symm.trans hid.1) wkey_ne_ckey.symm
    | unfreeze hk => exact absurd (hk.symm.trans hid.1) wkey_ne_ckey.symm
    | clientUnknown hk => exact absurd (hk.symm.trans hid.1) wkey_ne_ckey.symm
    | timer hk => exact absurd (hk.symm.trans hid.1) wkey_ne_tkey.symm
    | other hk => exact absurd hid.1 hk.1
  have hreg : ∀ e ∈ evs, e.registers ≠ some w := by
    intro e he hx
    obtain ⟨rest, hf⟩ := step_registers hi e he w hx
    exact hm ⟨hf.key, hf.identity, .inr (by rw [show m.data = _ from hf.data]; rfl)⟩
  exact hi.steps.keeps (LawfulQM.reg_nodup h.qinv) hb (fun e he hx => hdone e he hx) hreg
    (hi.inv.mem_reg.1 hw)

/-- No worker comes back without an `init` of its identity. -/
theorem StepInfo.was_registered {cfg : HConfig} {env : Env} {m : Msg} {s s' : HState Q}
    {evs : List Ev} (hi : StepInfo cfg env m s s' evs) (h : HInv s) {w : Worker}
    (hm : ¬ (m.key = keyWorkers ∧ m.identity = w.identity ∧ m.data.head? = some "init"))
    (hw : w ∈ s'.workers) : w ∈ s.workers := by
  rcases hi.steps.mem_reg (hi.inv.mem_reg.1 hw) with h1 | ⟨e, he, h1⟩
  · exact h.mem_reg.2 h1
  · obtain ⟨rest, hf⟩ := step_registers hi e he w h1
    exact absurd ⟨hf.key, hf.identity, by rw [show m.data = _ from hf.data]; rfl⟩ hm

end Broker
