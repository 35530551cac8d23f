import Verif.Proof.Total

/-! # Hearing from a worker -/

set_option linter.unusedSectionVars false
set_option linter.unusedSimpArgs false

namespace Broker

open QueueManager LawfulQM

variable {Q : Type} [QueueManager Q] [LawfulQM Q]

theorem HInv.eq_of_addr {s : HState Q} (h : HInv s) {v w : Worker} (hv : v ∈ s.workers)
    (hw : w ∈ s.workers) (he : v.addr = w.addr) : v = w :=
  List.inj_on_of_nodup_map h.addr_nodup hv hw he

theorem onlyHeartbeat_heard {cfg : HConfig} {i : String} {s : HState Q} (h : HInv s)
    (os : List Msg) :
    Spec.OnlyHeartbeat i s { ({ s with outs := [] } : HState Q).heard cfg i with outs := os } := by
  unfold HState.heard
  cases hf : regFind i s.workers with
  | none => exact ⟨by simp [hf], by simp [hf]⟩
  | some w =>
    refine ⟨by simp [hf], ?_⟩
    intro v hv hne
    obtain ⟨hw, hwi⟩ := regFind_mem hf
    have ha : v.addr ≠ w.addr := by
      intro he
      exact hne (by rw [h.eq_of_addr hv hw he, hwi])
    simp only [hf]
    refine ⟨?_, by simp [upd, ha]⟩
    simp [WMap.getD, WMap.find_put_of_ne ha]

end Broker
