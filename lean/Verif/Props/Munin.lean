import Verif.Model.Munin
import Verif.Props.Stats

/-!
# C68: what the munin plug-in prints
-/

set_option linter.unusedSectionVars false

namespace Broker

open LawfulQM

variable {Q : Type} [QueueManager Q] [LawfulQM Q]

theorem natStr_ascii (n : Nat) : (natStr n).toList.all (fun c => c.toNat < 128) = true := by
  rw [List.all_eq_true]
  intro c hc
  have := (natStr_isDecimal n).2.1 c hc
  simp only [Char.isDigit, Bool.and_eq_true, decide_eq_true_eq] at this
  have h2 : c.val ≤ '9'.val := this.2
  have h3 : c.toNat ≤ 57 := UInt32.le_iff_toNat_le.1 h2
  simp only [decide_eq_true_eq]
  omega

theorem munin_statsReply (st : Stats) (frozen : Bool) :
    munin (statsReply st frozen) = .ok ["evaluated.value " ++ natStr st.evaluated,
      "failed.value " ++ natStr st.failed, "queued.value " ++ natStr st.queued] := by
  have h : ∀ n, ∀ c ∈ (natStr n).toList, c.toNat < 128 := by
    intro n c hc
    simpa using List.all_eq_true.1 (natStr_ascii n) c hc
  unfold statsReply munin
  cases st.inProgress <;>
    simp [muninDict, pySet, pyGet, muninValue, if_pos (h _)]

/-- **C68.** At every point of every history the broker answers the question of the munin plug-in,
    and from the answer the plug-in prints three lines (it ends with no exception): the number of
    final notifications of success sent so far, the number of failure reports handled so far (both
    modulo 2^64), and the number of waiting jobs right after the last timer message (zero before the
    first). -/
theorem C68_munin {cfg : HConfig} {env : Env} {h : List (Tr Q)} {s : HState Q}
    (hr : Run cfg env h s) (i : String) :
    ∃ reply s' e f q, step cfg env ⟨"clients", i, muninQuestion⟩ s = .ok () s' ∧
      s'.outs = [⟨"clients", i, reply⟩] ∧
      munin reply = .ok ["evaluated.value " ++ e, "failed.value " ++ f, "queued.value " ++ q] ∧
      Spec.IsDecimal e ((emitted h).countP Spec.isSuccess % 2 ^ 64) ∧
      Spec.IsDecimal f (h.countP Spec.failureReport % 2 ^ 64) ∧
      ((∀ t ∈ h, t.msg.key ≠ "timer") → q = "0") ∧
      ∀ h1 t h2, h = h1 ++ t :: h2 → t.msg.key = "timer" → (∀ u ∈ h2, u.msg.key ≠ "timer") →
        ∃ nw ni np nq, TrueGauges t.post nw ni np nq ∧ Spec.IsDecimal q nq := by
  have hc : Spec.isCommand "get-runtime-stats" ⟨"clients", i, muninQuestion⟩ = true := by
    rw [isCommand_iff]; exact ⟨rfl, rfl⟩
  obtain ⟨reply, hs, hsr, hrep⟩ := stats_reply (cfg := cfg) (env := env) (s := s) hc
  obtain ⟨h1, h2⟩ := counters hr
  refine ⟨reply, _, natStr s.stats.evaluated, natStr s.stats.failed, natStr s.stats.queued, hs, rfl,
    ?_, ?_, ?_, ?_, ?_⟩
  · rw [hrep]; exact munin_statsReply _ _
  · rw [← h1]; exact natStr_isDecimal _
  · rw [← h2]; exact natStr_isDecimal _
  · intro hno; rw [queued_before hr hno]; decide
  · intro k1 t k2 hh ht hno
    subst hh
    obtain ⟨p, hp, hg⟩ := gauges_after hr ht hno
    exact ⟨_, _, _, _, hg, natStr_isDecimal _⟩

/-- **C68, counters.** The first two values are counters, as the plug-in tells munin (type
    `DERIVE`, minimum 0): between two questions to a broker that has sent fewer than 2^64
    notifications of success and got fewer than 2^64 failure reports they do not decrease, and they
    differ by what happened in between. -/
theorem C68_derive {cfg : HConfig} {env : Env} {h1 h2 : List (Tr Q)} {s s' : HState Q}
    (hr1 : Run cfg env h1 s) (hr2 : Run cfg env (h1 ++ h2) s')
    (he : (emitted (h1 ++ h2)).countP Spec.isSuccess < 2 ^ 64)
    (hf : (h1 ++ h2).countP Spec.failureReport < 2 ^ 64) (i i' : String) :
    ∃ t t' e f q e' f' q' ne nf,
      step cfg env ⟨"clients", i, muninQuestion⟩ s = .ok () t ∧
      step cfg env ⟨"clients", i', muninQuestion⟩ s' = .ok () t' ∧
      t.outs.map (fun o => munin o.data) =
        [.ok ["evaluated.value " ++ e, "failed.value " ++ f, "queued.value " ++ q]] ∧
      t'.outs.map (fun o => munin o.data) =
        [.ok ["evaluated.value " ++ e', "failed.value " ++ f', "queued.value " ++ q']] ∧
      Spec.IsDecimal e ne ∧ Spec.IsDecimal e' (ne + (emitted h2).countP Spec.isSuccess) ∧
      Spec.IsDecimal f nf ∧ Spec.IsDecimal f' (nf + h2.countP Spec.failureReport) := by
  obtain ⟨r, t, e, f, q, a1, a2, a3, a4, a5, _⟩ := C68_munin hr1 i
  obtain ⟨r', t', e', f', q', b1, b2, b3, b4, b5, _⟩ := C68_munin hr2 i'
  have em : emitted (h1 ++ h2) = emitted h1 ++ emitted h2 := by simp [emitted]
  rw [em, List.countP_append] at he b4
  rw [List.countP_append] at hf b5
  rw [Nat.mod_eq_of_lt (by omega)] at a4 a5 b4 b5
  exact ⟨t, t', e, f, q, e', f', q', _, _, a1, b1, by rw [a2]; simp [a3], by rw [b2]; simp [b3],
    a4, b4, a5, b5⟩

/-- The plug-in's output after the jobs of `statsMsgs`, before and after a tick. -/
example : (exec0 Single cfg0 env0 (statsMsgs ++ [fromC "m" muninQuestion])).map (fun x =>
    x.2.outs.map (fun o => munin o.data)) =
      some [.ok ["evaluated.value 1", "failed.value 2", "queued.value 0"]] := by decide +kernel

end Broker
