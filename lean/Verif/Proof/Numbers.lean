import Verif.Proof.Capability
import Verif.Spec.Protocol

/-! # Decimal numerals -/

namespace Broker

theorem natStr_toList (n : Nat) : (natStr n).toList = Nat.toDigits 10 n := by
  unfold natStr
  rw [Nat.toString_eq_ofList_toDigits]
  simp

theorem natStr_isDecimal (n : Nat) : Spec.IsDecimal (natStr n) n := by
  unfold Spec.IsDecimal
  rw [natStr_toList]
  refine ⟨Nat.toDigits_ne_nil, fun c hc => Nat.isDigit_of_mem_toDigits (by decide) (by decide) hc, ?_⟩
  rw [← decimal_eq, Nat.ofDigitChars_ten_toDigits]

end Broker
