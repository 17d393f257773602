/-!
# Decimal numbers

Independent of the code: what it means that a byte string is the decimal notation of a
number, by reading it.
-/

namespace Btrfscue.Spec

/-- The number a string of decimal digits denotes. -/
def readDigits (s : List UInt8) : Nat := s.foldl (fun v b => 10 * v + (b.toNat - 48)) 0

/-- `s` is the decimal notation of `n`: digits only, no superfluous leading zero. -/
structure IsDecimal (s : List UInt8) (n : Nat) : Prop where
  digits : ∀ b ∈ s, 48 ≤ b.toNat ∧ b.toNat ≤ 57
  zero : s.head? = some 48 → s = [48]
  nonempty : s ≠ []
  value : readDigits s = n

/-- `s` is the decimal notation of the integer `i`: a minus sign in front of negative
numbers only. -/
def IsDecimalInt (s : List UInt8) (i : Int) : Prop :=
  (0 ≤ i ∧ IsDecimal s i.natAbs) ∨ (i < 0 ∧ ∃ t, s = 45 :: t ∧ IsDecimal t i.natAbs)

end Btrfscue.Spec
