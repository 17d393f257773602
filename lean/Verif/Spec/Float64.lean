import Mathlib.Analysis.SpecialFunctions.Log.Base
/-!
# What is assumed of `float64` arithmetic (C49)

IEEE 754 binary64 with any rounding direction, restricted to what is used: rounding is
monotone, idempotent, leaves 0 and 1 alone, and is accurate to one unit in the last place
(2⁻⁵² relative, 2⁻¹⁰⁷⁴ absolute below the normal range) away from overflow. The library
logarithm is accurate to 2⁻⁵⁰, relative, on the interval (0, 1].
-/

namespace Btrfscue

structure Float64 (rnd log2 : ℝ → ℝ) : Prop where
  mono : ∀ x y, x ≤ y → rnd x ≤ rnd y
  idem : ∀ x, rnd (rnd x) = rnd x
  zero : rnd 0 = 0
  one : rnd 1 = 1
  err : ∀ x, |x| ≤ 2 ^ 1000 → |rnd x - x| ≤ |x| / 2 ^ 52 + 1 / 2 ^ 1074
  log : ∀ x, 0 < x → x ≤ 1 → |log2 x - Real.logb 2 x| ≤ |Real.logb 2 x| / 2 ^ 50

end Btrfscue
