import Verif.Props.Entropy
import Mathlib.Data.Int.Log
import Mathlib.Data.Real.Archimedean
/-!
# C49: the assumptions on `float64` arithmetic are met

Truncation to 53 significant bits, with the subnormal range of IEEE 754 binary64, meets
them; so does exact arithmetic.
-/

namespace Btrfscue

/-- The exponent of `x`: that of its leading bit, or that of the smallest normal number. -/
noncomputable def expo (x : ℝ) : ℤ := max (Int.log 2 x) (-1022)

/-- The unit in the last place of `x`. -/
noncomputable def ulp (x : ℝ) : ℝ := (2 : ℝ) ^ (expo x - 52)

/-- Truncation of a number that is not negative. -/
noncomputable def truncPos (x : ℝ) : ℝ := ⌊x / ulp x⌋ * ulp x

/-- Rounding towards zero. -/
noncomputable def trunc53 (x : ℝ) : ℝ := if 0 ≤ x then truncPos x else -truncPos (-x)

theorem ulp_pos (x : ℝ) : 0 < ulp x := zpow_pos (by norm_num) _

theorem truncPos_le (x : ℝ) : truncPos x ≤ x := by
  unfold truncPos
  have := Int.floor_le (x / ulp x)
  calc (⌊x / ulp x⌋ : ℝ) * ulp x ≤ x / ulp x * ulp x := mul_le_mul_of_nonneg_right this (ulp_pos x).le
    _ = x := div_mul_cancel₀ _ (ulp_pos x).ne'

theorem truncPos_gt (x : ℝ) : x - ulp x < truncPos x := by
  unfold truncPos
  have h := Int.lt_floor_add_one (x / ulp x)
  have h2 : x / ulp x * ulp x < (⌊x / ulp x⌋ + 1) * ulp x := mul_lt_mul_of_pos_right h (ulp_pos x)
  rw [div_mul_cancel₀ _ (ulp_pos x).ne'] at h2
  linarith

theorem truncPos_nonneg {x : ℝ} (h : 0 ≤ x) : 0 ≤ truncPos x := by
  unfold truncPos
  have : (0 : ℤ) ≤ ⌊x / ulp x⌋ := Int.floor_nonneg.mpr (div_nonneg h (ulp_pos x).le)
  exact mul_nonneg (by exact_mod_cast this) (ulp_pos x).le

theorem truncPos_zero : truncPos 0 = 0 := by simp [truncPos]

theorem lt_pow_expo {x : ℝ} : x < (2 : ℝ) ^ (expo x + 1) := by
  have h := Int.lt_zpow_succ_log_self (R := ℝ) (b := 2) (by norm_num) x
  refine lt_of_lt_of_le (by exact_mod_cast h) ?_
  apply zpow_le_zpow_right₀ (by norm_num)
  have : Int.log 2 x ≤ expo x := le_max_left _ _
  omega

theorem pow_expo_le {x : ℝ} (h0 : 0 < x) (h : -1022 < expo x) : (2 : ℝ) ^ expo x ≤ x := by
  have e : expo x = Int.log 2 x := by
    unfold expo at h ⊢
    omega
  rw [e]
  have := Int.zpow_log_le_self (R := ℝ) (b := 2) (r := x) (by norm_num) h0
  exact_mod_cast this

theorem pow_expo_le_trunc {x : ℝ} (h0 : 0 < x) (h : -1022 < expo x) : (2 : ℝ) ^ expo x ≤ truncPos x := by
  have hx := pow_expo_le h0 h
  have e : (2 : ℝ) ^ expo x = ((2 ^ 52 : ℤ) : ℝ) * ulp x := by
    unfold ulp
    rw [zpow_sub₀ (by norm_num)]
    push_cast
    have : (2 : ℝ) ^ (52 : ℤ) = 2 ^ (52 : ℕ) := by norm_cast
    rw [this]
    field_simp
    norm_num
  have hfl : (2 ^ 52 : ℤ) ≤ ⌊x / ulp x⌋ := by
    rw [Int.le_floor, le_div_iff₀ (ulp_pos x), ← e]
    exact hx
  rw [e]
  unfold truncPos
  exact mul_le_mul_of_nonneg_right (by exact_mod_cast hfl) (ulp_pos x).le

theorem expo_mono {x y : ℝ} (h0 : 0 < x) (h : x ≤ y) : expo x ≤ expo y :=
  max_le_max (Int.log_mono_right h0 h) le_rfl

theorem truncPos_mono {x y : ℝ} (h0 : 0 ≤ x) (h : x ≤ y) : truncPos x ≤ truncPos y := by
  rcases h0.eq_or_lt with rfl | h0
  · rw [truncPos_zero]; exact truncPos_nonneg h
  · have he := expo_mono h0 h
    rcases he.eq_or_lt with he | he
    · unfold truncPos ulp
      rw [he]
      have hu : (0 : ℝ) < 2 ^ (expo y - 52) := zpow_pos (by norm_num) _
      have : ⌊x / (2 : ℝ) ^ (expo y - 52)⌋ ≤ ⌊y / (2 : ℝ) ^ (expo y - 52)⌋ :=
        Int.floor_le_floor (div_le_div_of_nonneg_right h hu.le)
      exact mul_le_mul_of_nonneg_right (by exact_mod_cast this) hu.le
    · have hlo : -1022 ≤ expo x := le_max_right _ _
      have h1 := pow_expo_le_trunc (lt_of_lt_of_le h0 h) (by omega)
      have h2 : x < (2 : ℝ) ^ (expo x + 1) := lt_pow_expo
      have h3 : (2 : ℝ) ^ (expo x + 1) ≤ 2 ^ expo y := zpow_le_zpow_right₀ (by norm_num) (by omega)
      linarith [truncPos_le x]

theorem truncPos_idem {x : ℝ} (h0 : 0 ≤ x) : truncPos (truncPos x) = truncPos x := by
  rcases h0.eq_or_lt with rfl | h0
  · rw [truncPos_zero, truncPos_zero]
  · rcases (truncPos_nonneg h0.le).eq_or_lt with hz | hz
    · rw [← hz, truncPos_zero]
    · have he : expo (truncPos x) = expo x := by
        apply le_antisymm (expo_mono hz (truncPos_le x))
        by_cases h : -1022 < expo x
        · have h1 := pow_expo_le_trunc h0 h
          have h2 : truncPos x < (2 : ℝ) ^ (expo (truncPos x) + 1) := lt_pow_expo
          have h3 : (2 : ℝ) ^ expo x < 2 ^ (expo (truncPos x) + 1) := lt_of_le_of_lt h1 h2
          rw [zpow_lt_zpow_iff_right₀ (by norm_num)] at h3
          omega
        · have : -1022 ≤ expo (truncPos x) := le_max_right _ _
          omega
      have hu : ulp (truncPos x) = ulp x := by unfold ulp; rw [he]
      have hq : truncPos x / ulp x = (⌊x / ulp x⌋ : ℝ) := by
        unfold truncPos
        exact mul_div_cancel_right₀ _ (ulp_pos x).ne'
      have : truncPos (truncPos x) = ⌊truncPos x / ulp (truncPos x)⌋ * ulp (truncPos x) := rfl
      rw [this, hu, hq, Int.floor_intCast]
      rfl

theorem truncPos_err {x : ℝ} (h0 : 0 ≤ x) : |truncPos x - x| ≤ x / 2 ^ 52 + 1 / 2 ^ 1074 := by
  have h1 := truncPos_le x
  have h2 := truncPos_gt x
  rw [abs_of_nonpos (by linarith)]
  have hz : (0 : ℝ) ≤ 1 / 2 ^ 1074 := by positivity
  have hx : 0 ≤ x / 2 ^ 52 := by positivity
  rcases h0.eq_or_lt with rfl | h0
  · rw [truncPos_zero]; linarith
  have hu : ulp x ≤ x / 2 ^ 52 + 1 / 2 ^ 1074 := by
    by_cases h : -1022 < expo x
    · have e : ulp x = 2 ^ expo x / 2 ^ 52 := by
        unfold ulp
        rw [zpow_sub₀ (by norm_num)]
        norm_cast
      have := pow_expo_le h0 h
      have : (2 : ℝ) ^ expo x / 2 ^ 52 ≤ x / 2 ^ 52 := div_le_div_of_nonneg_right this (by positivity)
      rw [e]; linarith
    · have hlo : -1022 ≤ expo x := le_max_right _ _
      have e : expo x - 52 = -(1074 : ℕ) := by push_cast; omega
      have : ulp x = 1 / 2 ^ 1074 := by
        unfold ulp
        rw [e, zpow_neg, zpow_natCast, one_div]
      linarith
  linarith

theorem truncPos_one : truncPos 1 = 1 := by
  have e : expo 1 = 0 := by unfold expo; rw [Int.log_one_right]; rfl
  have h := pow_expo_le_trunc (x := 1) one_pos (by rw [e]; norm_num)
  rw [e, zpow_zero] at h
  exact le_antisymm (truncPos_le 1) h

/-- Rounding towards zero, with an exact logarithm, meets the assumptions. -/
theorem float64_trunc : Float64 trunc53 (Real.logb 2) where
  zero := by simp [trunc53, truncPos_zero]
  one := by simp [trunc53, truncPos_one]
  mono := by
    intro x y h
    unfold trunc53
    by_cases hx : 0 ≤ x
    · rw [if_pos hx, if_pos (hx.trans h)]; exact truncPos_mono hx h
    · rw [if_neg hx]
      have hx' : 0 ≤ -x := by linarith
      by_cases hy : 0 ≤ y
      · rw [if_pos hy]; linarith [truncPos_nonneg hx', truncPos_nonneg hy]
      · rw [if_neg hy]
        have := truncPos_mono (x := -y) (y := -x) (by linarith) (by linarith)
        linarith
  idem := by
    intro x
    unfold trunc53
    by_cases hx : 0 ≤ x
    · rw [if_pos hx, if_pos (truncPos_nonneg hx), truncPos_idem hx]
    · rw [if_neg hx]
      have hx' : 0 ≤ -x := by linarith
      rcases (truncPos_nonneg hx').eq_or_lt with hz | hz
      · rw [← hz]; simp [truncPos_zero]
      · rw [if_neg (by linarith), neg_neg, truncPos_idem hx']
  err := by
    intro x _
    unfold trunc53
    by_cases hx : 0 ≤ x
    · rw [if_pos hx, abs_of_nonneg hx]; exact truncPos_err hx
    · rw [if_neg hx]
      have hx' : 0 ≤ -x := by linarith
      have := truncPos_err hx'
      rw [abs_of_neg (not_le.mp hx), ← abs_neg]
      rw [show -(-truncPos (-x) - x) = truncPos (-x) - -x by ring]
      exact this
  log := by
    intro x _ _
    rw [sub_self, abs_zero]
    positivity

/-- Exact arithmetic meets them too. -/
theorem float64_exact : Float64 id (Real.logb 2) where
  zero := rfl
  one := rfl
  mono := fun _ _ h => h
  idem := fun _ => rfl
  err := by intro x _; rw [id, sub_self, abs_zero]; positivity
  log := by
    intro x _ _
    rw [sub_self, abs_zero]
    positivity

/-- Truncation is not the identity: one third is not a `float64`. -/
example : trunc53 (1 / 3) ≠ 1 / 3 := by
  intro h
  unfold trunc53 at h
  rw [if_pos (by norm_num)] at h
  have e : expo (1 / 3) = -2 := by
    have : Int.log 2 ((1 : ℝ) / 3) = -2 := by
      apply le_antisymm
      · rw [← Int.lt_add_one_iff, ← Int.lt_zpow_iff_log_lt (by norm_num) (by norm_num)]
        norm_num
      · rw [← Int.zpow_le_iff_le_log (by norm_num) (by norm_num)]
        norm_num
    unfold expo; rw [this]; rfl
  unfold truncPos ulp at h
  rw [e] at h
  generalize ⌊(1 : ℝ) / 3 / 2 ^ ((-2 : ℤ) - 52)⌋ = k at h
  have h2 : (k : ℝ) * 3 = 2 ^ 54 := by
    have : (2 : ℝ) ^ ((-2 : ℤ) - 52) = 1 / 2 ^ 54 := by norm_num
    rw [this] at h
    field_simp at h
    linarith
  have h3 : k * 3 = 2 ^ 54 := by exact_mod_cast h2
  omega

/-- An instance of the theorems with real rounding. -/
example (v : UInt8) : ShannonEntropy trunc53 (Real.logb 2) false id id [v, v, v] = 0 :=
  (C49_entropy_zero_iff float64_trunc false id id mapOrder_id mapOrder_id [v, v, v] (by simp) (by simp)).mpr
    ⟨v, by simp⟩

end Btrfscue
