import Verif.Model.Entropy
import Verif.Spec.Float64
import Verif.Props.Identify
import Mathlib.Algebra.BigOperators.Group.List.Basic
import Mathlib.Algebra.Order.BigOperators.Group.List
/-!
# C49: the entropy measure

Specified by the textbook formula `H(b) = - Σ p log₂ p` over the distinct bytes of `b`,
where `p` is the relative frequency of the byte. The value computed with rounded
arithmetic is compared with it.
-/

namespace Btrfscue

/-- Shannon's formula over the 256 possible bytes. -/
noncomputable def entropySpec (b : Bytes) : ℝ :=
  (b.dedup.map fun v => -((b.count v : ℝ) / b.length * Real.logb 2 ((b.count v : ℝ) / b.length))).sum

theorem histInc_keys (v : UInt8) (h : List (UInt8 × Nat)) :
    (histInc v h).map Prod.fst = if v ∈ h.map Prod.fst then h.map Prod.fst else h.map Prod.fst ++ [v] := by
  induction h with
  | nil => simp [histInc]
  | cons e r ih =>
    unfold histInc
    by_cases he : e.1 = v
    · simp [he]
    · rw [if_neg he, List.map_cons, ih, List.map_cons]
      have : v ≠ e.1 := fun h => he h.symm
      by_cases hm : v ∈ r.map Prod.fst
      · rw [if_pos hm, if_pos (List.mem_cons_of_mem _ hm)]
      · rw [if_neg hm, if_neg (by simp only [List.mem_cons, not_or]; exact ⟨this, hm⟩)]; rfl

/-- What a histogram of `b` is: each byte of `b` once, with its number of occurrences. -/
structure IsHist (b : Bytes) (h : List (UInt8 × Nat)) : Prop where
  nodup : (h.map Prod.fst).Nodup
  mem : ∀ v, v ∈ h.map Prod.fst ↔ v ∈ b
  count : ∀ e ∈ h, e.2 = b.count e.1

theorem histInc_isHist {b : Bytes} {h : List (UInt8 × Nat)} (H : IsHist b h) (v : UInt8) :
    IsHist (b ++ [v]) (histInc v h) := by
  refine ⟨?_, ?_, ?_⟩
  · rw [histInc_keys]
    split
    · exact H.nodup
    · rename_i hv
      rw [List.nodup_append]
      refine ⟨H.nodup, by simp, ?_⟩
      intro a ha c hc hac
      rw [List.mem_singleton] at hc
      subst hc; subst hac; exact hv ha
  · intro w
    rw [histInc_keys, List.mem_append, List.mem_singleton]
    split
    · rename_i hv
      rw [H.mem]
      constructor
      · exact Or.inl
      · rintro (h | rfl)
        · exact h
        · exact (H.mem _).mp hv
    · rw [List.mem_append, List.mem_singleton, H.mem]
  · have aux : ∀ g : List (UInt8 × Nat), (g.map Prod.fst).Nodup → (∀ e ∈ g, e.2 = b.count e.1) →
        (v ∉ g.map Prod.fst → b.count v = 0) → ∀ e ∈ histInc v g, e.2 = (b ++ [v]).count e.1 := by
      intro g
      induction g with
      | nil =>
        intro _ _ h0 e he
        simp only [histInc, List.mem_singleton] at he
        subst he
        have := h0 (by simp)
        simp [List.count_append, this]
      | cons x r ih =>
        intro hn hc h0 e he
        rw [List.map_cons, List.nodup_cons] at hn
        unfold histInc at he
        by_cases hx : x.1 = v
        · rw [if_pos hx] at he
          rcases List.mem_cons.mp he with rfl | he
          · have := hc x (List.mem_cons_self ..)
            simp only
            rw [List.count_append, this, hx]; simp
          · rw [List.count_append, ← hc e (List.mem_cons_of_mem _ he)]
            have : v ≠ e.1 := by
              intro hh; apply hn.1; rw [hx, hh]; exact List.mem_map_of_mem he
            simp [List.count_singleton, this]
        · rw [if_neg hx] at he
          rcases List.mem_cons.mp he with rfl | he
          · rw [List.count_append, ← hc e (List.mem_cons_self ..)]
            have : v ≠ e.1 := fun h => hx h.symm
            simp [List.count_singleton, this]
          · refine ih hn.2 (fun e he => hc e (List.mem_cons_of_mem _ he)) ?_ e he
            intro hv; apply h0
            rw [List.map_cons, List.mem_cons, not_or]
            exact ⟨fun h => hx h.symm, hv⟩
    refine aux h H.nodup H.count ?_
    intro hv
    rw [List.count_eq_zero]
    exact fun hb => hv ((H.mem v).mpr hb)

theorem byteHist_isHist (b : Bytes) : IsHist b (byteHist b) := by
  have aux : ∀ (l : Bytes) (p : Bytes) (h : List (UInt8 × Nat)), IsHist p h →
      IsHist (p ++ l) (l.foldl (fun h v => histInc v h) h) := by
    intro l
    induction l with
    | nil => intro p h H; simpa using H
    | cons v r ih =>
      intro p h H
      have := ih (p ++ [v]) (histInc v h) (histInc_isHist H v)
      simpa using this
  have := aux b [] [] ⟨by simp, by simp, by simp⟩
  simpa [byteHist] using this

theorem foldl_add_eq_sum {α : Type} (f : α → ℝ) (l : List α) (a : ℝ) :
    l.foldl (fun e v => e + f v) a = a + (l.map f).sum := by
  induction l generalizing a with
  | nil => simp
  | cons x r ih => rw [List.foldl_cons, ih, List.map_cons, List.sum_cons]; ring

theorem sum_neg {α : Type} (l : List α) (f : α → ℝ) : -(l.map f).sum = (l.map fun x => -f x).sum := by
  induction l with
  | nil => simp
  | cons x r ih => rw [List.map_cons, List.sum_cons, List.map_cons, List.sum_cons, ← ih]; ring

/-- The computed relative frequency of a byte. -/
noncomputable def roundedProb (rnd : ℝ → ℝ) (b : Bytes) (v : UInt8) : ℝ :=
  rnd (rnd (b.count v) / rnd b.length)

/-- The loop of the program runs over the distinct bytes, in some order. -/
theorem entropy_loop (rnd log2 : ℝ → ℝ) (fused : Bool) (ord1 : List (UInt8 × Nat) → List (UInt8 × Nat))
    (ord2 : List (UInt8 × ℝ) → List (UInt8 × ℝ)) (h1 : MapOrder ord1) (h2 : MapOrder ord2) (b : Bytes) :
    ∃ l : List UInt8, l.Perm b.dedup ∧ ShannonEntropy rnd log2 fused ord1 ord2 b =
      -(l.foldl (fun e v => rnd (e + entropyTerm rnd log2 fused (roundedProb rnd b v))) 0) := by
  have H := byteHist_isHist b
  have hp : (b.dedup).Perm ((byteHist b).map Prod.fst) := by
    rw [List.perm_ext_iff_of_nodup (List.nodup_dedup b) H.nodup]
    intro a; rw [List.mem_dedup, H.mem]
  set p := (ord1 (byteHist b)).map fun e => (e.1, rnd (rnd (e.2 : ℝ) / rnd (b.length : ℝ))) with hpdef
  have hpf : (p.map Prod.fst).Perm b.dedup := by
    rw [hpdef, List.map_map]
    exact ((h1 _).map _).trans hp.symm
  have hval : ∀ e ∈ p, e.2 = roundedProb rnd b e.1 := by
    intro e he
    rw [hpdef] at he
    obtain ⟨x, hx, rfl⟩ := List.mem_map.mp he
    have hx' := (h1 _).mem_iff.mp hx
    simp only [roundedProb, H.count x hx']
  refine ⟨(ord2 p).map Prod.fst, ((h2 p).map _).trans hpf, ?_⟩
  unfold ShannonEntropy
  simp only []
  rw [← hpdef]
  have hval2 : ∀ e ∈ ord2 p, e.2 = roundedProb rnd b e.1 := fun e he => hval e ((h2 p).mem_iff.mp he)
  generalize ord2 p = l at hval2
  have aux : ∀ (l : List (UInt8 × ℝ)) (a : ℝ), (∀ e ∈ l, e.2 = roundedProb rnd b e.1) →
      l.foldl (fun e v => rnd (e + entropyTerm rnd log2 fused v.2)) a =
      (l.map Prod.fst).foldl (fun e v => rnd (e + entropyTerm rnd log2 fused (roundedProb rnd b v))) a := by
    intro l
    induction l with
    | nil => intro a _; rfl
    | cons x r ih =>
      intro a h
      rw [List.foldl_cons, List.map_cons, List.foldl_cons, ← h x (List.mem_cons_self ..)]
      exact ih _ fun e he => h e (List.mem_cons_of_mem _ he)
  rw [aux l 0 hval2]

/-- With exact arithmetic, whatever the order in which the maps are iterated, the computed
value is Shannon's formula. -/
theorem C49_exact_is_shannon (fused : Bool) (ord1 : List (UInt8 × Nat) → List (UInt8 × Nat))
    (ord2 : List (UInt8 × ℝ) → List (UInt8 × ℝ)) (h1 : MapOrder ord1) (h2 : MapOrder ord2) (b : Bytes) :
    ShannonEntropy id (Real.logb 2) fused ord1 ord2 b = entropySpec b := by
  obtain ⟨l, hl, he⟩ := entropy_loop id (Real.logb 2) fused ord1 ord2 h1 h2 b
  rw [he]
  unfold entropySpec
  have hf : (fun (e : ℝ) (v : UInt8) => id (e + entropyTerm id (Real.logb 2) fused (roundedProb id b v))) =
      fun e v => e + ((b.count v : ℝ) / b.length * Real.logb 2 ((b.count v : ℝ) / b.length)) := by
    funext e v
    cases fused <;> simp [entropyTerm, roundedProb]
  rw [hf, foldl_add_eq_sum, zero_add, (hl.map _).sum_eq, sum_neg]

theorem sum_le_sum_of {α : Type} (l : List α) (f g : α → ℝ) (h : ∀ x ∈ l, f x ≤ g x) :
    (l.map f).sum ≤ (l.map g).sum := List.sum_le_sum h

theorem sum_probs {b : Bytes} (hb : b ≠ []) :
    (b.dedup.map fun v => (b.count v : ℝ) / b.length).sum = 1 := by
  have h := List.sum_map_count_dedup_eq_length b
  have hd : ∀ (l : List UInt8), (l.map fun v => (b.count v : ℝ) / b.length).sum =
      ((l.map fun v => b.count v).sum : ℕ) / (b.length : ℝ) := by
    intro l
    induction l with
    | nil => simp
    | cons x r ih => rw [List.map_cons, List.sum_cons, ih, List.map_cons, List.sum_cons]; push_cast; ring
  rw [hd, h]
  apply div_self
  have : b.length ≠ 0 := by rw [Ne, List.length_eq_zero_iff]; exact hb
  exact_mod_cast this

theorem prob_bounds {b : Bytes} {v : UInt8} (hv : v ∈ b.dedup) :
    0 < (b.count v : ℝ) / b.length ∧ (b.count v : ℝ) / b.length ≤ 1 := by
  rw [List.mem_dedup] at hv
  have h1 : 0 < b.count v := List.count_pos_iff.mpr hv
  have h2 : b.count v ≤ b.length := List.count_le_length
  have h3 : (0 : ℝ) < b.length := by exact_mod_cast (by omega : 0 < b.length)
  refine ⟨div_pos (by exact_mod_cast h1) h3, ?_⟩
  rw [div_le_one h3]; exact_mod_cast h2

theorem log2_pos : 0 < Real.log 2 := Real.log_pos (by norm_num)

/-- Shannon's bounds. -/
theorem entropySpec_bounds {b : Bytes} (hb : b ≠ []) :
    0 ≤ entropySpec b ∧ entropySpec b ≤ Real.logb 2 b.dedup.length := by
  have hk : 0 < b.dedup.length := by
    rw [List.length_pos_iff, Ne, List.dedup_eq_nil]; exact hb
  have hk' : (0 : ℝ) < b.dedup.length := by exact_mod_cast hk
  constructor
  · unfold entropySpec
    apply List.sum_nonneg
    intro x hx
    obtain ⟨v, hv, rfl⟩ := List.mem_map.mp hx
    obtain ⟨p0, p1⟩ := prob_bounds hv
    have : Real.logb 2 ((b.count v : ℝ) / b.length) ≤ 0 :=
      Real.logb_nonpos (by norm_num) p0.le p1
    nlinarith
  · have key : entropySpec b ≤ (b.dedup.map fun v => (b.count v : ℝ) / b.length * Real.logb 2 b.dedup.length +
        (1 / b.dedup.length - (b.count v : ℝ) / b.length) / Real.log 2).sum := by
      apply sum_le_sum_of
      intro v hv
      obtain ⟨p0, p1⟩ := prob_bounds hv
      generalize (b.count v : ℝ) / b.length = p at *
      generalize (b.dedup.length : ℝ) = k at *
      have h := Real.log_le_sub_one_of_pos (x := 1 / (p * k)) (by positivity)
      rw [one_div, Real.log_inv, Real.log_mul p0.ne' hk'.ne'] at h
      have h2 : p * (-(Real.log p + Real.log k)) ≤ p * ((p * k)⁻¹ - 1) := mul_le_mul_of_nonneg_left h p0.le
      have h3 : p * ((p * k)⁻¹ - 1) = 1 / k - p := by
        field_simp
      rw [h3] at h2
      unfold Real.logb
      have h4 := log2_pos
      rw [show -(p * (Real.log p / Real.log 2)) = (-(p * Real.log p)) / Real.log 2 by ring,
        show p * (Real.log k / Real.log 2) + (1 / k - p) / Real.log 2 = (p * Real.log k + (1 / k - p)) / Real.log 2 by ring]
      apply div_le_div_of_nonneg_right _ h4.le
      linarith
    refine key.trans (le_of_eq ?_)
    have hsplit : ∀ (l : List UInt8) (c : ℝ), (l.map fun v => (b.count v : ℝ) / b.length * c +
        (1 / b.dedup.length - (b.count v : ℝ) / b.length) / Real.log 2).sum =
        (l.map fun v => (b.count v : ℝ) / b.length).sum * c +
        ((l.length : ℝ) / b.dedup.length - (l.map fun v => (b.count v : ℝ) / b.length).sum) / Real.log 2 := by
      intro l c
      induction l with
      | nil => simp
      | cons x r ih =>
        rw [List.map_cons, List.sum_cons, ih, List.map_cons, List.sum_cons, List.length_cons]
        push_cast; ring
    rw [hsplit, sum_probs hb, div_self hk'.ne']
    simp

theorem dedup_length_le (b : Bytes) : b.dedup.length ≤ 256 := by
  have hn : (b.dedup.map UInt8.toNat).Nodup := by
    unfold List.Nodup
    rw [List.pairwise_map]
    exact (List.nodup_dedup b).imp (fun h e => h (UInt8.toNat_inj.mp e))
  have hsub : ∀ x ∈ b.dedup.map UInt8.toNat, x ∈ List.range 256 := by
    intro x hx
    obtain ⟨v, -, rfl⟩ := List.mem_map.mp hx
    rw [List.mem_range]; exact v.toNat_lt
  have := (List.Nodup.subperm hn hsub).length_le
  simpa using this

theorem logb_dedup_le {b : Bytes} (hb : b ≠ []) : Real.logb 2 b.dedup.length ≤ 8 := by
  have hk : 0 < b.dedup.length := by
    rw [List.length_pos_iff, Ne, List.dedup_eq_nil]; exact hb
  have h256 := dedup_length_le b
  rw [Real.logb_le_iff_le_rpow (by norm_num) (by exact_mod_cast hk)]
  norm_num
  exact_mod_cast h256

theorem entropySpec_perm {b b' : Bytes} (hp : b.Perm b') : entropySpec b = entropySpec b' := by
  unfold entropySpec
  have e : ∀ v, b.count v = b'.count v := fun v => hp.count_eq v
  simp only [e, hp.length_eq]
  exact ((hp.dedup).map _).sum_eq

/-! ## Rounding -/

theorem log2_ge : 1 / 2 ≤ Real.log 2 := by
  have := Real.one_sub_inv_le_log_of_pos (show (0 : ℝ) < 2 by norm_num)
  linarith

theorem Float64.err' {rnd log2 : ℝ → ℝ} (F : Float64 rnd log2) {x : ℝ} (hx : |x| ≤ 2 ^ 70) :
    |rnd x - x| ≤ |x| / 2 ^ 52 + 1 / 2 ^ 200 := by
  have h := F.err x (hx.trans (pow_le_pow_right₀ (by norm_num) (by norm_num)))
  have : (1 : ℝ) / 2 ^ 1074 ≤ 1 / 2 ^ 200 :=
    one_div_le_one_div_of_le (by norm_num) (pow_le_pow_right₀ (by norm_num) (by norm_num))
  linarith

/-- Rounding a number that is not tiny. -/
theorem Float64.err_rel {rnd log2 : ℝ → ℝ} (F : Float64 rnd log2) {x : ℝ} (h0 : 1 / 2 ^ 140 ≤ x) (hx : x ≤ 2 ^ 70) :
    x - x / 2 ^ 51 ≤ rnd x ∧ rnd x ≤ x + x / 2 ^ 51 := by
  have hp : (0 : ℝ) < x := lt_of_lt_of_le (by norm_num) h0
  have h := F.err' (x := x) (by rw [abs_of_pos hp]; exact hx)
  rw [abs_of_pos hp, abs_le] at h
  have : (1 : ℝ) / 2 ^ 200 ≤ x / 2 ^ 52 := by
    have : (1 : ℝ) / 2 ^ 200 ≤ (1 / 2 ^ 140) / 2 ^ 52 := by norm_num
    linarith
  constructor <;> linarith [h.1, h.2]

/-- The computed relative frequency is accurate. -/
theorem Float64.prob {rnd log2 : ℝ → ℝ} (F : Float64 rnd log2) {c l : ℝ} (hc : 1 ≤ c) (hcl : c ≤ l) (hl : l ≤ 2 ^ 63) :
    0 < rnd (rnd c / rnd l) ∧ rnd (rnd c / rnd l) ≤ 1 ∧
    |rnd (rnd c / rnd l) - c / l| ≤ (c / l) / 2 ^ 48 := by
  have hl0 : (0 : ℝ) < l := by linarith
  obtain ⟨c1, c2⟩ := F.err_rel (x := c) (by linarith [show (1 : ℝ) / 2 ^ 140 ≤ 1 by norm_num])
    (by linarith [show (2 : ℝ) ^ 63 ≤ 2 ^ 70 by norm_num])
  obtain ⟨l1, l2⟩ := F.err_rel (x := l) (by linarith [show (1 : ℝ) / 2 ^ 140 ≤ 1 by norm_num])
    (by linarith [show (2 : ℝ) ^ 63 ≤ 2 ^ 70 by norm_num])
  have hl1 : 0 < rnd l := by linarith
  have hc1 : 0 < rnd c := by linarith
  have hp : 1 / 2 ^ 63 ≤ c / l := by
    rw [div_le_div_iff₀ (by norm_num) hl0]; nlinarith
  have hpl : c / l * l = c := div_mul_cancel₀ _ hl0.ne'
  set p := c / l with hpd
  have hp0 : 0 < p := lt_of_lt_of_le (by norm_num) hp
  have hle : rnd c / rnd l ≤ 1 := by rw [div_le_one hl1]; exact F.mono _ _ hcl
  have r2 : rnd c / rnd l ≤ p + p / 2 ^ 49 := by
    rw [div_le_iff₀ hl1]
    have : (p + p / 2 ^ 49) * (l - l / 2 ^ 51) ≤ (p + p / 2 ^ 49) * rnd l :=
      mul_le_mul_of_nonneg_left l1 (by positivity)
    have e : (p + p / 2 ^ 49) * (l - l / 2 ^ 51) = (p * l) * ((1 + 1 / 2 ^ 49) * (1 - 1 / 2 ^ 51)) := by ring
    rw [e, hpl] at this
    have : c * (1 + 1 / 2 ^ 51) ≤ c * ((1 + 1 / 2 ^ 49) * (1 - 1 / 2 ^ 51)) :=
      mul_le_mul_of_nonneg_left (by norm_num) (by linarith)
    linarith
  have r1 : p - p / 2 ^ 49 ≤ rnd c / rnd l := by
    rw [le_div_iff₀ hl1]
    have hpp : 0 ≤ p - p / 2 ^ 49 := by linarith
    have : (p - p / 2 ^ 49) * rnd l ≤ (p - p / 2 ^ 49) * (l + l / 2 ^ 51) :=
      mul_le_mul_of_nonneg_left l2 hpp
    have e : (p - p / 2 ^ 49) * (l + l / 2 ^ 51) = (p * l) * ((1 - 1 / 2 ^ 49) * (1 + 1 / 2 ^ 51)) := by ring
    rw [e, hpl] at this
    have : c * ((1 - 1 / 2 ^ 49) * (1 + 1 / 2 ^ 51)) ≤ c * (1 - 1 / 2 ^ 51) :=
      mul_le_mul_of_nonneg_left (by norm_num) (by linarith)
    linarith
  set r := rnd c / rnd l with hr
  have hr0 : 1 / 2 ^ 140 ≤ r := by
    have : (1 : ℝ) / 2 ^ 140 ≤ (1 / 2 ^ 63) * (1 - 1 / 2 ^ 49) := by norm_num
    have : (1 / 2 ^ 63) * (1 - 1 / 2 ^ 49) ≤ p * (1 - 1 / 2 ^ 49) :=
      mul_le_mul_of_nonneg_right hp (by norm_num)
    linarith
  obtain ⟨q1, q2⟩ := F.err_rel (x := r) hr0 (by linarith [show (1 : ℝ) ≤ 2 ^ 70 by norm_num])
  refine ⟨by linarith [show (0 : ℝ) < 1 / 2 ^ 140 by norm_num], ?_, ?_⟩
  · have := F.mono _ _ hle
    rwa [F.one] at this
  · rw [abs_le]
    constructor <;> linarith

theorem xlogx_bound {x : ℝ} (h0 : 0 < x) (h1 : x ≤ 1) : |x * Real.logb 2 x| ≤ 2 := by
  have hl := log2_ge
  have hn : Real.log x ≤ 0 := Real.log_nonpos h0.le h1
  have h := Real.one_sub_inv_le_log_of_pos h0
  have hx : x * (1 - x⁻¹) ≤ x * Real.log x := mul_le_mul_of_nonneg_left h h0.le
  have e : x * (1 - x⁻¹) = x - 1 := by field_simp
  rw [e] at hx
  have hnn : x * Real.log x ≤ 0 := mul_nonpos_of_nonneg_of_nonpos h0.le hn
  unfold Real.logb
  rw [show x * (Real.log x / Real.log 2) = (x * Real.log x) / Real.log 2 by ring, abs_div,
    abs_of_nonpos hnn, abs_of_pos log2_pos, div_le_iff₀ log2_pos]
  linarith

theorem logb_close {p q : ℝ} (hp : 0 < p) (hq : 0 < q) (h : |q - p| ≤ p / 2 ^ 48) :
    |Real.logb 2 q - Real.logb 2 p| ≤ 1 / 2 ^ 46 := by
  have hl := log2_ge
  rw [abs_le] at h
  have ht : 0 < q / p := div_pos hq hp
  have e : Real.logb 2 q - Real.logb 2 p = Real.log (q / p) / Real.log 2 := by
    unfold Real.logb
    rw [Real.log_div hq.ne' hp.ne']; ring
  have t1 : 1 - 1 / 2 ^ 48 ≤ q / p := by rw [le_div_iff₀ hp]; linarith [h.1]
  have t2 : q / p ≤ 1 + 1 / 2 ^ 48 := by rw [div_le_iff₀ hp]; linarith [h.2]
  have u := Real.log_le_sub_one_of_pos ht
  have w := Real.one_sub_inv_le_log_of_pos ht
  have hi : (q / p)⁻¹ ≤ 1 + 1 / 2 ^ 47 := by
    rw [inv_le_comm₀ ht (by norm_num)]
    refine le_trans ?_ t1
    norm_num
  rw [e, abs_div, abs_of_pos log2_pos, div_le_iff₀ log2_pos, abs_le]
  constructor <;> linarith

theorem Float64.log_nonpos {rnd log2 : ℝ → ℝ} (F : Float64 rnd log2) {x : ℝ} (h0 : 0 < x) (h1 : x ≤ 1) :
    log2 x ≤ Real.logb 2 x / 2 ∧ log2 x ≤ 0 := by
  have hn : Real.logb 2 x ≤ 0 := Real.logb_nonpos (by norm_num) h0.le h1
  have h := F.log x h0 h1
  rw [abs_of_nonpos hn, abs_le] at h
  constructor <;> linarith [h.2]

theorem Float64.log_one {rnd log2 : ℝ → ℝ} (F : Float64 rnd log2) : log2 1 = 0 := by
  have h := F.log 1 one_pos le_rfl
  simpa using h

/-- One term of the sum is accurate. -/
theorem Float64.term {rnd log2 : ℝ → ℝ} (F : Float64 rnd log2) (fused : Bool) {p q : ℝ} (hp : 0 < p) (hp1 : p ≤ 1)
    (hq : 0 < q) (hq1 : q ≤ 1) (h : |q - p| ≤ p / 2 ^ 48) :
    |entropyTerm rnd log2 fused q - p * Real.logb 2 p| ≤ 1 / 2 ^ 44 := by
  have hpx := xlogx_bound hp hp1
  have hqx := xlogx_bound hq hq1
  have hlc := logb_close hp hq h
  have hlg := F.log q hq hq1
  have e : q * log2 q - p * Real.logb 2 p = q * (log2 q - Real.logb 2 q) +
      q * (Real.logb 2 q - Real.logb 2 p) + (q - p) * Real.logb 2 p := by ring
  have a1 : |q * (log2 q - Real.logb 2 q)| ≤ 2 / 2 ^ 50 := by
    rw [abs_mul, abs_of_pos hq]
    have : q * |log2 q - Real.logb 2 q| ≤ q * (|Real.logb 2 q| / 2 ^ 50) := mul_le_mul_of_nonneg_left hlg hq.le
    rw [abs_mul, abs_of_pos hq] at hqx
    have e2 : q * (|Real.logb 2 q| / 2 ^ 50) = (q * |Real.logb 2 q|) / 2 ^ 50 := by ring
    rw [e2] at this
    refine this.trans ?_
    gcongr
  have a2 : |q * (Real.logb 2 q - Real.logb 2 p)| ≤ 1 / 2 ^ 46 := by
    rw [abs_mul, abs_of_pos hq]
    have : q * |Real.logb 2 q - Real.logb 2 p| ≤ 1 * |Real.logb 2 q - Real.logb 2 p| :=
      mul_le_mul_of_nonneg_right hq1 (abs_nonneg _)
    linarith
  have a3 : |(q - p) * Real.logb 2 p| ≤ 2 / 2 ^ 48 := by
    rw [abs_mul]
    have : |q - p| * |Real.logb 2 p| ≤ (p / 2 ^ 48) * |Real.logb 2 p| := mul_le_mul_of_nonneg_right h (abs_nonneg _)
    rw [abs_mul, abs_of_pos hp] at hpx
    have e2 : (p / 2 ^ 48) * |Real.logb 2 p| = (p * |Real.logb 2 p|) / 2 ^ 48 := by ring
    rw [e2] at this
    refine this.trans ?_
    gcongr
  have hm : |q * log2 q - p * Real.logb 2 p| ≤ 1 / 2 ^ 45 := by
    rw [e]
    refine (abs_add_three _ _ _).trans ?_
    have : (2 : ℝ) / 2 ^ 50 + 1 / 2 ^ 46 + 2 / 2 ^ 48 ≤ 1 / 2 ^ 45 := by norm_num
    linarith
  unfold entropyTerm
  cases fused with
  | true => simp only [if_true]; refine hm.trans ?_; norm_num
  | false =>
    simp only [Bool.false_eq_true, if_false]
    have hb : |q * log2 q| ≤ 3 := by
      have := abs_add_le (q * log2 q - p * Real.logb 2 p) (p * Real.logb 2 p)
      rw [sub_add_cancel] at this
      have : (1 : ℝ) / 2 ^ 45 ≤ 1 := by norm_num
      linarith
    have hr := F.err' (x := q * log2 q) (hb.trans (by norm_num))
    have hr2 : |rnd (q * log2 q) - q * log2 q| ≤ 1 / 2 ^ 49 := by
      refine hr.trans ?_
      have : |q * log2 q| / 2 ^ 52 ≤ 3 / 2 ^ 52 := by gcongr
      have : (3 : ℝ) / 2 ^ 52 + 1 / 2 ^ 200 ≤ 1 / 2 ^ 49 := by norm_num
      linarith
    have := abs_add_le (rnd (q * log2 q) - q * log2 q) (q * log2 q - p * Real.logb 2 p)
    rw [sub_add_sub_cancel] at this
    have : (1 : ℝ) / 2 ^ 49 + 1 / 2 ^ 45 ≤ 1 / 2 ^ 44 := by norm_num
    linarith

/-- Rounded summation of at most 256 small terms. -/
theorem Float64.sum {rnd log2 : ℝ → ℝ} (F : Float64 rnd log2) (t s : UInt8 → ℝ) (l : List UInt8)
    (hs : ∀ v ∈ l, |s v| ≤ 2) (ht : ∀ v ∈ l, |t v - s v| ≤ 1 / 2 ^ 44) (hl : l.length ≤ 256) :
    |l.foldl (fun e v => rnd (e + t v)) 0 - (l.map s).sum| ≤ 1 / 2 ^ 32 := by
  have aux : ∀ (l : List UInt8) (n : ℕ) (a S : ℝ), (∀ v ∈ l, |s v| ≤ 2) → (∀ v ∈ l, |t v - s v| ≤ 1 / 2 ^ 44) →
      n + l.length ≤ 256 → |a - S| ≤ n / 2 ^ 40 → |S| ≤ 2 * n →
      |l.foldl (fun e v => rnd (e + t v)) a - (S + (l.map s).sum)| ≤ (n + l.length : ℕ) / 2 ^ 40 := by
    intro l
    induction l with
    | nil => intro n a S _ _ _ h _; simpa using h
    | cons x r ih =>
      intro n a S hs ht hl ha hS
      rw [List.length_cons] at hl
      have hn : (n : ℝ) ≤ 256 := by exact_mod_cast (by omega : n ≤ 256)
      have hx := hs x (List.mem_cons_self ..)
      have tx := ht x (List.mem_cons_self ..)
      have hd : |(a + t x) - (S + s x)| ≤ n / 2 ^ 40 + 1 / 2 ^ 44 := by
        have := abs_add_le (a - S) (t x - s x)
        rw [show a - S + (t x - s x) = a + t x - (S + s x) by ring] at this
        linarith
      have hSs : |S + s x| ≤ 2 * n + 2 := (abs_add_le _ _).trans (by linarith)
      have hb : |a + t x| ≤ 600 := by
        have := abs_add_le ((a + t x) - (S + s x)) (S + s x)
        rw [sub_add_cancel] at this
        have : (n : ℝ) / 2 ^ 40 + 1 / 2 ^ 44 ≤ 256 / 2 ^ 40 + 1 / 2 ^ 44 := by gcongr
        have : (256 : ℝ) / 2 ^ 40 + 1 / 2 ^ 44 ≤ 1 := by norm_num
        linarith
      have hr := F.err' (x := a + t x) (hb.trans (by norm_num))
      have hr2 : |rnd (a + t x) - (a + t x)| ≤ 1 / 2 ^ 42 := by
        refine hr.trans ?_
        have : |a + t x| / 2 ^ 52 ≤ 600 / 2 ^ 52 := by gcongr
        have : (600 : ℝ) / 2 ^ 52 + 1 / 2 ^ 200 ≤ 1 / 2 ^ 42 := by norm_num
        linarith
      have hnew : |rnd (a + t x) - (S + s x)| ≤ ((n + 1 : ℕ) : ℝ) / 2 ^ 40 := by
        have := abs_add_le (rnd (a + t x) - (a + t x)) ((a + t x) - (S + s x))
        rw [sub_add_sub_cancel] at this
        push_cast
        have : (1 : ℝ) / 2 ^ 42 + 1 / 2 ^ 44 ≤ 1 / 2 ^ 40 := by norm_num
        have : ((n : ℝ) + 1) / 2 ^ 40 = n / 2 ^ 40 + 1 / 2 ^ 40 := by ring
        linarith
      have := ih (n + 1) (rnd (a + t x)) (S + s x) (fun v hv => hs v (List.mem_cons_of_mem _ hv))
        (fun v hv => ht v (List.mem_cons_of_mem _ hv)) (by omega) hnew (by push_cast; linarith)
      rw [List.foldl_cons, List.map_cons, List.sum_cons, ← add_assoc, List.length_cons,
        show n + (r.length + 1) = n + 1 + r.length by omega]
      exact this
  have := aux l 0 0 0 hs ht (by omega) (by simp) (by simp)
  rw [zero_add, zero_add] at this
  refine this.trans ?_
  have : (l.length : ℝ) ≤ 256 := by exact_mod_cast hl
  have h2 : (l.length : ℝ) / 2 ^ 40 ≤ 256 / 2 ^ 40 := by gcongr
  refine h2.trans ?_
  norm_num

/-- What is known about the computed frequency of a byte that occurs. -/
theorem Float64.roundedProb {rnd log2 : ℝ → ℝ} (F : Float64 rnd log2) {b : Bytes} (hlen : b.length < 2 ^ 63)
    {v : UInt8} (hv : v ∈ b.dedup) :
    0 < roundedProb rnd b v ∧ roundedProb rnd b v ≤ 1 ∧
    |roundedProb rnd b v - (b.count v : ℝ) / b.length| ≤ ((b.count v : ℝ) / b.length) / 2 ^ 48 := by
  rw [List.mem_dedup] at hv
  have h1 : 0 < b.count v := List.count_pos_iff.mpr hv
  have h2 : b.count v ≤ b.length := List.count_le_length
  have h3 : (b.length : ℝ) ≤ 2 ^ 63 := by exact_mod_cast hlen.le
  exact F.prob (by exact_mod_cast h1) (by exact_mod_cast h2) h3

theorem Float64.term_nonpos {rnd log2 : ℝ → ℝ} (F : Float64 rnd log2) (fused : Bool) {q : ℝ} (hq : 0 < q) (hq1 : q ≤ 1) :
    entropyTerm rnd log2 fused q ≤ 0 := by
  have h := mul_nonpos_of_nonneg_of_nonpos hq.le (F.log_nonpos hq hq1).2
  unfold entropyTerm
  cases fused with
  | true => simpa using h
  | false =>
    simp only [Bool.false_eq_true, if_false]
    have := F.mono _ _ h
    rwa [F.zero] at this

theorem sum_nonpos {rnd log2 : ℝ → ℝ} (F : Float64 rnd log2) (fused : Bool) {b : Bytes} (hlen : b.length < 2 ^ 63)
    (l : List UInt8) (hl : ∀ v ∈ l, v ∈ b.dedup) (a : ℝ) (ha : a ≤ 0) :
    l.foldl (fun e v => rnd (e + entropyTerm rnd log2 fused (roundedProb rnd b v))) a ≤ 0 := by
  induction l generalizing a with
  | nil => exact ha
  | cons x r ih =>
    rw [List.foldl_cons]
    apply ih (fun v hv => hl v (List.mem_cons_of_mem _ hv))
    obtain ⟨q0, q1, -⟩ := F.roundedProb hlen (hl x (List.mem_cons_self ..))
    have ht := F.term_nonpos fused q0 q1
    have := F.mono (a + entropyTerm rnd log2 fused (roundedProb rnd b x)) 0 (by linarith)
    rwa [F.zero] at this

theorem sum_decreases {rnd log2 : ℝ → ℝ} (F : Float64 rnd log2) (fused : Bool) {b : Bytes} (hlen : b.length < 2 ^ 63)
    (l : List UInt8) (hl : ∀ v ∈ l, v ∈ b.dedup) (a : ℝ) :
    l.foldl (fun e v => rnd (e + entropyTerm rnd log2 fused (roundedProb rnd b v))) (rnd a) ≤ rnd a := by
  induction l generalizing a with
  | nil => exact le_rfl
  | cons x r ih =>
    rw [List.foldl_cons]
    refine (ih (fun v hv => hl v (List.mem_cons_of_mem _ hv)) _).trans ?_
    obtain ⟨q0, q1, -⟩ := F.roundedProb hlen (hl x (List.mem_cons_self ..))
    have ht := F.term_nonpos fused q0 q1
    have := F.mono (rnd a + entropyTerm rnd log2 fused (roundedProb rnd b x)) (rnd a) (by linarith)
    rwa [F.idem] at this

/-- The term of a byte that makes up at most half of the string does not vanish. -/
theorem term_neg {rnd log2 : ℝ → ℝ} (F : Float64 rnd log2) (fused : Bool) {b : Bytes} (hlen : b.length < 2 ^ 63)
    {v : UInt8} (hv : v ∈ b.dedup) (hhalf : 2 * b.count v ≤ b.length) :
    rnd (entropyTerm rnd log2 fused (roundedProb rnd b v)) < 0 := by
  obtain ⟨q0, q1, q2⟩ := F.roundedProb hlen hv
  have hvb := List.mem_dedup.mp hv
  have hc : 0 < b.count v := List.count_pos_iff.mpr hvb
  have hl0 : (0 : ℝ) < b.length := by exact_mod_cast (by omega : 0 < b.length)
  have p1 : (b.count v : ℝ) / b.length ≤ 1 / 2 := by
    rw [div_le_div_iff₀ hl0 (by norm_num)]
    have : ((2 * b.count v : ℕ) : ℝ) ≤ b.length := by exact_mod_cast hhalf
    push_cast at this; linarith
  have p0 : (1 : ℝ) / 2 ^ 63 ≤ (b.count v : ℝ) / b.length := by
    have h3 : (b.length : ℝ) ≤ 2 ^ 63 := by exact_mod_cast hlen.le
    have h4 : (1 : ℝ) ≤ b.count v := by exact_mod_cast hc
    rw [div_le_div_iff₀ (by norm_num) hl0]; nlinarith
  set p := (b.count v : ℝ) / b.length
  set q := roundedProb rnd b v
  rw [abs_le] at q2
  have qlo : 1 / 2 ^ 64 ≤ q := by
    have : (1 : ℝ) / 2 ^ 64 ≤ 1 / 2 ^ 63 * (1 - 1 / 2 ^ 48) := by norm_num
    have : (1 : ℝ) / 2 ^ 63 * (1 - 1 / 2 ^ 48) ≤ p * (1 - 1 / 2 ^ 48) := mul_le_mul_of_nonneg_right p0 (by norm_num)
    linarith [q2.1]
  have qhi : q ≤ 3 / 4 := by
    have : (1 : ℝ) / 2 + 1 / 2 / 2 ^ 48 ≤ 3 / 4 := by norm_num
    linarith [q2.2]
  have hlog : Real.logb 2 q ≤ -(1 / 4) := by
    have h := Real.log_le_sub_one_of_pos q0
    have h2 : Real.log 2 ≤ 1 := by linarith [Real.log_le_sub_one_of_pos (show (0 : ℝ) < 2 by norm_num)]
    unfold Real.logb
    rw [div_le_iff₀ log2_pos]
    linarith
  have hlg := (F.log_nonpos q0 q1).1
  have hm : q * log2 q ≤ -(1 / 2 ^ 67) := by
    have : q * log2 q ≤ q * (-(1 / 8)) := mul_le_mul_of_nonneg_left (by linarith) q0.le
    have : (1 : ℝ) / 2 ^ 67 = 1 / 2 ^ 64 * (1 / 8) := by norm_num
    linarith
  -- rounding a number at most -2⁻⁶⁷ leaves it negative
  have hround : ∀ x : ℝ, x ≤ -(1 / 2 ^ 67) → rnd x ≤ -(1 / 2 ^ 68) := by
    intro x hx
    refine (F.mono _ _ hx).trans ?_
    have he := F.err' (x := -(1 / 2 ^ 67)) (by rw [abs_neg]; norm_num)
    rw [abs_neg, abs_of_pos (show (0 : ℝ) < 1 / 2 ^ 67 by norm_num), abs_le] at he
    have : (1 : ℝ) / 2 ^ 67 / 2 ^ 52 + 1 / 2 ^ 200 ≤ 1 / 2 ^ 68 := by norm_num
    have : (1 : ℝ) / 2 ^ 67 = 1 / 2 ^ 68 + 1 / 2 ^ 68 := by norm_num
    linarith [he.2]
  unfold entropyTerm
  cases fused with
  | true =>
    simp only [if_true]
    have := hround _ hm
    have : (0 : ℝ) < 1 / 2 ^ 68 := by norm_num
    linarith
  | false =>
    simp only [Bool.false_eq_true, if_false]
    rw [F.idem]
    have := hround _ hm
    have : (0 : ℝ) < 1 / 2 ^ 68 := by norm_num
    linarith

/-- C49: computed with rounded arithmetic, the result differs from Shannon's formula by
less than 10⁻⁹, whatever the order in which the maps are iterated. -/
theorem C49_entropy_is_shannon {rnd log2 : ℝ → ℝ} (F : Float64 rnd log2) (fused : Bool)
    (ord1 : List (UInt8 × Nat) → List (UInt8 × Nat)) (ord2 : List (UInt8 × ℝ) → List (UInt8 × ℝ))
    (h1 : MapOrder ord1) (h2 : MapOrder ord2) (b : Bytes) (hlen : b.length < 2 ^ 63) :
    |ShannonEntropy rnd log2 fused ord1 ord2 b - entropySpec b| < 1 / 10 ^ 9 := by
  obtain ⟨l, hl, he⟩ := entropy_loop rnd log2 fused ord1 ord2 h1 h2 b
  have h := F.sum (fun v => entropyTerm rnd log2 fused (roundedProb rnd b v))
    (fun v => (b.count v : ℝ) / b.length * Real.logb 2 ((b.count v : ℝ) / b.length)) l
    (fun v hv => xlogx_bound (prob_bounds (hl.mem_iff.mp hv)).1 (prob_bounds (hl.mem_iff.mp hv)).2)
    (fun v hv => by
      obtain ⟨q0, q1, q2⟩ := F.roundedProb hlen (hl.mem_iff.mp hv)
      obtain ⟨p0, p1⟩ := prob_bounds (hl.mem_iff.mp hv)
      exact F.term fused p0 p1 q0 q1 q2)
    (hl.length_eq ▸ dedup_length_le b)
  have hsp : entropySpec b = -(l.map fun v => (b.count v : ℝ) / b.length * Real.logb 2 ((b.count v : ℝ) / b.length)).sum := by
    unfold entropySpec
    rw [(hl.map _).sum_eq, sum_neg]
  rw [he, hsp, neg_sub_neg, abs_sub_comm]
  exact lt_of_le_of_lt h (by norm_num)

/-- C49: the computed entropy is never negative and exceeds the logarithm of the number
of distinct bytes, which is at most 8, by less than 10⁻⁹. -/
theorem C49_entropy_bounds {rnd log2 : ℝ → ℝ} (F : Float64 rnd log2) (fused : Bool)
    (ord1 : List (UInt8 × Nat) → List (UInt8 × Nat)) (ord2 : List (UInt8 × ℝ) → List (UInt8 × ℝ))
    (h1 : MapOrder ord1) (h2 : MapOrder ord2) (b : Bytes) (hb : b ≠ []) (hlen : b.length < 2 ^ 63) :
    0 ≤ ShannonEntropy rnd log2 fused ord1 ord2 b ∧
    ShannonEntropy rnd log2 fused ord1 ord2 b < Real.logb 2 b.dedup.length + 1 / 10 ^ 9 ∧
    ShannonEntropy rnd log2 fused ord1 ord2 b < 8 + 1 / 10 ^ 9 := by
  have hd := C49_entropy_is_shannon F fused ord1 ord2 h1 h2 b hlen
  obtain ⟨-, u⟩ := entropySpec_bounds hb
  have h8 := logb_dedup_le hb
  rw [abs_lt] at hd
  refine ⟨?_, by linarith [hd.2], by linarith [hd.2]⟩
  obtain ⟨l, hl, he⟩ := entropy_loop rnd log2 fused ord1 ord2 h1 h2 b
  rw [he]
  have := sum_nonpos F fused hlen l (fun v hv => hl.mem_iff.mp hv) 0 le_rfl
  linarith

/-- C49: the order of the bytes, and of the iterations over the maps, changes the result by
less than 2·10⁻⁹. -/
theorem C49_entropy_perm {rnd log2 : ℝ → ℝ} (F : Float64 rnd log2) (fused : Bool)
    (ord1 ord1' : List (UInt8 × Nat) → List (UInt8 × Nat))
    (ord2 ord2' : List (UInt8 × ℝ) → List (UInt8 × ℝ)) (h1 : MapOrder ord1) (h2 : MapOrder ord2)
    (h1' : MapOrder ord1') (h2' : MapOrder ord2') (b b' : Bytes) (hlen : b.length < 2 ^ 63) (hp : b.Perm b') :
    |ShannonEntropy rnd log2 fused ord1 ord2 b - ShannonEntropy rnd log2 fused ord1' ord2' b'| < 2 / 10 ^ 9 := by
  have a := C49_entropy_is_shannon F fused ord1 ord2 h1 h2 b hlen
  have c := C49_entropy_is_shannon F fused ord1' ord2' h1' h2' b' (hp.length_eq ▸ hlen)
  rw [entropySpec_perm hp] at a
  rw [abs_lt] at a c ⊢
  constructor <;> linarith [a.1, a.2, c.1, c.2]

/-- C49: the computed entropy is 0 exactly for the strings that repeat one byte. -/
theorem C49_entropy_zero_iff {rnd log2 : ℝ → ℝ} (F : Float64 rnd log2) (fused : Bool)
    (ord1 : List (UInt8 × Nat) → List (UInt8 × Nat)) (ord2 : List (UInt8 × ℝ) → List (UInt8 × ℝ))
    (h1 : MapOrder ord1) (h2 : MapOrder ord2) (b : Bytes) (hb : b ≠ []) (hlen : b.length < 2 ^ 63) :
    ShannonEntropy rnd log2 fused ord1 ord2 b = 0 ↔ ∃ v, ∀ w ∈ b, w = v := by
  obtain ⟨l, hl, he⟩ := entropy_loop rnd log2 fused ord1 ord2 h1 h2 b
  have hmem : ∀ v ∈ l, v ∈ b.dedup := fun v hv => hl.mem_iff.mp hv
  rw [he, neg_eq_zero]
  constructor
  · intro h0
    by_contra hno
    -- some byte makes up at most half of the string
    obtain ⟨v, hv, hle⟩ : ∃ v ∈ b, 2 * b.count v ≤ b.length := by
      obtain ⟨x, r, rfl⟩ := List.exists_cons_of_ne_nil hb
      set b := x :: r with hbd
      have hx : x ∈ b := by rw [hbd]; exact List.mem_cons_self ..
      have : ∃ w ∈ b, w ≠ x := by
        by_contra h
        apply hno
        refine ⟨x, fun w hw => ?_⟩
        by_contra hwx
        exact h ⟨w, hw, hwx⟩
      obtain ⟨w, hw, hwx⟩ := this
      have hsum : b.count w + b.count x ≤ b.length := by
        have h1 := List.countP_eq_length_filter (p := (· == w)) (l := b)
        have h3 : b.count x ≤ (b.filter (fun y => !(y == w))).length := by
          rw [← List.countP_eq_length_filter]
          unfold List.count
          apply List.countP_mono_left
          intro y _ hy
          simp only [beq_iff_eq] at hy
          subst hy
          simp [Ne.symm hwx]
        have h4 := List.length_eq_length_filter_add (l := b) (· == w)
        have h5 : b.count w = (b.filter (· == w)).length := h1
        omega
      by_cases h : 2 * b.count w ≤ b.length
      · exact ⟨w, hw, h⟩
      · exact ⟨x, hx, by omega⟩
    have hvd : v ∈ b.dedup := List.mem_dedup.mpr hv
    have hneg := term_neg F fused hlen hvd hle
    obtain ⟨l1, l2, rfl⟩ := List.append_of_mem (hl.mem_iff.mpr hvd)
    rw [List.foldl_append, List.foldl_cons] at h0
    have ha := sum_nonpos F fused hlen l1 (fun w hw => hmem w (List.mem_append_left _ hw)) 0 le_rfl
    set a := l1.foldl (fun e v => rnd (e + entropyTerm rnd log2 fused (Btrfscue.roundedProb rnd b v))) 0 with had
    set t := entropyTerm rnd log2 fused (Btrfscue.roundedProb rnd b v) with htd
    have h3 : rnd (a + t) ≤ rnd t := F.mono _ _ (by linarith)
    have h4 := sum_decreases F fused hlen l2
      (fun w hw => hmem w (List.mem_append_right _ (List.mem_cons_of_mem _ hw))) (a + t)
    rw [h0] at h4
    linarith
  · rintro ⟨v, hv⟩
    have hz : ∀ w ∈ l, entropyTerm rnd log2 fused (Btrfscue.roundedProb rnd b w) = 0 := by
      intro w hw
      have hwb := List.mem_dedup.mp (hmem w hw)
      have hwv := hv w hwb
      have hc : b.count w = b.length := List.count_eq_length.mpr (fun u hu => by rw [hv u hu, hwv])
      have hq := F.roundedProb hlen (hmem w hw)
      have h1 : Btrfscue.roundedProb rnd b w = 1 := by
        unfold Btrfscue.roundedProb at hq ⊢
        rw [hc] at hq ⊢
        by_cases h : rnd (b.length : ℝ) = 0
        · rw [h] at hq; rw [div_zero, F.zero] at hq; exact absurd hq.1 (lt_irrefl _)
        · rw [div_self h, F.one]
      rw [h1]
      unfold entropyTerm
      rw [F.log_one]
      cases fused <;> simp [F.zero]
    clear he hl hmem
    induction l with
    | nil => rfl
    | cons x r ih =>
      rw [List.foldl_cons, hz x (List.mem_cons_self ..), add_zero, F.zero]
      exact ih fun w hw => hz w (List.mem_cons_of_mem _ hw)

/-- The two-letter string `AB` carries one bit per byte: the bounds above are attained. -/
example : ShannonEntropy id (Real.logb 2) false id id [0x41, 0x42] = 1 := by
  rw [C49_exact_is_shannon false id id mapOrder_id mapOrder_id]
  have hd : List.dedup ([0x41, 0x42] : Bytes) = [0x41, 0x42] := by decide
  have h1 : List.count (0x41 : UInt8) ([0x41, 0x42] : Bytes) = 1 := by decide
  have h2 : List.count (0x42 : UInt8) ([0x41, 0x42] : Bytes) = 1 := by decide
  unfold entropySpec
  rw [hd]
  simp only [List.map_cons, List.map_nil, List.sum_cons, List.sum_nil, h1, h2, List.length_cons, List.length_nil]
  norm_num
  rw [one_div, Real.logb_inv, Real.logb_self_eq_one (by norm_num)]
  norm_num

end Btrfscue
