import Verif.Go.Binary
/-! Lemmas about byte order codecs and `bytes.Compare`. -/

namespace Btrfscue

@[simp] theorem leBytes_length (w v : Nat) : (leBytes w v).length = w := by
  induction w generalizing v with
  | zero => rfl
  | succ w ih => simp [leBytes, ih]

@[simp] theorem beBytes_length (w v : Nat) : (beBytes w v).length = w := by
  simp [beBytes]

theorem leNat_leBytes (w v : Nat) : leNat (leBytes w v) = v % 256 ^ w := by
  induction w generalizing v with
  | zero => simp [leBytes, leNat, Nat.mod_one]
  | succ w ih =>
    simp only [leBytes, leNat, ih, UInt8.toNat_ofNat']
    rw [show 256 ^ (w + 1) = 256 * 256 ^ w by rw [Nat.pow_succ, Nat.mul_comm], Nat.mod_mul]

theorem leNat_lt (l : Bytes) : leNat l < 256 ^ l.length := by
  induction l with
  | nil => simp [leNat]
  | cons b bs ih =>
    have hb : b.toNat < 256 := b.toNat_lt
    simp only [leNat, List.length_cons, Nat.pow_succ]
    omega

theorem leBytes_leNat (l : Bytes) : leBytes l.length (leNat l) = l := by
  induction l with
  | nil => rfl
  | cons b bs ih =>
    have hb : b.toNat < 256 := b.toNat_lt
    simp only [List.length_cons, leBytes, leNat]
    rw [show (b.toNat + 256 * leNat bs) / 256 = leNat bs by omega, ih]
    congr 1
    apply UInt8.toNat_inj.mp
    simp only [UInt8.toNat_ofNat']
    omega

theorem leNat_append (a b : Bytes) : leNat (a ++ b) = leNat a + 256 ^ a.length * leNat b := by
  induction a with
  | nil => simp [leNat]
  | cons x xs ih =>
    simp only [List.cons_append, leNat, ih, List.length_cons, Nat.pow_succ]
    rw [Nat.mul_add, Nat.mul_comm (256 ^ xs.length) 256, Nat.mul_assoc]
    omega

theorem leNat_inj {a b : Bytes} (hl : a.length = b.length) (h : leNat a = leNat b) : a = b := by
  rw [← leBytes_leNat a, ← leBytes_leNat b, hl, h]

theorem beNat_beBytes (w v : Nat) : beNat (beBytes w v) = v % 256 ^ w := by
  simp [beNat, beBytes, leNat_leBytes]

theorem beNat_lt (l : Bytes) : beNat l < 256 ^ l.length := by
  have := leNat_lt l.reverse
  simpa [beNat] using this

theorem beBytes_beNat (l : Bytes) : beBytes l.length (beNat l) = l := by
  have := leBytes_leNat l.reverse
  simp only [List.length_reverse] at this
  simp [beBytes, beNat, this]

theorem beNat_inj {a b : Bytes} (hl : a.length = b.length) (h : beNat a = beNat b) : a = b := by
  rw [← beBytes_beNat a, ← beBytes_beNat b, hl, h]

theorem beNat_append (a b : Bytes) : beNat (a ++ b) = beNat a * 256 ^ b.length + beNat b := by
  simp only [beNat, List.reverse_append, leNat_append, List.length_reverse]
  rw [Nat.mul_comm]; omega

@[simp] theorem beNat_nil : beNat [] = 0 := rfl

theorem beNat_singleton (b : UInt8) : beNat [b] = b.toNat := by
  simp [beNat, leNat]

theorem beNat_cons (b : UInt8) (bs : Bytes) :
    beNat (b :: bs) = b.toNat * 256 ^ bs.length + beNat bs := by
  rw [show b :: bs = [b] ++ bs from rfl, beNat_append, beNat_singleton]

/-! ### `bytes.Compare` -/

theorem bytesCompare_self (a : Bytes) : bytesCompare a a = 0 := by
  induction a with
  | nil => rfl
  | cons b bs ih => simp [bytesCompare, ih, UInt8.lt_irrefl]

/-- On equal lengths, `bytes.Compare` compares the big-endian numbers. -/
theorem bytesCompare_lt_iff {a b : Bytes} (h : a.length = b.length) :
    bytesCompare a b < 0 ↔ beNat a < beNat b := by
  induction a generalizing b with
  | nil => cases b <;> simp_all [bytesCompare]
  | cons x xs ih =>
    cases b with
    | nil => simp at h
    | cons y ys =>
      have hl : xs.length = ys.length := by simpa using h
      have h1 := beNat_lt xs
      have h2 := beNat_lt ys
      rw [← hl] at h2
      simp only [bytesCompare, beNat_cons, ← hl]
      by_cases hxy : x < y
      · have : x.toNat + 1 ≤ y.toNat := UInt8.lt_iff_toNat_lt.mp hxy
        have := Nat.mul_le_mul_right (256 ^ xs.length) this
        simp only [hxy, if_true]
        rw [Nat.add_mul] at this
        constructor
        · intro _; omega
        · intro _; omega
      · by_cases hyx : y < x
        · have : y.toNat + 1 ≤ x.toNat := UInt8.lt_iff_toNat_lt.mp hyx
          have := Nat.mul_le_mul_right (256 ^ xs.length) this
          simp only [hxy, hyx, if_true, if_false]
          rw [Nat.add_mul] at this
          constructor
          · intro h; omega
          · intro h; omega
        · have : x = y := by
            apply UInt8.toNat_inj.mp
            rw [UInt8.lt_iff_toNat_lt] at hxy hyx
            omega
          subst this
          simp only [hxy, if_false]
          rw [ih hl]
          omega

theorem bytesCompare_swap (a b : Bytes) : bytesCompare b a = - bytesCompare a b := by
  induction a generalizing b with
  | nil => cases b <;> simp [bytesCompare]
  | cons x xs ih =>
    cases b with
    | nil => simp [bytesCompare]
    | cons y ys =>
      simp only [bytesCompare]
      by_cases h1 : x < y
      · have : ¬ y < x := by
          rw [UInt8.lt_iff_toNat_lt] at *; omega
        simp [h1, this]
      · by_cases h2 : y < x
        · simp [h1, h2]
        · simp [h1, h2, ih]

theorem bytesCompare_eq_zero {a b : Bytes} : bytesCompare a b = 0 ↔ a = b := by
  constructor
  · intro h
    induction a generalizing b with
    | nil => cases b <;> simp_all [bytesCompare]
    | cons x xs ih =>
      cases b with
      | nil => simp [bytesCompare] at h
      | cons y ys =>
        simp only [bytesCompare] at h
        by_cases h1 : x < y
        · simp [h1] at h
        · by_cases h2 : y < x
          · simp [h1, h2] at h
          · have : x = y := by
              apply UInt8.toNat_inj.mp
              rw [UInt8.lt_iff_toNat_lt] at h1 h2
              omega
            simp only [h1, h2, if_false] at h
            rw [this, ih h]
  · rintro rfl; exact bytesCompare_self a

theorem bytesCompare_le_iff {a b : Bytes} (h : a.length = b.length) :
    bytesCompare a b ≤ 0 ↔ beNat a ≤ beNat b := by
  have h1 := bytesCompare_lt_iff h.symm
  rw [bytesCompare_swap a b] at h1
  constructor
  · intro h2
    by_cases h3 : beNat b < beNat a
    · have := h1.mpr h3; omega
    · omega
  · intro h2
    by_cases h3 : 0 < bytesCompare a b
    · have := h1.mp (by omega); omega
    · omega

/-- `bytes.Compare` returns only -1, 0 and 1. -/
theorem bytesCompare_range (a b : Bytes) :
    bytesCompare a b = -1 ∨ bytesCompare a b = 0 ∨ bytesCompare a b = 1 := by
  induction a generalizing b with
  | nil => cases b <;> simp [bytesCompare]
  | cons x xs ih =>
    cases b with
    | nil => simp [bytesCompare]
    | cons y ys =>
      simp only [bytesCompare]
      split
      · simp
      · split
        · simp
        · exact ih ys

theorem bytesLt_iff {a b : Bytes} (h : a.length = b.length) :
    bytesLt a b = true ↔ beNat a < beNat b := by
  simp [bytesLt, bytesCompare_lt_iff h]

/-- Comparing a longer string with a shorter one: strictly smaller exactly when
its prefix of that length is strictly smaller. -/
theorem bytesLt_prefix {a p : Bytes} (h : p.length ≤ a.length) :
    bytesLt a p = true ↔ beNat (a.take p.length) < beNat p := by
  rw [← bytesLt_iff (by simp [h])]
  simp only [bytesLt, decide_eq_true_eq]
  induction p generalizing a with
  | nil => cases a <;> simp [bytesCompare]
  | cons y ys ih =>
    cases a with
    | nil => simp at h
    | cons x xs =>
      simp only [List.length_cons, List.take_succ_cons, bytesCompare]
      split
      · rfl
      · split
        · rfl
        · exact ih (by simpa using h)

theorem bytesLt_irrefl (a : Bytes) : bytesLt a a = false := by
  simp [bytesLt, bytesCompare_self]

theorem bytesLt_trans {a b c : Bytes} (h1 : bytesLt a b = true) (h2 : bytesLt b c = true) :
    bytesLt a c = true := by
  simp only [bytesLt, decide_eq_true_eq] at *
  induction a generalizing b c with
  | nil =>
    cases c with
    | nil => cases b <;> simp_all [bytesCompare]
    | cons => simp [bytesCompare]
  | cons x xs ih =>
    cases b with
    | nil => simp [bytesCompare] at h1
    | cons y ys =>
      cases c with
      | nil => simp [bytesCompare] at h2
      | cons z zs =>
        simp only [bytesCompare] at *
        by_cases hxy : x < y
        · by_cases hyz : y < z
          · have : x < z := UInt8.lt_trans hxy hyz
            simp [this]
          · by_cases hzy : z < y
            · simp [hyz, hzy] at h2
            · have : y = z := by
                apply UInt8.toNat_inj.mp
                rw [UInt8.lt_iff_toNat_lt] at hyz hzy
                omega
              subst this
              simp [hxy]
        · by_cases hyx : y < x
          · simp [hxy, hyx] at h1
          · have : x = y := by
              apply UInt8.toNat_inj.mp
              rw [UInt8.lt_iff_toNat_lt] at hxy hyx
              omega
            subst this
            simp only [hxy, if_false] at h1
            by_cases hyz : x < z
            · simp [hyz]
            · by_cases hzy : z < x
              · simp [hyz, hzy] at h2
              · simp only [hyz, hzy, if_false] at h2 ⊢
                exact ih h1 h2

theorem bytesLt_connected {a b : Bytes} (h1 : bytesLt a b = false) (h2 : bytesLt b a = false) :
    a = b := by
  simp only [bytesLt, decide_eq_false_iff_not] at *
  rw [bytesCompare_swap a b] at h2
  exact bytesCompare_eq_zero.mp (by omega)

end Btrfscue
