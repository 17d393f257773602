import Verif.Model.ToString
import Std.Data.String.ToNat
import Verif.Spec.Decimal
/-!
# Lemmas about textual forms
-/

namespace Btrfscue

theorem digit_byte {c : Char} (h : c.isDigit = true) : 48 ≤ c.toNat ∧ c.toNat ≤ 57 := by
  simp only [Char.isDigit, Bool.and_eq_true, decide_eq_true_eq] at h
  exact ⟨UInt32.le_iff_toNat_le.mp h.1, UInt32.le_iff_toNat_le.mp h.2⟩

theorem digits_isDigit {n : Nat} {c : Char} (h : c ∈ Nat.toDigits 10 n) : c.isDigit = true :=
  Nat.isDigit_of_mem_toDigits (by decide) (by decide) h

/-- Every byte of a decimal number is a digit. -/
theorem decimal_digit {n : Nat} {b : UInt8} (h : b ∈ decimal n) : 48 ≤ b.toNat ∧ b.toNat ≤ 57 := by
  obtain ⟨c, hc, rfl⟩ := List.mem_map.mp h
  obtain ⟨h1, h2⟩ := digit_byte (digits_isDigit hc)
  rw [UInt8.toNat_ofNat']
  omega

theorem decimal_ne_nil (n : Nat) : decimal n ≠ [] := by
  simp only [decimal, ne_eq, List.map_eq_nil_iff]
  exact Nat.toDigits_ne_nil

theorem decimal_inj {m n : Nat} (h : decimal m = decimal n) : m = n := by
  have h1 : Nat.toDigits 10 m = Nat.toDigits 10 n := by
    have hinj : ∀ (a b : List Char), (∀ c ∈ a, c.isDigit = true) → (∀ c ∈ b, c.isDigit = true) →
        a.map (fun c => UInt8.ofNat c.toNat) = b.map (fun c => UInt8.ofNat c.toNat) → a = b := by
      intro a
      induction a with
      | nil => intro b _ _ he; cases b with
        | nil => rfl
        | cons => cases he
      | cons x r ih =>
        intro b ha hb he
        cases b with
        | nil => cases he
        | cons y s =>
          simp only [List.map_cons, List.cons.injEq] at he
          obtain ⟨x1, x2⟩ := digit_byte (ha x (by simp))
          obtain ⟨y1, y2⟩ := digit_byte (hb y (by simp))
          have hxy : x = y := by
            have := congrArg UInt8.toNat he.1
            rw [UInt8.toNat_ofNat', UInt8.toNat_ofNat'] at this
            apply Char.toNat_inj.mp
            omega
          rw [hxy, ih s (fun c hc => ha c (by simp [hc])) (fun c hc => hb c (by simp [hc])) he.2]
    exact hinj _ _ (fun c hc => digits_isDigit hc) (fun c hc => digits_isDigit hc) h
  have := congrArg (fun l => Nat.ofDigitChars 10 l 0) h1
  simpa using this

theorem decimalInt_inj {i j : Int} (h : decimalInt i = decimalInt j) : i = j := by
  unfold decimalInt at h
  have hne : ∀ (m : Nat) (r : Bytes), 45 :: r ≠ decimal m := by
    intro m r he
    have : (45 : UInt8) ∈ decimal m := by rw [← he]; simp
    have := (decimal_digit this).1
    revert this; decide
  split at h <;> split at h
  · have := decimal_inj (List.cons.inj h).2
    omega
  · exact absurd h (hne _ _)
  · exact absurd h.symm (hne _ _)
  · have := decimal_inj h
    omega

/-- The byte of a digit. -/
theorem digitChar_byte {d : Nat} (h : d < 10) : (UInt8.ofNat d.digitChar.toNat).toNat = 48 + d := by
  have : ∀ x : Fin 10, (UInt8.ofNat x.1.digitChar.toNat).toNat = 48 + x.1 := by decide
  exact this ⟨d, h⟩

/-- `decimal` is the decimal notation. -/
theorem decimal_isDecimal (n : Nat) : Spec.IsDecimal (decimal n) n := by
  refine ⟨fun b h => decimal_digit h, ?_, decimal_ne_nil n, ?_⟩
  · induction n using Nat.strongRecOn with
    | _ n ih =>
      by_cases hlt : n < 10
      · intro h
        simp only [decimal, Nat.toDigits_of_lt_base hlt, List.map_cons, List.map_nil, List.head?_cons,
          Option.some.injEq] at h ⊢
        rw [h]
      · intro h
        have hd : decimal n = decimal (n / 10) ++ [UInt8.ofNat (n % 10).digitChar.toNat] := by
          simp only [decimal, Nat.toDigits_of_base_le (by decide) (show 10 ≤ n by omega), List.map_append,
            List.map_cons, List.map_nil]
        exfalso
        have hne := decimal_ne_nil (n / 10)
        rw [hd] at h
        have h0 : (decimal (n / 10)).head? = some 48 := by
          cases hc : decimal (n / 10) with
          | nil => exact absurd hc hne
          | cons a r => rw [hc] at h; simpa using h
        have h1 := ih (n / 10) (by omega) h0
        have h2 : decimal (n / 10) = decimal 0 := by rw [h1]; rfl
        have := decimal_inj h2
        omega
  · induction n using Nat.strongRecOn with
    | _ n ih =>
      by_cases hlt : n < 10
      · simp only [decimal, Nat.toDigits_of_lt_base hlt, List.map_cons, List.map_nil, Spec.readDigits,
          List.foldl_cons, List.foldl_nil, digitChar_byte hlt]
        omega
      · have hd : decimal n = decimal (n / 10) ++ [UInt8.ofNat (n % 10).digitChar.toNat] := by
          simp only [decimal, Nat.toDigits_of_base_le (by decide) (show 10 ≤ n by omega), List.map_append,
            List.map_cons, List.map_nil]
        have h1 := ih (n / 10) (by omega)
        unfold Spec.readDigits at h1 ⊢
        rw [hd, List.foldl_append, h1]
        simp only [List.foldl_cons, List.foldl_nil, digitChar_byte (show n % 10 < 10 by omega)]
        omega

/-- `decimalInt` is the decimal notation. -/
theorem decimalInt_isDecimal (i : Int) : Spec.IsDecimalInt (decimalInt i) i := by
  unfold decimalInt
  by_cases h : i < 0
  · rw [if_pos h]
    refine Or.inr ⟨h, _, rfl, ?_⟩
    rw [show i.natAbs = (-i).toNat by omega]
    exact decimal_isDecimal _
  · rw [if_neg h]
    refine Or.inl ⟨by omega, ?_⟩
    rw [show i.natAbs = i.toNat by omega]
    exact decimal_isDecimal _

/-- The bytes that occur in a printed integer. -/
theorem decimalInt_byte {i : Int} {b : UInt8} (h : b ∈ decimalInt i) :
    b.toNat = 45 ∨ (48 ≤ b.toNat ∧ b.toNat ≤ 57) := by
  unfold decimalInt at h
  split at h
  · rcases List.mem_cons.mp h with rfl | h
    · exact Or.inl rfl
    · exact Or.inr (decimal_digit h)
  · exact Or.inr (decimal_digit h)

/-- A table of names that can be told apart from each other and from numbers. -/
structure NamesOK (t : List (Nat × String)) : Prop where
  nodup : (t.map fun e => ascii e.2).Nodup
  bytes : ∀ e ∈ t, ∀ b ∈ ascii e.2, b ≠ 32 ∧ b ≠ 10
  alpha : ∀ e ∈ t, ∃ b ∈ ascii e.2, 57 < b.toNat

theorem switchName_cases (t : List (Nat × String)) (n : Nat) :
    (∃ e ∈ t, n = e.1 ∧ switchName t n = ascii e.2) ∨ ((∀ e ∈ t, n ≠ e.1) ∧ switchName t n = decimal n) := by
  induction t with
  | nil => exact Or.inr ⟨by simp, rfl⟩
  | cons x r ih =>
    simp only [switchName]
    by_cases h : n = x.1
    · rw [if_pos h]
      exact Or.inl ⟨x, by simp, h, rfl⟩
    · rw [if_neg h]
      rcases ih with ⟨e, h1, h2, h3⟩ | ⟨h1, h2⟩
      · exact Or.inl ⟨e, List.mem_cons_of_mem _ h1, h2, h3⟩
      · refine Or.inr ⟨?_, h2⟩
        intro e he
        rcases List.mem_cons.mp he with rfl | he
        · exact h
        · exact h1 e he

theorem switchName_inj {t : List (Nat × String)} (h : NamesOK t) {m n : Nat}
    (he : switchName t m = switchName t n) : m = n := by
  have hnum : ∀ e ∈ t, ∀ k, ascii e.2 ≠ decimal k := by
    intro e hm k hc
    obtain ⟨b, hb, hlt⟩ := h.alpha e hm
    rw [hc] at hb
    have := (decimal_digit hb).2
    omega
  have huniq : ∀ (t : List (Nat × String)), (t.map fun e => ascii e.2).Nodup → ∀ x ∈ t, ∀ y ∈ t,
      ascii x.2 = ascii y.2 → x = y := by
    intro t
    induction t with
    | nil => intro _ x hx; cases hx
    | cons z r ih =>
      intro hnd x hx y hy hxy
      simp only [List.map_cons, List.nodup_cons] at hnd
      rcases List.mem_cons.mp hx with hx' | hx' <;> rcases List.mem_cons.mp hy with hy' | hy'
      · rw [hx', hy']
      · exact absurd (List.mem_map.mpr ⟨y, hy', by rw [← hxy, hx']⟩) hnd.1
      · exact absurd (List.mem_map.mpr ⟨x, hx', by rw [hxy, hy']⟩) hnd.1
      · exact ih hnd.2 x hx' y hy' hxy
  rcases switchName_cases t m with ⟨e, h1, h2, h3⟩ | ⟨-, h3⟩ <;>
    rcases switchName_cases t n with ⟨e', h1', h2', h3'⟩ | ⟨-, h3'⟩ <;> rw [h3, h3'] at he
  · rw [h2, h2', huniq t h.nodup e h1 e' h1' he]
  · exact absurd he (hnum e h1 n)
  · exact absurd he.symm (hnum e' h1' m)
  · exact decimal_inj he

theorem switchName_byte {t : List (Nat × String)} (h : NamesOK t) {n : Nat} {b : UInt8}
    (hb : b ∈ switchName t n) : b ≠ 32 ∧ b ≠ 10 := by
  rcases switchName_cases t n with ⟨e, h1, -, h3⟩ | ⟨-, h3⟩ <;> rw [h3] at hb
  · exact h.bytes e h1 b hb
  · have := (decimal_digit hb).1
    constructor <;> rintro rfl <;> revert this <;> decide

theorem objectIDNames_ok : NamesOK objectIDNames := by
  constructor <;> decide +kernel

theorem keyTypeNames_ok : NamesOK keyTypeNames := by
  constructor <;> decide +kernel

/-- A separator that occurs in neither prefix determines the parts. -/
theorem sep_inj {s : UInt8} {a b r q : Bytes} (ha : s ∉ a) (hb : s ∉ b) (h : a ++ s :: r = b ++ s :: q) :
    a = b ∧ r = q := by
  induction a generalizing b with
  | nil =>
    cases b with
    | nil => exact ⟨rfl, (List.cons.inj h).2⟩
    | cons y t =>
      have := (List.cons.inj h).1
      exact absurd (by simp [this]) hb
  | cons x u ih =>
    cases b with
    | nil =>
      have := (List.cons.inj h).1
      exact absurd (by simp [this]) ha
    | cons y t =>
      obtain ⟨h1, h2⟩ := List.cons.inj h
      obtain ⟨h3, h4⟩ := ih (fun hc => ha (by simp [hc])) (fun hc => hb (by simp [hc])) h2
      exact ⟨by rw [h1, h3], h4⟩

theorem int64_inj {x y : UInt64} (h : int64OfU64 x = int64OfU64 y) : x = y := by
  have hx := x.toNat_lt
  have hy := y.toNat_lt
  apply UInt64.toNat_inj.mp
  unfold int64OfU64 at h
  split at h <;> split at h <;> omega

end Btrfscue
