import Verif.Model.Uuid
import Verif.Spec.Uuid
/-!
# C05, C06: UUID text form
-/

namespace Btrfscue

/-! ### Facts about single digits, checked on all 256 bytes -/

theorem forall_uint8 {p : UInt8 → Prop} (h : ∀ n : Fin 256, p (UInt8.ofNat n.val)) : ∀ b, p b := by
  intro b
  have := h ⟨b.toNat, b.toNat_lt⟩
  simpa using this

theorem hexChar_hi : ∀ v : UInt8, hexChar (v >>> 4) = lowerDigit (v.toNat / 16) := by
  apply forall_uint8; decide +kernel

theorem hexChar_lo : ∀ v : UInt8, hexChar (v &&& 0xF) = lowerDigit (v.toNat % 16) := by
  apply forall_uint8; decide +kernel

theorem fromHexChar_eq : ∀ c : UInt8, fromHexChar c = (digitValue c).map UInt8.ofNat := by
  apply forall_uint8; decide +kernel

theorem digitValue_lt : ∀ c : UInt8, ∀ n ∈ digitValue c, n < 16 := by
  apply forall_uint8; decide +kernel

theorem digitValue_lowerDigit_hi : ∀ v : UInt8, digitValue (lowerDigit (v.toNat / 16)) = some (v.toNat / 16) := by
  apply forall_uint8; decide +kernel

theorem digitValue_lowerDigit_lo : ∀ v : UInt8, digitValue (lowerDigit (v.toNat % 16)) = some (v.toNat % 16) := by
  apply forall_uint8; decide +kernel

theorem lowerDigit_hi_ne : ∀ v : UInt8, lowerDigit (v.toNat / 16) ≠ 45 := by
  apply forall_uint8; decide +kernel

theorem lowerDigit_lo_ne : ∀ v : UInt8, lowerDigit (v.toNat % 16) ≠ 45 := by
  apply forall_uint8; decide +kernel

theorem shl_or_eq : ∀ x y : Fin 16,
    (UInt8.ofNat x.val <<< 4 ||| UInt8.ofNat y.val) = UInt8.ofNat (16 * x.val + y.val) := by
  decide

/-! ## C05 -/

/-- C05: `String` is the canonical 8-4-4-4-12 lower-case form. -/
theorem C05_uuid_text_canonical (u : UUID) : u.toText = canonicalText u := by
  obtain ⟨l, hl⟩ := u
  rcases l with _|⟨b0,_|⟨b1,_|⟨b2,_|⟨b3,_|⟨b4,_|⟨b5,_|⟨b6,_|⟨b7,l⟩⟩⟩⟩⟩⟩⟩⟩ <;> simp at hl
  rcases l with _|⟨b8,_|⟨b9,_|⟨b10,_|⟨b11,_|⟨b12,_|⟨b13,_|⟨b14,_|⟨b15,_|⟨_,_⟩⟩⟩⟩⟩⟩⟩⟩⟩ <;> simp at hl
  simp [UUID.toText, List.zipIdx, uuidStringStep, canonicalText, hexOf, hexChar_hi, hexChar_lo,
    List.replicate]

theorem C05_uuid_text_length (u : UUID) : u.toText.length = 36 := by
  have h := u.property
  rw [C05_uuid_text_canonical]
  have hx : ∀ l : Bytes, (hexOf l).length = 2 * l.length := by
    intro l; induction l with
    | nil => rfl
    | cons b bs ih => simp only [hexOf, List.flatMap_cons, List.length_append] at *; simp [ih]; omega
  simp only [canonicalText, List.length_append, hx, List.length_take, List.length_drop, h,
    List.length_singleton]
  rfl

theorem hexDecode_hexOf (l : Bytes) : hexDecodeString (hexOf l) = some l := by
  induction l with
  | nil => rfl
  | cons b bs ih =>
    simp only [hexOf, List.flatMap_cons, List.cons_append, List.nil_append] at *
    simp only [hexDecodeString, fromHexChar_eq, digitValue_lowerDigit_hi,
      digitValue_lowerDigit_lo, Option.map_some]
    rw [ih]
    have hb := b.toNat_lt
    have := shl_or_eq ⟨b.toNat / 16, by omega⟩ ⟨b.toNat % 16, by omega⟩
    simp only at this
    simp only [this]
    rw [Nat.div_add_mod]
    simp

theorem withoutDashes_hexOf (l : Bytes) : withoutDashes (hexOf l) = hexOf l := by
  induction l with
  | nil => rfl
  | cons b bs ih =>
    simp only [hexOf, withoutDashes, List.flatMap_cons, List.cons_append, List.nil_append] at *
    simp [lowerDigit_hi_ne, lowerDigit_lo_ne] at *
    exact ih

theorem hexOf_append (a b : Bytes) : hexOf (a ++ b) = hexOf a ++ hexOf b := by
  simp [hexOf]

theorem withoutDashes_canonical (u : UUID) : withoutDashes (canonicalText u) = hexOf u.val := by
  have key : ∀ a b : Bytes, withoutDashes (a ++ b) = withoutDashes a ++ withoutDashes b := by
    intro a b; simp [withoutDashes]
  have hd : withoutDashes [45] = [] := by decide
  simp only [canonicalText, key, hd, withoutDashes_hexOf, List.append_nil]
  simp only [← hexOf_append]
  congr 1
  obtain ⟨l, hl⟩ := u
  simp only
  rcases l with _|⟨b0,_|⟨b1,_|⟨b2,_|⟨b3,_|⟨b4,_|⟨b5,_|⟨b6,_|⟨b7,l⟩⟩⟩⟩⟩⟩⟩⟩ <;> simp at hl
  rcases l with _|⟨b8,_|⟨b9,_|⟨b10,_|⟨b11,_|⟨b12,_|⟨b13,_|⟨b14,_|⟨b15,_|⟨_,_⟩⟩⟩⟩⟩⟩⟩⟩⟩ <;> simp at hl
  rfl

/-- C05: parsing the text of a UUID gives the UUID back. -/
theorem C05_uuid_roundtrip (u : UUID) : UUID.new u.toText = (u, false) := by
  rw [C05_uuid_text_canonical]
  simp only [UUID.new, UUID.set]
  rw [show (canonicalText u).filter (· ≠ 45) = withoutDashes (canonicalText u) from rfl,
    withoutDashes_canonical, hexDecode_hexOf]
  have h := u.property
  simp only [h, ne_eq, not_true_eq_false, ↓reduceIte, Prod.mk.injEq, and_true]
  apply Subtype.ext
  simp [goCopy, uuidAllZero, h]
  rw [List.take_of_length_le (by omega)]

/-- C05: distinct UUIDs have distinct text. -/
theorem C05_uuid_text_injective (u v : UUID) (h : u.toText = v.toText) : u = v := by
  have h1 := C05_uuid_roundtrip u
  rw [h, C05_uuid_roundtrip v] at h1
  exact (Prod.mk.inj h1).1.symm

example : uuidAllFs.toText.take 9 = [102, 102, 102, 102, 102, 102, 102, 102, 45] := by decide

/-! ## C06 -/

/-- Decoding succeeds exactly on an even number of hex digits. -/
theorem hexDecode_isSome : ∀ l : Bytes,
    (hexDecodeString l).isSome ↔ l.length % 2 = 0 ∧ ∀ c ∈ l, (digitValue c).isSome
  | [] => by simp [hexDecodeString]
  | [a] => by simp [hexDecodeString]
  | a :: b :: rest => by
    have ih := hexDecode_isSome rest
    simp only [hexDecodeString, fromHexChar_eq, List.length_cons, List.mem_cons, forall_eq_or_imp]
    have he : (rest.length + 1 + 1) % 2 = rest.length % 2 := by omega
    rw [he]
    cases ha : digitValue a <;> cases hb : digitValue b <;> cases hr : hexDecodeString rest <;>
      simp_all

theorem hexDecode_getElem : ∀ (l r : Bytes), hexDecodeString l = some r →
    l.length = 2 * r.length ∧
    ∀ i, i < r.length → ∃ x y, (l[2 * i]?.bind digitValue) = some x ∧
      (l[2 * i + 1]?.bind digitValue) = some y ∧ r[i]? = some (UInt8.ofNat (16 * x + y))
  | [], r, h => by simp [hexDecodeString] at h; subst h; simp
  | [a], r, h => by simp [hexDecodeString] at h
  | a :: b :: rest, r, h => by
    simp only [hexDecodeString, fromHexChar_eq] at h
    cases ha : digitValue a with
    | none => simp [ha] at h
    | some x =>
      cases hb : digitValue b with
      | none => simp [ha, hb] at h
      | some y =>
        cases hr : hexDecodeString rest with
        | none => simp [ha, hb, hr] at h
        | some r' =>
          have ih := hexDecode_getElem rest r' hr
          simp only [ha, hb, hr, Option.map_some, Option.some.injEq] at h
          subst h
          have hx := digitValue_lt a x (by simp [ha])
          have hy := digitValue_lt b y (by simp [hb])
          refine ⟨by simp [ih.1]; omega, ?_⟩
          intro i hi
          cases i with
          | zero =>
            refine ⟨x, y, by simp [ha], by simp [hb], ?_⟩
            have := shl_or_eq ⟨x, hx⟩ ⟨y, hy⟩
            simp only at this
            simp [this]
          | succ i =>
            simp only [List.length_cons, Nat.add_lt_add_iff_right] at hi
            obtain ⟨x', y', h1, h2, h3⟩ := ih.2 i hi
            refine ⟨x', y', ?_, ?_, ?_⟩
            · rw [show 2 * (i + 1) = 2 * i + 1 + 1 by omega]; simpa using h1
            · rw [show 2 * (i + 1) + 1 = 2 * i + 1 + 1 + 1 by omega]; simpa using h2
            · simpa using h3

/-- C06: parsing succeeds exactly when the text without dashes is 32 hexadecimal digits. -/
theorem C06_uuid_set_succeeds_iff (u : UUID) (t : Bytes) :
    (u.set t).2 = false ↔
      (withoutDashes t).length = 32 ∧ ∀ c ∈ withoutDashes t, (digitValue c).isSome := by
  simp only [UUID.set]
  rw [show t.filter (· ≠ 45) = withoutDashes t from rfl]
  have hs := hexDecode_isSome (withoutDashes t)
  cases hd : hexDecodeString (withoutDashes t) with
  | none =>
    simp only [hd, Option.isSome_none, Bool.false_eq_true, false_iff, not_and] at hs
    simp only [Bool.true_eq_false, false_iff, not_and]
    intro hl; exact hs (by omega)
  | some b =>
    simp only [hd, Option.isSome_some, true_iff] at hs
    have hl := (hexDecode_getElem _ _ hd).1
    simp only [ne_eq, ite_not]
    split
    · simp only [true_iff]; exact ⟨by omega, hs.2⟩
    · simp only [Bool.true_eq_false, false_iff, not_and]
      intro h; omega

/-- C06: on success the value consists of those digits, two per byte, most
significant first. -/
theorem C06_uuid_set_value (u : UUID) (t : Bytes) (h : (u.set t).2 = false) :
    ∀ i, i < 16 → ∃ x y, ((withoutDashes t)[2 * i]?.bind digitValue) = some x ∧
      ((withoutDashes t)[2 * i + 1]?.bind digitValue) = some y ∧
      (u.set t).1.val[i]? = some (UInt8.ofNat (16 * x + y)) := by
  revert h
  simp only [UUID.set]
  rw [show t.filter (· ≠ 45) = withoutDashes t from rfl]
  cases hd : hexDecodeString (withoutDashes t) with
  | none => simp
  | some b =>
    have hg := (hexDecode_getElem _ _ hd).2
    simp only [ne_eq, ite_not]
    split
    · rename_i hb
      intro _ i hi
      obtain ⟨x, y, h1, h2, h3⟩ := hg i (by omega)
      refine ⟨x, y, h1, h2, ?_⟩
      have hu := u.property
      simp only [goCopy, hu]
      rw [List.take_of_length_le (by omega), List.drop_eq_nil_of_le (by omega), List.append_nil]
      exact h3
    · simp

/-- C06: a failed `Set` leaves the receiver unchanged. -/
theorem C06_uuid_set_failure (u : UUID) (t : Bytes) (h : (u.set t).2 = true) : (u.set t).1 = u := by
  revert h
  simp only [UUID.set]
  split
  · simp
  · split <;> simp

/-- C06: upper-case digits and dashes anywhere are accepted. -/
example : ((UUID.new ([45, 70] ++ List.replicate 31 65)).2) = false := by decide
/-- C06: too few digits are rejected. -/
example : (UUID.new [70, 70]) = (uuidAllZero, true) := by decide

end Btrfscue
