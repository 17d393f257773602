import Verif.Proof.Key
/-!
# C01–C04: index keys
-/

namespace Btrfscue

/-- Specification of the V1 index key layout (metadata version 20161109): owner,
type, object id, offset, generation, each big endian. -/
def VKey.v1Layout (v : VKey) : Bytes :=
  beBytes 8 v.owner.toNat ++ [v.key.typ] ++ beBytes 8 v.key.objectID.toNat ++
    beBytes 8 v.key.offset.toNat ++ beBytes 8 v.gen.toNat

/-! ## C01 -/

/-- C01: reading back the parts of an encoded index key. -/
theorem C01_index_key_roundtrip (owner : UInt64) (k : Key) (gen : UInt64) :
    KeyV2.owner (newIndexKey owner k gen) = .ok owner ∧
    KeyV2.key (newIndexKey owner k gen) = .ok k ∧
    KeyV2.generation (newIndexKey owner k gen) = .ok gen := by
  simp

/-- C01: different triples have different index keys. -/
theorem C01_index_key_injective (a b : VKey) : a.encode = b.encode ↔ a = b := by
  constructor
  · intro h
    obtain ⟨h1, h2, h3⟩ := newIndexKey_inj h
    cases a; cases b; simp_all
  · rintro rfl; rfl

/-- C01: every index key has 33 bytes, and every 33 byte string is the key of some triple. -/
theorem C01_index_key_length (ik : Bytes) : ik.length = 33 ↔ ∃ v : VKey, ik = v.encode := by
  constructor
  · intro h
    obtain ⟨o, k, g, rfl⟩ := exists_newIndexKey h
    exact ⟨⟨o, k, g⟩, rfl⟩
  · rintro ⟨v, rfl⟩
    exact newIndexKey_length _ _ _

example : (⟨5, ⟨256, 84, 7⟩, 9⟩ : VKey).encode ≠ (⟨5, ⟨256, 84, 7⟩, 10⟩ : VKey).encode := by
  rw [Ne, C01_index_key_injective]; decide

/-! ## C02 -/

/-- C02: the byte order of index keys is the logical order of versions. -/
theorem C02_index_key_order (a b : VKey) :
    (bytesCompare a.encode b.encode < 0 ↔ a.before b) ∧
    (bytesCompare a.encode b.encode = 0 ↔ a = b) ∧
    (bytesCompare a.encode b.encode > 0 ↔ b.before a) := by
  have hl : a.encode.length = b.encode.length := by simp [VKey.encode]
  refine ⟨?_, ?_, ?_⟩
  · rw [bytesCompare_lt_iff hl]; exact beNat_newIndexKey_lt a b
  · rw [bytesCompare_eq_zero]; exact C01_index_key_injective a b
  · rw [← beNat_newIndexKey_lt b a, show newIndexKey b.owner b.key b.gen = b.encode from rfl,
      show newIndexKey a.owner a.key a.gen = a.encode from rfl, ← bytesCompare_lt_iff hl.symm,
      bytesCompare_swap a.encode b.encode]
    omega

/-- C02: an index key sorts before the 17 byte search prefix (owner, type, object
id) of another exactly when its own three leading fields come first. -/
theorem C02_index_key_prefix_order (a b : VKey) :
    bytesCompare a.encode (b.encode.take 17) < 0 ↔
      lexLt [a.owner.toNat, a.key.typ.toNat, a.key.objectID.toNat]
        [b.owner.toNat, b.key.typ.toNat, b.key.objectID.toNat] := by
  have hla : a.encode.length = 33 := newIndexKey_length _ _ _
  have hlb : b.encode.length = 33 := newIndexKey_length _ _ _
  have h := bytesLt_prefix (a := a.encode) (p := b.encode.take 17) (by simp [hla, hlb])
  rw [bytesLt, decide_eq_true_eq] at h
  rw [h]
  simp only [List.length_take, hlb]
  rw [show min 17 33 = 17 from rfl]
  simp only [VKey.encode, beNat_take17]
  rw [mulAdd_lt a.key.objectID.toNat_lt b.key.objectID.toNat_lt,
    mulAdd_lt a.key.typ.toNat_lt b.key.typ.toNat_lt]
  have h2 := a.key.typ.toNat_lt; have h2' := b.key.typ.toNat_lt
  simp only [lexLt, and_false, or_false]
  omega

example : bytesCompare (⟨5, ⟨256, 84, 7⟩, 9⟩ : VKey).encode (⟨5, ⟨256, 84, 8⟩, 3⟩ : VKey).encode < 0 := by
  rw [(C02_index_key_order _ _).1]
  simp [VKey.before, VKey.fields, Key.fields, lexLt]

/-! ## C03 -/

/-- C03: the sign of `KeyCompare` is the logical order of keys. -/
theorem C03_key_compare_sign (a b : Key) :
    (KeyCompare a b < 0 ↔ a.before b) ∧ (KeyCompare a b = 0 ↔ a = b) ∧
    (KeyCompare a b > 0 ↔ b.before a) := by
  obtain ⟨ao, at', af⟩ := a
  obtain ⟨bo, bt, bf⟩ := b
  simp only [KeyCompare, Key.before, Key.fields, lexLt, and_false, or_false, Key.mk.injEq,
    UInt64.lt_iff_toNat_lt, ← UInt64.toNat_inj, ← UInt8.toNat_inj]
  generalize ao.toNat = a1
  generalize bo.toNat = b1
  generalize at'.toNat = a2
  generalize bt.toNat = b2
  generalize af.toNat = a3
  generalize bf.toNat = b3
  split
  · omega
  · split
    · omega
    · split
      · omega
      · split
        · omega
        · split <;> omega

/-- C03: antisymmetry. -/
theorem C03_key_compare_antisymm (a b : Key) : KeyCompare b a = - KeyCompare a b := by
  simp only [KeyCompare, UInt64.lt_iff_toNat_lt]
  repeat' split
  all_goals omega

/-- C03: transitivity. -/
theorem C03_key_compare_trans (a b c : Key) (h1 : KeyCompare a b ≤ 0) (h2 : KeyCompare b c ≤ 0) :
    KeyCompare a c ≤ 0 := by
  have ha := C03_key_compare_sign a b
  have hb := C03_key_compare_sign b c
  have hc := C03_key_compare_sign a c
  have h1' : ¬ (b.before a) := by rw [← ha.2.2]; omega
  have h2' : ¬ (c.before b) := by rw [← hb.2.2]; omega
  have : ¬ (c.before a) := by
    simp only [Key.before, Key.fields, lexLt, and_false, or_false] at *
    omega
  rw [← hc.2.2] at this
  omega

/-- C03: agreement with the byte order of the index keys under a common owner and
generation. -/
theorem C03_key_compare_agrees_with_index (owner gen : UInt64) (a b : Key) :
    (KeyCompare a b < 0 ↔
      bytesCompare (newIndexKey owner a gen) (newIndexKey owner b gen) < 0) ∧
    (KeyCompare a b = 0 ↔
      bytesCompare (newIndexKey owner a gen) (newIndexKey owner b gen) = 0) := by
  have h := C02_index_key_order ⟨owner, a, gen⟩ ⟨owner, b, gen⟩
  have h' := C03_key_compare_sign a b
  simp only [VKey.encode] at h
  constructor
  · rw [h.1, h'.1]
    simp [VKey.before, VKey.fields, Key.before, Key.fields, lexLt]
  · rw [h.2.1, h'.2.1]
    simp

/-- C03 (recorded disagreement): the doc comment "-1 … +1" is wrong, the result is
the difference of the types. -/
theorem C03_key_compare_not_unit : KeyCompare ⟨0, 1, 0⟩ ⟨0, 84, 0⟩ = -83 := by decide

example : KeyCompare ⟨256, 84, 3⟩ ⟨256, 84, 4⟩ ≤ 0 ∧ KeyCompare ⟨256, 84, 4⟩ ⟨300, 84, 0⟩ ≤ 0 := by
  decide

/-! ## C04 -/

theorem v1Layout_eq (v : VKey) : v.v1Layout = v.encode := by
  simp [VKey.v1Layout, VKey.encode, newIndexKey_eq]

/-- C04: upgrading the V1 key of a version gives the V2 key of that version. -/
theorem C04_upgrade_v1 (v : VKey) : NewIndexKeyFromV1 v.v1Layout = .ok v.encode := by
  rw [v1Layout_eq]
  have h1 : KeyV1.owner v.encode = .ok v.owner := KeyV2_owner_new _ _ _
  have h2 : KeyV1.objectID v.encode = .ok v.key.objectID := KeyV2_objectID_new _ _ _
  have h3 : KeyV1.typ v.encode = .ok v.key.typ := KeyV2_typ_new _ _ _
  have h4 : KeyV1.offset v.encode = .ok v.key.offset := KeyV2_offset_new _ _ _
  have h5 : KeyV1.generation v.encode = .ok v.gen := KeyV2_generation_new _ _ _
  simp [NewIndexKeyFromV1, KeyV1.key, h1, h2, h3, h4, h5]; rfl

/-- C04: the upgrade keeps every field readable: whatever the V1 accessors return
on an old key, the V2 accessors return on the new one. -/
theorem C04_upgrade_v1_fields (ik : Bytes) (h : ik.length = 33) :
    ∃ r, NewIndexKeyFromV1 ik = .ok r ∧ KeyV2.owner r = KeyV1.owner ik ∧
      KeyV2.key r = KeyV1.key ik ∧ KeyV2.generation r = KeyV1.generation ik := by
  obtain ⟨o, k, g, rfl⟩ := exists_newIndexKey h
  refine ⟨newIndexKey o k g, ?_, rfl, rfl, rfl⟩
  have := C04_upgrade_v1 ⟨o, k, g⟩
  rw [v1Layout_eq] at this
  exact this

/-- C04: order preservation on V1 keys. -/
theorem C04_upgrade_v1_order (a b : VKey) (a' b' : Bytes)
    (ha : NewIndexKeyFromV1 a.v1Layout = .ok a') (hb : NewIndexKeyFromV1 b.v1Layout = .ok b') :
    bytesCompare a' b' = bytesCompare a.v1Layout b.v1Layout := by
  rw [C04_upgrade_v1] at ha hb
  simp only [Go.ok.injEq] at ha hb
  rw [v1Layout_eq, v1Layout_eq, ha, hb]

example : (⟨5, ⟨256, 84, 7⟩, 9⟩ : VKey).v1Layout.length = 33 := by simp [VKey.v1Layout]

end Btrfscue
