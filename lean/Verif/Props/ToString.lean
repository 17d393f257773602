import Verif.Proof.ToString
import Verif.Spec.Names
/-!
# C66: textual ids
-/

namespace Btrfscue

/-- C66: different object ids have different names. -/
theorem C66_object_ids_distinct (a b : UInt64) : ObjectIDString a = ObjectIDString b ↔ a = b :=
  ⟨fun h => UInt64.toNat_inj.mp (switchName_inj objectIDNames_ok h), fun h => h ▸ rfl⟩

/-- C66: different key types have different names. -/
theorem C66_key_types_distinct (a b : UInt8) : KeyTypeString a = KeyTypeString b ↔ a = b :=
  ⟨fun h => UInt8.toNat_inj.mp (switchName_inj keyTypeNames_ok h), fun h => h ▸ rfl⟩

/-- C66: a printed key determines the key. -/
theorem C66_keys_distinct (k k' : Key) : k.string = k'.string ↔ k = k' := by
  refine ⟨fun h => ?_, fun h => h ▸ rfl⟩
  unfold Key.string at h
  have h := List.append_cancel_left h
  obtain ⟨h1, h⟩ := sep_inj (fun hc => (switchName_byte objectIDNames_ok hc).1 rfl)
    (fun hc => (switchName_byte objectIDNames_ok hc).1 rfl) h
  obtain ⟨h2, h⟩ := sep_inj (fun hc => (switchName_byte keyTypeNames_ok hc).1 rfl)
    (fun hc => (switchName_byte keyTypeNames_ok hc).1 rfl) h
  have h3 := int64_inj (decimalInt_inj (List.append_cancel_right h))
  obtain ⟨a, b, c⟩ := k
  obtain ⟨a', b', c'⟩ := k'
  simp only at h1 h2 h3
  rw [(C66_object_ids_distinct _ _).mp h1, (C66_key_types_distinct _ _).mp h2, h3]

/-- C66: a key type is printed as its name in the on-disk format, and as a decimal number
if it has none. -/
theorem C66_key_type_names (t : UInt8) :
    KeyTypeString t = match Spec.keyName t.toNat with
      | some s => ascii s
      | none => decimal t.toNat := by
  obtain ⟨⟨t⟩⟩ := t
  revert t
  decide +kernel

/-- C66: an object id is printed as its name in the on-disk format, and as a decimal
number if it has none. -/
theorem C66_object_id_names (a : UInt64) :
    ObjectIDString a = match Spec.objectName (int64OfU64 a) with
      | some s => ascii s
      | none => decimal a.toNat := by
  rcases switchName_cases objectIDNames a.toNat with ⟨e, h1, h2, -⟩ | ⟨h2, h3⟩
  · simp only [objectIDNames, List.mem_cons, List.not_mem_nil, or_false] at h1
    have ha : a = UInt64.ofNat e.1 := by rw [← h2, UInt64.ofNat_toNat]
    rcases h1 with h | h | h | h | h | h | h | h | h | h | h | h | h | h | h | h | h | h | h | h | h | h | h <;>
      · rw [h] at ha
        rw [ha]
        decide +kernel
  · have hn : Spec.objectName (int64OfU64 a) = none := by
      have hlt := a.toNat_lt
      simp only [objectIDNames, List.forall_mem_cons] at h2
      have hi : (int64OfU64 a = a.toNat ∧ a.toNat < 2 ^ 63) ∨
          (int64OfU64 a = (a.toNat : Int) - 2 ^ 64 ∧ 2 ^ 63 ≤ a.toNat) := by
        unfold int64OfU64
        split <;> omega
      generalize int64OfU64 a = i at hi
      unfold Spec.objectName
      iterate 23 rw [if_neg (by omega)]
    rw [hn]
    exact h3

/-- C66: what a key is printed as: the object id (its name, or the unsigned number), the
type (its name or number) and the offset as a signed number, read independently of how
numbers are printed. -/
theorem C66_key_text (k : Key) : ∃ o t d, k.string = ascii "key (" ++ o ++ ascii " " ++ t ++ ascii " " ++ d ++ ascii ")" ∧
    (match Spec.objectName (int64OfU64 k.objectID) with
      | some s => o = ascii s
      | none => Spec.IsDecimal o k.objectID.toNat) ∧
    (match Spec.keyName k.typ.toNat with
      | some s => t = ascii s
      | none => Spec.IsDecimal t k.typ.toNat) ∧
    Spec.IsDecimalInt d (int64OfU64 k.offset) := by
  refine ⟨ObjectIDString k.objectID, KeyTypeString k.typ, decimalInt (int64OfU64 k.offset), ?_, ?_, ?_,
    decimalInt_isDecimal _⟩
  · have h1 : ascii " " = [32] := by decide
    have h2 : ascii ")" = [41] := by decide
    rw [h1, h2]
    simp [Key.string]
  · rw [C66_object_id_names]
    cases Spec.objectName (int64OfU64 k.objectID) with
    | none => exact decimal_isDecimal _
    | some s => rfl
  · rw [C66_key_type_names]
    cases Spec.keyName k.typ.toNat with
    | none => exact decimal_isDecimal _
    | some s => rfl

example : Spec.IsDecimal [49, 48] 10 := ⟨by decide, by decide, by decide, by decide⟩
example : ¬ Spec.IsDecimal [48, 49] 1 := fun h => absurd (h.zero rfl) (by decide)
example : Spec.keyName 252 = some "UUID_RECEIVED_SUBVOL" ∧ Spec.keyName 244 = none ∧
    Spec.objectName (int64OfU64 (~~~0 - 8)) = some "DATA_RELOC_TREE" ∧ Spec.objectName 11 = none := by
  decide +kernel
example : Key.string ⟨256, 84, 7⟩ = ascii "key (FIRST_FREE DIR_ITEM 7)" := by decide +kernel
example : Key.string ⟨257, 244, ~~~0⟩ = ascii "key (257 244 -1)" := by decide +kernel
example : Key.string ⟨257, 244, ~~~0⟩ ≠ Key.string ⟨257, 244, 1⟩ := by decide +kernel

end Btrfscue
