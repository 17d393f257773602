import Verif.Proof.Codec
import Verif.Model.KeyFormat
import Verif.Spec.Order
/-! # Lemmas about index keys -/

namespace Btrfscue

/-- The index key under which a version is stored. -/
def VKey.encode (v : VKey) : Bytes := newIndexKey v.owner v.key v.gen

theorem newIndexKey_eq (o : UInt64) (k : Key) (g : UInt64) :
    newIndexKey o k g =
      beBytes 8 o.toNat ++ ([k.typ] ++ (beBytes 8 k.objectID.toNat ++
        (beBytes 8 k.offset.toNat ++ beBytes 8 g.toNat))) := by
  have h1 := beBytes_length 8 o.toNat
  have h2 := beBytes_length 8 k.objectID.toNat
  have h3 := beBytes_length 8 k.offset.toNat
  have h4 := beBytes_length 8 g.toNat
  generalize hA : beBytes 8 o.toNat = A at *
  generalize hB : beBytes 8 k.objectID.toNat = B at *
  generalize hC : beBytes 8 k.offset.toNat = C at *
  generalize hD : beBytes 8 g.toNat = D at *
  simp only [newIndexKey, hA, hB, hC, hD]
  rcases A with _|⟨a0,_|⟨a1,_|⟨a2,_|⟨a3,_|⟨a4,_|⟨a5,_|⟨a6,_|⟨a7,_|⟨_,_⟩⟩⟩⟩⟩⟩⟩⟩⟩ <;> simp at h1
  rcases B with _|⟨b0,_|⟨b1,_|⟨b2,_|⟨b3,_|⟨b4,_|⟨b5,_|⟨b6,_|⟨b7,_|⟨_,_⟩⟩⟩⟩⟩⟩⟩⟩⟩ <;> simp at h2
  rcases C with _|⟨c0,_|⟨c1,_|⟨c2,_|⟨c3,_|⟨c4,_|⟨c5,_|⟨c6,_|⟨c7,_|⟨_,_⟩⟩⟩⟩⟩⟩⟩⟩⟩ <;> simp at h3
  rcases D with _|⟨d0,_|⟨d1,_|⟨d2,_|⟨d3,_|⟨d4,_|⟨d5,_|⟨d6,_|⟨d7,_|⟨_,_⟩⟩⟩⟩⟩⟩⟩⟩⟩ <;> simp at h4
  simp [putAt, List.replicate]

@[simp] theorem newIndexKey_length (o : UInt64) (k : Key) (g : UInt64) :
    (newIndexKey o k g).length = 33 := by
  rw [newIndexKey_eq]; simp

theorem be64at_append_skip (p rest : Bytes) (off : Nat) (h : p.length ≤ off) :
    be64at (p ++ rest) off = be64at rest (off - p.length) := by
  simp only [be64at, List.length_append]
  have : (p ++ rest).drop off = rest.drop (off - p.length) := by
    rw [List.drop_append, List.drop_eq_nil_of_le h, List.nil_append]
  rw [this]
  by_cases hc : off + 8 ≤ p.length + rest.length
  · rw [if_pos hc, if_pos (by omega)]
  · rw [if_neg hc, if_neg (by omega)]

theorem be64at_zero (v : UInt64) (rest : Bytes) : be64at (beBytes 8 v.toNat ++ rest) 0 = .ok v := by
  have hl := beBytes_length 8 v.toNat
  simp only [be64at, List.length_append, hl, List.drop_zero]
  rw [if_pos (by omega), List.take_append_of_le_length (by omega), List.take_of_length_le (by omega),
    beNat_beBytes]
  congr 1
  apply UInt64.toNat_inj.mp
  have := v.toNat_lt
  simp only [UInt64.toNat_ofNat']
  omega

theorem be64at_zero' (v : UInt64) : be64at (beBytes 8 v.toNat) 0 = .ok v := by
  have := be64at_zero v []
  simpa using this

@[simp] theorem KeyV2_owner_new (o : UInt64) (k : Key) (g : UInt64) :
    KeyV2.owner (newIndexKey o k g) = .ok o := by
  rw [newIndexKey_eq]; exact be64at_zero _ _

@[simp] theorem KeyV2_typ_new (o : UInt64) (k : Key) (g : UInt64) :
    KeyV2.typ (newIndexKey o k g) = .ok k.typ := by
  rw [newIndexKey_eq]
  simp only [KeyV2.typ, byteAt]
  rw [List.getElem?_append_right (by simp)]
  simp

@[simp] theorem KeyV2_objectID_new (o : UInt64) (k : Key) (g : UInt64) :
    KeyV2.objectID (newIndexKey o k g) = .ok k.objectID := by
  rw [newIndexKey_eq, KeyV2.objectID, be64at_append_skip _ _ _ (by simp),
    be64at_append_skip _ _ _ (by simp)]
  simp only [beBytes_length, List.length_singleton]
  exact be64at_zero _ _

@[simp] theorem KeyV2_offset_new (o : UInt64) (k : Key) (g : UInt64) :
    KeyV2.offset (newIndexKey o k g) = .ok k.offset := by
  rw [newIndexKey_eq, KeyV2.offset, be64at_append_skip _ _ _ (by simp),
    be64at_append_skip _ _ _ (by simp), be64at_append_skip _ _ _ (by simp)]
  simp only [beBytes_length, List.length_singleton]
  exact be64at_zero _ _

@[simp] theorem KeyV2_generation_new (o : UInt64) (k : Key) (g : UInt64) :
    KeyV2.generation (newIndexKey o k g) = .ok g := by
  rw [newIndexKey_eq, KeyV2.generation, be64at_append_skip _ _ _ (by simp),
    be64at_append_skip _ _ _ (by simp), be64at_append_skip _ _ _ (by simp),
    be64at_append_skip _ _ _ (by simp)]
  simp only [beBytes_length, List.length_singleton]
  exact be64at_zero' _

@[simp] theorem KeyV2_key_new (o : UInt64) (k : Key) (g : UInt64) :
    KeyV2.key (newIndexKey o k g) = .ok k := by
  simp [KeyV2.key]

theorem newIndexKey_inj {o o' : UInt64} {k k' : Key} {g g' : UInt64}
    (h : newIndexKey o k g = newIndexKey o' k' g') : o = o' ∧ k = k' ∧ g = g' := by
  have h1 := KeyV2_owner_new o k g
  have h2 := KeyV2_key_new o k g
  have h3 := KeyV2_generation_new o k g
  rw [h] at h1 h2 h3
  simp only [KeyV2_owner_new, KeyV2_key_new, KeyV2_generation_new, Go.ok.injEq] at h1 h2 h3
  exact ⟨h1.symm, h2.symm, h3.symm⟩

/-- Any 33 byte string is an encoded key. -/
theorem exists_newIndexKey {ik : Bytes} (h : ik.length = 33) :
    ∃ o k g, ik = newIndexKey o k g := by
  have key : ∀ (x : Bytes), x.length = 8 → beBytes 8 (UInt64.ofNat (beNat x)).toNat = x := by
    intro x hx
    have hlt := beNat_lt x
    rw [hx] at hlt
    have : (UInt64.ofNat (beNat x)).toNat = beNat x := by
      simp only [UInt64.toNat_ofNat']; omega
    rw [this, ← hx]
    exact beBytes_beNat x
  have hsplit : ik = ik.take 8 ++ ([ik[8]'(by omega)] ++ ((ik.drop 9).take 8 ++
      ((ik.drop 17).take 8 ++ (ik.drop 25).take 8))) := by
    apply List.ext_getElem
    · simp; omega
    · intro i h1 h2
      rcases Nat.lt_or_ge i 8 with hi | hi
      · simp [hi, h]
      · rcases Nat.lt_or_ge i 9 with hi' | hi'
        · have : i = 8 := by omega
          subst this
          simp [h]
        · rcases Nat.lt_or_ge i 17 with hi'' | hi''
          · rw [List.getElem_append_right (by simp; omega)]
            simp only [List.length_take, h]
            rw [List.getElem_append_right (by simp; omega)]
            rw [List.getElem_append_left (by simp; omega)]
            simp only [List.getElem_take, List.getElem_drop, List.length_singleton]
            congr 1; omega
          · rcases Nat.lt_or_ge i 25 with h3 | h3
            · rw [List.getElem_append_right (by simp; omega)]
              simp only [List.length_take, h]
              rw [List.getElem_append_right (by simp; omega)]
              rw [List.getElem_append_right (by simp; omega)]
              rw [List.getElem_append_left (by simp; omega)]
              simp only [List.getElem_take, List.getElem_drop, List.length_singleton, List.length_take, List.length_drop]
              congr 1; omega
            · rw [List.getElem_append_right (by simp; omega)]
              simp only [List.length_take, h]
              rw [List.getElem_append_right (by simp; omega)]
              rw [List.getElem_append_right (by simp; omega)]
              rw [List.getElem_append_right (by simp; omega)]
              simp only [List.getElem_take, List.getElem_drop, List.length_singleton, List.length_take, List.length_drop]
              congr 1; omega
  refine ⟨UInt64.ofNat (beNat (ik.take 8)),
    ⟨UInt64.ofNat (beNat ((ik.drop 9).take 8)), ik[8]'(by omega),
      UInt64.ofNat (beNat ((ik.drop 17).take 8))⟩,
    UInt64.ofNat (beNat ((ik.drop 25).take 8)), ?_⟩
  rw [newIndexKey_eq]
  simp only
  rw [key _ (by simp; omega), key _ (by simp; omega), key _ (by simp; omega), key _ (by simp; omega)]
  exact hsplit

/-! ### Order -/

theorem mulAdd_lt {m x x' y y' : Nat} (hy : y < m) (hy' : y' < m) :
    x * m + y < x' * m + y' ↔ x < x' ∨ (x = x' ∧ y < y') := by
  constructor
  · intro h
    rcases Nat.lt_trichotomy x x' with hx | hx | hx
    · exact Or.inl hx
    · subst hx; right; exact ⟨rfl, by omega⟩
    · exfalso
      have : (x' + 1) * m ≤ x * m := Nat.mul_le_mul_right m hx
      rw [Nat.add_mul, Nat.one_mul] at this
      omega
  · rintro (h | ⟨rfl, h⟩)
    · have : (x + 1) * m ≤ x' * m := Nat.mul_le_mul_right m h
      rw [Nat.add_mul, Nat.one_mul] at this
      omega
    · omega

theorem beNat_newIndexKey (o : UInt64) (k : Key) (g : UInt64) :
    beNat (newIndexKey o k g) =
      (((o.toNat * 2 ^ 8 + k.typ.toNat) * 2 ^ 64 + k.objectID.toNat) * 2 ^ 64 +
        k.offset.toNat) * 2 ^ 64 + g.toNat := by
  rw [newIndexKey_eq]
  have e8 : ∀ x : UInt64, x.toNat % 256 ^ 8 = x.toNat := by
    intro x; have := x.toNat_lt; omega
  simp only [beNat_append, beNat_beBytes, e8, beNat_singleton, beBytes_length,
    List.length_append, List.length_singleton]
  generalize o.toNat = a
  generalize k.typ.toNat = b
  generalize k.objectID.toNat = c
  generalize k.offset.toNat = d
  generalize g.toNat = e
  omega

theorem beNat_newIndexKey_lt (a b : VKey) :
    beNat (newIndexKey a.owner a.key a.gen) < beNat (newIndexKey b.owner b.key b.gen) ↔
      a.before b := by
  rw [beNat_newIndexKey, beNat_newIndexKey, mulAdd_lt a.gen.toNat_lt b.gen.toNat_lt,
    mulAdd_lt a.key.offset.toNat_lt b.key.offset.toNat_lt,
    mulAdd_lt a.key.objectID.toNat_lt b.key.objectID.toNat_lt,
    mulAdd_lt a.key.typ.toNat_lt b.key.typ.toNat_lt]
  have h1 := a.owner.toNat_lt; have h1' := b.owner.toNat_lt
  have h2 := a.key.typ.toNat_lt; have h2' := b.key.typ.toNat_lt
  have h3 := a.key.objectID.toNat_lt; have h3' := b.key.objectID.toNat_lt
  have h4 := a.key.offset.toNat_lt; have h4' := b.key.offset.toNat_lt
  simp only [VKey.before, VKey.fields, Key.fields, lexLt, List.cons_append, List.nil_append,
    and_false, or_false]
  generalize a.owner.toNat = a1 at *
  generalize b.owner.toNat = b1 at *
  generalize a.key.typ.toNat = a2 at *
  generalize b.key.typ.toNat = b2 at *
  generalize a.key.objectID.toNat = a3 at *
  generalize b.key.objectID.toNat = b3 at *
  generalize a.key.offset.toNat = a4 at *
  generalize b.key.offset.toNat = b4 at *
  generalize a.gen.toNat = a5
  generalize b.gen.toNat = b5
  omega

theorem newIndexKey_take17 (o : UInt64) (k : Key) (g : UInt64) :
    (newIndexKey o k g).take 17 =
      beBytes 8 o.toNat ++ ([k.typ] ++ beBytes 8 k.objectID.toNat) := by
  rw [newIndexKey_eq]
  rw [show beBytes 8 o.toNat ++ ([k.typ] ++ (beBytes 8 k.objectID.toNat ++
        (beBytes 8 k.offset.toNat ++ beBytes 8 g.toNat))) =
      (beBytes 8 o.toNat ++ ([k.typ] ++ beBytes 8 k.objectID.toNat)) ++
        (beBytes 8 k.offset.toNat ++ beBytes 8 g.toNat) by simp]
  rw [List.take_append_of_le_length (by simp), List.take_of_length_le (by simp)]

theorem newIndexKey_take25 (o : UInt64) (k : Key) (g : UInt64) :
    (newIndexKey o k g).take 25 =
      beBytes 8 o.toNat ++ ([k.typ] ++ (beBytes 8 k.objectID.toNat ++
        beBytes 8 k.offset.toNat)) := by
  rw [newIndexKey_eq]
  rw [show beBytes 8 o.toNat ++ ([k.typ] ++ (beBytes 8 k.objectID.toNat ++
        (beBytes 8 k.offset.toNat ++ beBytes 8 g.toNat))) =
      (beBytes 8 o.toNat ++ ([k.typ] ++ (beBytes 8 k.objectID.toNat ++
        beBytes 8 k.offset.toNat))) ++ beBytes 8 g.toNat by simp]
  rw [List.take_append_of_le_length (by simp), List.take_of_length_le (by simp)]

theorem u64_mod (x : UInt64) : x.toNat % 256 ^ 8 = x.toNat := by
  have := x.toNat_lt; omega

theorem beNat_take17 (o : UInt64) (k : Key) (g : UInt64) :
    beNat ((newIndexKey o k g).take 17) =
      (o.toNat * 2 ^ 8 + k.typ.toNat) * 2 ^ 64 + k.objectID.toNat := by
  rw [newIndexKey_take17]
  simp only [beNat_append, beNat_beBytes, u64_mod, beNat_singleton, beBytes_length,
    List.length_append, List.length_singleton]
  omega

theorem beNat_take25 (o : UInt64) (k : Key) (g : UInt64) :
    beNat ((newIndexKey o k g).take 25) =
      ((o.toNat * 2 ^ 8 + k.typ.toNat) * 2 ^ 64 + k.objectID.toNat) * 2 ^ 64 +
        k.offset.toNat := by
  rw [newIndexKey_take25]
  simp only [beNat_append, beNat_beBytes, u64_mod, beNat_singleton, beBytes_length,
    List.length_append, List.length_singleton]
  omega

theorem take17_eq_iff {o o' : UInt64} {k k' : Key} {g g' : UInt64} :
    (newIndexKey o k g).take 17 = (newIndexKey o' k' g').take 17 ↔
      o = o' ∧ k.typ = k'.typ ∧ k.objectID = k'.objectID := by
  constructor
  · intro h
    have hb := congrArg beNat h
    rw [beNat_take17, beNat_take17] at hb
    have h1 := o.toNat_lt; have h2 := o'.toNat_lt
    have h3 := k.typ.toNat_lt; have h4 := k'.typ.toNat_lt
    have h5 := k.objectID.toNat_lt; have h6 := k'.objectID.toNat_lt
    refine ⟨UInt64.toNat_inj.mp ?_, UInt8.toNat_inj.mp ?_, UInt64.toNat_inj.mp ?_⟩ <;> omega
  · rintro ⟨rfl, h1, h2⟩
    rw [newIndexKey_take17, newIndexKey_take17, h1, h2]

theorem take25_eq_iff {o o' : UInt64} {k k' : Key} {g g' : UInt64} :
    (newIndexKey o k g).take 25 = (newIndexKey o' k' g').take 25 ↔ o = o' ∧ k = k' := by
  constructor
  · intro h
    have hb := congrArg beNat h
    rw [beNat_take25, beNat_take25] at hb
    have h1 := o.toNat_lt; have h2 := o'.toNat_lt
    have h3 := k.typ.toNat_lt; have h4 := k'.typ.toNat_lt
    have h5 := k.objectID.toNat_lt; have h6 := k'.objectID.toNat_lt
    have h7 := k.offset.toNat_lt; have h8 := k'.offset.toNat_lt
    obtain ⟨ko, kt, kf⟩ := k
    obtain ⟨ko', kt', kf'⟩ := k'
    simp only [Key.mk.injEq] at *
    refine ⟨UInt64.toNat_inj.mp ?_, UInt64.toNat_inj.mp ?_, UInt8.toNat_inj.mp ?_,
      UInt64.toNat_inj.mp ?_⟩ <;> omega
  · rintro ⟨rfl, rfl⟩
    rw [newIndexKey_take25, newIndexKey_take25]

end Btrfscue
