import Verif.Proof.Codec
import Verif.Model.Leaf
import Verif.Spec.Layout
/-! # Reading packed fields out of a slice -/

namespace Btrfscue

@[simp] theorem le16_length (v : UInt16) : (le16 v).length = 2 := by simp [le16]
@[simp] theorem le32_length (v : UInt32) : (le32 v).length = 4 := by simp [le32]
@[simp] theorem le64_length (v : UInt64) : (le64 v).length = 8 := by simp [le64]
@[simp] theorem packKey_length (k : Key) : (packKey k).length = 17 := by simp [packKey]
@[simp] theorem packTime_length (k : DiskTime) : (packTime k).length = 12 := by simp [packTime]
@[simp] theorem uuid_length (u : UUID) : u.val.length = 16 := u.property
@[simp] theorem csum_length (u : { l : Bytes // l.length = 32 }) : u.val.length = 32 := u.property

theorem from_skip (p rest t : Bytes) (off : Nat) (h : p.length ≤ off) :
    Slice.from ⟨p ++ rest, t⟩ off = Slice.from ⟨rest, t⟩ (off - p.length) := by
  simp only [Slice.from, Slice.len, List.length_append, List.drop_append,
    List.drop_eq_nil_of_le h, List.nil_append]
  by_cases hc : off ≤ p.length + rest.length
  · rw [if_pos hc, if_pos (by omega)]
  · rw [if_neg hc, if_neg (by omega)]

@[simp] theorem from_zero (s : Slice) : s.from 0 = .ok s := by
  simp [Slice.from]

@[simp] theorem u16at_skip (p rest t : Bytes) (off : Nat) (h : p.length ≤ off) :
    u16at ⟨p ++ rest, t⟩ off = u16at ⟨rest, t⟩ (off - p.length) := by
  simp [u16at, from_skip _ _ _ _ h]
@[simp] theorem u32at_skip (p rest t : Bytes) (off : Nat) (h : p.length ≤ off) :
    u32at ⟨p ++ rest, t⟩ off = u32at ⟨rest, t⟩ (off - p.length) := by
  simp [u32at, from_skip _ _ _ _ h]
@[simp] theorem u64at_skip (p rest t : Bytes) (off : Nat) (h : p.length ≤ off) :
    u64at ⟨p ++ rest, t⟩ off = u64at ⟨rest, t⟩ (off - p.length) := by
  simp [u64at, from_skip _ _ _ _ h]
@[simp] theorem uuidAt_skip (p rest t : Bytes) (off : Nat) (h : p.length ≤ off) :
    uuidAt ⟨p ++ rest, t⟩ off = uuidAt ⟨rest, t⟩ (off - p.length) := by
  simp [uuidAt, from_skip _ _ _ _ h]
@[simp] theorem keyAt_skip (p rest t : Bytes) (off : Nat) (h : p.length ≤ off) :
    keyAt ⟨p ++ rest, t⟩ off = keyAt ⟨rest, t⟩ (off - p.length) := by
  simp [keyAt, from_skip _ _ _ _ h]
@[simp] theorem timeAt_skip (p rest t : Bytes) (off : Nat) (h : p.length ≤ off) :
    timeAt ⟨p ++ rest, t⟩ off = timeAt ⟨rest, t⟩ (off - p.length) := by
  simp [timeAt, from_skip _ _ _ _ h]
@[simp] theorem get_skip (p rest t : Bytes) (off : Nat) (h : p.length ≤ off) :
    Slice.get ⟨p ++ rest, t⟩ off = Slice.get ⟨rest, t⟩ (off - p.length) := by
  simp only [Slice.get]
  rw [List.getElem?_append_right h]

@[simp] theorem get_zero (b : UInt8) (rest t : Bytes) : Slice.get ⟨b :: rest, t⟩ 0 = .ok b := by
  simp [Slice.get]

@[simp] theorem u16at_cons (b : UInt8) (rest t : Bytes) (off : Nat) (h : 1 ≤ off) :
    u16at ⟨b :: rest, t⟩ off = u16at ⟨rest, t⟩ (off - 1) :=
  u16at_skip [b] rest t off h
@[simp] theorem u32at_cons (b : UInt8) (rest t : Bytes) (off : Nat) (h : 1 ≤ off) :
    u32at ⟨b :: rest, t⟩ off = u32at ⟨rest, t⟩ (off - 1) :=
  u32at_skip [b] rest t off h
@[simp] theorem u64at_cons (b : UInt8) (rest t : Bytes) (off : Nat) (h : 1 ≤ off) :
    u64at ⟨b :: rest, t⟩ off = u64at ⟨rest, t⟩ (off - 1) :=
  u64at_skip [b] rest t off h
@[simp] theorem uuidAt_cons (b : UInt8) (rest t : Bytes) (off : Nat) (h : 1 ≤ off) :
    uuidAt ⟨b :: rest, t⟩ off = uuidAt ⟨rest, t⟩ (off - 1) :=
  uuidAt_skip [b] rest t off h
@[simp] theorem keyAt_cons (b : UInt8) (rest t : Bytes) (off : Nat) (h : 1 ≤ off) :
    keyAt ⟨b :: rest, t⟩ off = keyAt ⟨rest, t⟩ (off - 1) :=
  keyAt_skip [b] rest t off h
@[simp] theorem timeAt_cons (b : UInt8) (rest t : Bytes) (off : Nat) (h : 1 ≤ off) :
    timeAt ⟨b :: rest, t⟩ off = timeAt ⟨rest, t⟩ (off - 1) :=
  timeAt_skip [b] rest t off h
@[simp] theorem get_cons (b : UInt8) (rest t : Bytes) (off : Nat) (h : 1 ≤ off) :
    Slice.get ⟨b :: rest, t⟩ off = Slice.get ⟨rest, t⟩ (off - 1) :=
  get_skip [b] rest t off h

theorem to_prefix (p rest t : Bytes) (n : Nat) (h : p.length = n) :
    Slice.to ⟨p ++ rest, t⟩ n = .ok ⟨p, rest ++ t⟩ := by
  subst h
  simp [Slice.to, Slice.sub, Slice.cap, Slice.all]

@[simp] theorem SliceUint16LE_le16 (v : UInt16) (rest t : Bytes) :
    SliceUint16LE ⟨le16 v ++ rest, t⟩ = .ok v := by
  rw [SliceUint16LE, to_prefix _ _ _ _ (by simp)]
  simp only [Go.ok_bind, Go.pure_eq, le16, leNat_leBytes, Go.ok.injEq]
  apply UInt16.toNat_inj.mp
  have := v.toNat_lt
  simp only [UInt16.toNat_ofNat']; omega

@[simp] theorem SliceUint32LE_le32 (v : UInt32) (rest t : Bytes) :
    SliceUint32LE ⟨le32 v ++ rest, t⟩ = .ok v := by
  rw [SliceUint32LE, to_prefix _ _ _ _ (by simp)]
  simp only [Go.ok_bind, Go.pure_eq, le32, leNat_leBytes, Go.ok.injEq]
  apply UInt32.toNat_inj.mp
  have := v.toNat_lt
  simp only [UInt32.toNat_ofNat']; omega

@[simp] theorem SliceUint64LE_le64 (v : UInt64) (rest t : Bytes) :
    SliceUint64LE ⟨le64 v ++ rest, t⟩ = .ok v := by
  rw [SliceUint64LE, to_prefix _ _ _ _ (by simp)]
  simp only [Go.ok_bind, Go.pure_eq, le64, leNat_leBytes, Go.ok.injEq]
  apply UInt64.toNat_inj.mp
  have := v.toNat_lt
  simp only [UInt64.toNat_ofNat']; omega

@[simp] theorem SliceUUID_val (u : UUID) (rest t : Bytes) :
    SliceUUID ⟨u.val ++ rest, t⟩ = .ok u := by
  rw [SliceUUID, to_prefix _ _ _ _ u.property]
  simp only [Go.ok_bind, Go.pure_eq, Go.ok.injEq]
  apply Subtype.ext
  simp only [goCopy, List.length_replicate, uuid_length]
  rw [List.take_of_length_le (by simp), List.drop_eq_nil_of_le (by simp), List.append_nil]

@[simp] theorem u16at_zero (v : UInt16) (rest t : Bytes) :
    u16at ⟨le16 v ++ rest, t⟩ 0 = .ok v := by simp [u16at]
@[simp] theorem u32at_zero (v : UInt32) (rest t : Bytes) :
    u32at ⟨le32 v ++ rest, t⟩ 0 = .ok v := by simp [u32at]
@[simp] theorem u64at_zero (v : UInt64) (rest t : Bytes) :
    u64at ⟨le64 v ++ rest, t⟩ 0 = .ok v := by simp [u64at]
@[simp] theorem uuidAt_zero (v : UUID) (rest t : Bytes) :
    uuidAt ⟨v.val ++ rest, t⟩ 0 = .ok v := by simp [uuidAt]

@[simp] theorem SliceKey_packKey (k : Key) (rest t : Bytes) :
    SliceKey ⟨packKey k ++ rest, t⟩ = .ok k := by
  simp only [SliceKey, packKey, List.append_assoc, SliceUint64LE_le64, Go.ok_bind]
  rw [get_skip _ _ _ _ (by simp)]
  simp only [le64_length, Nat.sub_self, List.cons_append, List.nil_append, get_zero, Go.ok_bind]
  rw [from_skip _ _ _ _ (by simp)]
  simp only [le64_length]
  rw [show (k.typ :: (le64 k.offset ++ rest)) = [k.typ] ++ (le64 k.offset ++ rest) from rfl,
    from_skip _ _ _ _ (by simp)]
  simp

@[simp] theorem keyAt_zero (k : Key) (rest t : Bytes) :
    keyAt ⟨packKey k ++ rest, t⟩ 0 = .ok k := by simp [keyAt]

@[simp] theorem sub_csum (c : { l : Bytes // l.length = 32 }) (rest t : Bytes) :
    Slice.sub ⟨c.val ++ rest, t⟩ 0 32 = .ok ⟨c.val, rest ++ t⟩ :=
  to_prefix c.val rest t 32 c.property

@[simp] theorem goCopy_full (dst src : Bytes) (h : src.length = dst.length) :
    goCopy dst src = src := by
  simp only [goCopy, h]
  rw [List.take_of_length_le (by omega), List.drop_eq_nil_of_le (by omega), List.append_nil]

theorem timeUnix_isTime (d : DiskTime) : IsTime (timeUnix (int64OfU64 d.sec) d.nsec.toNat) d := by
  have h1 := d.sec.toNat_lt
  have h2 := d.nsec.toNat_lt
  unfold IsTime timeUnix
  have hi : int64OfU64 d.sec = d.sec.toNat ∨ int64OfU64 d.sec = d.sec.toNat - 2 ^ 64 := by
    unfold int64OfU64; split <;> simp
  have hr : -(2 ^ 63) ≤ int64OfU64 d.sec ∧ int64OfU64 d.sec < 2 ^ 63 := by
    unfold int64OfU64; split <;> omega
  generalize int64OfU64 d.sec = z at *
  split
  · have hd := Nat.div_add_mod d.nsec.toNat 1000000000
    have hm := Nat.mod_lt d.nsec.toNat (show 0 < 1000000000 by omega)
    have hw : ∃ w : Int, wrapInt64 (z + (d.nsec.toNat / 1000000000 : Nat)) =
        z + (d.nsec.toNat / 1000000000 : Nat) + 2 ^ 64 * w := by
      refine ⟨(wrapInt64 (z + (d.nsec.toNat / 1000000000 : Nat)) -
        (z + (d.nsec.toNat / 1000000000 : Nat))) / 2 ^ 64, ?_⟩
      unfold wrapInt64
      simp only
      split <;> omega
    have hwr : -(2 ^ 63) ≤ wrapInt64 (z + (d.nsec.toNat / 1000000000 : Nat)) ∧
        wrapInt64 (z + (d.nsec.toNat / 1000000000 : Nat)) < 2 ^ 63 := by
      unfold wrapInt64
      simp only
      split <;> omega
    obtain ⟨w, hw⟩ := hw
    refine ⟨hm, hwr.1, hwr.2, ?_⟩
    rw [hw]
    generalize d.nsec.toNat / 1000000000 = q at *
    generalize d.nsec.toNat % 1000000000 = r at *
    simp only
    omega
  · refine ⟨by simp only; omega, hr.1, hr.2, ?_⟩
    simp only
    omega

@[simp] theorem timeAt_zero (d : DiskTime) (rest t : Bytes) :
    timeAt ⟨packTime d ++ rest, t⟩ 0 = .ok (timeUnix (int64OfU64 d.sec) d.nsec.toNat) := by
  simp only [timeAt, from_zero, Go.ok_bind, SliceTimeLE, packTime, List.append_assoc,
    SliceUint64LE_le64]
  rw [from_skip _ _ _ _ (by simp)]
  simp

theorem timeAt_spec (d : DiskTime) : IsTime (timeUnix (int64OfU64 d.sec) d.nsec.toNat) d =  True :=
  eq_true (timeUnix_isTime d)

end Btrfscue
