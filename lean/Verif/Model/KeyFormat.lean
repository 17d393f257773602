import Verif.Model.Base
/-!
# pkg/btrfs/index/key_format.go and key helpers of index_store.go

Index keys are byte strings (`Bytes`): the code never re-slices a key beyond its
length.
-/

namespace Btrfscue

/-- `binary.BigEndian.Uint64(ik[off:])`: panics unless 8 bytes follow `off`. -/
def be64at (ik : Bytes) (off : Nat) : Go UInt64 :=
  if off + 8 ≤ ik.length then .ok (UInt64.ofNat (beNat ((ik.drop off).take 8)))
  else .panic

/-- `ik[i]` -/
def byteAt (ik : Bytes) (i : Nat) : Go UInt8 :=
  match ik[i]? with
  | some b => .ok b
  | none => .panic

/-- `binary.X.PutUintN(buf[off:], v)` for the bytes `bs` of `v`; every call in the
model stays inside the fixed-size array. -/
def putAt (buf : Bytes) (off : Nat) (bs : Bytes) : Bytes :=
  buf.take off ++ bs ++ buf.drop (off + bs.length)

/-- pkg/btrfs/index/key_format.go:22 -/ abbrev keyV1Owner : Nat := 0
/-- pkg/btrfs/index/key_format.go:23 -/ abbrev keyV1Type : Nat := keyV1Owner + 8
/-- pkg/btrfs/index/key_format.go:24 -/ abbrev keyV1ObjectID : Nat := keyV1Type + 1
/-- pkg/btrfs/index/key_format.go:25 -/ abbrev keyV1Offset : Nat := keyV1ObjectID + 8
/-- pkg/btrfs/index/key_format.go:26 -/ abbrev keyV1Generation : Nat := keyV1Offset + 8
/-- pkg/btrfs/index/key_format.go:27 -/ abbrev keyV1End : Nat := keyV1Generation + 8

/-- pkg/btrfs/index/key_format.go:30 -/
def KeyV1.owner (ik : Bytes) : Go UInt64 := be64at ik keyV1Owner
/-- pkg/btrfs/index/key_format.go:31 -/
def KeyV1.typ (ik : Bytes) : Go UInt8 := byteAt ik keyV1Type
/-- pkg/btrfs/index/key_format.go:32 -/
def KeyV1.objectID (ik : Bytes) : Go UInt64 := be64at ik keyV1ObjectID
/-- pkg/btrfs/index/key_format.go:33 -/
def KeyV1.offset (ik : Bytes) : Go UInt64 := be64at ik keyV1Offset
/-- pkg/btrfs/index/key_format.go:34 -/
def KeyV1.generation (ik : Bytes) : Go UInt64 := be64at ik keyV1Generation
/-- pkg/btrfs/index/key_format.go:35-37 -/
def KeyV1.key (ik : Bytes) : Go Key := do
  return ⟨← KeyV1.objectID ik, ← KeyV1.typ ik, ← KeyV1.offset ik⟩

/-- pkg/btrfs/index/key_format.go:47 -/ abbrev keyV2Owner : Nat := 0
/-- pkg/btrfs/index/key_format.go:48 -/ abbrev keyV2Type : Nat := keyV2Owner + 8
/-- pkg/btrfs/index/key_format.go:49 -/ abbrev keyV2ObjectID : Nat := keyV2Type + 1
/-- pkg/btrfs/index/key_format.go:50 -/ abbrev keyV2Offset : Nat := keyV2ObjectID + 8
/-- pkg/btrfs/index/key_format.go:51 -/ abbrev keyV2Generation : Nat := keyV2Offset + 8
/-- pkg/btrfs/index/key_format.go:52 -/ abbrev keyV2End : Nat := keyV2Generation + 8

/-- pkg/btrfs/index/key_format.go:55-63 -/
def newIndexKey (owner : UInt64) (k : Key) (generation : UInt64) : Bytes :=
  let ik := List.replicate keyV2End 0
  let ik := putAt ik keyV2Owner (beBytes 8 owner.toNat)
  let ik := ik.set keyV2Type k.typ
  let ik := putAt ik keyV2ObjectID (beBytes 8 k.objectID.toNat)
  let ik := putAt ik keyV2Offset (beBytes 8 k.offset.toNat)
  let ik := putAt ik keyV2Generation (beBytes 8 generation.toNat)
  ik

/-- pkg/btrfs/index/key_format.go:65-67 -/
def NewIndexKeyFromV1 (ik : Bytes) : Go Bytes := do
  return newIndexKey (← KeyV1.owner ik) (← KeyV1.key ik) (← KeyV1.generation ik)

/-- pkg/btrfs/index/key_format.go:69 -/
def KeyV2.owner (ik : Bytes) : Go UInt64 := be64at ik keyV2Owner
/-- pkg/btrfs/index/key_format.go:70 -/
def KeyV2.typ (ik : Bytes) : Go UInt8 := byteAt ik keyV2Type
/-- pkg/btrfs/index/key_format.go:71 -/
def KeyV2.objectID (ik : Bytes) : Go UInt64 := be64at ik keyV2ObjectID
/-- pkg/btrfs/index/key_format.go:72 -/
def KeyV2.offset (ik : Bytes) : Go UInt64 := be64at ik keyV2Offset
/-- pkg/btrfs/index/key_format.go:73 -/
def KeyV2.generation (ik : Bytes) : Go UInt64 := be64at ik keyV2Generation
/-- pkg/btrfs/index/key_format.go:74-76 -/
def KeyV2.key (ik : Bytes) : Go Key := do
  return ⟨← KeyV2.objectID ik, ← KeyV2.typ ik, ← KeyV2.offset ik⟩

/-- pkg/btrfs/index/index_store.go:541-555 `keyFirst` (more than three arguments
panic; no caller does that). `uint8(args[0])` truncates. -/
def keyFirst (k : Key) : List UInt64 → Go Key
  | [] => .ok k
  | [t] => .ok { k with typ := UInt8.ofNat t.toNat }
  | [t, o] => .ok { k with typ := UInt8.ofNat t.toNat, objectID := o }
  | [t, o, f] => .ok ⟨o, UInt8.ofNat t.toNat, f⟩
  | _ => .panic

/-- pkg/btrfs/index/index_store.go:560-563 `KF`. -/
def KFargs (args : List UInt64) : Go Key := keyFirst ⟨0, 0, 0⟩ args

/-- pkg/btrfs/index/index_store.go:565-570 `KL`. -/
def KLargs (args : List UInt64) : Go Key := keyFirst ⟨LastFreeObjectID, ~~~0, ~~~0⟩ args

/-- `KF(uint64(t), id)`, the shape used by pkg/btrfs/index/index_store.go:368 and
the two-argument call sites; equal to `KFargs [t, id]`. -/
def KF (t : UInt8) (id : UInt64) : Key := ⟨id, t, 0⟩
/-- `KF(uint64(t), id, off)` (pkg/btrfs/index/index_store.go:455, 510). -/
def KF3 (t : UInt8) (id off : UInt64) : Key := ⟨id, t, off⟩
/-- `KL(uint64(t), id)` (pkg/btrfs/index/index_store.go:368, 403). -/
def KL2 (t : UInt8) (id : UInt64) : Key := ⟨id, t, ~~~0⟩
/-- `KL()` (pkg/btrfs/index/index_store.go:29, 273, 389). -/
def KL0 : Key := ⟨LastFreeObjectID, ~~~0, ~~~0⟩

theorem KFargs_two (t : UInt8) (id : UInt64) :
    KFargs [UInt64.ofNat t.toNat, id] = .ok (KF t id) := by
  simp [KFargs, keyFirst, KF]

theorem KFargs_three (t : UInt8) (id off : UInt64) :
    KFargs [UInt64.ofNat t.toNat, id, off] = .ok (KF3 t id off) := by
  simp [KFargs, keyFirst, KF3]

theorem KLargs_two (t : UInt8) (id : UInt64) :
    KLargs [UInt64.ofNat t.toNat, id] = .ok (KL2 t id) := by
  simp [KLargs, keyFirst, KL2]

theorem KLargs_zero : KLargs [] = .ok KL0 := rfl

/-- pkg/btrfs/index/index_store.go:29 `metadataKey` (exported as `MetadataKey`,
pkg/btrfs/index/key_format.go:81). -/
def metadataKey : Bytes := newIndexKey (~~~0) KL0 (~~~0)

end Btrfscue
