import Verif.Go.Binary
/-!
# pkg/btrfs/slice.go, the `Key` and `UUID` types, object ids and key types
-/

namespace Btrfscue

theorem goCopy_length (dst src : Bytes) : (goCopy dst src).length = dst.length := by
  simp only [goCopy, List.length_append, List.length_take, List.length_drop]
  omega

/-- pkg/uuid/uuid.go:14-16 `type UUID [16]byte`. -/
abbrev UUID := { l : Bytes // l.length = 16 }

/-- pkg/uuid/uuid.go:19 `uuidAllZero`. -/
def uuidAllZero : UUID := ⟨List.replicate 16 0, by simp⟩

/-- pkg/uuid/uuid.go:20-21 `uuidAllFs`. -/
def uuidAllFs : UUID := ⟨List.replicate 16 0xFF, by simp⟩

/-- pkg/uuid/uuid.go:24-26. -/
def UUID.isZero (u : UUID) : Bool := u == uuidAllZero

/-- pkg/uuid/uuid.go:28-30. -/
def UUID.isAllFs (u : UUID) : Bool := u == uuidAllFs

/-- pkg/btrfs/btrfs.go:274-278 `type Key`. (`Type` is called `typ` here.) -/
structure Key where
  objectID : UInt64
  typ : UInt8
  offset : UInt64
  deriving DecidableEq, Repr, Inhabited

/-- pkg/btrfs/btrfs.go:280. -/
abbrev KeyLen : Nat := 8 + 1 + 8

/-- pkg/btrfs/btrfs.go:284-301 `KeyCompare`. The Go result is an `int`. -/
def KeyCompare (a b : Key) : Int :=
  let r : Int := (a.typ.toNat : Int) - (b.typ.toNat : Int)
  if r ≠ 0 then r
  else if a.objectID < b.objectID then -1
  else if b.objectID < a.objectID then 1
  else if a.offset < b.offset then -1
  else if b.offset < a.offset then 1
  else 0

/-- `time.Time` as far as the code observes it: `Unix()` and `Nanosecond()`. -/
structure Time where
  unix : Int
  nanosecond : Nat
  deriving DecidableEq, Repr

/-- `time.Unix(sec, nsec)` of the Go standard library for `0 ≤ nsec` (the code
only passes values converted from `uint32`): seconds carry wraps in `int64`. -/
def timeUnix (sec : Int) (nsec : Nat) : Time :=
  if nsec ≥ 1000000000 then
    ⟨wrapInt64 (sec + (nsec / 1000000000 : Nat)), nsec % 1000000000⟩
  else ⟨sec, nsec⟩

/-- pkg/btrfs/slice.go:15. -/
def SliceUint16LE (b : Slice) : Go UInt16 := do
  let c ← b.to 2
  return UInt16.ofNat (leNat c.data)

/-- pkg/btrfs/slice.go:16. -/
def SliceUint32LE (b : Slice) : Go UInt32 := do
  let c ← b.to 4
  return UInt32.ofNat (leNat c.data)

/-- pkg/btrfs/slice.go:17. -/
def SliceUint64LE (b : Slice) : Go UInt64 := do
  let c ← b.to 8
  return UInt64.ofNat (leNat c.data)

/-- pkg/btrfs/slice.go:19-23. -/
def SliceUUID (b : Slice) : Go UUID := do
  let c ← b.to 16
  return ⟨goCopy (List.replicate 16 0) c.data, by simp [goCopy_length]⟩

/-- pkg/btrfs/slice.go:25-27. -/
def SliceKey (b : Slice) : Go Key := do
  let o ← SliceUint64LE b
  let t ← b.get 8
  let c ← b.from 9
  let f ← SliceUint64LE c
  return ⟨o, t, f⟩

/-- pkg/btrfs/slice.go:29-31. -/
def SliceTimeLE (b : Slice) : Go Time := do
  let s ← SliceUint64LE b
  let c ← b.from 8
  let n ← SliceUint32LE c
  return timeUnix (int64OfU64 s) n.toNat

/-! Shapes of the accessors in btrfs.go / leaf.go: `SliceX(e[off:])`. -/

/-- `SliceUint16LE(e[off:])` -/
def u16at (s : Slice) (off : Nat) : Go UInt16 := do SliceUint16LE (← s.from off)
/-- `SliceUint32LE(e[off:])` -/
def u32at (s : Slice) (off : Nat) : Go UInt32 := do SliceUint32LE (← s.from off)
/-- `SliceUint64LE(e[off:])` -/
def u64at (s : Slice) (off : Nat) : Go UInt64 := do SliceUint64LE (← s.from off)
/-- `SliceUUID(e[off:])` -/
def uuidAt (s : Slice) (off : Nat) : Go UUID := do SliceUUID (← s.from off)
/-- `SliceKey(e[off:])` -/
def keyAt (s : Slice) (off : Nat) : Go Key := do SliceKey (← s.from off)
/-- `SliceTimeLE(e[off:]).UTC()` (UTC() does not change the instant) -/
def timeAt (s : Slice) (off : Nat) : Go Time := do SliceTimeLE (← s.from off)

/-! ## Constants of pkg/btrfs/btrfs.go:14-272 used by the model -/

/-- pkg/btrfs/btrfs.go:19 -/ abbrev X86RegularPageSize : Nat := 4096
/-- pkg/btrfs/btrfs.go:23 -/ abbrev DefaultBlockSize : Nat := 4 * X86RegularPageSize
/-- pkg/btrfs/btrfs.go:28 -/ abbrev SuperInfoOffset : Nat := 0x10000
/-- pkg/btrfs/btrfs.go:29 -/ abbrev SuperInfoOffset2 : Nat := 0x4000000
/-- pkg/btrfs/btrfs.go:30 -/ abbrev SuperInfoOffset3 : Nat := 0x4000000000
/-- pkg/btrfs/btrfs.go:31 -/ abbrev SuperInfoOffset4 : Nat := 0x4000000000000
/-- pkg/btrfs/btrfs.go:37 -/ def RootTreeObjectID : UInt64 := 1
/-- pkg/btrfs/btrfs.go:41 -/ def ExtentTreeObjectID : UInt64 := 2
/-- pkg/btrfs/btrfs.go:45 -/ def ChunkTreeObjectID : UInt64 := 3
/-- pkg/btrfs/btrfs.go:49 -/ def DevTreeObjectID : UInt64 := 4
/-- pkg/btrfs/btrfs.go:52 -/ def FSTreeObjectID : UInt64 := 5
/-- pkg/btrfs/btrfs.go:55 -/ def RootTreeDirObjectID : UInt64 := 6
/-- pkg/btrfs/btrfs.go:58 -/ def CSumTreeObjectID : UInt64 := 7
/-- pkg/btrfs/btrfs.go:61 -/ def QuotaTreeObjectID : UInt64 := 8
/-- pkg/btrfs/btrfs.go:64 -/ def UuidTreeObjectID : UInt64 := 9
/-- pkg/btrfs/btrfs.go:67 -/ def FreeSpaceTreeObjectID : UInt64 := 10
/-- pkg/btrfs/btrfs.go:70 -/ def DevStatsObjectID : UInt64 := 0
/-- pkg/btrfs/btrfs.go:73 -/ def BalanceObjectID : UInt64 := ~~~(4 : UInt64) + 1
/-- pkg/btrfs/btrfs.go:76 -/ def OrphanObjectID : UInt64 := ~~~(5 : UInt64) + 1
/-- pkg/btrfs/btrfs.go:79 -/ def TreeLogObjectID : UInt64 := ~~~(6 : UInt64) + 1
/-- pkg/btrfs/btrfs.go:80 -/ def TreeLogFixupObjectID : UInt64 := ~~~(7 : UInt64) + 1
/-- pkg/btrfs/btrfs.go:83 -/ def TreeRelocObjectID : UInt64 := ~~~(8 : UInt64) + 1
/-- pkg/btrfs/btrfs.go:84 -/ def DataRelocTreeObjectID : UInt64 := ~~~(9 : UInt64) + 1
/-- pkg/btrfs/btrfs.go:88 -/ def ExtentCSumObjectID : UInt64 := ~~~(10 : UInt64) + 1
/-- pkg/btrfs/btrfs.go:91 -/ def FreeSpaceObjectID : UInt64 := ~~~(11 : UInt64) + 1
/-- pkg/btrfs/btrfs.go:95 -/ def FreeInoObjectID : UInt64 := ~~~(12 : UInt64) + 1
/-- pkg/btrfs/btrfs.go:98 -/ def MultipleObjectIDs : UInt64 := ~~~(255 : UInt64) + 1
/-- pkg/btrfs/btrfs.go:101 -/ def FirstFreeObjectID : UInt64 := 256
/-- pkg/btrfs/btrfs.go:102 -/ def LastFreeObjectID : UInt64 := ~~~(256 : UInt64) + 1
/-- pkg/btrfs/btrfs.go:108 -/ def DevItemsObjectID : UInt64 := 1
/-- pkg/btrfs/btrfs.go:120 -/ abbrev CSumSize : Nat := 32
/-- pkg/btrfs/btrfs.go:130 -/ def InodeItemKey : UInt8 := 1
/-- pkg/btrfs/btrfs.go:132 -/ def InodeRefKey : UInt8 := 12
/-- pkg/btrfs/btrfs.go:133 -/ def InodeExtrefKey : UInt8 := 13
/-- pkg/btrfs/btrfs.go:134 -/ def XAttrItemKey : UInt8 := 24
/-- pkg/btrfs/btrfs.go:135 -/ def OrphanItemKey : UInt8 := 48
/-- pkg/btrfs/btrfs.go:139 -/ def DirLogItemKey : UInt8 := 60
/-- pkg/btrfs/btrfs.go:140 -/ def DirLogIndexKey : UInt8 := 72
/-- pkg/btrfs/btrfs.go:141 -/ def DirItemKey : UInt8 := 84
/-- pkg/btrfs/btrfs.go:142 -/ def DirIndexKey : UInt8 := 96
/-- pkg/btrfs/btrfs.go:145 -/ def ExtentDataKey : UInt8 := 108
/-- pkg/btrfs/btrfs.go:149 -/ def ExtentCSumKey : UInt8 := 128
/-- pkg/btrfs/btrfs.go:153 -/ def RootItemKey : UInt8 := 132
/-- pkg/btrfs/btrfs.go:157 -/ def RootBackRefKey : UInt8 := 144
/-- pkg/btrfs/btrfs.go:162 -/ def RootRefKey : UInt8 := 156
/-- pkg/btrfs/btrfs.go:166 -/ def ExtentItemKey : UInt8 := 168
/-- pkg/btrfs/btrfs.go:171 -/ def MetadataItemKey : UInt8 := 169
/-- pkg/btrfs/btrfs.go:175 -/ def TreeBlockRefKey : UInt8 := 176
/-- pkg/btrfs/btrfs.go:176 -/ def ExtentDataRefKey : UInt8 := 178
/-- pkg/btrfs/btrfs.go:177 -/ def ExtentRefV0Key : UInt8 := 180
/-- pkg/btrfs/btrfs.go:178 -/ def SharedBlockRefKey : UInt8 := 182
/-- pkg/btrfs/btrfs.go:179 -/ def SharedDataRefKey : UInt8 := 184
/-- pkg/btrfs/btrfs.go:183 -/ def BlockGroupItemKey : UInt8 := 192
/-- pkg/btrfs/btrfs.go:188 -/ def FreeSpaceInfoKey : UInt8 := 198
/-- pkg/btrfs/btrfs.go:192 -/ def FreeSpaceExtentKey : UInt8 := 199
/-- pkg/btrfs/btrfs.go:198 -/ def FreeSpaceBitmapKey : UInt8 := 200
/-- pkg/btrfs/btrfs.go:200 -/ def DevExtentKey : UInt8 := 204
/-- pkg/btrfs/btrfs.go:201 -/ def DevItemKey : UInt8 := 216
/-- pkg/btrfs/btrfs.go:202 -/ def ChunkItemKey : UInt8 := 228
/-- pkg/btrfs/btrfs.go:207 -/ def QgroupStatusKey : UInt8 := 240
/-- pkg/btrfs/btrfs.go:211 -/ def QgroupInfoKey : UInt8 := 242
/-- pkg/btrfs/btrfs.go:215 -/ def QgroupLimitKey : UInt8 := 244
/-- pkg/btrfs/btrfs.go:221 -/ def QgroupRelationKey : UInt8 := 246
/-- pkg/btrfs/btrfs.go:235 -/ def TemporaryItemKey : UInt8 := 248
/-- pkg/btrfs/btrfs.go:252 -/ def PersistentItemKey : UInt8 := 249
/-- pkg/btrfs/btrfs.go:256 -/ def DevReplaceKey : UInt8 := 250
/-- pkg/btrfs/btrfs.go:264 -/ def UUIDKeySubvol : UInt8 := 251
/-- pkg/btrfs/btrfs.go:267 -/ def UUIDKeyReceivedSubvol : UInt8 := 252
/-- pkg/btrfs/btrfs.go:271 -/ def StringItemKey : UInt8 := 253

end Btrfscue
