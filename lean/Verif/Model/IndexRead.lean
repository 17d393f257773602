import Verif.Model.Bucket
import Verif.Model.NameHash
/-!
# Read side of pkg/btrfs/index/index_store.go

`Ix` is what a lookup uses of an `Index`: the bucket of the open transaction and
the index generation. The transactional side is in `Model/IndexDB.lean`.
-/

namespace Btrfscue

/-- pkg/btrfs/index/index_store.go:46-57 (fields `bucket`, `Generation`). -/
structure Ix where
  bucket : Bucket
  gen : UInt64

/-- pkg/btrfs/index/index_store.go:276-287: the loop of `lowerBound`. `rest` are
the entries that `c.Next()` will deliver. -/
def lowerBoundLoop (gen : UInt64) (cur : Bytes) : Bucket → Go Key
  | [] => KeyV2.key cur
  | (next, _) :: rest => do
    let curKeyPrefix ← keyTo cur keyV2Generation
    let np ← keyTo next keyV2Generation
    if np = curKeyPrefix then
      let g ← KeyV2.generation next
      if gen < g then KeyV2.key cur
      else lowerBoundLoop gen next rest
    else KeyV2.key cur

/-- pkg/btrfs/index/index_store.go:267-288 -/
def lowerBound (b : Bucket) (owner : UInt64) (k : Key) (gen : UInt64) (pfx : Nat) : Go Key := do
  let search ← keyTo (newIndexKey owner k 0) pfx
  let c := b.seek search
  match c.cur with
  | none => return KL0
  | some (cur, _) =>
    if (← keyTo cur pfx) ≠ search then return KL0
    else lowerBoundLoop gen cur (b.drop (c.pos + 1))

/-- pkg/btrfs/index/index_store.go:290-304. The result is the found key and value
(`none` = nil). `nil[:25]` panics. -/
def find (b : Bucket) (owner : UInt64) (k : Key) (generation : UInt64) :
    Go (Option (Bytes × Bytes)) := do
  let search := newIndexKey owner k generation
  let c := b.seek search
  let fp ← match c.cur with
    | none => keyTo [] keyV2Generation
    | some (found, _) => keyTo found keyV2Generation
  let sp ← keyTo search keyV2Generation
  if bytesCompare fp sp ≤ 0 then return c.cur
  else
    match c.prev with
    | none => return none
    | some (found, v) =>
      if found.length > 0 then
        if (← keyTo found keyV2Generation) = sp then return some (found, v)
        else return none
      else return none

/-- pkg/btrfs/index/index_store.go:306-319 with `end == nil`, the only way it is
called (line 344). A nil `found` compares as the empty string. -/
def findNext (b : Bucket) (ik : Bytes) : Go (Option (Bytes × Bytes)) := do
  let search := newIndexKey (← KeyV2.owner ik) (← KeyV2.key ik) (~~~0)
  match (b.seek search).cur with
  | none => return none
  | some (found, _) =>
    let search := newIndexKey (← KeyV2.owner ik) (← KeyV2.key found) (← KeyV2.generation ik)
    match (b.seek search).cur with
    | none => if bytesCompare [] search ≤ 0 then return none else return none
    | some (found, v) =>
      if bytesCompare found search ≤ 0 then return some (found, v)
      else return none

/-- pkg/btrfs/index/index_store.go:324-329 (fields `key`, `end`, `value`; the cursor
position is irrelevant because `findNext` always seeks). -/
structure Range where
  bucket : Bucket
  key : Option Bytes
  endKey : Bytes
  value : Item
  deriving DecidableEq

/-- pkg/btrfs/index/index_store.go:334-336 -/
def Range.hasNext (r : Range) : Bool :=
  match r.key with
  | none => false
  | some k => bytesCompare k r.endKey ≤ 0

/-- `r.key, r.value = ...` with the nil pair for `none`. -/
def Range.setTo (r : Range) (x : Option (Bytes × Bytes)) : Range :=
  match x with
  | none => { r with key := none, value := ⟨[], []⟩ }
  | some (k, v) => { r with key := some k, value := ⟨v, []⟩ }

/-- `if r.key != nil { return r.value.Data() }; return nil`. -/
def Range.current (r : Range) : Go Slice :=
  match r.key with
  | none => .ok ⟨[], []⟩
  | some _ => Item.data r.value

/-- pkg/btrfs/index/index_store.go:338-343. Panics if `r.key` is nil. -/
def Range.next (r : Range) : Go (Range × Slice) := do
  match r.key with
  | none => .panic
  | some k =>
    let r' := r.setTo (← findNext r.bucket k)
    return (r', ← r'.current)

/-- pkg/btrfs/index/index_store.go:345 -/
def Range.rOwner (r : Range) : Go UInt64 :=
  match r.key with | none => .panic | some k => KeyV2.owner k
/-- pkg/btrfs/index/index_store.go:346 -/
def Range.rKey (r : Range) : Go Key :=
  match r.key with | none => .panic | some k => KeyV2.key k
/-- pkg/btrfs/index/index_store.go:347 -/
def Range.rGeneration (r : Range) : Go UInt64 :=
  match r.key with | none => .panic | some k => KeyV2.generation k

/-- pkg/btrfs/index/index_store.go:351-364 -/
def Ix.range (ix : Ix) (owner : UInt64) (first last : Key) : Go (Range × Slice) := do
  let r : Range := ⟨ix.bucket, none, newIndexKey owner last ix.gen, ⟨[], []⟩⟩
  let lowerFirst ← lowerBound ix.bucket owner first ix.gen keyV2Offset
  let r := r.setTo (← find ix.bucket owner lowerFirst ix.gen)
  return (r, ← r.current)

/-- pkg/btrfs/index/index_store.go:367-369 -/
def Ix.rangeAll (ix : Ix) (owner : UInt64) (t : UInt8) (id : UInt64) : Go (Range × Slice) :=
  ix.range owner (KF t id) (KL2 t id)

/-- The loop `for r, d := ix.Range(...); r.HasNext(); d = r.Next() { body }`.
`body` gets the loop state, the range and `d`; its flag `true` means `break`. The
result is the final state and whether the loop was left by `break`. Runs out of
fuel = `hang`. -/
def rangeLoop {σ : Type} (body : σ → Range → Slice → Go (σ × Bool)) :
    Nat → σ → Range × Slice → Go (σ × Bool)
  | 0, _, _ => .hang
  | fuel + 1, s, (r, d) =>
    if r.hasNext then do
      let (s', brk) ← body s r d
      if brk then return (s', true)
      else rangeLoop body fuel s' (← r.next)
    else return (s, false)

/-- All items a plain loop over a range visits: key and data. -/
def Range.collect (fuel : Nat) (rd : Range × Slice) : Go (List (Bytes × Bytes)) := do
  let (s, _) ← rangeLoop (fun (s : List (Bytes × Bytes)) r d =>
    .ok (s ++ [(r.key.getD [], d.data)], false)) fuel [] rd
  return s

/-- pkg/btrfs/index/index_store.go:371-373: `FullRange` with its cursor. -/
structure FullRange where
  cursor : Cursor
  r : Range
  deriving DecidableEq

/-- pkg/btrfs/index/index_store.go:375-381 -/
def FullRange.next (f : FullRange) : Go (FullRange × Slice) := do
  let (x, c) := f.cursor.next
  let r' := f.r.setTo x
  match r'.key with
  | none => return (⟨c, r'⟩, ⟨[], []⟩)
  | some k =>
    if k ≠ r'.endKey then return (⟨c, r'⟩, ← Item.data r'.value)
    else return (⟨c, r'⟩, ⟨[], []⟩)

/-- pkg/btrfs/index/index_store.go:385-394. `r.value.Data()` is called without a nil
check. -/
def Ix.fullRange (ix : Ix) : Go (FullRange × Slice) := do
  let c := ix.bucket.first
  let r : Range := ⟨ix.bucket, none, newIndexKey (~~~0) KL0 ix.gen, ⟨[], []⟩⟩
  let r := r.setTo c.cur
  return (⟨c, r⟩, ← Item.data r.value)

/-- `for r, d := ix.FullRange(); r.HasNext(); d = r.Next()` collecting keys and data
(the shape of cmd/dump_index.go:40-48). -/
def FullRange.collect : Nat → FullRange × Slice → Go (List (Bytes × Bytes))
  | 0, _ => .hang
  | fuel + 1, (f, d) =>
    if f.r.hasNext then do
      let rest ← FullRange.collect fuel (← f.next)
      return (f.r.key.getD [], d.data) :: rest
    else return []

/-- pkg/btrfs/index/index_store.go:400-404 -/
def Ix.subvolumes (ix : Ix) : Go (Range × Slice) :=
  ix.range RootTreeObjectID (KF RootItemKey FirstFreeObjectID) (KL2 RootItemKey LastFreeObjectID)
/-- pkg/btrfs/index/index_store.go:406-408 -/
def Ix.dirItems (ix : Ix) (owner id : UInt64) : Go (Range × Slice) := ix.rangeAll owner DirItemKey id
/-- pkg/btrfs/index/index_store.go:410-412 -/
def Ix.xattrItems (ix : Ix) (owner id : UInt64) : Go (Range × Slice) :=
  ix.rangeAll owner XAttrItemKey id
/-- pkg/btrfs/index/index_store.go:414-417 -/
def Ix.fileExtentItems (ix : Ix) (owner id : UInt64) : Go (Range × Slice) :=
  ix.rangeAll owner ExtentDataKey id
/-- pkg/btrfs/index/index_store.go:420-423 -/
def Ix.chunks (ix : Ix) : Go (Range × Slice) :=
  ix.rangeAll ChunkTreeObjectID ChunkItemKey FirstFreeObjectID
/-- pkg/btrfs/index/index_store.go:426-429 -/
def Ix.devItems (ix : Ix) : Go (Range × Slice) :=
  ix.rangeAll ChunkTreeObjectID DevItemKey DevItemsObjectID

/-- pkg/btrfs/index/index_store.go:434-437 -/
def Ix.findItem (ix : Ix) (owner : UInt64) (k : Key) : Go (Option Item) := do
  match ← find ix.bucket owner k ix.gen with
  | none => return none
  | some (_, v) => return some ⟨v, []⟩

/-- `if i := ix.FindItem(..); i != nil { return i.Data() }; return nil`
(pkg/btrfs/index/index_store.go:439-458). -/
def Ix.findData (ix : Ix) (owner : UInt64) (k : Key) : Go (Option Slice) := do
  match ← ix.findItem owner k with
  | none => return none
  | some i => return some (← Item.data i)

/-- pkg/btrfs/index/index_store.go:439-444 -/
def Ix.findInodeItem (ix : Ix) (owner inode : UInt64) : Go (Option InodeItem) :=
  ix.findData owner (KF InodeItemKey inode)
/-- pkg/btrfs/index/index_store.go:446-451 -/
def Ix.findFileExtentItem (ix : Ix) (owner id : UInt64) : Go (Option FileExtentItem) :=
  ix.findData owner (KF ExtentDataKey id)
/-- pkg/btrfs/index/index_store.go:453-459 -/
def Ix.findExtentItem (ix : Ix) (diskByteNr diskNumBytes : UInt64) : Go (Option ExtentItem) :=
  ix.findData ExtentTreeObjectID (KF3 ExtentItemKey diskByteNr diskNumBytes)

end Btrfscue
