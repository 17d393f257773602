import Verif.Model.Structs
/-!
# pkg/btrfs/leaf.go, pkg/btrfs/parse_buffer.go, pkg/btrfs/util.go,
# pkg/ioutil/ioutil.go
-/

namespace Btrfscue

/-! ## Block header (pkg/btrfs/leaf.go:12-51) -/

/-- pkg/btrfs/leaf.go:12 `type Header []byte`. -/
abbrev Header := Slice

/-- pkg/btrfs/leaf.go:16 -/ abbrev headerCSum : Nat := 0
/-- pkg/btrfs/leaf.go:18 -/ abbrev headerFSID : Nat := headerCSum + CSumSize
/-- pkg/btrfs/leaf.go:19 -/ abbrev headerByteNr : Nat := headerFSID + 16
/-- pkg/btrfs/leaf.go:20 -/ abbrev headerFlags : Nat := headerByteNr + 8
/-- pkg/btrfs/leaf.go:22 -/ abbrev headerChunkTreeUUID : Nat := headerFlags + 8
/-- pkg/btrfs/leaf.go:23 -/ abbrev headerGeneration : Nat := headerChunkTreeUUID + 16
/-- pkg/btrfs/leaf.go:24 -/ abbrev headerOwner : Nat := headerGeneration + 8
/-- pkg/btrfs/leaf.go:25 -/ abbrev headerNrItems : Nat := headerOwner + 8
/-- pkg/btrfs/leaf.go:26 -/ abbrev headerLevel : Nat := headerNrItems + 4
/-- pkg/btrfs/leaf.go:27 -/ abbrev HeaderLen : Nat := headerLevel + 1

/-- pkg/btrfs/leaf.go:30-34 -/
def Header.csum (h : Header) : Go Bytes := do
  return goCopy (List.replicate CSumSize 0) (← h.sub headerCSum (headerCSum + CSumSize)).data
/-- pkg/btrfs/leaf.go:37 -/ def Header.fsid (h : Header) : Go UUID := uuidAt h headerFSID
/-- pkg/btrfs/leaf.go:41 -/ def Header.byteNr (h : Header) : Go UInt64 := u64at h headerByteNr
/-- pkg/btrfs/leaf.go:42 -/ def Header.flags (h : Header) : Go UInt64 := u64at h headerFlags
/-- pkg/btrfs/leaf.go:43 -/ def Header.chunkTreeUUID (h : Header) : Go UUID := uuidAt h headerChunkTreeUUID
/-- pkg/btrfs/leaf.go:44 -/ def Header.generation (h : Header) : Go UInt64 := u64at h headerGeneration
/-- pkg/btrfs/leaf.go:45 -/ def Header.owner (h : Header) : Go UInt64 := u64at h headerOwner
/-- pkg/btrfs/leaf.go:46 -/ def Header.nrItems (h : Header) : Go UInt32 := u32at h headerNrItems
/-- pkg/btrfs/leaf.go:47 -/ def Header.level (h : Header) : Go UInt8 := h.get headerLevel
/-- pkg/btrfs/leaf.go:49 -/
def Header.isLeaf (h : Header) : Go Bool := do return (← Header.level h) == 0

/-! ## Items (pkg/btrfs/leaf.go:51-63) -/

/-- pkg/btrfs/leaf.go:51 `type Item []byte`. -/
abbrev Item := Slice

/-- pkg/btrfs/leaf.go:54 -/ abbrev itemKey : Nat := 0
/-- pkg/btrfs/leaf.go:55 -/ abbrev itemOffset : Nat := itemKey + KeyLen
/-- pkg/btrfs/leaf.go:56 -/ abbrev itemSize : Nat := itemOffset + 4
/-- pkg/btrfs/leaf.go:57 -/ abbrev ItemLen : Nat := itemSize + 4

/-- pkg/btrfs/leaf.go:60 -/ def Item.key (i : Item) : Go Key := keyAt i itemKey
/-- pkg/btrfs/leaf.go:61 -/ def Item.offset (i : Item) : Go UInt32 := u32at i itemOffset
/-- pkg/btrfs/leaf.go:62 -/ def Item.size (i : Item) : Go UInt32 := u32at i itemSize
/-- pkg/btrfs/leaf.go:63: `i[ItemLen : ItemLen+i.Size()]`, the upper bound in
`uint32` arithmetic. -/
def Item.data (i : Item) : Go Slice := do
  i.sub ItemLen (UInt32.ofNat ItemLen + (← Item.size i)).toNat

/-! ## Leaves (pkg/btrfs/leaf.go:65-107) -/

/-- pkg/btrfs/leaf.go:65 `type Leaf []byte`. -/
abbrev Leaf := Slice

/-- pkg/btrfs/leaf.go:70-78. `uint32(maxItems)` truncates. -/
def Leaf.len (l : Leaf) : Go Nat := do
  let maxItems := l.cap / ItemLen
  let numItems ← Header.nrItems l
  if UInt32.ofNat maxItems < numItems then
    return (UInt32.ofNat maxItems).toNat
  else return numItems.toNat

/-- pkg/btrfs/leaf.go:88-91 (`i` is never negative at any call site). -/
def Leaf.item (l : Leaf) (i : Nat) : Go Item :=
  let o := HeaderLen + i * ItemLen
  l.sub o (o + ItemLen)

/-- pkg/btrfs/leaf.go:80-86. -/
def Leaf.items (l : Leaf) : Go (List Item) := do
  let n ← Leaf.len l
  (List.range n).mapM fun i => Leaf.item l i

/-- pkg/btrfs/leaf.go:93-95. -/
def Leaf.key (l : Leaf) (i : Nat) : Go Key := keyAt l (HeaderLen + i * ItemLen + itemKey)

/-- pkg/btrfs/leaf.go:97-107. `o`, `e` and `leafLen` are `uint32`. -/
def Leaf.data (l : Leaf) (i : Nat) : Go Slice := do
  let item ← Leaf.item l i
  let o := UInt32.ofNat HeaderLen + (← Item.offset item)
  let leafLen := UInt32.ofNat (Slice.len l)
  let e := o + (← Item.size item)
  let e := if leafLen < e then leafLen else e
  l.sub o.toNat e.toNat

/-! ## ParseBuffer (pkg/btrfs/parse_buffer.go) -/

/-- pkg/btrfs/parse_buffer.go:15-19. The byte order field is always
little endian (set by the only constructor) and is not represented. `offset` is
a Go `int`: `SetOffset` may make it negative. -/
structure ParseBuffer where
  buf : Slice
  offset : Int

namespace ParseBuffer

/-- pkg/btrfs/parse_buffer.go:21-23 -/
def new (buf : Slice) : ParseBuffer := ⟨buf, 0⟩
/-- pkg/btrfs/parse_buffer.go:41-43 -/
def setOffset (b : ParseBuffer) (o : Int) : ParseBuffer := { b with offset := o }
/-- pkg/btrfs/parse_buffer.go:25-27 -/
def rewind (b : ParseBuffer) : ParseBuffer := b.setOffset 0
/-- pkg/btrfs/parse_buffer.go:29-31 -/
def len (b : ParseBuffer) : Nat := b.buf.len
/-- pkg/btrfs/parse_buffer.go:33-35 -/
def cap (b : ParseBuffer) : Nat := b.buf.cap
/-- pkg/btrfs/parse_buffer.go:45-47 -/
def unread (b : ParseBuffer) : Int := (b.buf.len : Int) - b.offset

/-- pkg/btrfs/parse_buffer.go:52-56. Returns the data and the advanced buffer.
Overflow of the `int` sum `offset+n` is not modelled (offsets beyond 2^62 are
out of bounds anyway). -/
def next (b : ParseBuffer) (n : Int) : Go (Slice × ParseBuffer) :=
  if b.offset < 0 ∨ b.offset + n < 0 then .panic
  else do
    let data ← b.buf.sub b.offset.toNat (b.offset + n).toNat
    return (data, { b with offset := b.offset + n })

/-- pkg/btrfs/parse_buffer.go:58-60 -/
def nextUint8 (b : ParseBuffer) : Go (UInt8 × ParseBuffer) := do
  let (d, b') ← b.next 1
  return (← d.get 0, b')

/-- pkg/btrfs/parse_buffer.go:62-64 -/
def nextUint16 (b : ParseBuffer) : Go (UInt16 × ParseBuffer) := do
  let (d, b') ← b.next 2
  return (UInt16.ofNat (leNat d.data), b')

/-- pkg/btrfs/parse_buffer.go:66-68 -/
def nextUint32 (b : ParseBuffer) : Go (UInt32 × ParseBuffer) := do
  let (d, b') ← b.next 4
  return (UInt32.ofNat (leNat d.data), b')

/-- pkg/btrfs/parse_buffer.go:70-72 -/
def nextUint64 (b : ParseBuffer) : Go (UInt64 × ParseBuffer) := do
  let (d, b') ← b.next 8
  return (UInt64.ofNat (leNat d.data), b')

/-- pkg/btrfs/parse_buffer.go:74-76 -/
def nextTime (b : ParseBuffer) : Go (Time × ParseBuffer) := do
  let (s, b1) ← b.nextUint64
  let (n, b2) ← b1.nextUint32
  return (timeUnix (int64OfU64 s) n.toNat, b2)

end ParseBuffer

/-! ## pkg/btrfs/util.go and pkg/ioutil/ioutil.go -/

/-- pkg/btrfs/util.go:13-26. `seek` is the result of `rs.Seek(0, io.SeekEnd)`
(`none` = seek error; the size returned with an error is not modelled). The sum
`SuperInfoOffset2+blockSize*100` wraps in `uint64`. -/
def CheckDeviceSize (seek : Option UInt64) (blockSize : UInt64) : Except Unit UInt64 :=
  match seek with
  | none => .error ()
  | some size =>
    if size < blockSize then .error ()
    else if size < UInt64.ofNat SuperInfoOffset2 + blockSize * 100 then .error ()
    else .ok size

/-- Errors a reader can return; the code never distinguishes errors other than
`io.EOF`. -/
inductive IOErr | eof | other
  deriving DecidableEq, Repr

/-- `io.ReaderAt`: given the offset (an `int64`) and the wanted length, the bytes
written to the front of the buffer, whose number is the returned `n`, and the
error. -/
abbrev ReaderAt := Int → Nat → Bytes × Option IOErr

/-- pkg/ioutil/ioutil.go:15-22. Returns the buffer contents and the error.
Both nil-error branches return nil. -/
def ReadBlockAt (r : ReaderAt) (block : Bytes) (offset : UInt64) : Bytes × Option IOErr :=
  let (bs, err) := r (int64OfU64 offset) block.length
  let block' := goCopy block bs
  match err with
  | some e => (block', some e)
  | none =>
    if bs.length = block.length then (block', none)
    else (block', none)

end Btrfscue
