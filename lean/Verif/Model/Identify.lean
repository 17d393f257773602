import Verif.Model.Leaf
import Verif.Go.Cmd
import Mathlib.Order.Defs.LinearOrder
/-!
# internal/identify (collector.go, identify.go)

Entropies are values of an arbitrary linear order `F` computed by an arbitrary
function `ent` (so rounding does not matter); the real-valued one is in
`Model/Entropy.lean`. `avg s c` is `float64(s)/float64(c) + 4096` converted to an
integer by truncation; which functions are allowed is said by `AvgOK` in
`Spec/Identify.lean`. Maps are lists of entries with unique keys; ranging over a map
visits the entries in the order `ord`, an arbitrary permutation. The random numbers
are an arbitrary sequence. Progress bar and messages are not modelled; the table that is
printed is in `Model/Output.lean`.
-/

namespace Btrfscue

/-- internal/identify/collector.go:42-45. `Count` is a Go `uint` (64 bit). -/
structure HistEntry where
  count : UInt64 := 0
  blockSizeSum : UInt64 := 0
  deriving DecidableEq, Repr

/-- internal/identify/collector.go:47-49. A nil map behaves as an empty one. -/
abbrev FSIDHist := List (UUID × HistEntry)

/-- `c.hist[fsid]`. -/
def FSIDHist.find (h : FSIDHist) (u : UUID) : Option HistEntry :=
  match h with
  | [] => none
  | e :: r => if e.1 = u then some e.2 else FSIDHist.find r u

/-- `c.hist[fsid] = entry`. -/
def FSIDHist.put (h : FSIDHist) (u : UUID) (x : HistEntry) : FSIDHist :=
  match h with
  | [] => [(u, x)]
  | e :: r => if e.1 = u then (u, x) :: r else e :: FSIDHist.put r u x

/-- internal/identify/collector.go:51-79 -/
def collectBlock (c : FSIDHist) (block : Slice) : Go FSIDHist := do
  if !(← Header.isLeaf block) then return c
  let fsid ← Header.fsid block
  if UUID.isZero fsid || UUID.isAllFs fsid then return c
  match c.find fsid with
  | none => return c.put fsid ⟨0 + 1, 0⟩
  | some entry =>
    if 0 < (← Header.nrItems block) then
      let item ← block.from HeaderLen
      let o ← Item.offset item
      return c.put fsid ⟨entry.count + 1, entry.blockSizeSum + o.toUInt64⟩
    else return c.put fsid ⟨entry.count + 1, entry.blockSizeSum⟩

/-- internal/identify/collector.go:16-21 -/
structure FSEntry (F : Type) where
  fsid : UUID
  count : UInt64
  entropy : F
  blockSize : UInt32
  deriving DecidableEq

/-- internal/identify/collector.go:26-36 -/
def FSEntry.less {F : Type} [LinearOrder F] (a b : FSEntry F) : Bool :=
  if a.count ≠ b.count then a.count < b.count
  else if a.entropy ≠ b.entropy then a.entropy < b.entropy
  else bytesLt a.fsid.val b.fsid.val

/-- internal/identify/collector.go:89-91: the block size guess. The conversion to
`uint32` wraps here (out of range it is implementation defined in Go). -/
def blockSizeGuess (avg : UInt64 → UInt64 → Nat) (e : HistEntry) : UInt32 :=
  UInt32.ofNat (avg e.blockSizeSum e.count) / 4096 * 4096

/-- internal/identify/collector.go:81-98. `sort.Sort` (trusted, not stable) is modelled
by a merge sort; the order is strict and total on different FSIDs, so the sorted
permutation is unique. -/
def entries {F : Type} [LinearOrder F] (ent : UUID → F) (avg : UInt64 → UInt64 → Nat)
    (ord : FSIDHist → FSIDHist) (hist : FSIDHist) (minOccurrence : UInt64) : List (FSEntry F) :=
  let occ := ((ord hist).filter fun e => decide (minOccurrence ≤ e.2.count)).map fun e =>
    (⟨e.1, e.2.count, ent e.1, blockSizeGuess avg e.2⟩ : FSEntry F)
  occ.mergeSort fun a b => !FSEntry.less a b

/-- `sampleSet[o] = true`. -/
def setInsert (s : List UInt64) (o : UInt64) : List UInt64 := if o ∈ s then s else s ++ [o]

/-- internal/identify/identify.go:32-47: the offsets around the superblocks, in the
order they are added. -/
def baseOffsets (devSize blockSize : UInt64) : List UInt64 :=
  let l := (List.range 100).flatMap fun i =>
    [UInt64.ofNat SuperInfoOffset + UInt64.ofNat i * blockSize,
     UInt64.ofNat SuperInfoOffset2 + UInt64.ofNat (i + 100) * blockSize]
  let l := if UInt64.ofNat SuperInfoOffset3 ≤ devSize then
      let l := l ++ (List.range 100).map fun i =>
        UInt64.ofNat SuperInfoOffset3 + UInt64.ofNat (i + 200) * blockSize
      if UInt64.ofNat SuperInfoOffset4 ≤ devSize then
        l ++ (List.range 100).map fun i =>
          UInt64.ofNat SuperInfoOffset3 + UInt64.ofNat (i + 300) * blockSize
      else l
    else l
  l

/-- internal/identify/identify.go:49-51. `rnd k` is the k-th random number;
`rand.Int63n(n)` panics unless `0 < n` and else returns a number below `n`. -/
def sampleLoop (rnd : Nat → Nat) (numBlocks : Int) (blockSize numSamples : UInt64) :
    Nat → Nat → List UInt64 → Go (List UInt64)
  | 0, _, _ => .hang
  | fuel + 1, k, s =>
    if s.length < numSamples.toNat then
      if numBlocks ≤ 0 then .panic
      else sampleLoop rnd numBlocks blockSize numSamples fuel (k + 1)
        (setInsert s (UInt64.ofNat (rnd k % numBlocks.toNat) * blockSize))
    else .ok s

/-- internal/identify/identify.go:30-61. Writing past the end of `samples` panics. -/
def MakeSampleOffsets (fuel : Nat) (rnd : Nat → Nat) (ord : List UInt64 → List UInt64)
    (devSize blockSize numSamples : UInt64) : Go (List UInt64) := do
  let s := (baseOffsets devSize blockSize).foldl setInsert []
  if blockSize = 0 then .panic
  else
    let numBlocks := int64OfU64 (devSize / blockSize)
    let s ← sampleLoop rnd numBlocks blockSize numSamples fuel 0 s
    let o := ord s
    if numSamples.toNat < o.length then .panic
    else
      return (o ++ List.replicate (numSamples.toNat - o.length) 0).mergeSort fun a b => decide (a ≤ b)

/-- internal/identify/identify.go:63-69. `sampled` is
`uint(options.SampleFraction * float64(devSize/bs))`, left arbitrary. -/
structure IdentifyOptions where
  blockSize : UInt64
  sampled : UInt64
  minBlocks : UInt64 := 1000
  maxBlocks : UInt64 := 1000000
  minOccurrence : UInt64 := 4

/-- internal/identify/identify.go:89-94 -/
def IdentifyOptions.numSamples (o : IdentifyOptions) : UInt64 :=
  if o.sampled < o.minBlocks then o.minBlocks
  else if o.maxBlocks < o.sampled then o.maxBlocks
  else o.sampled

/-- internal/identify/identify.go:107-113. The buffer is kept between iterations. -/
def identifyLoop (r : ReaderAt) : List UInt64 → Bytes → FSIDHist → Cmd Unit FSIDHist
  | [], _, h => pure h
  | off :: rest, buf, h =>
    match ReadBlockAt r buf off with
    | (_, some _) => Cmd.exit
    | (buf', none) => do
      let h' ← Cmd.lift (collectBlock h ⟨buf', []⟩)
      identifyLoop r rest buf' h'

/-- internal/identify/identify.go:71-136. The result are the printed entries. -/
def IdentifyFS {F : Type} [LinearOrder F] (fuel : Nat) (rnd : Nat → Nat)
    (ordS : List UInt64 → List UInt64) (ordH : FSIDHist → FSIDHist) (ent : UUID → F)
    (avg : UInt64 → UInt64 → Nat) (r : ReaderAt) (seek : Option UInt64) (o : IdentifyOptions) :
    Cmd Unit (List (FSEntry F)) :=
  match CheckDeviceSize seek o.blockSize with
  | .error _ => Cmd.exit
  | .ok devSize => do
    if o.blockSize = 0 then Cmd.lift .panic
    else
      let samples ← Cmd.lift (MakeSampleOffsets fuel rnd ordS devSize o.blockSize o.numSamples)
      let h ← identifyLoop r samples (List.replicate o.blockSize.toNat 0) []
      return entries ent avg ordH h o.minOccurrence

end Btrfscue
