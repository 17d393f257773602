import Verif.Model.Base
/-!
# NameHash (pkg/btrfs/index/index_store.go:572-578)

`hash/crc32` is modelled by its portable table-driven implementation
(`simpleMakeTable`, `simpleUpdate`); the hardware and slicing-by-8 variants of the
standard library are assumed to compute the same function.
-/

namespace Btrfscue

/-- `crc32.Castagnoli`, the reversed polynomial. -/
def castagnoliPoly : UInt32 := 0x82f63b78

/-- One inner iteration of `crc32.simpleMakeTable`. -/
def crcTableStep (crc : UInt32) : UInt32 :=
  if crc &&& 1 == 1 then (crc >>> 1) ^^^ castagnoliPoly else crc >>> 1

/-- Entry `i` of `crc32.MakeTable(crc32.Castagnoli)`
(pkg/btrfs/index/index_store.go:572). -/
def castagnoliTable (i : UInt8) : UInt32 :=
  (crcTableStep ∘ crcTableStep ∘ crcTableStep ∘ crcTableStep ∘
   crcTableStep ∘ crcTableStep ∘ crcTableStep ∘ crcTableStep) i.toUInt32

/-- `crc32.Update(crc, castagnoliTable, p)`. -/
def crcUpdate (crc : UInt32) (p : Bytes) : UInt32 :=
  ~~~(p.foldl (fun c v => castagnoliTable (c.toUInt8 ^^^ v) ^^^ (c >>> 8)) (~~~crc))

/-- pkg/btrfs/index/index_store.go:576-578 -/
def NameHash (name : Bytes) : UInt32 := ~~~(crcUpdate (~~~0xFFFFFFFE) name)

end Btrfscue
