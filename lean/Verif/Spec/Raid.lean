import Verif.Spec.RecoverFile
/-!
# Specification: where btrfs stores the bytes of a chunk

From the on-disk format, not from the program: a chunk's profile is told by the bits of
its type, and says on which devices, and where, each byte of the chunk is stored.
-/

namespace Btrfscue

/-- The profiles that differ in where bytes are stored. `linear` stands for SINGLE, DUP
and RAID1: each stripe holds the whole chunk. -/
inductive RaidProfile
  | linear | raid0 | raid10 | raid5 | raid6
  deriving DecidableEq

/-- The profile of a chunk, from the bits of its type. -/
def ChunkRec.profile (c : ChunkRec) : RaidProfile :=
  if c.typ &&& 8 ≠ 0 then .raid0
  else if c.typ &&& 64 ≠ 0 then .raid10
  else if c.typ &&& 128 ≠ 0 then .raid5
  else if c.typ &&& 256 ≠ 0 then .raid6
  else .linear

/-- The place at offset `p` of stripe number `i`: device and physical address. -/
def inStripe (ss : List StripeRec) (i p : Nat) : List (UInt64 × Nat) :=
  match ss[i]? with
  | some s => [(s.devID, s.offset.toNat + p)]
  | none => []

/-- How many stripes' worth of different data lie next to each other in a chunk. -/
def ChunkRec.columns (c : ChunkRec) (n : Nat) : Nat :=
  match c.profile with
  | .linear => 1
  | .raid0 => n
  | .raid10 => n / c.subStripes.toNat
  | .raid5 => n - 1
  | .raid6 => n - 2

/-- The places at which the byte at offset `off` of a chunk is stored. The data are cut
into pieces of the stripe length. RAID0 deals these out to the stripes in turn, RAID10 to
groups of `subStripes` stripes, RAID5 and RAID6 row by row, the first column moving on by
one stripe each row. -/
def ChunkRec.places (c : ChunkRec) (ss : List StripeRec) (off : Nat) : List (UInt64 × Nat) :=
  let piece := off / c.stripeLen.toNat
  let cols := c.columns ss.length
  let p := piece / cols * c.stripeLen.toNat + off % c.stripeLen.toNat
  match c.profile with
  | .linear => ss.map fun s => (s.devID, s.offset.toNat + off)
  | .raid0 => inStripe ss (piece % cols) p
  | .raid10 => (List.range c.subStripes.toNat).flatMap fun j =>
      inStripe ss (piece % cols * c.subStripes.toNat + j) p
  | .raid5 => inStripe ss ((piece / cols + piece % cols) % ss.length) p
  | .raid6 => inStripe ss ((piece / cols + piece % cols) % ss.length) p

/-- `v` is the byte at a logical address of a file system whose devices have the contents
`devs`: it is at one of the places where the chunk stores it. -/
def Bucket.storedByte (b : Bucket) (gc : UInt64) (devs : UInt64 → Bytes) (logical : Nat) (v : UInt8) : Prop :=
  ∃ start c ss, b.chunkAt gc start c ss ∧ start.toNat ≤ logical ∧ logical < start.toNat + c.length.toNat ∧
    ∃ p ∈ c.places ss (logical - start.toNat), (devs p.1)[p.2]? = some v

/-- `v` is the byte at position `i` of a file with regular extents on a file system whose
devices have the contents `devs`. -/
def Bucket.fileByteOn (b : Bucket) (o ino g gc : UInt64) (devs : UInt64 → Bytes) (i : Nat) (v : UInt8) : Prop :=
  (∃ off f, b.extentAt o ino g off f ∧ f.at off i ∧
    (((f.diskByteNr = 0 ∨ f.typ = 2) ∧ v = 0) ∨
     (f.diskByteNr ≠ 0 ∧ f.plain ∧
        b.storedByte gc devs (f.diskByteNr.toNat + f.offset.toNat + (i - off.toNat)) v))) ∨
  ((∀ off f, b.extentAt o ino g off f → ¬ f.at off i) ∧ v = 0)

end Btrfscue
