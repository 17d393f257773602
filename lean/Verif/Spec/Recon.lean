import Verif.Spec.Session
import Verif.Spec.Layout
import Verif.Model.Leaf
/-!
# Specification: what a scan of a device should find
-/

namespace Btrfscue

/-- The full blocks of a device at positive multiples of the block size after the
first superblock (64 KiB). -/
def scanBlocks (dev : Bytes) (bs : Nat) : List Bytes :=
  (List.range ((dev.length - 65536) / bs - 1)).map fun j =>
    (dev.drop (65536 + bs * (j + 1))).take bs

/-- A non-empty leaf (level 0) of the file system `id`. -/
def leafOf (id : UUID) (b : Bytes) : Prop :=
  ∃ (hdr : HeaderRec) (rest : Bytes), b = hdr.layout ++ rest ∧ hdr.fsid = id ∧ hdr.level = 0 ∧
    hdr.nrItems ≠ 0

/-- Byte `b[i..j)`. -/
def slice (b : Bytes) (i j : Nat) : Bytes := (b.take j).drop i

/-- Start of the payload recorded in an item header; the code adds in 32 bits. -/
def ItemRec.start (r : ItemRec) : Nat := (101 + r.offset.toNat) % 2 ^ 32
/-- End of the payload; clipped to the block. -/
def ItemRec.stop (r : ItemRec) (b : Bytes) : Nat :=
  min ((r.start + r.size.toNat) % 2 ^ 32) b.length

/-- Item `i` of the leaf block `b`, with item header `r`. The number of items is
clipped to a 25th of the block. -/
def blockItemRec (b : Bytes) (i : Nat) (hdr : HeaderRec) (r : ItemRec) : Prop :=
  ∃ pre post, b = hdr.layout ++ (pre ++ (r.layout ++ post)) ∧ pre.length = 25 * i ∧
    i < hdr.nrItems.toNat ∧ i < b.length / 25

/-- The leaf block `b` holds value `x` (item header and payload) for version `v`, as
its item `i`. -/
def blockItem (b : Bytes) (i : Nat) (v : VKey) (x : Bytes) : Prop :=
  ∃ hdr r, blockItemRec b i hdr r ∧ v = ⟨hdr.owner, r.key, hdr.generation⟩ ∧
    x = r.layout ++ slice b r.start (r.stop b)

/-- Version `v` with value `x` is on the device in a leaf of file system `id`. -/
def onDevice (dev : Bytes) (bs : Nat) (id : UUID) (v : VKey) (x : Bytes) : Prop :=
  ∃ b ∈ scanBlocks dev bs, leafOf id b ∧ ∃ i, blockItem b i v x

/-- All item headers of the leaf block fit behind the block header, and every payload
starts no later than it ends. -/
def soundLeaf (b : Bytes) : Prop :=
  ∀ hdr rest, b = hdr.layout ++ rest → ∀ i, i < hdr.nrItems.toNat → i < b.length / 25 →
    101 + 25 * (i + 1) ≤ b.length ∧ ∀ r, blockItemRec b i hdr r → r.start ≤ r.stop b

/-- The options recon opens the index with. -/
def reconOptions (bs : UInt64) (id : UUID) : Options :=
  { blockSize := bs, fsid := id, generation := ~~~0 }

end Btrfscue
