import Verif.Spec.Range
import Verif.Props.Items
import Verif.Model.Physical
/-!
# Specification: chunks and the addresses they map
-/

namespace Btrfscue

/-- A version of generation `g` of the chunk starting at logical address `start` is
stored (in the chunk tree, owner 3, under the key `(256, 228, start)`): with header
`c` and stripes `ss`, as many as the header says. -/
def Bucket.chunkAt (b : Bucket) (g start : UInt64) (c : ChunkRec) (ss : List StripeRec) : Prop :=
  ∃ x d rest, b.stores ⟨3, ⟨256, 228, start⟩, g⟩ x ∧ holdsItem x d ∧
    d = c.layout ++ (stripesLayout ss ++ rest) ∧ c.numStripes.toNat = ss.length

/-- All chunk items are intact and have the newest generation `g`. -/
def Bucket.ChunksOK (b : Bucket) (g : UInt64) : Prop :=
  ∀ start, b.hasKey 3 ⟨256, 228, start⟩ →
    b.newest 3 ⟨256, 228, start⟩ g ∧ ∃ c ss, b.chunkAt g start c ss

/-- Chunks do not overlap. -/
def Bucket.ChunksDisjoint (b : Bucket) (g : UInt64) : Prop :=
  ∀ a c ss a' c' ss', b.chunkAt g a c ss → b.chunkAt g a' c' ss' → a < a' →
    a.toNat + c.length.toNat ≤ a'.toNat

/-- The chunk starting at `start` is among those that iterating over the chunk tree gets to (see
`Bucket.runVersion`), in a version that has stripes, the first of which is `s`. -/
def Bucket.chunkSeen (b : Bucket) (start : UInt64) (s : StripeRec) : Prop :=
  ∃ g c ss, b.runVersion 3 228 256 start g ∧ b.chunkAt g start c (s :: ss)

/-- The chunk items that iterating over the chunk tree gets to are intact. -/
def Bucket.SeenIntact (b : Bucket) : Prop :=
  ∀ start g, b.runVersion 3 228 256 start g → b.hasVersion 3 ⟨256, 228, start⟩ g → ∃ c ss, b.chunkAt g start c ss

/-- The stored value `x` is an item header and the payload `d`, nothing else; this is how recon
stores items. -/
def holdsExactly (x d : Bytes) : Prop :=
  ∃ r : ItemRec, x = r.layout ++ d ∧ r.size.toNat = d.length ∧ d.length + 25 < 2 ^ 32

/-- Iterating over the chunk tree gets to a chunk item with the payload `d`. -/
def Bucket.chunkData (b : Bucket) (d : Bytes) : Prop :=
  ∃ start g x, b.runVersion 3 228 256 start g ∧ b.stores ⟨3, ⟨256, 228, start⟩, g⟩ x ∧ holdsExactly x d

/-- The number of stripes (bytes 44 and 45) is zero. -/
def noStripes (d : Bytes) : Prop := d[44]? = some 0 ∧ d[45]? = some 0

/-- The payload has a number of stripes, and unless this is zero, the first 16 bytes of the first
stripe (at 48). -/
def firstStripeThere (d : Bytes) : Prop := 46 ≤ d.length ∧ (noStripes d ∨ 64 ≤ d.length)

end Btrfscue
