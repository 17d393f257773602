import Verif.Spec.Pieces
/-!
# Specification: extent items that recover survives
-/

namespace Btrfscue

/-- Iterating over the extents of inode `ino` gets to an item at file offset `off` with the
payload `d`, stored as recon stores items. -/
def Bucket.extentData (b : Bucket) (o ino off : UInt64) (d : Bytes) : Prop :=
  ∃ g x, b.runVersion o 108 ino off g ∧ b.stores ⟨o, ⟨ino, 108, off⟩, g⟩ x ∧ holdsExactly x d

/-- The payload `d` of an extent item is complete; if it is a hole, this is no longer than
`2^48` bytes; if it has an address, there is a chunk to find it with. -/
def Bucket.soundExtent (b : Bucket) (d : Bytes) : Prop :=
  ∃ p : Piece, p.heldBy d ∧ ∀ f, p = .raw f →
    (f.diskByteNr = 0 → f.numBytes.toNat ≤ 2 ^ 48) ∧ (f.diskByteNr ≠ 0 → ∃ start s, b.chunkSeen start s)

end Btrfscue
