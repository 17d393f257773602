import Verif.Spec.MountCrash
import Verif.Spec.Recover
/-!
# Specification: damage that recover does not survive
-/

namespace Btrfscue

/-- The payload of an inode item contains the size (bytes 16 to 23), and it is less than `2^63`. -/
def sizeThere (d : Bytes) : Prop :=
  ∃ front size rest, d = front ++ (le64 size ++ rest) ∧ front.length = 16 ∧ size.toNat < 2 ^ 63

/-- The payload of the extent item of a symbolic link is complete; if there is an address in it,
there is a chunk to find it with, and the target is no longer than `2^48` bytes. -/
def Bucket.soundTarget (b : Bucket) (d : Bytes) : Prop :=
  ∃ p : Piece, p.heldBy d ∧ ∀ f, p = .raw f → f.diskByteNr ≠ 0 →
    f.numBytes.toNat ≤ 2 ^ 48 ∧ ∃ start s, b.chunkSeen start s

/-- Something is wrong with the items of the file with inode `i`: the newest inode item does not
have a (reasonable) size, or an extent item is damaged. -/
def Bucket.fileBad (b : Bucket) (o i : UInt64) : Prop :=
  (∃ d, b.nowData o ⟨i, 1, 0⟩ d ∧ ¬ sizeThere d) ∨ ∃ off d, b.seenData o 108 i off d ∧ ¬ b.soundExtent d

/-- Something is wrong with the extent item of the symbolic link with inode `i`. -/
def Bucket.linkBad (b : Bucket) (o i : UInt64) : Prop :=
  ∃ d, b.nowData o ⟨i, 108, 0⟩ d ∧ ¬ b.soundTarget d

/-- Directory `dir` of tree `o` has what may end a run of recover: an entry ends before its name
does, or an entry with a name that is not skipped leads to a file (type 1) or symbolic link (type 7) with
damaged items. -/
def Bucket.dirBad (b : Bucket) (o dir : UInt64) : Prop :=
  ∃ off d, b.seenData o 84 dir off d ∧
    (¬ named d ∨ ∃ e n, namedBy d e n ∧ (n ≠ [46] ∧ n ≠ [46, 46] ∧ 47 ∉ n ∧ 92 ∉ n) ∧
      (e.typ = 1 ∧ b.fileBad o e.location.objectID ∨ e.typ = 7 ∧ b.linkBad o e.location.objectID))

/-- The items are stored as recon does, and what there is to iterate over can be iterated over.
What the items contain does not matter. -/
structure Bucket.Runnable (b : Bucket) : Prop where
  exact : ∀ v x, b.stores v x → v.owner ≠ ~~~0 → ∃ d, holdsExactly x d
  ranges : b.RecoverOK
  chunks : b.RangeOK 3 (KL2 228 256)

end Btrfscue
