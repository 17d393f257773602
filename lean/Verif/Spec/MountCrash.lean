import Verif.Spec.FileCrash
import Verif.Spec.MountSession
import Verif.Spec.Path
/-!
# Specification: items that a mounted file system survives
-/

namespace Btrfscue

/-- Iterating over the items of type `t` of object `id` gets to one at offset `off` with the
payload `d`, stored as recon stores items. -/
def Bucket.seenData (b : Bucket) (o : UInt64) (t : UInt8) (id off : UInt64) (d : Bytes) : Prop :=
  ∃ g x, b.runVersion o t id off g ∧ b.stores ⟨o, ⟨id, t, off⟩, g⟩ x ∧ holdsExactly x d

/-- The newest version of the item under the key `k` has the payload `d`. -/
def Bucket.nowData (b : Bucket) (o : UInt64) (k : Key) (d : Bytes) : Prop :=
  ∃ g x, b.newest o k g ∧ b.stores ⟨o, k, g⟩ x ∧ holdsExactly x d

/-- The payload `d` of a directory entry or extended attribute contains all of its header `e` and
the name `n`, of which 255 bytes are taken at most. -/
def namedBy (d : Bytes) (e : DirItemRec) (n : Bytes) : Prop :=
  ∃ rest, d = e.layout ++ (n ++ rest) ∧ n.length = min e.nameLen.toNat 255

/-- The payload contains all of its header and its name. -/
def named (d : Bytes) : Prop := ∃ e n, namedBy d e n

/-- The value of an extended attribute is where the program looks for it, which computes its two
ends with 16 bits. -/
def valueThere (d : Bytes) (e : DirItemRec) : Prop :=
  (30 + e.nameLen.toNat) % 65536 ≤ (30 + e.nameLen.toNat + e.dataLen.toNat) % 65536 ∧
    (30 + e.nameLen.toNat + e.dataLen.toNat) % 65536 ≤ d.length

/-- The newest inode item is cut off before the end of the times (148 of 160 bytes). -/
def Bucket.inodeTorn (b : Bucket) (o ino : UInt64) : Prop :=
  ∃ d, b.nowData o ⟨ino, 1, 0⟩ d ∧ d.length < 148

/-- The payload of an extent item says of what type it is, and if it is inline, the data is
there. -/
def firstThere (d : Bytes) : Prop :=
  ∃ t, d[20]? = some t ∧ (t = 0 → ∃ data, (Piece.inline data).heldBy d)

/-- Every chunk item that iterating gets to has a number of stripes and, unless this is zero, its
first stripe, and one of them has stripes. -/
def Bucket.addressable (b : Bucket) : Prop :=
  (∀ d, b.chunkData d → firstStripeThere d) ∧ ∃ d, b.chunkData d ∧ ¬ noStripes d

/-- All 53 bytes of the payload of an extent item are there (of whatever type), and if there is an
address in it, the chunks are such that it can be looked up. -/
def Bucket.mappable (b : Bucket) (d : Bytes) : Prop :=
  ∃ (f : FileExtentItemRec) (rest : Bytes), d = f.layout ++ rest ∧ (f.diskByteNr ≠ 0 → b.addressable)

/-- What has to be wrong with the items for a request about inode `i` of tree `o` to end the
process. -/
def Bucket.crashes (b : Bucket) (o i : UInt64) : MountReq → Prop
  | .getAttr _ => b.inodeTorn o i
  | .openDir _ _ => ∃ off d, b.seenData o 84 i off d ∧ ¬ named d
  | .lookup _ name => (∃ off d, b.seenData o 84 i off d ∧ ¬ named d) ∨
      ∃ off d e, b.seenData o 84 i off d ∧ namedBy d e name ∧
        (∀ off' d' e', b.seenData o 84 i off' d' → namedBy d' e' name → off' ≤ off) ∧
        b.inodeTorn (target o e.location).1 (target o e.location).2
  | .open _ => ∃ off d, b.seenData o 108 i off d ∧ (∀ off' d', b.seenData o 108 i off' d' → off ≤ off') ∧
      (¬ firstThere d ∨ d[20]? ≠ some 0 ∧ ∃ off' d', b.seenData o 108 i off' d' ∧ ¬ b.mappable d')
  | .listXAttr _ => ∃ off d, b.seenData o 24 i off d ∧ ¬ named d
  | .getXAttr _ a => ∃ off d, b.seenData o 24 i off d ∧
      (∀ off' d', b.seenData o 24 i off' d' → off' < off → ∃ e n, namedBy d' e n ∧ n ≠ a) ∧
      (¬ named d ∨ ∃ e, namedBy d e a ∧ ¬ valueThere d e)
  | .readlink _ => ∃ d, b.nowData o ⟨i, 108, 0⟩ d ∧ ¬ firstThere d
  | .fileAttr _ => False
  | .read _ _ _ => False

/-- The items are stored as recon does, the ranges that belong to inode `i` and the chunks can be
iterated over, and no entry leads to the tree with the greatest id. What the items contain does not
matter. -/
structure Bucket.Askable (b : Bucket) (o i : UInt64) : Prop where
  exact : ∀ v x, b.stores v x → v.owner ≠ ~~~0 → ∃ d, holdsExactly x d
  entries : b.RangeOK o (KL2 84 i)
  xattrs : b.RangeOK o (KL2 24 i)
  extents : b.RangeOK o (KL2 108 i)
  chunks : b.RangeOK 3 (KL2 228 256)
  targets : ∀ off d e n, b.seenData o 84 i off d → namedBy d e n → (target o e.location).1 ≠ ~~~0

end Btrfscue
