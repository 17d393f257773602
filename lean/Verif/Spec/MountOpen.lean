import Verif.Spec.Physical
import Verif.Spec.ExtentFile
/-!
# Specification: the stored extents of a file
-/

namespace Btrfscue

/-- A version of generation `g` of the extent item of inode `ino` at file offset `off`
is stored, intact and of the form a regular extent has, with header `f`. -/
def Bucket.extentAt (b : Bucket) (o ino g off : UInt64) (f : FileExtentItemRec) : Prop :=
  ∃ x d rest, b.stores ⟨o, ⟨ino, 108, off⟩, g⟩ x ∧ holdsItem x d ∧ d = f.layout ++ rest

/-- The device and physical address that the chunks of generation `g` give for a disk
address: those in the first stripe of the chunk it lies in; 0 for a hole. -/
def Bucket.translated (b : Bucket) (g dbn dev phys : UInt64) : Prop :=
  (dbn = 0 ∧ dev = 0 ∧ phys = 0) ∨
  (dbn ≠ 0 ∧ ∃ start c s ss, b.chunkAt g start c (s :: ss) ∧ start ≤ dbn ∧
    dbn.toNat < start.toNat + c.length.toNat ∧ dev = s.devID ∧ phys = s.offset + (dbn - start))

/-- Circumstances under which the extents of a file are well behaved: one generation,
none inline, all intact, disk addresses in known chunks. -/
structure Bucket.FileOK (b : Bucket) (o ino g gc : UInt64) : Prop where
  range : b.RangeOK o (KL2 108 ino)
  newest : ∀ off, b.hasKey o ⟨ino, 108, off⟩ → b.newest o ⟨ino, 108, off⟩ g
  intact : ∀ off, b.hasKey o ⟨ino, 108, off⟩ → ∃ f, b.extentAt o ino g off f ∧ f.typ ≠ 0 ∧
    ∃ dev phys, b.translated gc f.diskByteNr dev phys

/-- Circumstances under which addresses can be translated (see C36). -/
structure Bucket.AddrOK (b : Bucket) (gc : UInt64) : Prop where
  range : b.RangeOK 3 (KL2 228 256)
  chunks : b.ChunksOK gc
  disjoint : b.ChunksDisjoint gc

/-- The device and physical address the program uses for a disk address: 0 for a hole;
otherwise those in the first stripe of a chunk that iterating over the chunk tree gets to
(`Bucket.chunkSeen`): of the last one that starts at or before the address or, if none
does, of the first one. -/
def Bucket.placed (b : Bucket) (dbn dev phys : UInt64) : Prop :=
  (dbn = 0 ∧ dev = 0 ∧ phys = 0) ∨
  (dbn ≠ 0 ∧ ∃ start s, b.chunkSeen start s ∧ dev = s.devID ∧ phys = s.offset + (dbn - start) ∧
    ((start ≤ dbn ∧ ∀ start' s', b.chunkSeen start' s' → start' ≤ dbn → start' ≤ start) ∨
     (dbn < start ∧ ∀ start' s', b.chunkSeen start' s' → start ≤ start')))

/-- The extent item of inode `ino` at file offset `off`, in the version that iterating over
the file's extents gets to (`Bucket.runVersion`), holds `f`. -/
def Bucket.extentSeen (b : Bucket) (o ino off : UInt64) (f : FileExtentItemRec) : Prop :=
  ∃ g, b.runVersion o 108 ino off g ∧ b.extentAt o ino g off f

/-- The extent items that iterating over the file's extents gets to are intact and not
inline, and if one of them is not a hole, there is a chunk. -/
def Bucket.ExtentsIntact (b : Bucket) (o ino : UInt64) : Prop :=
  ∀ off g, b.runVersion o 108 ino off g → b.hasVersion o ⟨ino, 108, off⟩ g →
    ∃ f, b.extentAt o ino g off f ∧ f.typ ≠ 0 ∧ (f.diskByteNr ≠ 0 → ∃ start s, b.chunkSeen start s)

end Btrfscue
