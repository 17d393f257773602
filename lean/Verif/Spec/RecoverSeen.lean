import Verif.Spec.Pieces
import Verif.Spec.Seen
import Verif.Spec.RecoverWhole
/-!
# Specification: the tree that recover sees in an index

In terms of what is stored in the index only, whatever generations it is of.
-/

namespace Btrfscue

/-- Iterating over directory `d` of tree `o` gets to an item that starts with the entry `e` called
`name`. -/
def Bucket.entrySeen (b : Bucket) (o d : UInt64) (name : Bytes) (e : DirItemRec) : Prop :=
  ∃ off g x p, b.runVersion o 84 d off g ∧ b.stores ⟨o, ⟨d, 84, off⟩, g⟩ x ∧ holdsItem x p ∧ startsEntry p name e

/-- Iterating over the subvolumes gets to a root item of tree `o`: there is a first root item of
tree 256, its newest version is of generation `g`, and from there up to one of tree `o` all root
items have a version of that generation. -/
def Bucket.subvolumeSeen (b : Bucket) (o : UInt64) : Prop :=
  256 ≤ o ∧ o ≤ LastFreeObjectID ∧ ∃ g off off0, b.newest 1 ⟨256, 132, off0⟩ g ∧
    (∀ off', b.hasKey 1 ⟨256, 132, off'⟩ → off0 ≤ off') ∧ b.hasVersion 1 ⟨o, 132, off⟩ g ∧
    ∀ o' off', b.hasKey 1 ⟨o', 132, off'⟩ → 256 ≤ o' → (o' < o ∨ (o' = o ∧ off' ≤ off)) → b.hasVersion 1 ⟨o', 132, off'⟩ g

/-- Directory `d` of tree `o` has its place at path `p` when recovering to `dest`: the top
directory of the main tree (5) is at `dest`; a directory seen in another one, by an entry with a
usable name without backslash, is in the place of that directory under its name, likewise the top
directory (256) of a tree; each subvolume seen is also at `dest/subvol_N`. -/
inductive Bucket.SeenAt (b : Bucket) (dest : Bytes) : UInt64 → UInt64 → Bytes → Prop
  | main : SeenAt b dest 5 256 dest
  | subvolume {o : UInt64} : b.subvolumeSeen o →
      SeenAt b dest o 256 (goJoin dest (ascii "subvol_" ++ decimal o.toNat))
  | dir {o d p name e} : SeenAt b dest o d p → b.entrySeen o d name e → e.typ = 2 → e.location.typ ≠ 132 →
      usable name → 92 ∉ name → SeenAt b dest o e.location.objectID (goJoin p name)
  | tree {o d p name e} : SeenAt b dest o d p → b.entrySeen o d name e → e.location.typ = 132 →
      usable name → 92 ∉ name → SeenAt b dest e.location.objectID 256 (goJoin p name)

/-- Object `i` of tree `o` is seen as an entry of type `t` whose place is at path `q`. -/
def Bucket.ObjectAt (b : Bucket) (dest : Bytes) (t : UInt8) (o i : UInt64) (q : Bytes) : Prop :=
  ∃ d p name e, b.SeenAt dest o d p ∧ b.entrySeen o d name e ∧ e.typ = t ∧ e.location.typ ≠ 132 ∧ e.location.objectID = i ∧
    usable name ∧ 92 ∉ name ∧ q = goJoin p name

/-- The program can iterate over the index, the chunk items and directory items it gets to are
intact, and different things have different places: no entry has an empty name, entries of one
name in one directory are of one type and lead to the same object, and the top directory has no
entry called `subvol_N` like one of the subvolumes. -/
structure Bucket.TreeReadable (b : Bucket) (dest : Bytes) : Prop where
  ends : b.RecoverOK
  noKL : ∀ o, o ≠ ~~~0 → ¬ b.hasKey o KL0
  chunkRange : b.RangeOK 3 (KL2 228 256)
  chunks : b.SeenIntact
  dirs : ∀ o d p off g x, b.SeenAt dest o d p → b.runVersion o 84 d off g → b.stores ⟨o, ⟨d, 84, off⟩, g⟩ x →
    ∃ y, holdsItem x y ∧ wholeEntry y
  trees : ∀ o d p name e, b.SeenAt dest o d p → b.entrySeen o d name e → e.location.typ = 132 → e.location.objectID ≠ ~~~0
  nonempty : ∀ o d p e, b.SeenAt dest o d p → ¬ b.entrySeen o d [] e
  once : ∀ o d p name e e', b.SeenAt dest o d p → b.entrySeen o d name e → b.entrySeen o d name e' →
    e.typ = e'.typ ∧ e.location = e'.location
  reserved : ∀ o e, b.subvolumeSeen o → ¬ b.entrySeen 5 256 (ascii "subvol_" ++ decimal o.toNat) e

/-- `t` is the target of the link: the data in the newest version of its item at offset 0, of
which no more than 16 KiB are taken. -/
def Bucket.targetSeen (b : Bucket) (o i : UInt64) (t : Bytes) : Prop :=
  o ≠ ~~~0 ∧ ∃ g x d, b.newest o ⟨i, 108, 0⟩ g ∧ b.stores ⟨o, ⟨i, 108, 0⟩, g⟩ x ∧ holdsItem x d ∧ Piece.heldBy (.inline t) d

/-- All that is seen can be recovered: the paths are such that the host accepts them, files can be
read and are on the device, links have a target the host accepts. -/
structure Bucket.SeenRecoverable (b : Bucket) (D : Bytes) (dest : Bytes) : Prop where
  destName : 0 ∉ dest
  dirs : ∀ o d p, b.SeenAt dest o d p → 0 ∉ p ∧ p.length < 4096
  files : ∀ o i q, b.ObjectAt dest 1 o i q → (0 ∉ q ∧ q.length < 4096) ∧ b.PiecesOnDevice o i D ∧ ∃ size, b.FileReadable o i size
  links : ∀ o i q, b.ObjectAt dest 7 o i q → (0 ∉ q ∧ q.length < 4096) ∧
    ∃ x, b.targetSeen o i x ∧ x ≠ [] ∧ 0 ∉ x ∧ x.length < 4096

end Btrfscue
