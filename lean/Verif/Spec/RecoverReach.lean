import Verif.Spec.Recover
/-!
# Specification: the entries recover should reach
-/

namespace Btrfscue

/-- The states in which the body of a loop `for r, v := ...; r.HasNext(); v = r.Next()` runs. -/
inductive Range.Visits : Range × Slice → Range × Slice → Prop
  | here {rd : Range × Slice} : rd.1.hasNext = true → Visits rd rd
  | step {rd rd' x : Range × Slice} : rd.1.hasNext = true → rd.1.next = .ok rd' → Visits rd' x → Visits rd x

/-- `ix.DirItems(o, d)` delivers the entry `di`. -/
def Ix.lists (ix : Ix) (o d : UInt64) (di : DirItem) : Prop :=
  ∃ rd r, ix.dirItems o d = .ok rd ∧ Range.Visits rd (r, di)

/-- `ix.Subvolumes()` delivers a root item of tree `o`. -/
def Ix.listsSubvolume (ix : Ix) (o : UInt64) : Prop :=
  ∃ rd x k, ix.subvolumes = .ok rd ∧ Range.Visits rd x ∧ x.1.rKey = .ok k ∧ k.objectID = o

/-- The entry has this name, type, and object it leads to. -/
def DirItem.says (di : DirItem) (name : Bytes) (t : UInt8) (loc : Key) : Prop :=
  DirItem.name di = .ok name ∧ DirItem.typ di = .ok t ∧ DirItem.location di = .ok loc

/-- Names that can be used for a file in the destination directory. -/
def usable (name : Bytes) : Prop := name ≠ dot ∧ name ≠ dotdot ∧ 47 ∉ name

/-- Directory `d` of tree `o` has its place at path `p` when recovering to `dest`: the top
directory of the main tree (5) is at `dest`; a directory listed in another one, by an
entry with a usable name without backslash, is in the place of that directory under its
name, and likewise the top directory (256) of a subvolume (an entry whose object is a tree,
key type 132); each subvolume is also at `dest/subvol_N`. -/
inductive Ix.Placed (ix : Ix) (dest : Bytes) : UInt64 → UInt64 → Bytes → Prop
  | main : Placed ix dest 5 256 dest
  | subvolume {o : UInt64} : ix.listsSubvolume o →
      Placed ix dest o 256 (goJoin dest (ascii "subvol_" ++ decimal o.toNat))
  | dir {o d p di name loc} : Placed ix dest o d p → ix.lists o d di → DirItem.says di name 2 loc → loc.typ ≠ 132 →
      usable name → 92 ∉ name → Placed ix dest o loc.objectID (goJoin p name)
  | tree {o d p di name t loc} : Placed ix dest o d p → ix.lists o d di → DirItem.says di name t loc → loc.typ = 132 →
      usable name → 92 ∉ name → Placed ix dest loc.objectID 256 (goJoin p name)

/-- No warning was printed. -/
def RecState.silent (s : RecState) : Prop := ∀ p, Ev.warn p ∉ s.log

end Btrfscue
