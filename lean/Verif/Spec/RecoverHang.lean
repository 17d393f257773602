import Verif.Spec.Recover
/-!
# Specification: iterations that do not end
-/

namespace Btrfscue

/-- The loop `for ; r.HasNext(); r.Next()` goes on forever. -/
def Range.Endless (rd : Range × Slice) : Prop := ∀ n, ¬ Range.EndsIn n rd

/-- The loop `for ; r.HasNext(); r.Next()` started at the first argument gets to the second. -/
inductive Range.Gets : Range × Slice → Range × Slice → Prop
  | here {rd : Range × Slice} : rd.1.hasNext = true → Gets rd rd
  | next {rd rd' rd'' : Range × Slice} : rd.1.hasNext = true → rd.1.next = .ok rd' → Gets rd' rd'' → Gets rd rd''

/-- Iterating over directory `d` of tree `o` gets to an entry for a regular file (type 1) with inode `i`. -/
def Ix.getsFile (ix : Ix) (o d i : UInt64) : Prop :=
  ∃ rd rd' k, ix.dirItems o d = .ok rd ∧ Range.Gets rd rd' ∧ DirItem.location rd'.2 = .ok k ∧ k.objectID = i ∧
    DirItem.typ rd'.2 = .ok 1

/-- Directory `d` of tree `o` has something endless: iterating over its entries, or over the extents of a file that
iterating over its entries gets to. -/
def Ix.endlessAt (ix : Ix) (o d : UInt64) : Prop :=
  (∃ rd, ix.dirItems o d = .ok rd ∧ Range.Endless rd) ∨
  ∃ i rd, ix.getsFile o d i ∧ ix.fileExtentItems o i = .ok rd ∧ Range.Endless rd

/-- Iterating over directory `d` of tree `o` gets to an entry for a directory with object id `d'`. -/
def Ix.getsDir (ix : Ix) (o d d' : UInt64) : Prop :=
  ∃ rd rd' k, ix.dirItems o d = .ok rd ∧ Range.Gets rd rd' ∧ DirItem.isDir rd'.2 = .ok true ∧
    DirItem.location rd'.2 = .ok k ∧ k.objectID = d'

end Btrfscue
