import Verif.Spec.LsCrash
import Verif.Spec.Path
/-!
# Specification: items that a path lookup survives
-/

namespace Btrfscue

/-- The payload `d` is that of an entry with this name; if it is not the last name of the path, the entry of a directory. -/
def wantedBy (d : Bytes) (e : DirItemRec) (name : Bytes) (last : Bool) : Prop := namedBy d e name ∧ (last = true ∨ e.typ = 2)

/-- Looking for one name of a path in directory `dir` gets to an entry that ends before its name does: the newest item under the
hash of the name is one, or, if that is not there or has another name, iterating over the directory gets to one before it gets
to an entry with the name. -/
def Bucket.lookupTorn (b : Bucket) (o dir : UInt64) (name : Bytes) (last : Bool) : Prop :=
  (∃ d, b.nowData o ⟨dir, 84, (NameHash name).toUInt64⟩ d ∧ ¬ named d) ∨
  ((∀ d e, b.nowData o ⟨dir, 84, (NameHash name).toUInt64⟩ d → ¬ namedBy d e name) ∧
    ∃ off d, b.seenData o 84 dir off d ∧ ¬ named d ∧
      ∀ off' d' e, b.seenData o 84 dir off' d' → wantedBy d' e name last → off < off')

/-- Looking for one name of a path in directory `dir` gets to the entry `e` with that name, and to none that is cut off before. -/
def Bucket.lookupMeets (b : Bucket) (o dir : UInt64) (name : Bytes) (last : Bool) (e : DirItemRec) : Prop :=
  (∃ d, b.nowData o ⟨dir, 84, (NameHash name).toUInt64⟩ d ∧ namedBy d e name) ∨
  ((∀ d, b.nowData o ⟨dir, 84, (NameHash name).toUInt64⟩ d → named d ∧ ∀ e', ¬ namedBy d e' name) ∧
    ∃ off d, b.seenData o 84 dir off d ∧ wantedBy d e name last ∧
      ∀ off' d', b.seenData o 84 dir off' d' → off' < off → named d' ∧ ∀ e', ¬ wantedBy d' e' name last)

/-- Looking up the names, from directory `dir` of tree `o`, gets to an entry that is cut off. -/
inductive Bucket.lookupCrash (b : Bucket) : UInt64 → UInt64 → List Bytes → Prop
  | here {o dir n rest} : b.lookupTorn o dir n rest.isEmpty → lookupCrash b o dir (n :: rest)
  | later {o dir n rest e} : b.lookupMeets o dir n rest.isEmpty e →
      lookupCrash b (target o e.location).1 (target o e.location).2 rest → lookupCrash b o dir (n :: rest)

/-- Looking up the names, from directory `dir` of tree `o`, gets to the entry `e` with the last name. -/
inductive Bucket.lookupEnds (b : Bucket) : UInt64 → UInt64 → List Bytes → DirItemRec → Prop
  | last {o dir n e} : b.lookupMeets o dir n true e → lookupEnds b o dir [n] e
  | step {o dir n n' rest e e'} : b.lookupMeets o dir n false e →
      lookupEnds b (target o e.location).1 (target o e.location).2 (n' :: rest) e' → lookupEnds b o dir (n :: n' :: rest) e'

/-- The argument of `ls` leads to the directory `d`. -/
def Bucket.lsTarget (b : Bucket) (p : Bytes) (d : UInt64) : Prop :=
  (goClean p = [47] ∧ d = 256) ∨
  (goClean p ≠ [47] ∧ ∃ e, b.lookupEnds 5 256 (pathComps (goClean p)) e ∧ e.typ = 2 ∧ e.location.objectID = d)

/-- The argument of `ls` leads to a directory that is bad, to an entry that is cut off, or to another entry whose inode item is
cut off. -/
def Bucket.lsArgBad (b : Bucket) (bad : UInt64 → Prop) (p : Bytes) : Prop :=
  (∃ d, b.lsTarget p d ∧ bad d) ∨
  (goClean p ≠ [47] ∧ (b.lookupCrash 5 256 (pathComps (goClean p)) ∨
    ∃ e, b.lookupEnds 5 256 (pathComps (goClean p)) e ∧ e.typ ≠ 2 ∧ b.lsTorn 5 e.location.objectID))

end Btrfscue
