import Verif.Spec.MountCrash
import Mathlib.Logic.Relation
/-!
# Specification: items that a listing survives
-/

namespace Btrfscue

/-- The newest inode item is cut off before the end of the change time (136 of 160 bytes). -/
def Bucket.lsTorn (b : Bucket) (o ino : UInt64) : Prop :=
  ∃ d, b.nowData o ⟨ino, 1, 0⟩ d ∧ d.length < 136

/-- One of the entries of the directory ends before its name does, or leads to an inode item that
is cut off. -/
def Bucket.lsBad (b : Bucket) (o dir : UInt64) : Prop :=
  ∃ off d, b.seenData o 84 dir off d ∧ (¬ named d ∨ ∃ e n, namedBy d e n ∧ b.lsTorn o e.location.objectID)

/-- The directory `dir` has an entry for the directory `d'`, in the same tree (which is what ls
takes it for). -/
def Bucket.lsChild (b : Bucket) (o d' dir : UInt64) : Prop :=
  ∃ off d e n, b.seenData o 84 dir off d ∧ namedBy d e n ∧ e.typ = 2 ∧ e.location.objectID = d'

/-- `d'` is `dir` or somewhere below it. -/
def Bucket.lsBelow (b : Bucket) (o d' dir : UInt64) : Prop := Relation.ReflTransGen (b.lsChild o) d' dir

end Btrfscue
