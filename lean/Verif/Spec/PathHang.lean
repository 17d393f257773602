import Verif.Spec.RecoverHang
import Verif.Spec.Path
/-!
# Specification: where the names of a path lead, on any index
-/

namespace Btrfscue

/-- `e` is an entry with this name, found under the hash of the name in directory `d` of tree `o`, or by iterating over the entries
of the directory. -/
def Ix.findsEntry (ix : Ix) (o d : UInt64) (name : Bytes) (e : DirItem) : Prop :=
  DirItem.name e = .ok name ∧
  ((∃ v, ix.findItem o ⟨d, 84, (NameHash name).toUInt64⟩ = .ok (some v) ∧ Item.data v = .ok e) ∨
    ∃ rd rd', ix.dirItems o d = .ok rd ∧ Range.Gets rd rd' ∧ rd'.2 = e)

/-- Such entries with these names lead from directory `d` of tree `o` to directory `d'` of tree `o'`. -/
inductive Ix.Leads (ix : Ix) : UInt64 → UInt64 → List Bytes → UInt64 → UInt64 → Prop
  | nil {o d : UInt64} : Leads ix o d [] o d
  | cons {o d : UInt64} {n : Bytes} {e : DirItem} {k : Key} {rest : List Bytes} {o' d' : UInt64} : ix.findsEntry o d n e →
      DirItem.location e = .ok k → Leads ix (target o k).1 (target o k).2 rest o' d' → Leads ix o d (n :: rest) o' d'

/-- There is no item under the hash of the name in directory `d` of tree `o`, or it is an entry with another name. -/
def Ix.missesHash (ix : Ix) (o d : UInt64) (name : Bytes) : Prop :=
  ix.findItem o ⟨d, 84, (NameHash name).toUInt64⟩ = .ok none ∨
  ∃ v e n, ix.findItem o ⟨d, 84, (NameHash name).toUInt64⟩ = .ok (some v) ∧ Item.data v = .ok e ∧ DirItem.name e = .ok n ∧ n ≠ name

/-- The entry has another name, or, if this is not the last name of the path, is not for a directory. -/
def passedOver (name : Bytes) (last : Bool) (e : DirItem) : Prop :=
  ∃ n, DirItem.name e = .ok n ∧ (n = name → last = false ∧ DirItem.isDir e = .ok false)

/-- The loop `for ; r.HasNext(); r.Next()` started at the first argument gets to the second, where all entries before are passed over. -/
inductive Range.Passes (name : Bytes) (last : Bool) : Range × Slice → Range × Slice → Prop
  | here {rd : Range × Slice} : rd.1.hasNext = true → Passes name last rd rd
  | next {rd rd' rd'' : Range × Slice} : rd.1.hasNext = true → passedOver name last rd.2 → rd.1.next = .ok rd' →
      Passes name last rd' rd'' → Passes name last rd rd''

/-- Looking for one name of a path takes the entry `e`: the one under the hash of the name, or else the first with that name that
iterating over the directory gets to — unless it is the last name of the path, of a directory. -/
def Ix.picks (ix : Ix) (o d : UInt64) (name : Bytes) (last : Bool) (e : DirItem) : Prop :=
  DirItem.name e = .ok name ∧
  ((∃ v, ix.findItem o ⟨d, 84, (NameHash name).toUInt64⟩ = .ok (some v) ∧ Item.data v = .ok e) ∨
    (ix.missesHash o d name ∧ ∃ t, DirItem.isDir e = .ok t ∧ (t = true ∨ last = true) ∧
      ∃ rd rd', ix.dirItems o d = .ok rd ∧ Range.Passes name last rd rd' ∧ rd'.2 = e))

/-- Looking for one name of a path goes on forever: it is not found by its hash, and iterating over the directory is endless and
passes over all entries it gets to. -/
def Ix.stuck (ix : Ix) (o d : UInt64) (name : Bytes) (last : Bool) : Prop :=
  ix.missesHash o d name ∧ ∃ rd, ix.dirItems o d = .ok rd ∧ Range.Endless rd ∧ ∀ rd', Range.Gets rd rd' → passedOver name last rd'.2

/-- Looking up the names from directory `d` of tree `o` gets to a name where that is so. -/
inductive Ix.PathStuck (ix : Ix) : UInt64 → UInt64 → List Bytes → Prop
  | here {o d : UInt64} {n : Bytes} {rest : List Bytes} : ix.stuck o d n rest.isEmpty → PathStuck ix o d (n :: rest)
  | later {o d : UInt64} {n : Bytes} {rest : List Bytes} {e : DirItem} {k : Key} : ix.picks o d n rest.isEmpty e →
      DirItem.location e = .ok k → PathStuck ix (target o k).1 (target o k).2 rest → PathStuck ix o d (n :: rest)

/-- Looking up the names from directory `d` of tree `o` ends with the entry `e`. -/
inductive Ix.PathEnds (ix : Ix) : UInt64 → UInt64 → List Bytes → DirItem → Prop
  | last {o d : UInt64} {n : Bytes} {e : DirItem} {k : Key} : ix.picks o d n true e → DirItem.location e = .ok k →
      PathEnds ix o d [n] e
  | step {o d : UInt64} {n n' : Bytes} {rest : List Bytes} {e e' : DirItem} {k : Key} : ix.picks o d n false e →
      DirItem.location e = .ok k → PathEnds ix (target o k).1 (target o k).2 (n' :: rest) e' → PathEnds ix o d (n :: n' :: rest) e'

/-- The argument of `ls` leads to directory `d` of the main tree. -/
def Ix.lsLeads (ix : Ix) (p : Bytes) (d : UInt64) : Prop :=
  (goClean p = [47] ∧ d = 256) ∨
  (goClean p ≠ [47] ∧ ∃ e k, ix.PathEnds 5 256 (pathComps (goClean p)) e ∧ DirItem.isDir e = .ok true ∧
    DirItem.location e = .ok k ∧ k.objectID = d)

end Btrfscue
