import Verif.Spec.Range
import Verif.Spec.Crc
import Verif.Model.Path
/-!
# Specification: directory entries and paths
-/

namespace Btrfscue

/-- The names joined by slashes. -/
def joinPath : List Bytes → Bytes
  | [] => []
  | [n] => n
  | n :: r => n ++ 47 :: joinPath r

/-- `d` is the payload of a stored directory item of directory `dir` of tree `o`. -/
def Bucket.dirItem (b : Bucket) (o dir : UInt64) (d : DirItem) : Prop :=
  ∃ off g x, b.stores ⟨o, ⟨dir, 84, off⟩, g⟩ x ∧ Item.data ⟨x, []⟩ = .ok d

/-- Where an entry leads: an entry of type ROOT_ITEM (132) to directory 256 of the
tree it names, any other to its object in the same tree. -/
def target (o : UInt64) (loc : Key) : UInt64 × UInt64 :=
  if loc.typ = 132 then (loc.objectID, 256) else (o, loc.objectID)

/-- Following directory items whose `Name()` is the next name, along their
`Location()`, from directory `dir` of tree `o` ends at the item `d`. -/
inductive Bucket.PathTo (b : Bucket) : UInt64 → UInt64 → List Bytes → DirItem → Prop
  | last {o dir d n} : b.dirItem o dir d → DirItem.name d = .ok n → PathTo b o dir [n] d
  | step {o dir d n loc rest d'} : b.dirItem o dir d → DirItem.name d = .ok n →
      DirItem.location d = .ok loc → PathTo b (target o loc).1 (target o loc).2 rest d' →
      PathTo b o dir (n :: rest) d'

/-- Circumstances under which listing directories is well behaved. -/
structure Bucket.DirsOK (b : Bucket) : Prop where
  /-- no item has the key `(2^64-256, 255, 2^64-1)` -/
  noKL : ∀ o, o ≠ ~~~0 → ¬ b.hasKey o KL0
  /-- ranges over stored directories are well behaved -/
  ranges : ∀ o k, o ≠ ~~~0 → b.hasKey o k → k.typ = 84 → b.RangeOK o (KL2 84 k.objectID)
  /-- no directory entry claims that the index metadata is a subvolume -/
  noMetaTree : ∀ o dir d loc, o ≠ ~~~0 → b.dirItem o dir d → DirItem.location d = .ok loc →
    loc.typ = 132 → loc.objectID ≠ ~~~0

/-- A directory item payload that is not cut short: header, name (of at most 255
bytes), anything. -/
def wholeEntry (p : Bytes) : Prop :=
  ∃ (e : DirItemRec) (name rest : Bytes), p = e.layout ++ (name ++ rest) ∧
    e.nameLen.toNat = name.length ∧ name.length ≤ 255

/-- The newest version of the directory item stored under the hash of `name` starts
with the entry `e` called `name`; `p` is its payload. -/
def Bucket.hashedEntry (b : Bucket) (o dir : UInt64) (name : Bytes) (e : DirItemRec) (p : Bytes) : Prop :=
  ∃ g x rest, b.newest o ⟨dir, 84, (NameHash name).toUInt64⟩ g ∧
    b.stores ⟨o, ⟨dir, 84, (NameHash name).toUInt64⟩, g⟩ x ∧ holdsItem x p ∧
    p = e.layout ++ (name ++ rest) ∧ e.nameLen.toNat = name.length ∧ name.length ≤ 255

/-- Following such entries ends at the entry with payload `p`. -/
inductive Bucket.HashedPath (b : Bucket) : UInt64 → UInt64 → List Bytes → Bytes → Prop
  | last {o dir n e p} : o ≠ ~~~0 → b.hashedEntry o dir n e p → HashedPath b o dir [n] p
  | step {o dir n e p rest p'} : o ≠ ~~~0 → b.hashedEntry o dir n e p →
      HashedPath b (target o e.location).1 (target o e.location).2 rest p' →
      HashedPath b o dir (n :: rest) p'

end Btrfscue
