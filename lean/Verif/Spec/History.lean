import Verif.Spec.Store
import Verif.Model.IndexDB
/-!
# Specification: histories of index operations
-/

namespace Btrfscue

/-- One `InsertItem` call: block header, BTRFS key, 25 byte item header and payload.
`owner` and `gen` are what the block header says. -/
structure Ins where
  h : Header
  key : Key
  item : Bytes
  data : Bytes
  owner : UInt64
  gen : UInt64
  owner_ok : Header.owner h = .ok owner
  gen_ok : Header.generation h = .ok gen
  item_len : item.length = 25

/-- The version an insert writes. -/
def Ins.version (i : Ins) : VKey := ⟨i.owner, i.key, i.gen⟩
/-- The value an insert writes. -/
def Ins.value (i : Ins) : Bytes := i.item ++ i.data

/-- Operations on a writable index. -/
inductive IxOp where
  | insert (i : Ins)
  | commit

/-- Performing one operation. -/
def Index.step (ix : Index) : IxOp → Go (Index × Option IxErr)
  | .insert i => ix.insertItem i.key i.h i.item i.data
  | .commit => .ok ix.commit

/-- Performing a history; stops at the first error. -/
def Index.run (ix : Index) : List IxOp → Go (Index × Option IxErr)
  | [] => .ok (ix, none)
  | op :: ops => do
    match ← ix.step op with
    | (ix', none) => ix'.run ops
    | (ix', some e) => return (ix', some e)

/-- The value most recently inserted for a version in a history. -/
def lastValue : List IxOp → VKey → Option Bytes
  | [], _ => none
  | .commit :: r, v => lastValue r v
  | .insert i :: r, v =>
    match lastValue r v with
    | some x => some x
    | none => if i.version = v then some i.value else none

/-- Generation `g` of `(o, k)` was inserted in the history and no newer one. -/
def newestInserted (ops : List IxOp) (o : UInt64) (k : Key) (g : UInt64) : Prop :=
  (lastValue ops ⟨o, k, g⟩ ≠ none) ∧ ∀ g', lastValue ops ⟨o, k, g'⟩ ≠ none → g' ≤ g

/-- The version under which the index keeps its own metadata. -/
def metadataVersionKey : VKey := ⟨~~~0, KL0, ~~~0⟩

/-- Number of inserts in a history. -/
def insertCount : List IxOp → Nat
  | [] => 0
  | .commit :: r => insertCount r
  | .insert _ :: r => insertCount r + 1

end Btrfscue
