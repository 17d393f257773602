import Verif.Spec.History
/-!
# Specification: whole sessions on an index file
-/

namespace Btrfscue

/-- Open the index for writing, perform a history, close it. The result is the file
afterwards and the error, if any. -/
def writeSession (f : DBFile) (o : Options) (ops : List IxOp) : Go (DBFile × Option IxErr) := do
  match ← Open f o with
  | (f', .error e) => return (f', some e)
  | (_, .ok ix) =>
    match ← ix.run ops with
    | (ix', err) => return (← ix'.close, err)

/-- Open the index for writing, perform a history, then crash: the file holds what
was durable. -/
def crashSession (f : DBFile) (o : Options) (ops : List IxOp) : Go DBFile := do
  match ← Open f o with
  | (f', .error _) => return f'
  | (_, .ok ix) => return .db (← ix.run ops).1.disk

/-- The file is a database holding exactly the effect of a history on a fresh index
made with options `o`: for every version the value inserted last, plus the index
metadata. -/
def DBFile.holds (f : DBFile) (o : Options) (ops : List IxOp) : Prop :=
  ∃ b, f = .db (some b) ∧ b.Pairwise (fun x y => bytesLt x.1 y.1 = true) ∧
    (∀ e ∈ b, ∃ v : VKey, e.1 = v.encode) ∧
    ∀ v x, b.stores v x ↔ (lastValue ops v = some x ∨
      (lastValue ops v = none ∧ v = metadataVersionKey ∧ x = newIndexMetadata o))

/-- The file does not hold an index yet. -/
def DBFile.fresh (f : DBFile) : Prop := f = .absent ∨ f = .db none ∨ f = .db (some [])

/-- The history never inserts under the key of the index metadata. (No tree has
owner `2^64-1`.) -/
def sparesMetadata (ops : List IxOp) : Prop := lastValue ops metadataVersionKey = none

/-- All versions inserted in a history, in order. -/
def versionsOf : List IxOp → List VKey
  | [] => []
  | .commit :: r => versionsOf r
  | .insert i :: r => i.version :: versionsOf r

end Btrfscue
