import Verif.Spec.Seen
/-!
# Specification: what looking up a path finds, exactly
-/

namespace Btrfscue

/-- `d` is the payload of the newest version of the item under the hash of `name` in directory `dir`
of tree `o`, and starts with the entry `e` of that name. -/
def Bucket.underHash (b : Bucket) (o dir : UInt64) (name : Bytes) (e : DirItemRec) (d : Slice) : Prop :=
  ∃ g x, b.newest o ⟨dir, 84, (NameHash name).toUInt64⟩ g ∧
    b.stores ⟨o, ⟨dir, 84, (NameHash name).toUInt64⟩, g⟩ x ∧ Item.data ⟨x, []⟩ = .ok d ∧ startsEntry (Slice.data d) name e

/-- The lookup of one name of a path finds the entry `e` with payload `d`: the one under the hash of
the name; failing that, the first of the items that iterating over the directory gets to that
starts with an entry of that name — which, unless it is the last name of the path, has to be a
directory. -/
def Bucket.stepFinds (b : Bucket) (o dir : UInt64) (name : Bytes) (last : Bool) (e : DirItemRec) (d : Slice) : Prop :=
  b.underHash o dir name e d ∨
  ((∀ e' d', ¬ b.underHash o dir name e' d') ∧
    ∃ vs off, b.seenItems o 84 dir vs ∧ (off, d) ∈ vs ∧ startsEntry (Slice.data d) name e ∧ (last = true ∨ e.typ = 2) ∧
      ∀ off' d' e', (off', d') ∈ vs → startsEntry (Slice.data d') name e' → (last = true ∨ e'.typ = 2) → off ≤ off')

/-- The lookup of a path from directory `dir` of tree `o` finds the payload, or nothing. -/
inductive Bucket.PathFinds (b : Bucket) : UInt64 → UInt64 → List Bytes → Option Bytes → Prop
  | last {o dir n e d} : b.stepFinds o dir n true e d → PathFinds b o dir [n] (some (Slice.data d))
  | step {o dir n e d n' rest r} : b.stepFinds o dir n false e d →
      PathFinds b (target o e.location).1 (target o e.location).2 (n' :: rest) r → PathFinds b o dir (n :: n' :: rest) r
  | missing {o dir n rest} : (∀ e d, ¬ b.stepFinds o dir n rest.isEmpty e d) → PathFinds b o dir (n :: rest) none

/-- Following, name by name, the entries that iterating over a directory gets to (of several with
one name the last) from directory `d` of tree `o` ends at object `i` of tree `o'`, and on the way
everything has an inode item. -/
inductive Bucket.ShownAt (b : Bucket) : UInt64 → UInt64 → List Bytes → UInt64 → UInt64 → Prop
  | here {o d} : ShownAt b o d [] o d
  | step {o d vs n e rest o' i} : b.seenItems o 84 d vs → lastEntry vs n e →
      b.hasKey (target o e.location).1 ⟨(target o e.location).2, 1, 0⟩ → ShownAt b (target o e.location).1 (target o e.location).2 rest o' i → ShownAt b o d (n :: rest) o' i

end Btrfscue
