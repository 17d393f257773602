import Verif.Spec.Range
import Verif.Spec.Path
/-!
# Specification: what iterating over an object of an index gets to
-/

namespace Btrfscue

/-- `vs` are the items of type `t` of object `id` of tree `o` that iterating over them gets to —
those up to the first that lacks the generation of the first (`Bucket.runVersion`) —, with their
offsets, by ascending offset. -/
def Bucket.seenItems (b : Bucket) (o : UInt64) (t : UInt8) (id : UInt64) (vs : List (UInt64 × Slice)) : Prop :=
  vs.Pairwise (fun x y => x.1 < y.1) ∧
  ∀ off d, (off, d) ∈ vs ↔ ∃ g x, b.runVersion o t id off g ∧ b.stores ⟨o, ⟨id, t, off⟩, g⟩ x ∧ Item.data ⟨x, []⟩ = .ok d

/-- The payload `p` starts with the entry `e` called `name`. -/
def startsEntry (p : Bytes) (name : Bytes) (e : DirItemRec) : Prop :=
  ∃ rest, p = e.layout ++ (name ++ rest) ∧ e.nameLen.toNat = name.length

/-- Of the items `vs`, `e` is the entry called `name`; if there are several, the one with the
highest offset. -/
def lastEntry (vs : List (UInt64 × Slice)) (name : Bytes) (e : DirItemRec) : Prop :=
  ∃ off d, (off, d) ∈ vs ∧ startsEntry (Slice.data d) name e ∧
    ∀ off' d' e', (off', d') ∈ vs → startsEntry (Slice.data d') name e' → off' ≤ off

/-- Nothing among the items `vs` is called `name`. -/
def noEntry (vs : List (UInt64 × Slice)) (name : Bytes) : Prop :=
  ∀ off d e, (off, d) ∈ vs → ¬ startsEntry (Slice.data d) name e

/-- The inode items of a tree are intact in their newest version. -/
def Bucket.TreeInodesOK (b : Bucket) (o : UInt64) : Prop :=
  ∀ ino, b.hasKey o ⟨ino, 1, 0⟩ → ∃ g x f rest, b.newest o ⟨ino, 1, 0⟩ g ∧ b.stores ⟨o, ⟨ino, 1, 0⟩, g⟩ x ∧
    holdsItem x (InodeItemRec.layout f ++ rest)

/-- The payload `p` of an item holds the attribute `name` with the given value. -/
def holdsAttr (p name value : Bytes) : Prop :=
  ∃ (e : DirItemRec) (rest : Bytes), p = e.layout ++ (name ++ (value ++ rest)) ∧
    e.nameLen.toNat = name.length ∧ e.dataLen.toNat = value.length

/-- The payload `p` of an item is a whole attribute, short enough to fit into a node. -/
def wholeAttr (p : Bytes) : Prop :=
  ∃ (e : DirItemRec) (name value rest : Bytes), p = e.layout ++ (name ++ (value ++ rest)) ∧
    e.nameLen.toNat = name.length ∧ e.dataLen.toNat = value.length ∧ name.length ≤ 255 ∧
    30 + name.length + value.length < 65536

/-- Of the items `vs`, the first one called `name` holds the given value. -/
def firstAttr (vs : List (UInt64 × Slice)) (name value : Bytes) : Prop :=
  ∃ off d, (off, d) ∈ vs ∧ holdsAttr (Slice.data d) name value ∧
    ∀ off' d' e', (off', d') ∈ vs → startsEntry (Slice.data d') name e' → off ≤ off'

end Btrfscue
