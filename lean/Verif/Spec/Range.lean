import Verif.Spec.Session
import Verif.Spec.Layout
/-!
# Specification: what a range iteration should deliver
-/

namespace Btrfscue

/-- The stored value `x` is an intact item with payload `d`: a 25 byte item header
that records the payload's size, then the payload (of less than 4 GiB). -/
def holdsItem (x d : Bytes) : Prop :=
  ∃ (r : ItemRec) (rest : Bytes), x = r.layout ++ (d ++ rest) ∧ r.size.toNat = d.length ∧ d.length + 25 < 2 ^ 32

/-- Some version of key `k` is stored for the owner. -/
def Bucket.hasKey (b : Bucket) (o : UInt64) (k : Key) : Prop := ∃ g, b.hasVersion o k g

/-- `k0` is the first stored key of the form `(t id ?)` of the owner. -/
def Bucket.firstOf (b : Bucket) (o : UInt64) (t : UInt8) (id : UInt64) (k0 : Key) : Prop :=
  b.hasKey o k0 ∧ k0.typ = t ∧ k0.objectID = id ∧
    ∀ k, b.hasKey o k → k.typ = t → k.objectID = id → ¬ k.before k0

/-- `f` is the first stored version of any later owner. -/
def Bucket.firstAfter (b : Bucket) (o : UInt64) (f : VKey) : Prop :=
  (∃ x, b.stores f x) ∧ o < f.owner ∧ ∀ w x, b.stores w x → o < w.owner → ¬ w.before f

/-- Circumstances under which iterating the items of an owner up to key `last` is
well behaved. -/
structure Bucket.RangeOK (b : Bucket) (o : UInt64) (last : Key) : Prop where
  /-- not the owner of the index metadata -/
  ordinary : o ≠ ~~~0
  /-- no item of the owner was damaged -/
  intact : ∀ v x, b.stores v x → v.owner = o → ∃ d, holdsItem x d
  /-- no generation number is `2^64-1` -/
  noMaxGen : ∀ k, ¬ b.hasVersion o k (~~~0)
  /-- no item has the key `(2^64-256, 255, 2^64-1)` -/
  noKL : ¬ b.hasKey o KL0
  /-- the owner has an item after the range, or at least the first item stored for the
  next owner has a key that does not occur for this one -/
  closed : (∃ k, b.hasKey o k ∧ last.before k) ∨ ∀ f, b.firstAfter o f → ¬ b.hasKey o f.key

/-- Key `k` is reached by an iteration that starts at key `k0` with generation `g0`
and ends at `last`: it lies in between, and every stored key of the owner from `k0` up
to `k` has a version of generation `g0`. -/
def Bucket.inRun (b : Bucket) (o : UInt64) (k0 : Key) (g0 : UInt64) (last : Key) (G : UInt64)
    (k : Key) : Prop :=
  ¬ k.before k0 ∧ ¬ (VKey.mk o last G).before ⟨o, k, g0⟩ ∧
    ∀ k', b.hasKey o k' → ¬ k'.before k0 → ¬ k.before k' → b.hasVersion o k' g0

/-- What iterating `RangeAll(o, t, id)` on an index open for reading gets to: generation `g` is
the newest of the first stored key `(id t ?)`, and all of these keys up to `off` have a version
of it. -/
def Bucket.runVersion (b : Bucket) (o : UInt64) (t : UInt8) (id off g : UInt64) : Prop :=
  (∃ off0, b.newest o ⟨id, t, off0⟩ g ∧ ∀ off', b.hasKey o ⟨id, t, off'⟩ → off0 ≤ off') ∧
    ∀ off', b.hasKey o ⟨id, t, off'⟩ → off' ≤ off → b.hasVersion o ⟨id, t, off'⟩ g

/-- Iterating `ix.Range(owner, first, last)`: keys and payloads in the order visited. -/
def rangeItems (fuel : Nat) (ix : Ix) (o : UInt64) (first last : Key) :
    Go (List (Bytes × Bytes)) := do
  Range.collect fuel (← ix.range o first last)

/-- Iterating `ix.RangeAll(owner, t, id)`. -/
def rangeAllItems (fuel : Nat) (ix : Ix) (o : UInt64) (t : UInt8) (id : UInt64) :
    Go (List (Bytes × Bytes)) := do
  Range.collect fuel (← ix.rangeAll o t id)

/-- Iterating `ix.Subvolumes()`. -/
def subvolumeItems (fuel : Nat) (ix : Ix) : Go (List (Bytes × Bytes)) := do
  Range.collect fuel (← ix.subvolumes)

/-- Iterating a full range. -/
def fullRangeItems (fuel : Nat) (ix : Ix) : Go (List (Bytes × Bytes)) := do
  FullRange.collect fuel (← ix.fullRange)

end Btrfscue
