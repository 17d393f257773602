import Verif.Model.IndexRead
/-!
# Logical to physical addresses (pkg/btrfs/index/index_store.go:37-44, 461-496)
-/

namespace Btrfscue

/-- pkg/btrfs/index/index_store.go:37-44 -/
structure StripeMapEntry where
  logical : UInt64
  devID : UInt64
  offset : UInt64
  deriving DecidableEq

/-- pkg/btrfs/index/index_store.go:468-478: the body of the loop that fills the
stripe map. The debug output of line 478 is left out. -/
def stripeMapBody (s : List StripeMapEntry) (r : Range) (c : Chunk) :
    Go (List StripeMapEntry × Bool) := do
  if (← Chunk.numStripes c) = 0 then return (s, false)
  else
    let st ← Chunk.stripe c 0
    let k ← r.rKey
    return (s ++ [⟨k.offset, ← Stripe.devID st, ← Stripe.offset st⟩], false)

/-- pkg/btrfs/index/index_store.go:466-479 -/
def Ix.buildStripeMap (fuel : Nat) (ix : Ix) : Go (List StripeMapEntry) := do
  let (s, _) ← rangeLoop stripeMapBody fuel [] (← ix.chunks)
  return s

/-- Go's `sort.Search` loop on `[i, j)` (trusted standard library): binary search for
the first index at which `f` holds. -/
def goSearch (f : Nat → Bool) (i j : Nat) : Nat :=
  if h : i < j then
    if f ((i + j) / 2) then goSearch f i ((i + j) / 2)
    else goSearch f ((i + j) / 2 + 1) j
  else i
termination_by j - i
decreasing_by all_goals omega

/-- pkg/btrfs/index/index_store.go:481-496: the lookup in the stripe map. An index of
-1 or past the end panics. -/
def lookupStripe (m : List StripeMapEntry) (logical : UInt64) : Go (UInt64 × UInt64) :=
  let n := m.length
  let i := goSearch (fun i => m[i]?.any fun e => decide (logical ≤ e.logical)) 0 n
  let notExact := m[i]?.all fun e => decide (e.logical ≠ logical)
  let i : Int := if i = n ∨ (0 < i ∧ notExact) then (i : Int) - 1 else i
  if i < 0 then .panic
  else
    match m[i.toNat]? with
    | none => .panic
    | some s => .ok (s.devID, s.offset + logical - s.logical)

/-- pkg/btrfs/index/index_store.go:464-496. `cache` is the field `stripeMap` (`none` =
nil); the result contains its new value. -/
def Ix.physical (fuel : Nat) (ix : Ix) (cache : Option (List StripeMapEntry)) (logical : UInt64) :
    Go (Option (List StripeMapEntry) × (UInt64 × UInt64)) := do
  let m ← match cache with
    | none => ix.buildStripeMap fuel
    | some m => .ok m
  return (some m, ← lookupStripe m logical)

end Btrfscue
