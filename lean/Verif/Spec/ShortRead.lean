import Verif.Spec.ExtentFile
/-!
# Specification: how much a read across extents yields
-/

namespace Btrfscue

/-- Each extent starts where the one before it ends, and none is empty. -/
def Abutting : List ExtentMapEntry → Prop
  | [] => True
  | [e] => 0 < e.length.toNat
  | e :: x :: r => 0 < e.length.toNat ∧ x.fileOffset.toNat = e.fileEnd ∧ Abutting (x :: r)

/-- The number of bytes a read of `L` bytes yields if the ends of the extents from there
on are at distances `ends` from its start and `b` is the distance of the end of the
extents already read. What was already read counts twice: once as read, and once more as
distance from the start, so an extent is only read up to its end if both ends together
do not exceed `L`. -/
def bytesGot (L : Nat) : Nat → List Nat → Nat
  | b, [] => b
  | b, x :: r => if b + x ≤ L then bytesGot L x r else max b (L - b)

end Btrfscue
