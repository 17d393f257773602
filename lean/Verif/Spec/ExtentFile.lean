import Verif.Model.ExtentFile
/-!
# Specification: the bytes of an extent backed file
-/

namespace Btrfscue

/-- Where an extent ends in the file. -/
def ExtentMapEntry.fileEnd (e : ExtentMapEntry) : Nat := e.fileOffset.toNat + e.length.toNat

/-- The extent holds byte `p` of the file. -/
def ExtentMapEntry.covers (e : ExtentMapEntry) (p : Nat) : Prop := e.fileOffset.toNat ≤ p ∧ p < e.fileEnd

/-- Byte `p` of the file with extents `m` on device `D` is `v`: the device byte the
extent holding `p` refers to, 0 if that extent is a hole or no extent holds `p`. -/
def fileByte (D : Bytes) (m : List ExtentMapEntry) (p : Nat) (v : UInt8) : Prop :=
  (∃ e ∈ m, e.covers p ∧
    ((e.diskByteNr = 0 ∧ v = 0) ∨
     (e.diskByteNr ≠ 0 ∧ D[e.physOffset.toNat + (p - e.fileOffset.toNat)]? = some v))) ∨
  ((∀ e ∈ m, ¬ e.covers p) ∧ v = 0)

/-- Extents as of an undamaged file: in order, disjoint, within 2^63 bytes, on the device. -/
structure ExtentsOK (D : Bytes) (m : List ExtentMapEntry) : Prop where
  device : D.length < 2 ^ 63
  bounded : ∀ e ∈ m, e.fileEnd < 2 ^ 63
  ordered : m.Pairwise fun a b => a.fileEnd ≤ b.fileOffset.toNat
  onDevice : ∀ e ∈ m, e.diskByteNr ≠ 0 → e.physOffset.toNat + e.length.toNat ≤ D.length

/-- There are no gaps between the extents in `[off, off+len)`: every byte is held by an
extent or lies behind the last one. -/
def Gapless (m : List ExtentMapEntry) (off len : Nat) : Prop :=
  ∀ p, off ≤ p → p < off + len → (∃ e ∈ m, e.covers p) ∨ ∀ e ∈ m, e.fileEnd ≤ p

end Btrfscue
