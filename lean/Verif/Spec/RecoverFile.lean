import Verif.Spec.MountOpen
import Verif.Spec.Recover
/-!
# Specification: the contents of a stored file
-/

namespace Btrfscue

/-- An extent whose bytes are on the device as they are: neither compressed nor
encrypted nor preallocated. -/
def FileExtentItemRec.plain (f : FileExtentItemRec) : Prop :=
  f.typ = 1 ∧ f.compression = 0 ∧ f.encryption = 0 ∧ f.otherEncoding = 0

/-- Position `i` of the file lies in the extent at file offset `off` with header `f`. -/
def FileExtentItemRec.at (f : FileExtentItemRec) (off : UInt64) (i : Nat) : Prop :=
  off.toNat ≤ i ∧ i < off.toNat + f.numBytes.toNat

/-- `v` is the byte at position `i` of a file with regular extents of generation `g`, on a
device with contents `D`: what the extent there says, or zero where there is none.
Holes and preallocated extents read as zeroes, an uncompressed extent as the bytes on the
device, from the address the chunks (of generation `gc`) give. -/
def Bucket.fileByte (b : Bucket) (o ino g gc : UInt64) (D : Bytes) (i : Nat) (v : UInt8) : Prop :=
  (∃ off f, b.extentAt o ino g off f ∧ f.at off i ∧
    (((f.diskByteNr = 0 ∨ f.typ = 2) ∧ v = 0) ∨
     (f.diskByteNr ≠ 0 ∧ f.plain ∧ ∃ dev phys, b.translated gc f.diskByteNr dev phys ∧
        D[(phys + f.offset).toNat + (i - off.toNat)]? = some v))) ∨
  ((∀ off f, b.extentAt o ino g off f → ¬ f.at off i) ∧ v = 0)

/-- Extents for which the above makes sense: they do not overlap, are not encoded, and are
within the limits of the host: files end before `2^63`, as do device addresses; holes are
no longer than the address space of the program. -/
structure Bucket.ExtentsPlain (b : Bucket) (o ino g gc : UInt64) : Prop where
  disjoint : ∀ off f off' f', b.extentAt o ino g off f → b.extentAt o ino g off' f' → off < off' →
    off.toNat + f.numBytes.toNat ≤ off'.toNat
  plain : ∀ off f, b.extentAt o ino g off f → f.plain
  small : ∀ off f, b.extentAt o ino g off f → off.toNat + f.numBytes.toNat < 2 ^ 63
  holes : ∀ off f, b.extentAt o ino g off f → f.diskByteNr = 0 → f.numBytes.toNat ≤ 2 ^ 48
  addr : ∀ off f dev phys, b.extentAt o ino g off f → f.diskByteNr ≠ 0 → b.translated gc f.diskByteNr dev phys →
    (phys + f.offset).toNat + f.numBytes.toNat < 2 ^ 63

/-- All the bytes of the extents are on the device. -/
def Bucket.OnDevice (b : Bucket) (o ino g gc : UInt64) (D : Bytes) : Prop :=
  ∀ off f dev phys, b.extentAt o ino g off f → f.diskByteNr ≠ 0 → b.translated gc f.diskByteNr dev phys →
    (phys + f.offset).toNat + f.numBytes.toNat ≤ D.length

/-- The newest inode item of the file is intact and says its size is `size`. -/
def Bucket.inodeSizeIs (b : Bucket) (o ino size : UInt64) : Prop :=
  ∃ g x f rest, b.newest o ⟨ino, 1, 0⟩ g ∧ b.stores ⟨o, ⟨ino, 1, 0⟩, g⟩ x ∧
    holdsItem x (InodeItemRec.layout f ++ rest) ∧ f.size = size

/-- `n` is where the furthest extent of the file ends (0 if there is none). -/
def Bucket.endsAt (b : Bucket) (o ino g : UInt64) (n : Nat) : Prop :=
  (∀ off f, b.extentAt o ino g off f → f.numBytes ≠ 0 → off.toNat + f.numBytes.toNat ≤ n) ∧
  (n = 0 ∨ ∃ off f, b.extentAt o ino g off f ∧ f.numBytes ≠ 0 ∧ n = off.toNat + f.numBytes.toNat)

/-- The generation-`g` version of the extent at file offset `start` (on real file systems 0)
is an intact inline extent with uncompressed data, and it is the only extent. -/
structure Bucket.InlineFile (b : Bucket) (o ino g start : UInt64) (data : Bytes) : Prop where
  range : b.RangeOK o (KL2 108 ino)
  newest : b.newest o ⟨ino, 108, start⟩ g
  only : ∀ off, b.hasKey o ⟨ino, 108, off⟩ → off = start
  intact : ∃ x f rest, b.stores ⟨o, ⟨ino, 108, start⟩, g⟩ x ∧ holdsItem x (InlineExtentRec.layout f ++ (data ++ rest)) ∧
    f.compression = 0 ∧ f.encryption = 0 ∧ f.otherEncoding = 0 ∧ f.ramBytes.toNat = data.length
  short : data.length ≤ 16384
  small : start.toNat + data.length < 2 ^ 63

end Btrfscue
