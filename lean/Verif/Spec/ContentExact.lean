import Verif.Spec.RecoverFile
/-!
# Specification: the bytes recover takes for those of a file
-/

namespace Btrfscue

/-- `v` is the byte that the extent at file offset `off` with header `f` gives for position `i`
of the file, by the program's reading of it: zero in a hole, otherwise what is on the device,
compressed, encrypted, preallocated or not. -/
def Bucket.rawByte (b : Bucket) (off : UInt64) (f : FileExtentItemRec) (D : Bytes) (i : Nat) (v : UInt8) : Prop :=
  (f.diskByteNr = 0 ∧ v = 0) ∨
  (f.diskByteNr ≠ 0 ∧ ∃ dev phys, b.placed f.diskByteNr dev phys ∧ D[(phys + f.offset).toNat + (i - off.toNat)]? = some v)

/-- `v` is the byte at position `i` of the file, if it is made from the extents that iterating
gets to: the raw byte of the extent there — of the last one that covers the position —, zero
where there is none. -/
def Bucket.seenByte (b : Bucket) (o ino : UInt64) (D : Bytes) (i : Nat) (v : UInt8) : Prop :=
  (∃ off f, b.extentSeen o ino off f ∧ f.at off i ∧
    (∀ off' f', b.extentSeen o ino off' f' → f'.at off' i → off' ≤ off) ∧ b.rawByte off f D i v) ∨
  ((∀ off f, b.extentSeen o ino off f → ¬ f.at off i) ∧ v = 0)

/-- `v` is a byte of the file at position `i`, by the extents that iterating gets to. -/
def Bucket.anyByte (b : Bucket) (o ino : UInt64) (D : Bytes) (i : Nat) (v : UInt8) : Prop :=
  ∃ off f, b.extentSeen o ino off f ∧ f.at off i ∧ b.rawByte off f D i v

/-- The extents that iterating gets to are within the limits of the host: files end before
`2^63`, as do device addresses; holes are no longer than the address space of the program. -/
structure Bucket.ExtentsFit (b : Bucket) (o ino : UInt64) : Prop where
  small : ∀ off f, b.extentSeen o ino off f → off.toNat + f.numBytes.toNat < 2 ^ 63
  holes : ∀ off f, b.extentSeen o ino off f → f.diskByteNr = 0 → f.numBytes.toNat ≤ 2 ^ 48
  addr : ∀ off f dev phys, b.extentSeen o ino off f → f.diskByteNr ≠ 0 → b.placed f.diskByteNr dev phys →
    (phys + f.offset).toNat + f.numBytes.toNat < 2 ^ 63

/-- All the bytes of these extents are on the device. -/
def Bucket.SeenOnDevice (b : Bucket) (o ino : UInt64) (D : Bytes) : Prop :=
  ∀ off f dev phys, b.extentSeen o ino off f → f.diskByteNr ≠ 0 → f.numBytes ≠ 0 → b.placed f.diskByteNr dev phys →
    (phys + f.offset).toNat + f.numBytes.toNat ≤ D.length

/-- `n` is where the furthest of these extents ends (0 if there is none). -/
def Bucket.seenEnd (b : Bucket) (o ino : UInt64) (n : Nat) : Prop :=
  (∀ off f, b.extentSeen o ino off f → f.numBytes ≠ 0 → off.toNat + f.numBytes.toNat ≤ n) ∧
  (n = 0 ∨ ∃ off f, b.extentSeen o ino off f ∧ f.numBytes ≠ 0 ∧ n = off.toNat + f.numBytes.toNat)

/-- The size the program knows of the file: that in the newest inode item, none if there is no
inode item. -/
def Bucket.knownSize (b : Bucket) (o ino : UInt64) : Option UInt64 → Prop
  | some size => b.inodeSizeIs o ino size ∧ size.toNat < 2 ^ 63
  | none => ¬ b.hasKey o ⟨ino, 1, 0⟩

/-- The bytes of the file, as the program puts them together: of the size known, ending with the
last extent if none is, and each as `Bucket.seenByte` says. -/
def Bucket.seenContent (b : Bucket) (o ino : UInt64) (size : Option UInt64) (D d : Bytes) : Prop :=
  (∀ sz, size = some sz → d.length = sz.toNat) ∧ (size = none → b.seenEnd o ino d.length) ∧
    ∀ i v, d[i]? = some v → b.seenByte o ino D i v

/-- The extents that iterating gets to do not overlap and are not empty. -/
structure Bucket.SeenDisjoint (b : Bucket) (o ino : UInt64) : Prop where
  disjoint : ∀ off f off' f', b.extentSeen o ino off f → b.extentSeen o ino off' f' → off < off' →
    off.toNat + f.numBytes.toNat ≤ off'.toNat
  filled : ∀ off f, b.extentSeen o ino off f → f.numBytes ≠ 0

end Btrfscue
