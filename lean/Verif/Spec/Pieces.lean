import Verif.Spec.ContentExact
/-!
# Specification: the pieces of a file, inline or not
-/

namespace Btrfscue

/-- What an extent item stands for: bytes on the device (or a hole), or the data in the item. -/
inductive Piece
  | raw (f : FileExtentItemRec)
  | inline (data : Bytes)

/-- The length of the piece. -/
def Piece.size : Piece → Nat
  | .raw f => f.numBytes.toNat
  | .inline data => data.length

/-- Position `i` of the file is in the piece at file offset `off`. -/
def Piece.at (p : Piece) (off : UInt64) (i : Nat) : Prop := off.toNat ≤ i ∧ i < off.toNat + p.size

/-- The payload `d` of an extent item is this piece. Of the data in an item, no more than 16 KiB
are taken; the item says how long it is when unpacked, and that is what is taken. -/
def Piece.heldBy (p : Piece) (d : Bytes) : Prop :=
  match p with
  | .raw f => f.typ ≠ 0 ∧ ∃ rest, d = f.layout ++ rest
  | .inline data => ∃ (f : InlineExtentRec) (rest : Bytes), d = f.layout ++ (data ++ rest) ∧ f.ramBytes.toNat < 2 ^ 63 ∧
      data.length = min f.ramBytes.toNat 16384

/-- The extent item of inode `ino` at file offset `off`, in the version that iterating over the
file's extents gets to, is the piece `p`. -/
def Bucket.pieceSeen (b : Bucket) (o ino off : UInt64) (p : Piece) : Prop :=
  ∃ g x d, b.runVersion o 108 ino off g ∧ b.stores ⟨o, ⟨ino, 108, off⟩, g⟩ x ∧ holdsItem x d ∧ p.heldBy d

/-- `v` is the byte that the piece at file offset `off` gives for position `i` of the file. -/
def Bucket.pieceByte (b : Bucket) (off : UInt64) (p : Piece) (D : Bytes) (i : Nat) (v : UInt8) : Prop :=
  match p with
  | .raw f => b.rawByte off f D i v
  | .inline data => data[i - off.toNat]? = some v

/-- `v` is the byte at position `i` of the file: that of the last of the pieces that covers the
position, zero where there is none. -/
def Bucket.fileSeenByte (b : Bucket) (o ino : UInt64) (D : Bytes) (i : Nat) (v : UInt8) : Prop :=
  (∃ off p, b.pieceSeen o ino off p ∧ p.at off i ∧
    (∀ off' p', b.pieceSeen o ino off' p' → p'.at off' i → off' ≤ off) ∧ b.pieceByte off p D i v) ∨
  ((∀ off p, b.pieceSeen o ino off p → ¬ p.at off i) ∧ v = 0)

/-- `v` is a byte that one of the pieces gives for position `i` of the file. -/
def Bucket.anyPieceByte (b : Bucket) (o ino : UInt64) (D : Bytes) (i : Nat) (v : UInt8) : Prop :=
  ∃ off p, b.pieceSeen o ino off p ∧ p.at off i ∧ b.pieceByte off p D i v

/-- The extent items that iterating over the file's extents gets to are intact, and if one of
them has an address, there is a chunk. -/
def Bucket.PiecesIntact (b : Bucket) (o ino : UInt64) : Prop :=
  ∀ off g, b.runVersion o 108 ino off g → b.hasVersion o ⟨ino, 108, off⟩ g →
    ∃ p, b.pieceSeen o ino off p ∧ ∀ f, p = .raw f → f.diskByteNr ≠ 0 → ∃ start s, b.chunkSeen start s

/-- The pieces are within the limits of the host: files end before `2^63`, as do device
addresses; holes are no longer than the address space of the program. -/
structure Bucket.PiecesFit (b : Bucket) (o ino : UInt64) : Prop where
  small : ∀ off p, b.pieceSeen o ino off p → off.toNat + p.size < 2 ^ 63
  holes : ∀ off f, b.pieceSeen o ino off (.raw f) → f.diskByteNr = 0 → f.numBytes.toNat ≤ 2 ^ 48
  addr : ∀ off f dev phys, b.pieceSeen o ino off (.raw f) → f.diskByteNr ≠ 0 → b.placed f.diskByteNr dev phys →
    (phys + f.offset).toNat + f.numBytes.toNat < 2 ^ 63

/-- All the bytes of the pieces are on the device, if they are not in the items. -/
def Bucket.PiecesOnDevice (b : Bucket) (o ino : UInt64) (D : Bytes) : Prop :=
  ∀ off f dev phys, b.pieceSeen o ino off (.raw f) → f.diskByteNr ≠ 0 → f.numBytes ≠ 0 → b.placed f.diskByteNr dev phys →
    (phys + f.offset).toNat + f.numBytes.toNat ≤ D.length

/-- `n` is where the furthest of the pieces ends (0 if there is none). -/
def Bucket.piecesEnd (b : Bucket) (o ino : UInt64) (n : Nat) : Prop :=
  (∀ off p, b.pieceSeen o ino off p → p.size ≠ 0 → off.toNat + p.size ≤ n) ∧
  (n = 0 ∨ ∃ off p, b.pieceSeen o ino off p ∧ p.size ≠ 0 ∧ n = off.toNat + p.size)

/-- The bytes of the file, as the program puts them together: of the size known, ending with the
last piece if none is, and each as `Bucket.fileSeenByte` says. -/
def Bucket.fileSeen (b : Bucket) (o ino : UInt64) (size : Option UInt64) (D d : Bytes) : Prop :=
  (∀ sz, size = some sz → d.length = sz.toNat) ∧ (size = none → b.piecesEnd o ino d.length) ∧
    ∀ i v, d[i]? = some v → b.fileSeenByte o ino D i v

/-- The program can read what is stored about the file, whatever generations it is of. -/
structure Bucket.FileReadable (b : Bucket) (o ino : UInt64) (size : Option UInt64) : Prop where
  range : b.RangeOK o (KL2 108 ino)
  intact : b.PiecesIntact o ino
  fit : b.PiecesFit o ino
  size : b.knownSize o ino size

end Btrfscue
