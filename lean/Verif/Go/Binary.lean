import Verif.Go.Core
/-!
# `encoding/binary`, `bytes.Compare`, `copy`

Trusted meaning of the standard library functions used by the code.
-/

namespace Btrfscue

/-- The number a byte string denotes, least significant byte first
(`binary.LittleEndian.Uint16/32/64` on a slice of exactly 2/4/8 bytes). -/
def leNat : Bytes → Nat
  | [] => 0
  | b :: bs => b.toNat + 256 * leNat bs

/-- The `w` low-order bytes of `v`, least significant first
(`binary.LittleEndian.PutUint16/32/64`). -/
def leBytes : Nat → Nat → Bytes
  | 0, _ => []
  | w + 1, v => UInt8.ofNat v :: leBytes w (v / 256)

/-- The number a byte string denotes, most significant byte first
(`binary.BigEndian.Uint64` on eight bytes). -/
def beNat (l : Bytes) : Nat := leNat l.reverse

/-- The `w` low-order bytes of `v`, most significant first
(`binary.BigEndian.PutUint64`). -/
def beBytes (w v : Nat) : Bytes := (leBytes w v).reverse

/-- `bytes.Compare`: lexicographic, a proper prefix is smaller; -1, 0 or +1.
A nil slice compares like an empty one. -/
def bytesCompare : Bytes → Bytes → Int
  | [], [] => 0
  | [], _ :: _ => -1
  | _ :: _, [] => 1
  | a :: as, b :: bs =>
    if a < b then -1 else if b < a then 1 else bytesCompare as bs

/-- Go string comparison `a < b` is bytewise lexicographic. -/
def bytesLt (a b : Bytes) : Bool := bytesCompare a b < 0

/-- `copy(dst, src)`: overwrite the first `min(len dst, len src)` bytes. -/
def goCopy (dst src : Bytes) : Bytes :=
  src.take dst.length ++ dst.drop src.length

/-- `copy(dst[o:], src)` as a whole-buffer update; panics like `dst[o:]`. -/
def goCopyAt (dst : Bytes) (o : Nat) (src : Bytes) : Go Bytes :=
  if o ≤ dst.length then .ok (dst.take o ++ goCopy (dst.drop o) src) else .panic

end Btrfscue
