import Verif.Model.Base
/-!
# pkg/uuid/uuid.go: text form of UUIDs
-/

namespace Btrfscue

/-- pkg/uuid/uuid.go:33 `hexChars`: "0123456789abcdef" as bytes. -/
def hexChars : Bytes :=
  [48, 49, 50, 51, 52, 53, 54, 55, 56, 57, 97, 98, 99, 100, 101, 102]

/-- `hexChars[n]` (the index is always below 16). -/
def hexChar (n : UInt8) : UInt8 := hexChars.getD n.toNat 0

/-- One iteration of the loop pkg/uuid/uuid.go:36-45, on the pair (buf, p). -/
def uuidStringStep (st : Bytes × Nat) (iv : UInt8 × Nat) : Bytes × Nat :=
  let (v, i) := iv
  let (buf, p) := st
  let buf := buf.set p (hexChar (v >>> 4))
  let p := p + 1
  let buf := buf.set p (hexChar (v &&& 0xF))
  if i == 3 || i == 5 || i == 7 || i == 9 then
    let p := p + 1
    (buf.set p 45, p + 1)
  else (buf, p + 1)

/-- pkg/uuid/uuid.go:32-47 `UUID.String`. Writing outside the 36 byte buffer
(impossible, `p ≤ 35`) would be a no-op here. -/
def UUID.toText (u : UUID) : Bytes :=
  (u.val.zipIdx.foldl uuidStringStep (List.replicate (16 * 2 + 4) 0, 0)).1

/-- `encoding/hex`: value of a hexadecimal digit of either case. -/
def fromHexChar (c : UInt8) : Option UInt8 :=
  if 48 ≤ c ∧ c ≤ 57 then some (c - 48)
  else if 97 ≤ c ∧ c ≤ 102 then some (c - 97 + 10)
  else if 65 ≤ c ∧ c ≤ 70 then some (c - 65 + 10)
  else none

/-- `hex.DecodeString`: pairs of digits; an invalid digit or an odd number of
digits is an error (`none`). -/
def hexDecodeString : Bytes → Option Bytes
  | [] => some []
  | [_] => none
  | a :: b :: rest =>
    match fromHexChar a, fromHexChar b, hexDecodeString rest with
    | some x, some y, some r => some ((x <<< 4 ||| y) :: r)
    | _, _, _ => none

/-- pkg/uuid/uuid.go:49-60 `(*UUID).Set`: the receiver afterwards and whether an
error is returned. `strings.Replace(value, "-", "", -1)` is the filter. -/
def UUID.set (u : UUID) (value : Bytes) : UUID × Bool :=
  match hexDecodeString (value.filter (· ≠ 45)) with
  | none => (u, true)
  | some b =>
    if b.length ≠ 16 then (u, true)
    else (⟨goCopy u.val b, by rw [goCopy_length]; exact u.property⟩, false)

/-- pkg/uuid/uuid.go:64-68 `New`: the value and whether an error is returned. -/
def UUID.new (value : Bytes) : UUID × Bool := UUID.set uuidAllZero value

end Btrfscue
