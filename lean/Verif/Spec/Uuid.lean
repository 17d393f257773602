import Verif.Model.Base
/-! # Specification: textual UUIDs -/

namespace Btrfscue

/-- The hexadecimal digits with their values: '0'–'9', 'a'–'f', 'A'–'F'. -/
def hexDigitValues : List (UInt8 × Nat) :=
  [(48, 0), (49, 1), (50, 2), (51, 3), (52, 4), (53, 5), (54, 6), (55, 7), (56, 8), (57, 9),
   (97, 10), (98, 11), (99, 12), (100, 13), (101, 14), (102, 15),
   (65, 10), (66, 11), (67, 12), (68, 13), (69, 14), (70, 15)]

/-- Value of a hexadecimal digit, if it is one. -/
def digitValue (c : UInt8) : Option Nat := hexDigitValues.lookup c

/-- The lower-case digit for a value below 16. -/
def lowerDigit (n : Nat) : UInt8 := if n < 10 then UInt8.ofNat (48 + n) else UInt8.ofNat (87 + n)

/-- Two lower-case digits per byte. -/
def hexOf (l : Bytes) : Bytes := l.flatMap fun b => [lowerDigit (b.toNat / 16), lowerDigit (b.toNat % 16)]

/-- The canonical 8-4-4-4-12 form; 45 is '-'. -/
def canonicalText (u : UUID) : Bytes :=
  hexOf (u.val.take 4) ++ [45] ++ hexOf ((u.val.drop 4).take 2) ++ [45] ++
  hexOf ((u.val.drop 6).take 2) ++ [45] ++ hexOf ((u.val.drop 8).take 2) ++ [45] ++
  hexOf (u.val.drop 10)

/-- The text with all dashes removed. -/
def withoutDashes (t : Bytes) : Bytes := t.filter (· ≠ 45)

end Btrfscue
