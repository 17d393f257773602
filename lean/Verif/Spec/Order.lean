import Verif.Model.Base
/-!
# Specification: the logical order of stored items

Independent of any byte encoding.
-/

namespace Btrfscue

/-- What identifies one stored version of an item: the owning tree, the BTRFS key
and the generation. -/
structure VKey where
  owner : UInt64
  key : Key
  gen : UInt64
  deriving DecidableEq, Repr

/-- Lexicographic "before" on lists of numbers. -/
def lexLt : List Nat → List Nat → Prop
  | [], [] => False
  | [], _ :: _ => True
  | _ :: _, [] => False
  | a :: as, b :: bs => a < b ∨ (a = b ∧ lexLt as bs)

/-- The fields of a key in order of significance in an index. -/
def Key.fields (k : Key) : List Nat := [k.typ.toNat, k.objectID.toNat, k.offset.toNat]

/-- The fields of a version in order of significance. -/
def VKey.fields (v : VKey) : List Nat := v.owner.toNat :: v.key.fields ++ [v.gen.toNat]

/-- The order of keys in an index: by type, then object id, then offset (BTRFS itself orders by
object id first). -/
def Key.before (a b : Key) : Prop := lexLt a.fields b.fields

/-- The order of stored versions. -/
def VKey.before (a b : VKey) : Prop := lexLt a.fields b.fields

end Btrfscue
