import Verif.Go.Core
/-!
# Specification: tables on the terminal

Independent of how `text/tabwriter` works.
-/

namespace Btrfscue

/-- Text that cannot be mistaken for layout: no tab, line feed, vertical tab, form feed,
and no byte 0xff. -/
def plainText (c : Bytes) : Prop := ∀ b ∈ c, b ≠ 9 ∧ b ≠ 10 ∧ b ≠ 11 ∧ b ≠ 12 ∧ b ≠ 255

instance (c : Bytes) : Decidable (plainText c) := inferInstanceAs (Decidable (∀ b ∈ c, _))

/-- The cells of a row from column `j` on, one after the other; every cell but the last is
followed by `sep j cell`. -/
def rowText (sep : Nat → Bytes → Bytes) : Nat → List Bytes → Bytes
  | _, [] => []
  | _, [c] => c
  | j, c :: r => c ++ (sep j c ++ rowText sep (j + 1) r)

/-- `W j` is the width of column `j`: one more than its widest cell. -/
def columnWidth (wd : Bytes → Nat) (rows : List (List Bytes)) (j W : Nat) : Prop :=
  (∀ r ∈ rows, ∀ c, r[j]? = some c → wd c + 1 ≤ W) ∧ ∃ r ∈ rows, ∃ c, r[j]? = some c ∧ W = wd c + 1

/-- `text` is the table of the rows, aligned with blanks: one line for every row, every
cell of column `j` but the last padded to the same width `W j`. -/
def alignedTable (wd : Bytes → Nat) (rows : List (List Bytes)) (text : Bytes) : Prop :=
  ∃ W : Nat → Nat, (∀ r ∈ rows, ∀ j, j + 1 < r.length → columnWidth wd rows j (W j)) ∧
    text = (rows.map fun r => rowText (fun j c => List.replicate (W j - wd c) 32) 0 r ++ [10]).flatten

end Btrfscue
