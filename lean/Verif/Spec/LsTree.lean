import Batteries.Data.List.Basic
import Verif.Spec.Ls
import Verif.Spec.Mount
/-!
# Specification: what `ls` should print

In terms of the entries of directories (`entryNow`) and the inode items.
-/

namespace Btrfscue

/-- The order of a listing: what is not a directory first, names ascending. -/
def entryBefore (a b : Bytes × DirItemRec) : Prop :=
  (a.2.typ ≠ 2 ∧ b.2.typ = 2) ∨ ((a.2.typ = 2 ↔ b.2.typ = 2) ∧ bytesLt a.1 b.1 = true)

/-- The line of an entry of a directory of tree `o`: the inode number if asked for, type and
permissions, links, user, group, size and time of change as in the inode item of what
it leads to, and its name. -/
def Bucket.entryLine (b : Bucket) (ft : Time → Bytes) (showInode : Bool) (o : UInt64) (q : Bytes × DirItemRec) (line : Bytes) : Prop :=
  ∃ cols, b.columns ft (target o q.2.location).1 q.2.typ (target o q.2.location).2 cols ∧
    line = tabLine ((if showInode then [decimal (target o q.2.location).2.toNat] else []) ++ (cols ++ [q.1]))

mutual
/-- `text` is the listing of directory `dir` of tree `o`: a line for every entry, in order; if
recursive, then for every entry that is a directory its name, a colon and its recursive listing. -/
inductive Bucket.Listing (b : Bucket) (ft : Time → Bytes) (showInode : Bool) : Bool → UInt64 → UInt64 → Bytes → Prop
  | mk {recursive : Bool} {o dir : UInt64} {es : List (Bytes × DirItemRec)} {lines : List Bytes} {subs : Bytes} :
      (∀ n e, (n, e) ∈ es ↔ b.entryNow o dir n e) → es.Pairwise entryBefore →
      List.Forall₂ (b.entryLine ft showInode o) es lines →
      Bucket.SubListings b ft showInode o (if recursive then es.filter (fun q => q.2.typ == 2) else []) subs →
      Bucket.Listing b ft showInode recursive o dir (lines.flatten ++ subs)
inductive Bucket.SubListings (b : Bucket) (ft : Time → Bytes) (showInode : Bool) : UInt64 → List (Bytes × DirItemRec) → Bytes → Prop
  | nil {o : UInt64} : Bucket.SubListings b ft showInode o [] []
  | cons {o : UInt64} {n : Bytes} {e : DirItemRec} {r : List (Bytes × DirItemRec)} {s t : Bytes} :
      Bucket.Listing b ft showInode true (target o e.location).1 (target o e.location).2 s →
      Bucket.SubListings b ft showInode o r t →
      Bucket.SubListings b ft showInode o ((n, e) :: r) (n ++ ascii ":\n" ++ s ++ t)
end

/-- In directory `dir` of tree `o`, and for a recursive listing in all below it, no entry leads to
another tree; and for a recursive listing no directory contains itself, directly or through
others: directories can be given ranks that decrease from a directory to those in it. -/
def Bucket.PlainTree (b : Bucket) (recursive : Bool) (o dir : UInt64) : Prop :=
  ∃ rank : UInt64 → Nat, ∀ names d, b.LeadsTo o dir names o d → (names = [] ∨ recursive = true) → ∀ n e, b.entryNow o d n e →
    e.location.typ ≠ 132 ∧ (recursive = true → e.typ = 2 → rank e.location.objectID < rank d)

/-- In the main tree (5), following the names leads to the entry `e` for something of that
tree, called `n`, the last of the names. -/
def Bucket.EntryOf (b : Bucket) (names : List Bytes) (n : Bytes) (e : DirItemRec) : Prop :=
  ∃ pre p, names = pre ++ [n] ∧ b.LeadsTo 5 256 pre 5 p ∧ b.entryNow 5 p n e ∧ e.location.typ ≠ 132

/-- The argument of `ls` stands for the path along the names. -/
def argMeans (arg : Bytes) (names : List Bytes) : Prop :=
  (∀ n ∈ names, Plain n) ∧ (goClean arg = 47 :: joinPath names ∨ (names ≠ [] ∧ goClean arg = joinPath names))

end Btrfscue
