import Batteries.Data.List.Basic
import Verif.Spec.Ls
import Verif.Spec.RecoverSeen
/-!
# Specification: the listing that `ls --recursive` prints, as a tree
-/

namespace Btrfscue

/-- One entry of a listing: its name, its type, the number of the object it leads to, the columns
before its name, and the entries below it. -/
structure Shown where
  name : Bytes
  typ : UInt8
  ino : UInt64
  cols : List Bytes
  inside : List Shown

/-- Its line. -/
def Shown.line (s : Shown) : Bytes := tabLine (s.cols ++ [s.name])

mutual
/-- If it is a directory its name, a colon and its listing: the lines of the entries in it, and then
the same for the directories among these. -/
def Shown.listing : Shown → Bytes
  | ⟨n, t, _, _, inside⟩ => if t = 2 then n ++ (ascii ":\n" ++ ((inside.map Shown.line).flatten ++ shownBelow inside)) else []
/-- That for each of the entries. -/
def shownBelow : List Shown → Bytes
  | [] => []
  | s :: r => s.listing ++ shownBelow r
end

/-- The listing: the lines, and what there is for the directories. -/
def listingText (ts : List Shown) : Bytes := (ts.map Shown.line).flatten ++ shownBelow ts

/-- In the listing, the names lead to the entry. -/
inductive HasPath : List Shown → List Bytes → Shown → Prop
  | last {ts : List Shown} {s : Shown} : s ∈ ts → HasPath ts [s.name] s
  | step {ts : List Shown} {s s' : Shown} {rest : List Bytes} : s ∈ ts → s.typ = 2 → HasPath s.inside rest s' →
      HasPath ts (s.name :: rest) s'

/-- The size shown: the last column but one before the name. -/
def Shown.size (s : Shown) : Option Bytes := s.cols[s.cols.length - 2]?

/-- `s` is for the directory item with payload `d`: with the name, type and object number of the
entry it starts with, preceded by the object number if asked for, and the columns of the inode item. -/
def Bucket.shownFor (b : Bucket) (ft : Time → Bytes) (showInode : Bool) (o : UInt64) (d : DirItem) (s : Shown) : Prop :=
  ∃ e cols, startsEntry (Slice.data d) s.name e ∧ s.typ = e.typ ∧ s.ino = e.location.objectID ∧ b.columns ft o s.typ s.ino cols ∧
    s.cols = (if showInode then [decimal s.ino.toNat] else []) ++ cols

/-- The order of a listing: what is not a directory first, names not descending. -/
def shownBefore (s t : Shown) : Prop :=
  (s.typ ≠ 2 ∧ t.typ = 2) ∨ ((s.typ = 2 ↔ t.typ = 2) ∧ bytesLt t.name s.name = false)

/-- `ts` is the listing of directory `dir` of tree `o`: in order, one entry for each item that
iterating over the directory gets to, and below each directory the listing of the object of its
number in the same tree. -/
inductive Bucket.ShownTree (b : Bucket) (ft : Time → Bytes) (showInode : Bool) (o : UInt64) : UInt64 → List Shown → Prop
  | mk {dir : UInt64} {vs : List (UInt64 × Slice)} {es : List DirItem} {ts : List Shown} :
      b.seenItems o 84 dir vs → es.Perm (vs.map (·.2)) → List.Forall₂ (b.shownFor ft showInode o) es ts → ts.Pairwise shownBefore →
      (∀ s ∈ ts, s.typ = 2 → ShownTree b ft showInode o s.ino s.inside) → (∀ s ∈ ts, s.typ ≠ 2 → s.inside = []) →
      ShownTree b ft showInode o dir ts

/-- `d'` is a directory in directory `d` of tree `o` by an entry that iterating over it gets to, as
recursive listing follows entries: their object number, in the same tree, whatever they lead to. -/
def Bucket.insideSeen (b : Bucket) (o d' d : UInt64) : Prop :=
  ∃ n e, b.entrySeen o d n e ∧ e.typ = 2 ∧ e.location.objectID = d'

/-- A directory from which one can go down for ever, in the way recursive listing does. -/
def Bucket.endlessSeen (b : Bucket) (o dir : UInt64) : Prop :=
  ∃ s : Nat → UInt64, s 0 = dir ∧ ∀ n, b.insideSeen o (s (n + 1)) (s n)

/-- Both `ls` and `recover` can read the index: the directories can be iterated over, with whole
entries of whatever generations (in all versions) and intact inode items, no entry of the main tree
leads to another tree and no directory of it contains itself, and the tree is one that recover can
read. -/
structure LsSameOK (b : Bucket) (dest : Bytes) : Prop where
  dirs : b.DirsOK
  full : ∀ o dir d, o ≠ ~~~0 → b.dirItem o dir d → wholeEntry (Slice.data d)
  inodes : b.InodesOK 5
  plain : ∀ d name e, b.entrySeen 5 d name e → e.location.typ ≠ 132
  ends : ¬ b.endlessSeen 5 256
  readable : b.TreeReadable dest

end Btrfscue
