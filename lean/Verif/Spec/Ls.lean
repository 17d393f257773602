import Verif.Model.Ls
import Verif.Spec.Path
/-!
# Specification: listings
-/

namespace Btrfscue

/-- The order of a listing: what is not a directory first, names ascending. -/
def ListedBefore (a b : DirItem) : Prop :=
  ∃ da na db nb, DirItem.isDir a = .ok da ∧ DirItem.name a = .ok na ∧ DirItem.isDir b = .ok db ∧
    DirItem.name b = .ok nb ∧ ((da = false ∧ db = true) ∨ (da = db ∧ bytesLt nb na = false))

/-- What is known of `sort.Sort`: it permutes, and no element ends up before one that is
less. -/
def SortOK (srt : Sorter) : Prop :=
  ∀ l, (srt l).Perm l ∧ (srt l).Pairwise fun a b => lsLess b.2 a.2 = false

/-- `vs` are the entries of directory `dir` of tree `o` stored in generation `g`, by
ascending offset. -/
def Bucket.entries (b : Bucket) (o dir g : UInt64) (vs : List (UInt64 × DirItem)) : Prop :=
  vs.Pairwise (fun x y => x.1 < y.1) ∧
  ∀ off d, (off, d) ∈ vs ↔ ∃ x, b.stores ⟨o, ⟨dir, 84, off⟩, g⟩ x ∧ Item.data ⟨x, []⟩ = .ok d

/-- `vs` are the entries of directory `dir` of tree `o` that iterating over it gets to (see
`Bucket.runVersion`), by ascending offset. -/
def Bucket.seenEntries (b : Bucket) (o dir : UInt64) (vs : List (UInt64 × DirItem)) : Prop :=
  vs.Pairwise (fun x y => x.1 < y.1) ∧
  ∀ off d, (off, d) ∈ vs ↔ ∃ g x, b.runVersion o 84 dir off g ∧ b.stores ⟨o, ⟨dir, 84, off⟩, g⟩ x ∧ Item.data ⟨x, []⟩ = .ok d

/-- All versions of the entries of a directory are of generation `g`, and are whole. -/
structure Bucket.DirWhole (b : Bucket) (o dir g : UInt64) : Prop where
  range : b.RangeOK o (KL2 84 dir)
  newest : ∀ off, b.hasKey o ⟨dir, 84, off⟩ → b.newest o ⟨dir, 84, off⟩ g
  whole : ∀ off x d, b.stores ⟨o, ⟨dir, 84, off⟩, g⟩ x → Item.data ⟨x, []⟩ = .ok d → wholeEntry (Slice.data d)

/-- The newest version of the inode item of `ino` holds `f`. -/
def Bucket.inodeNow (b : Bucket) (o ino : UInt64) (f : InodeItemRec) : Prop :=
  ∃ g x rest, b.newest o ⟨ino, 1, 0⟩ g ∧ b.stores ⟨o, ⟨ino, 1, 0⟩, g⟩ x ∧ holdsItem x (f.layout ++ rest)

/-- The newest version of every inode item of a tree is intact. -/
def Bucket.InodesOK (b : Bucket) (o : UInt64) : Prop :=
  ∀ ino, b.hasKey o ⟨ino, 1, 0⟩ → ∃ f, b.inodeNow o ino f

/-- Columns separated by tabs, ended by a line feed. -/
def tabLine : List Bytes → Bytes
  | [] => [10]
  | [c] => c ++ [10]
  | c :: r => c ++ 9 :: tabLine r

/-- `cols` are the columns shown for an entry of type `t` that leads to inode `ino`:
type and permissions, links, user, group, size and time of change as in the inode item;
question marks without one. -/
def Bucket.columns (b : Bucket) (ft : Time → Bytes) (o : UInt64) (t : UInt8) (ino : UInt64) (cols : List Bytes) : Prop :=
  (¬ b.hasKey o ⟨ino, 1, 0⟩ ∧ cols = [dirItemTypeString t ++ List.replicate 9 63, [63], [63], [63], [63], [63]]) ∨
  ∃ f tm, b.inodeNow o ino f ∧ IsTime tm f.ctime ∧
    cols = [dirItemTypeString t ++ inodeModeString f.mode, decimal f.nlink.toNat, decimal f.uid.toNat,
      decimal f.gid.toNat, decimal f.size.toNat, ft tm]

/-- `line` is the line of the entry with payload `d`: the inode number if asked for, the
columns of its inode, its name. -/
def Bucket.lineShows (b : Bucket) (ft : Time → Bytes) (o : UInt64) (showInode : Bool) (d : DirItem) (line : Bytes) : Prop :=
  ∃ (e : DirItemRec) (name rest : Bytes) (cols : List Bytes), Slice.data d = e.layout ++ (name ++ rest) ∧
    e.nameLen.toNat = name.length ∧ b.columns ft o e.typ e.location.objectID cols ∧
    line = tabLine ((if showInode then [decimal e.location.objectID.toNat] else []) ++ (cols ++ [name]))

/-- Following the names from directory `dir` of tree `o` ends at the entry `e`, payload
`p`, of a directory of tree `o'`. -/
inductive Bucket.EntryAt (b : Bucket) : UInt64 → UInt64 → List Bytes → UInt64 → DirItemRec → Bytes → Prop
  | last {o dir n e p} : o ≠ ~~~0 → b.hashedEntry o dir n e p → EntryAt b o dir [n] o e p
  | step {o dir n e p rest o' e' p'} : o ≠ ~~~0 → b.hashedEntry o dir n e p →
      EntryAt b (target o e.location).1 (target o e.location).2 rest o' e' p' →
      EntryAt b o dir (n :: rest) o' e' p'

/-- The file system tree (5) is not itself entered as a subvolume. -/
def Bucket.NoLoopToTop (b : Bucket) : Prop :=
  ∀ o dir n e p, b.hashedEntry o dir n e p → e.location.typ = 132 → e.location.objectID ≠ 5

end Btrfscue
