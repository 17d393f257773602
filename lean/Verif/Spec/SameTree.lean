import Verif.Spec.Mount
import Verif.Spec.RecoverSeen
/-!
# Specification: directories of the mounted file system
-/

namespace Btrfscue

/-- `rescue/X` is a directory of the mounted file system, with node `n`: each name of `X` was looked
up in the directory before, with status OK, and is a directory. -/
inductive MountDir (fuel : Nat) (ix : Ix) : List Bytes → RescueNode → Prop
  | top {n : RescueNode} : mountTop (ascii "rescue") = some (.rescue n) → MountDir fuel ix [] n
  | down {X : List Bytes} {n n' c : RescueNode} {name : Bytes} {a : FuseAttr} : MountDir fuel ix X n →
      n.lookup fuel ix name = .ok (n', .ok (c, true, .ok a)) → MountDir fuel ix (X ++ [name]) c

/-- `rescue/A` can be looked up in the mounted file system and is a directory or not; `c` is its
node. -/
def MountShows (fuel : Nat) (ix : Ix) (A : List Bytes) (isDir : Bool) (c : RescueNode) : Prop :=
  ∃ X name n n' a, A = X ++ [name] ∧ MountDir fuel ix X n ∧ n.lookup fuel ix name = .ok (n', .ok (c, isDir, .ok a))

/-- The path starts with the directory made for a subvolume. -/
def Bucket.inSubvolume (b : Bucket) (A : List Bytes) : Prop :=
  ∃ o, b.subvolumeSeen o ∧ A.head? = some (ascii "subvol_" ++ decimal o.toNat)

/-- Both programs can read the index: the directories can be iterated over, with whole entries of
whatever generations (in all versions) and intact inode items, everything with an entry has an inode
item, entries for subvolumes are marked as directories, and the tree is one that recover can read. -/
structure SameOK (b : Bucket) (dest : Bytes) : Prop where
  dirs : b.DirsOK
  full : ∀ o dir d, o ≠ ~~~0 → b.dirItem o dir d → wholeEntry (Slice.data d)
  inodes : ∀ o, o ≠ ~~~0 → b.TreeInodesOK o
  trees : ∀ o d name e, b.entrySeen o d name e → e.location.typ = 132 → e.typ = 2
  present : ∀ o d name e, b.entrySeen o d name e → b.hasKey (target o e.location).1 ⟨(target o e.location).2, 1, 0⟩
  readable : b.TreeReadable dest

end Btrfscue
