import Verif.Model.Commands
import Verif.Spec.RescueNode
import Verif.Spec.RecoverAll
import Verif.Spec.Ls
/-!
# Specification: the mounted file system
-/

namespace Btrfscue

/-- Following the entries called `names` from directory `d` of tree `o` leads to object `i`
of tree `o'`: an entry for a tree leads to its top directory (256), any other to an object of
the same tree. -/
inductive Bucket.LeadsTo (b : Bucket) : UInt64 → UInt64 → List Bytes → UInt64 → UInt64 → Prop
  | here {o d} : LeadsTo b o d [] o d
  | step {o d name e rest o' i} : b.entryNow o d name e →
      LeadsTo b (target o e.location).1 (target o e.location).2 rest o' i → LeadsTo b o d (name :: rest) o' i

/-- What a path in the mounted file system leads to, by one `Lookup` after the other. `none`:
nothing is there, or it is not below `rescue`. -/
def mountWalk (fuel : Nat) (ix : Ix) : List Bytes → Go (Option RescueNode)
  | [] => .ok none
  | top :: names =>
    match mountTop top with
    | some (.rescue n) => walk fuel ix n names
    | _ => .ok none

/-- The inode items are intact, everything that has an entry has an inode item, and entries that lead
to trees lead to proper ones. -/
structure Bucket.Mountable (b : Bucket) : Prop where
  inodes : ∀ o, o ≠ ~~~0 → b.InodesOK o
  trees : ∀ o d name e, b.entryNow o d name e → e.location.typ = 132 → e.location.objectID ≠ ~~~0
  present : ∀ o d name e, b.entryNow o d name e → b.hasKey (target o e.location).1 ⟨(target o e.location).2, 1, 0⟩

/-- The attributes of object `i` of tree `o` are answered exactly if it has an inode item; the other
answer is ENOATTR. -/
def Bucket.attrAnswer (b : Bucket) (o i : UInt64) (a : Except FuseErr FuseAttr) : Prop :=
  (b.hasKey o ⟨i, 1, 0⟩ ∧ ∃ x, a = .ok x) ∨ (¬ b.hasKey o ⟨i, 1, 0⟩ ∧ a = .error .ENOATTR)

/-- The attributes that an inode item gives. -/
def attrSays (i : UInt64) (f : InodeItemRec) (a : FuseAttr) : Prop :=
  a.ino = i ∧ a.size = f.size ∧ a.mode = f.mode ∧ a.nlink = f.nlink ∧ a.uid = f.uid ∧ a.gid = f.gid ∧
  a.rdev.toNat = f.rdev.toNat % 2 ^ 32 ∧ a.atime = f.atime.sec ∧ a.atimensec = f.atime.nsec ∧
  a.mtime = f.mtime.sec ∧ a.mtimensec = f.mtime.nsec ∧ a.ctime = f.ctime.sec ∧ a.ctimensec = f.ctime.nsec

/-- The nanoseconds of the times of an inode item are proper. -/
def InodeItemRec.timesOK (f : InodeItemRec) : Prop :=
  f.atime.nsec.toNat < 1000000000 ∧ f.mtime.nsec.toNat < 1000000000 ∧ f.ctime.nsec.toNat < 1000000000

end Btrfscue
