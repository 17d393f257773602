import Verif.Spec.RecoverReach
import Verif.Spec.RecoverFile
/-!
# Specification: recovering to an empty directory
-/

namespace Btrfscue

/-- `dest` is a clean path that leads to an empty directory `r` of the host. -/
structure EmptyDest (fs : HostFS) (dest : Bytes) (r : Nat) : Prop where
  clean : goClean dest = dest
  short : dest.length < 4095
  found : ∃ e, fs.resolve true dest = .found r e
  empty : ∃ par, fs.inodes[r]? = some (.dir [] par)

/-- Different things have different places: in the directories that have a place in the
destination, no entry has an empty name, entries of one name are of one type and lead to
the same object, and the top directory has no entry with the name `subvol_N` that one of the
subvolumes will get. -/
structure Ix.Distinct (ix : Ix) (dest : Bytes) : Prop where
  nonempty : ∀ o d p di n t loc, ix.Placed dest o d p → ix.lists o d di → DirItem.says di n t loc → n ≠ []
  once : ∀ o d p di di' n t t' loc loc', ix.Placed dest o d p → ix.lists o d di → ix.lists o d di' →
    DirItem.says di n t loc → DirItem.says di' n t' loc' → t = t' ∧ loc = loc'
  reserved : ∀ o, ix.listsSubvolume o → ∀ di n t loc, ix.lists 5 256 di → DirItem.says di n t loc →
    n ≠ ascii "subvol_" ++ decimal o.toNat

/-- A directory that has a place in the destination lists, with a name that can be used and
has no backslash, object `i` of tree `o` as an entry of type `t`; `q` is its path. -/
def Ix.HasEntry (ix : Ix) (dest : Bytes) (t : UInt8) (o i : UInt64) (q : Bytes) : Prop :=
  ∃ d p di n loc, ix.Placed dest o d p ∧ ix.lists o d di ∧ DirItem.says di n t loc ∧ loc.typ ≠ 132 ∧ loc.objectID = i ∧
    usable n ∧ 92 ∉ n ∧ q = goJoin p n

/-- The entry of a directory. -/
def HostFS.child (fs : HostFS) (d : Nat) (c : Bytes) : Option Nat :=
  match fs.inodes[d]? with
  | some (.dir es _) => hostEntry es c
  | _ => none

/-- Walk down from `d`, through directories only. -/
def HostFS.down (fs : HostFS) : Nat → List Bytes → Option Nat
  | d, [] => some d
  | d, c :: r => (fs.child d c).bind fun i => fs.down i r

/-- The path of a list of names below `dest`. -/
def pathOf (dest : Bytes) (A : List Bytes) : Bytes := A.foldl goJoin dest

/-- Everything below directory `r`, the destination, is at the place of something listed:
a directory where a directory has its place, a file where one is listed, a link where one
is listed. -/
def HostFS.OnlyListed (f : HostFS) (ix : Ix) (dest : Bytes) (r : Nat) : Prop :=
  ∀ A i, f.down r A = some i →
    (f.isDirAt i = true ∧ ∃ o d, ix.Placed dest o d (pathOf dest A)) ∨
    (∃ x o n, f.inodes[i]? = some (.file x) ∧ ix.HasEntry dest 1 o n (pathOf dest A)) ∨
    ∃ x o n, f.inodes[i]? = some (.link x) ∧ ix.HasEntry dest 7 o n (pathOf dest A)

/-- The file can be recovered: its inode is intact and its size within the limits of the
host, and its extents are plain (`ExtentsPlain`) or there is one inline extent. -/
def Bucket.recoverable (b : Bucket) (gc o i : UInt64) : Prop :=
  o ≠ ~~~0 ∧ ∃ size, b.inodeSizeIs o i size ∧ size.toNat < 2 ^ 63 ∧
    ((∃ g, b.FileOK o i g gc ∧ b.ExtentsPlain o i g gc) ∨ ∃ g start data, b.InlineFile o i g start data)

/-- `x` is the contents of the file, if the device holds `D`: it is as long as the inode
says, and its bytes are what the extents say, or those of the inline extent, with zeroes
around. -/
def Bucket.contentIs (b : Bucket) (gc : UInt64) (D : Bytes) (o i : UInt64) (x : Bytes) : Prop :=
  ∃ size, b.inodeSizeIs o i size ∧ x.length = size.toNat ∧
    ((∃ g, b.FileOK o i g gc ∧ ∀ k v, x[k]? = some v → b.fileByte o i g gc D k v) ∨
     ∃ g start data, b.InlineFile o i g start data ∧
       ∀ k, k < size.toNat → x[k]? = some (if start.toNat ≤ k then (data[k - start.toNat]?).getD 0 else 0))

/-- `t` is the target of the link: the data of its inline extent. -/
def Bucket.targetIs (b : Bucket) (o i : UInt64) (t : Bytes) : Prop :=
  o ≠ ~~~0 ∧ ∃ g x f rest, b.newest o ⟨i, 108, 0⟩ g ∧ b.stores ⟨o, ⟨i, 108, 0⟩, g⟩ x ∧
    holdsItem x (InlineExtentRec.layout f ++ (t ++ rest)) ∧ f.ramBytes.toNat = t.length ∧ t.length ≤ 16384

end Btrfscue
