import Verif.Model.IndexRead
import Verif.Go.Path
/-!
# Path lookup (pkg/btrfs/index/index_store.go:498-539)
-/

namespace Btrfscue

/-- `strings.Split(strings.TrimLeft(path, "/"), "/")`
(pkg/btrfs/index/index_store.go:503). -/
def pathComps (path : Bytes) : List Bytes := splitSlash (path.dropWhile (· == 47))

/-- pkg/btrfs/index/index_store.go:521-526: body of the slow path. -/
def slowBody (comp : Bytes) (last : Bool) (s : Option DirItem) (_ : Range) (d : DirItem) :
    Go (Option DirItem × Bool) := do
  if (← DirItem.name d) = comp then
    if (← DirItem.isDir d) || last then return (some d, true)
    else return (s, false)
  else return (s, false)

/-- pkg/btrfs/index/index_store.go:510-516: the fast path. -/
def fastDir (ix : Ix) (owner dirID : UInt64) (comp : Bytes) : Go (Option DirItem) := do
  match ← ix.findItem owner (KF3 DirItemKey dirID (NameHash comp).toUInt64) with
  | none => return none
  | some v =>
    let d ← Item.data v
    if (← DirItem.name d) = comp then return some d else return none

/-- pkg/btrfs/index/index_store.go:505-527: one component. -/
def findComp (fuel : Nat) (ix : Ix) (owner dirID : UInt64) (comp : Bytes) (last : Bool) :
    Go (Option DirItem) := do
  match ← fastDir ix owner dirID comp with
  | some d => return some d
  | none =>
    let (s, _) ← rangeLoop (slowBody comp last) fuel none (← ix.dirItems owner dirID)
    return s

/-- pkg/btrfs/index/index_store.go:504-538: the loop over the path components. -/
def findPathLoop (fuel : Nat) (ix : Ix) : UInt64 → UInt64 → Option DirItem → List Bytes →
    Go (Option DirItem)
  | _, _, result, [] => .ok result
  | owner, dirID, _, comp :: rest => do
    match ← findComp fuel ix owner dirID comp rest.isEmpty with
    | none => return none
    | some d =>
      if !(← DirItem.isSubvolume d) then
        findPathLoop fuel ix owner (← DirItem.location d).objectID (some d) rest
      else
        findPathLoop fuel ix (← DirItem.location d).objectID FirstFreeObjectID (some d) rest

/-- pkg/btrfs/index/index_store.go:498-539 -/
def Ix.findDirItemForPath (fuel : Nat) (ix : Ix) (owner : UInt64) (path : Bytes) :
    Go (Option DirItem) :=
  findPathLoop fuel ix owner FirstFreeObjectID none (pathComps path)

end Btrfscue
