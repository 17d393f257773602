import Verif.Model.ExtentFile
/-!
# Nodes of the mounted file system (internal/rescuefs/nodefs.go:85-220)

The root and metadata nodes are in `Model/TopNodes.lean`. The registration of child inodes with go-fuse and the
debug output are not modelled. A Go map is a list of entries with unique keys.
-/

namespace Btrfscue

/-- `map[string]btrfs.DirItem`. -/
abbrev DirMap := List (Bytes × DirItem)

/-- `m[name]`. -/
def DirMap.find (m : DirMap) (name : Bytes) : Option DirItem :=
  match m with
  | [] => none
  | e :: r => if e.1 = name then some e.2 else DirMap.find r name

/-- `m[name] = d`. -/
def DirMap.put (m : DirMap) (name : Bytes) (d : DirItem) : DirMap :=
  match m with
  | [] => [(name, d)]
  | e :: r => if e.1 = name then (name, d) :: r else e :: DirMap.put r name d

/-- internal/rescuefs/nodefs.go:85-93 -/
structure RescueNode where
  owner : UInt64
  ixInode : UInt64
  attr : Option FuseAttr := none
  dirItems : DirMap := []
  deriving DecidableEq

/-- internal/rescuefs/nodefs.go:95-104 -/
def newRescueNode (owner inode : UInt64) : RescueNode := { owner := owner, ixInode := inode }

/-- internal/rescuefs/nodefs.go:106-131. The result is the node with its cache and the
attrs or the error. -/
def RescueNode.getAttr (ix : Ix) (n : RescueNode) : Go (RescueNode × Except FuseErr FuseAttr) :=
  match n.attr with
  | some a => .ok (n, .ok a)
  | none => do
    match ← ix.findInodeItem n.owner n.ixInode with
    | none => return (n, .error .ENOATTR)
    | some ii =>
      let a ← attrOf n.ixInode ii
      return ({ n with attr := some a }, .ok a)

/-- internal/rescuefs/nodefs.go:137-139 -/
def dirMapBody (m : DirMap) (_ : Range) (d : DirItem) : Go (DirMap × Bool) := do
  return (m.put (← DirItem.name d) d, false)

/-- internal/rescuefs/nodefs.go:133-140 -/
def RescueNode.ensureDirItems (fuel : Nat) (ix : Ix) (n : RescueNode) : Go RescueNode :=
  if 0 < n.dirItems.length then .ok n
  else do
    let (m, _) ← rangeLoop dirMapBody fuel n.dirItems (← ix.dirItems n.owner n.ixInode)
    return { n with dirItems := m }

/-- internal/rescuefs/nodefs.go:142-160. The result is the node, and the child with its
attrs, or the error; the child is registered in any case, which is not modelled. -/
def RescueNode.lookup (fuel : Nat) (ix : Ix) (n : RescueNode) (name : Bytes) :
    Go (RescueNode × Except FuseErr (RescueNode × Bool × Except FuseErr FuseAttr)) := do
  let n ← n.ensureDirItems fuel ix
  match n.dirItems.find name with
  | none => return (n, .error .ENOENT)
  | some d =>
    let loc ← DirItem.location d
    let child ← (if !(← DirItem.isSubvolume d) then .ok (newRescueNode n.owner loc.objectID)
      else .ok (newRescueNode loc.objectID FirstFreeObjectID) : Go RescueNode)
    let isDir ← DirItem.isDir d
    let (child, a) ← child.getAttr ix
    return (n, .ok (child, isDir, a))

/-- internal/rescuefs/nodefs.go:166-172: entries with name and whether the mode is that
of a directory. `ord` is the iteration order of the map. -/
def openDirLoop : List (Bytes × DirItem) → Go (List (Bytes × Bool))
  | [] => .ok []
  | e :: r => do
    let name ← DirItem.name e.2
    let isDir ← DirItem.isDir e.2
    return (name, isDir) :: (← openDirLoop r)

/-- internal/rescuefs/nodefs.go:162-174 -/
def RescueNode.openDir (fuel : Nat) (ord : DirMap → DirMap) (ix : Ix) (n : RescueNode) :
    Go (RescueNode × List (Bytes × Bool)) := do
  let n ← n.ensureDirItems fuel ix
  return (n, ← openDirLoop (ord n.dirItems))

/-- What `Open` returns: a file with the given bytes (`nodefs.NewDataFile`) or an
extent backed file. -/
inductive OpenFile
  | data (b : Bytes)
  | extents (m : List ExtentMapEntry)
  deriving DecidableEq

/-- internal/rescuefs/nodefs.go:176-192. `cache` is the stripe map cache of the index. -/
def RescueNode.open (fuel : Nat) (ix : Ix) (cache : Option (List StripeMapEntry)) (n : RescueNode) :
    Go (Option (List StripeMapEntry) × Except FuseErr OpenFile) := do
  let (r, e) ← ix.fileExtentItems n.owner n.ixInode
  if !r.hasNext then return (cache, .error .ENOENT)
  else if ← FileExtentItem.isInline e then
    return (cache, .ok (.data (← FileExtentItem.data e)))
  else
    match ← newExtentFile fuel ix cache n.owner n.ixInode with
    | (some m, c) => return (c, .ok (.extents m))
    | (none, c) => return (c, .error .ENOENT)

/-- internal/rescuefs/nodefs.go:197-201 -/
def getXAttrBody (name : Bytes) (s : Option Bytes) (_ : Range) (x : DirItem) : Go (Option Bytes × Bool) := do
  if (← DirItem.name x) = name then return (some (← DirItem.data x), true)
  else return (s, false)

/-- internal/rescuefs/nodefs.go:194-203 -/
def RescueNode.getXAttr (fuel : Nat) (ix : Ix) (n : RescueNode) (attr : Bytes) : Go (Except FuseErr Bytes) := do
  let (s, _) ← rangeLoop (getXAttrBody attr) fuel none (← ix.xattrItems n.owner n.ixInode)
  match s with
  | some d => return .ok d
  | none => return .error .ENOATTR

/-- internal/rescuefs/nodefs.go:207-209 -/
def listXAttrBody (s : List Bytes) (_ : Range) (x : DirItem) : Go (List Bytes × Bool) := do
  return (s ++ [← DirItem.name x], false)

/-- internal/rescuefs/nodefs.go:205-211 -/
def RescueNode.listXAttr (fuel : Nat) (ix : Ix) (n : RescueNode) : Go (List Bytes) := do
  let (s, _) ← rangeLoop listXAttrBody fuel [] (← ix.xattrItems n.owner n.ixInode)
  return s

/-- internal/rescuefs/nodefs.go:213-220 -/
def RescueNode.readlink (ix : Ix) (n : RescueNode) : Go (Except FuseErr Bytes) := do
  match ← ix.findFileExtentItem n.owner n.ixInode with
  | none => return .error .ENODATA
  | some e =>
    if ← FileExtentItem.isInline e then return .ok (← FileExtentItem.data e)
    else return .error .ENODATA

end Btrfscue
