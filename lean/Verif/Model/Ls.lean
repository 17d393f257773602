import Verif.Model.Path
import Verif.Model.ToString
/-!
# The ls command (cmd/ls.go)

Modelled is the text handed to the tab writers (cmd/ls.go:159,181), before they turn
tabs into spaces (that is in `Model/Output.lean`), and the paths warned about. Text written before a crash is not
modelled. `shortTime` (cmd/ls.go:60-62) and the order in which `sort.Sort` leaves equal
entries are parameters.
-/

namespace Btrfscue

/-- cmd/ls.go:25-44 -/
def dirItemTypeString (t : UInt8) : Bytes :=
  if t = FtRegFile then ascii "-"
  else if t = FtBlkdev then ascii "b"
  else if t = FtChrdev then ascii "c"
  else if t = FtDir then ascii "d"
  else if t = FtSymlink then ascii "l"
  else if t = FtFifo then ascii "p"
  else if t = FtSock then ascii "s"
  else ascii "?"

/-- cmd/ls.go:47-55 -/
def filePerms : Bytes := ascii "-----x-w--wxr--r-xrw-rwx"

/-- `FilePerms[u:u+3]` for an offset inside the string. -/
def permsAt (u : UInt32) : Bytes := (filePerms.drop u.toNat).take 3

/-- cmd/ls.go:46-58 -/
def inodeModeString (mode : UInt32) : Bytes :=
  permsAt ((3 : UInt32) * ((mode >>> 6) &&& 0x7)) ++ (permsAt ((3 : UInt32) * ((mode >>> 3) &&& 0x7)) ++ permsAt ((3 : UInt32) * (mode &&& 0x7)))

/-- cmd/ls.go:71-76: the columns taken from the inode item. -/
def inodeColumns (ft : Time → Bytes) (ii : Option InodeItem) : Go Bytes :=
  match ii with
  | none => .ok (ascii "?????????\t?\t?\t?\t?\t?")
  | some ii => do
    let mode ← InodeItem.mode ii
    let nlink ← InodeItem.nlink ii
    let uid ← InodeItem.uid ii
    let gid ← InodeItem.gid ii
    let size ← InodeItem.size ii
    let ct ← InodeItem.ctime ii
    return inodeModeString mode ++ (9 :: (decimal nlink.toNat ++ (9 :: (decimal uid.toNat ++ (9 :: (decimal gid.toNat ++
      (9 :: (decimal size.toNat ++ (9 :: ft ct)))))))))

/-- cmd/ls.go:64-80 -/
def listDirItem (ft : Time → Bytes) (ix : Ix) (owner : UInt64) (di : DirItem) (showInode : Bool) : Go Bytes := do
  let loc ← DirItem.location di
  let t ← DirItem.typ di
  let cols ← inodeColumns ft (← ix.findInodeItem owner loc.objectID)
  let name ← DirItem.name di
  return (if showInode then decimal loc.objectID.toNat ++ [9] else []) ++ (dirItemTypeString t ++ (cols ++ (9 :: (name ++ [10]))))

/-- cmd/ls.go:85-93 on the results of `IsDir()` and `Name()`. -/
def lsLess (a b : Bool × Bytes) : Bool :=
  if !a.1 && b.1 then true
  else if a.1 && !b.1 then false
  else bytesLt a.2 b.2

/-- What `Less` reads of an entry. -/
def lsKey (d : DirItem) : Go (Bool × Bytes) := do return (← DirItem.isDir d, ← DirItem.name d)

/-- The keys of all entries. -/
def lsKeys : List DirItem → Go (List (DirItem × (Bool × Bytes)))
  | [] => .ok []
  | d :: r => do return (d, ← lsKey d) :: (← lsKeys r)

/-- What `sort.Sort` does to a list, given the keys of its elements. -/
abbrev Sorter := List (DirItem × (Bool × Bytes)) → List (DirItem × (Bool × Bytes))

/-- cmd/ls.go:103: `sort.Sort(dis)`. `Less` is taken to be called on every entry (on
lists of one it is not called). -/
def lsSort (srt : Sorter) (dis : List DirItem) : Go (List DirItem) := do
  return (srt (← lsKeys dis)).map (·.1)

/-- cmd/ls.go:100-102 and cmd/recover.go:99-101: collect the entries. -/
def collectBody (s : List DirItem) (_ : Range) (d : DirItem) : Go (List DirItem × Bool) := .ok (s ++ [d], false)

/-- cmd/ls.go:105-111: the lines, and the sub-directories to do. -/
def listLoop (ft : Time → Bytes) (ix : Ix) (owner : UInt64) (recursive showInode : Bool) :
    List DirItem → Go (Bytes × List DirItem)
  | [] => .ok ([], [])
  | di :: r => do
    let line ← listDirItem ft ix owner di showInode
    let isDir ← (if recursive then DirItem.isDir di else .ok false)
    let (out, todo) ← listLoop ft ix owner recursive showInode r
    return (line ++ out, if isDir then di :: todo else todo)

/-- cmd/ls.go:113-116, given what lists a sub-directory. -/
def subLoop (rec : UInt64 → Go Bytes) : List DirItem → Go Bytes
  | [] => .ok []
  | di :: r => do
    let name ← DirItem.name di
    let loc ← DirItem.location di
    let sub ← rec loc.objectID
    let out ← subLoop rec r
    return name ++ (58 :: 10 :: (sub ++ out))

/-- cmd/ls.go:97-117. `rf` bounds the loop over the directory, the first argument the
depth of the recursion. -/
def listDirectory (rf : Nat) (srt : Sorter) (ft : Time → Bytes) (ix : Ix) (owner : UInt64) (showInode : Bool) :
    Nat → UInt64 → Bool → Go Bytes
  | 0, _, _ => .hang
  | fuel + 1, dirID, recursive => do
    let (dis, _) ← rangeLoop collectBody rf [] (← ix.dirItems owner dirID)
    let dis ← lsSort srt dis
    let (out, todo) ← listLoop ft ix owner recursive showInode dis
    let sub ← subLoop (fun d => listDirectory rf srt ft ix owner showInode fuel d true) todo
    return out ++ sub

/-- The two options of the command (cmd/ls.go:119-122). -/
structure LsOptions where
  recursive : Bool
  inode : Bool

/-- What the argument loop leaves: text, warnings, directories to list. -/
structure LsArgs where
  out : Bytes := []
  warned : List Bytes := []
  todo : List (UInt64 × UInt64) := []
  deriving DecidableEq

/-- cmd/ls.go:163-177: one argument. -/
def lsArg (rf : Nat) (ft : Time → Bytes) (ix : Ix) (o : LsOptions) (s : LsArgs) (p : Bytes) : Go LsArgs := do
  let p := goClean p
  if p = [47] then return { s with todo := s.todo ++ [(FSTreeObjectID, FirstFreeObjectID)] }
  else
    match ← ix.findDirItemForPath rf FSTreeObjectID p with
    | none => return { s with warned := s.warned ++ [p] }
    | some di =>
      if !(← DirItem.isDir di) then
        return { s with out := s.out ++ (← listDirItem ft ix FSTreeObjectID di o.inode) }
      else return { s with todo := s.todo ++ [(FSTreeObjectID, (← DirItem.location di).objectID)] }

/-- cmd/ls.go:162-178 -/
def lsArgsLoop (rf : Nat) (ft : Time → Bytes) (ix : Ix) (o : LsOptions) : LsArgs → List Bytes → Go LsArgs
  | s, [] => .ok s
  | s, p :: r => do lsArgsLoop rf ft ix o (← lsArg rf ft ix o s p) r

/-- cmd/ls.go:182-184 -/
def lsTodoLoop (rf fuel : Nat) (srt : Sorter) (ft : Time → Bytes) (ix : Ix) (o : LsOptions) :
    List (UInt64 × UInt64) → Go Bytes
  | [] => .ok []
  | t :: r => do
    let a ← listDirectory rf srt ft ix t.1 o.inode fuel t.2 o.recursive
    let b ← lsTodoLoop rf fuel srt ft ix o r
    return a ++ b

/-- cmd/ls.go:147-186 on an open index: the text written and the paths not found. -/
def doListFiles (rf fuel : Nat) (srt : Sorter) (ft : Time → Bytes) (ix : Ix) (o : LsOptions) (args : List Bytes) :
    Go (Bytes × List Bytes) := do
  let s ← lsArgsLoop rf ft ix o {} (if args.isEmpty then [[47]] else args)
  let t ← lsTodoLoop rf fuel srt ft ix o s.todo
  return (s.out ++ t, s.warned)

end Btrfscue
