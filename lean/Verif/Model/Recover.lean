import Verif.Go.HostFS
import Verif.Go.Cmd
import Verif.Model.ToString
import Verif.Model.Ls
import Verif.Model.Physical
import Verif.Model.Leaf
/-!
# The recover command (cmd/recover.go)

Verbose messages are left out (see `Model/RecoverSay`); warnings are recorded. Other processes do not change the
host file system during the run. The index and the image are open (cmd/recover.go:49-55
do nothing but end the program if that fails).
-/

namespace Btrfscue

/-! ## The environment: system calls that may fail -/

/-- System calls of the command. -/
inductive Sys | stat | lstat | mkdir | open | write | truncate | remove | symlink
  deriving DecidableEq

/-- What the run depends on besides the file system: which system calls (numbered in
the order they are made) fail although nothing in the file system is in the way, how
much of a failing write is written, what the device answers, and by how much the
capacity of a `[]byte(string)` exceeds its length. -/
structure Env where
  fails : Sys → Nat → Bool
  short : Nat → Nat
  dev : Nat → ReaderAt
  slack : Nat → Nat

/-- Things recorded during a run. -/
inductive Ev where
  | enter (owner dir : UInt64) (dest : Bytes)
  | op (k : Sys) (path : Bytes)
  | warn (path : Bytes)
  deriving DecidableEq

/-- The state: the host file system, the number of system calls so far, the stripe map
cache of the index, `visited`, what happened (latest first), and the file systems there
were before each change (latest first). The last two do not influence the run. -/
structure RecState where
  fs : HostFS
  calls : Nat := 0
  cache : Option (List StripeMapEntry) := none
  visited : List (UInt64 × UInt64) := []
  log : List Ev := []
  past : List HostFS := []
  deriving DecidableEq

/-- The part of the command that runs on this state. -/
abbrev Rec := Cmd RecState

/-- Record something. -/
def note (e : Ev) : Rec Unit := Cmd.modify fun s => { s with log := e :: s.log }

/-- Count a system call; does it fail? -/
def tick (env : Env) (k : Sys) : Rec Bool := fun s => .ok (env.fails k s.calls) { s with calls := s.calls + 1 }

/-- Change the file system. -/
def setFS (fs : HostFS) : Rec Unit := Cmd.modify fun s => { s with fs := fs, past := s.fs :: s.past }

/-- `os.Stat` -/
def sysStat (env : Env) (p : Bytes) : Rec (Option Bool) := do
  if ← tick env .stat then return none
  else return (← Cmd.get).fs.stat true p

/-- `os.Lstat` -/
def sysLstat (env : Env) (p : Bytes) : Rec (Option Bool) := do
  if ← tick env .lstat then return none
  else return (← Cmd.get).fs.stat false p

/-- Apply the outcome of a system call: was it successful? -/
def applyFS (r : Option HostFS) : Rec Bool :=
  match r with
  | none => return false
  | some fs => do setFS fs; return true

/-- `os.Mkdir` -/
def sysMkdir (env : Env) (p : Bytes) : Rec Bool := do
  note (.op .mkdir p)
  if ← tick env .mkdir then return false
  else applyFS ((← Cmd.get).fs.mkdir p)

/-- `os.Symlink` -/
def sysSymlink (env : Env) (target p : Bytes) : Rec Bool := do
  note (.op .symlink p)
  if ← tick env .symlink then return false
  else applyFS ((← Cmd.get).fs.symlink target p)

/-- `os.Remove` -/
def sysRemove (env : Env) (p : Bytes) : Rec Bool := do
  note (.op .remove p)
  if ← tick env .remove then return false
  else applyFS ((← Cmd.get).fs.remove p)

/-- Apply the outcome of an open. -/
def applyOpen (r : Option (HostFS × Nat)) : Rec (Option Nat) :=
  match r with
  | none => return none
  | some x => do setFS x.1; return some x.2

/-- `os.OpenFile(p, os.O_CREATE|os.O_WRONLY|os.O_TRUNC, 0644)`: the open inode. -/
def sysOpen (env : Env) (p : Bytes) : Rec (Option Nat) := do
  note (.op .open p)
  if ← tick env .open then return none
  else applyOpen ((← Cmd.get).fs.openTrunc p)

/-- `f.WriteAt(b, off)`. Writing nothing succeeds. A failing write may write the front
part of `b`. Files end before 2^63. -/
def sysWrite (env : Env) (fd : Nat) (b : Bytes) (off : Int) : Rec Bool := do
  if off < 0 then return false
  else if b = [] then return true
  else
    let n := (← Cmd.get).calls
    if ← tick env .write then
      let _ ← applyFS ((← Cmd.get).fs.write fd off.toNat (b.take (env.short n)))
      return false
    else if 2 ^ 63 ≤ off + b.length then return false
    else applyFS ((← Cmd.get).fs.write fd off.toNat b)

/-- `f.Truncate(size)` -/
def sysTruncate (env : Env) (fd : Nat) (size : Int) : Rec Bool := do
  if ← tick env .truncate then return false
  else if size < 0 then return false
  else applyFS ((← Cmd.get).fs.truncate fd size.toNat)

/-- `ReadAt` of an `os.File`: negative offsets are refused, an error is returned exactly
if fewer bytes than wanted were read, `io.EOF` if the file ended. -/
def osReadAt (r : ReaderAt) (off : Int) (n : Nat) : Bytes × Option IOErr :=
  if off < 0 then ([], some .other)
  else if n ≤ (r off n).1.length then ((r off n).1.take n, none)
  else ((r off n).1, some ((r off n).2.getD .eof))

/-- `devFile.ReadAt` -/
def devRead (env : Env) (off : Int) (n : Nat) : Rec (Bytes × Option IOErr) := fun s =>
  .ok (osReadAt (env.dev s.calls) off n) { s with calls := s.calls + 1 }

/-- The path without its last component, as in `os.MkdirAll`: trailing slashes, then
everything behind the last slash. -/
def parentPath (p : Bytes) : Bytes := ((p.reverse.dropWhile (· == 47)).dropWhile (· != 47)).reverse

/-- The end of `os.MkdirAll`: make the directory, or find out that it exists. -/
def mkdirLast (env : Env) (p : Bytes) : Rec Bool := do
  if ← sysMkdir env p then return true
  else return (← sysLstat env p) == some true

/-- `os.MkdirAll`; the first argument bounds the depth of the recursion, which ends as
each parent path is shorter. -/
def mkdirAllAux (env : Env) : Nat → Bytes → Rec Bool
  | 0, _ => fun s => .hang s
  | n + 1, p => do
    match ← sysStat env p with
    | some isDir => return isDir
    | none =>
      if parentPath p = [] then mkdirLast env p
      else if ← mkdirAllAux env n (parentPath p) then mkdirLast env p
      else return false

/-- `os.MkdirAll` -/
def mkdirAll (env : Env) (p : Bytes) : Rec Bool := mkdirAllAux env (p.length + 1) p

/-- `make([]byte, n)`: panics if `n` exceeds the address space (linux/amd64). Running
out of memory is not modelled. -/
def goMake (n : UInt64) : Go Bytes :=
  if 2 ^ 48 < n.toNat then .panic else .ok (List.replicate n.toNat 0)

/-! ## The command -/

/-- Errors returned; `none` stands for nil. -/
inductive RecErr | sys | write | eof | truncate | noExtent | readTarget | notInline
  deriving DecidableEq

/-- `ix.Physical(logical)`, which fills the stripe map cache. -/
def recPhysical (rf : Nat) (ix : Ix) (logical : UInt64) : Rec (UInt64 × UInt64) := fun s =>
  match ix.physical rf s.cache logical with
  | .ok r => .ok r.2 { s with cache := r.1 }
  | .panic => .crash s
  | .hang => .hang s

/-- cmd/recover.go:189 -/
abbrev chunkSize : UInt64 := 1048576

/-- cmd/recover.go:194-197 -/
def toCopy (numBytes copied : UInt64) : UInt64 :=
  if chunkSize < numBytes - copied then chunkSize else numBytes - copied

/-- cmd/recover.go:200-205: write what was read. -/
def writeRead (env : Env) (fd : Nat) (bs : Bytes) (off : Int) : Rec Bool :=
  if 0 < bs.length then sysWrite env fd bs off else return true

/-- cmd/recover.go:192-212; the first argument bounds the number of iterations. The loop
may also end by `break`, with no error. -/
def copyLoop (env : Env) (fd : Nat) (fileOffset srcOffset numBytes : UInt64) : Nat → UInt64 → Rec (Option RecErr)
  | 0, _ => fun s => .hang s
  | fuel + 1, copied =>
    if copied < numBytes then do
      let r ← devRead env (int64OfU64 (srcOffset + copied)) (toCopy numBytes copied).toNat
      if ← writeRead env fd r.1 (int64OfU64 (fileOffset + copied)) then
        let copied' := copied + UInt64.ofNat r.1.length
        match r.2 with
        | none => copyLoop env fd fileOffset srcOffset numBytes fuel copied'
        | some .eof => if copied' < numBytes then return some .eof else return none
        | some .other => return none
      else return some .write
    else return none

/-- `return fmt.Errorf("write ...")` if a write failed. -/
def writeErr (ok : Bool) : Option RecErr := if ok then none else some .write

/-- cmd/recover.go:169-172: how much of the inline data is written. `size` is the file
size if there is an inode item. -/
def inlineLimit (size : Option UInt64) (fileOffset : UInt64) (len : Nat) : Int :=
  match size with
  | none => len
  | some sz =>
    if int64OfU64 sz < wrapInt64 (int64OfU64 fileOffset + len) then int64OfU64 (sz - fileOffset) else len

/-- cmd/recover.go:168-177 -/
def recoverInline (env : Env) (fd : Nat) (size : Option UInt64) (fileOffset : UInt64) (d : Bytes) :
    Rec (Option RecErr) :=
  let limit := inlineLimit size fileOffset d.length
  if 0 < limit then do
    let b ← Cmd.lift ((Slice.mk d (List.replicate (env.slack d.length) 0)).to limit.toNat)
    return writeErr (← sysWrite env fd b.data (int64OfU64 fileOffset))
  else return none

/-- cmd/recover.go:181-184: a hole. -/
def recoverHole (env : Env) (fd : Nat) (fileOffset numBytes : UInt64) : Rec (Option RecErr) := do
  let zeros ← Cmd.lift (goMake numBytes)
  return writeErr (← sysWrite env fd zeros (int64OfU64 fileOffset))

/-- cmd/recover.go:186-212 -/
def recoverData (env : Env) (rf : Nat) (ix : Ix) (fd : Nat) (fileOffset numBytes : UInt64) (e : FileExtentItem) :
    Rec (Option RecErr) := do
  let phys ← recPhysical rf ix (← Cmd.lift (FileExtentItem.diskByteNr e))
  let off ← Cmd.lift (FileExtentItem.offset e)
  copyLoop env fd fileOffset (phys.2 + off) numBytes (numBytes.toNat / chunkSize.toNat + 2) 0

/-- cmd/recover.go:165-214: one extent. -/
def recoverExtent (env : Env) (rf : Nat) (ix : Ix) (fd : Nat) (size : Option UInt64) (r : Range) (e : FileExtentItem) :
    Rec (Option RecErr) := do
  let k ← Cmd.lift r.rKey
  if ← Cmd.lift (FileExtentItem.isInline e) then
    recoverInline env fd size k.offset (← Cmd.lift (FileExtentItem.data e))
  else
    let numBytes ← Cmd.lift (FileExtentItem.numBytes e)
    if (← Cmd.lift (FileExtentItem.diskByteNr e)) = 0 then recoverHole env fd k.offset numBytes
    else recoverData env rf ix fd k.offset numBytes e

/-- `for ; r.HasNext(); e = r.Next() { body }` where the body may return an error. -/
def rangeLoopRec (body : Range → Slice → Rec (Option RecErr)) : Nat → Range × Slice → Rec (Option RecErr)
  | 0, _ => fun s => .hang s
  | fuel + 1, rd =>
    if rd.1.hasNext then do
      match ← body rd.1 rd.2 with
      | some e => return some e
      | none => rangeLoopRec body fuel (← Cmd.lift rd.1.next)
    else return none

/-- cmd/recover.go:143-146: the size, if there is an inode item. -/
def inodeSize (ii : Option InodeItem) : Go (Option UInt64) :=
  match ii with
  | none => .ok none
  | some i => do return some (← InodeItem.size i)

/-- cmd/recover.go:158-161: a file without extents; the error is dropped. -/
def finishEmpty (env : Env) (fd : Nat) (size : Option UInt64) : Rec (Option RecErr) :=
  match size with
  | none => return none
  | some sz => do let _ ← sysTruncate env fd (int64OfU64 sz); return none

/-- cmd/recover.go:217-222 -/
def finishFile (env : Env) (fd : Nat) (size : Option UInt64) : Rec (Option RecErr) :=
  match size with
  | none => return none
  | some sz => do
    if ← sysTruncate env fd (int64OfU64 sz) then return none else return some .truncate

/-- cmd/recover.go:156-222: fill the open file. -/
def recoverContents (env : Env) (rf : Nat) (ix : Ix) (owner inode : UInt64) (fd : Nat) (size : Option UInt64) :
    Rec (Option RecErr) := do
  let rd ← Cmd.lift (ix.fileExtentItems owner inode)
  if !rd.1.hasNext then finishEmpty env fd size
  else
    match ← rangeLoopRec (recoverExtent env rf ix fd size) rf rd with
    | some e => return some e
    | none => finishFile env fd size

/-- cmd/recover.go:136-223 -/
def recoverFile (env : Env) (rf : Nat) (ix : Ix) (clobber : Bool) (owner inode : UInt64) (target : Bytes) :
    Rec (Option RecErr) := do
  let st ← sysStat env target
  if st.isSome && !clobber then return none
  else
    let size ← Cmd.lift (do inodeSize (← ix.findInodeItem owner inode))
    match ← sysOpen env target with
    | none => return some .sys
    | some fd => recoverContents env rf ix owner inode fd size

/-- cmd/recover.go:244-251: a target that is not inline. -/
def readTarget (env : Env) (rf : Nat) (ix : Ix) (e : FileExtentItem) : Rec (Except RecErr Bytes) := do
  let phys ← recPhysical rf ix (← Cmd.lift (FileExtentItem.diskByteNr e))
  let off ← Cmd.lift (FileExtentItem.offset e)
  let buf ← Cmd.lift (do goMake (← FileExtentItem.numBytes e))
  let r ← devRead env (int64OfU64 (phys.2 + off)) buf.length
  if r.2 = none then return .ok (goCopy buf r.1) else return .error .readTarget

/-- cmd/recover.go:239-255. The device is never nil. -/
def symlinkTarget (env : Env) (rf : Nat) (ix : Ix) (e : FileExtentItem) : Rec (Except RecErr Bytes) := do
  if ← Cmd.lift (FileExtentItem.isInline e) then return .ok (← Cmd.lift (FileExtentItem.data e))
  else if 0 < (← Cmd.lift (FileExtentItem.diskByteNr e)) then readTarget env rf ix e
  else return .error .notInline

/-- cmd/recover.go:257-258 -/
def makeLink (env : Env) (target : Bytes) (t : Except RecErr Bytes) : Rec (Option RecErr) :=
  match t with
  | .error e => return some e
  | .ok t => do if ← sysSymlink env t target then return none else return some .sys

/-- cmd/recover.go:234-258 -/
def recoverLink (env : Env) (rf : Nat) (ix : Ix) (owner inode : UInt64) (target : Bytes) : Rec (Option RecErr) := do
  match ← Cmd.lift (ix.findFileExtentItem owner inode) with
  | none => return some .noExtent
  | some e => makeLink env target (← symlinkTarget env rf ix e)

/-- cmd/recover.go:225-259 -/
def recoverSymlink (env : Env) (rf : Nat) (ix : Ix) (clobber : Bool) (owner inode : UInt64) (target : Bytes) :
    Rec (Option RecErr) := do
  if (← sysLstat env target).isSome then
    if !clobber then return none
    else
      let _ ← sysRemove env target
      recoverLink env rf ix owner inode target
  else recoverLink env rf ix owner inode target

/-- cmd/recover.go:105 -/
def skipName (name : Bytes) : Bool := name == dot || name == dotdot || name.contains 47 || name.contains 92

/-- `if err := ...; err != nil { cliutil.Warnf(...) }` -/
def report (path : Bytes) (e : Option RecErr) : Rec Unit :=
  match e with
  | none => return ()
  | some _ => note (.warn path)

/-- cmd/recover.go:112-117: where a directory entry leads. -/
def subDir (owner : UInt64) (loc : Key) (isSub : Bool) : UInt64 × UInt64 :=
  if isSub then (loc.objectID, FirstFreeObjectID) else (owner, loc.objectID)

/-- cmd/recover.go:111-131: an entry that is not skipped. `rec` is `recoverDir`. -/
def recoverNamed (rec : UInt64 → UInt64 → Bytes → Rec (Option RecErr)) (env : Env) (rf : Nat) (ix : Ix)
    (clobber : Bool) (owner : UInt64) (target : Bytes) (di : DirItem) : Rec Unit := do
  let isDir ← Cmd.lift (DirItem.isDir di)
  let isSub ← Cmd.lift (DirItem.isSubvolume di)
  let loc ← Cmd.lift (DirItem.location di)
  let t ← Cmd.lift (DirItem.typ di)
  if isDir || isSub then
    report target (← rec (subDir owner loc isSub).1 (subDir owner loc isSub).2 target)
  else if t = FtRegFile then report target (← recoverFile env rf ix clobber owner loc.objectID target)
  else if t = FtSymlink then report target (← recoverSymlink env rf ix clobber owner loc.objectID target)
  else return ()

/-- cmd/recover.go:104-131: one entry. -/
def recoverEntry (rec : UInt64 → UInt64 → Bytes → Rec (Option RecErr)) (env : Env) (rf : Nat) (ix : Ix)
    (clobber : Bool) (owner : UInt64) (dest : Bytes) (di : DirItem) : Rec Unit := do
  let name ← Cmd.lift (DirItem.name di)
  if skipName name then return ()
  else recoverNamed rec env rf ix clobber owner (goJoin dest name) di

/-- cmd/recover.go:103-132 -/
def recoverEntries (rec : UInt64 → UInt64 → Bytes → Rec (Option RecErr)) (env : Env) (rf : Nat) (ix : Ix)
    (clobber : Bool) (owner : UInt64) (dest : Bytes) : List DirItem → Rec Unit
  | [] => return ()
  | di :: r => do
    recoverEntry rec env rf ix clobber owner dest di
    recoverEntries rec env rf ix clobber owner dest r

/-- cmd/recover.go:98-101 -/
def readDirItems (rf : Nat) (ix : Ix) (owner dirID : UInt64) : Go (List DirItem) := do
  return (← rangeLoop collectBody rf [] (← ix.dirItems owner dirID)).1

/-- cmd/recover.go:87-134; the first numeric argument bounds loops over the index, the
second the depth of the recursion. -/
def recoverDir (env : Env) (rf : Nat) (ix : Ix) (clobber : Bool) : Nat → UInt64 → UInt64 → Bytes → Rec (Option RecErr)
  | 0, _, _, _ => fun s => .hang s
  | fuel + 1, owner, dirID, dest => do
    if (← Cmd.get).visited.contains (owner, dirID) then return none
    else
      Cmd.modify fun s => { s with visited := (owner, dirID) :: s.visited }
      note (.enter owner dirID dest)
      if ← mkdirAll env dest then
        let dis ← Cmd.lift (readDirItems rf ix owner dirID)
        recoverEntries (recoverDir env rf ix clobber fuel) env rf ix clobber owner dest dis
        return none
      else return some .sys

/-- cmd/recover.go:77-78 -/
def subvolDest (dest : Bytes) (owner : UInt64) : Bytes := goJoin dest (ascii "subvol_" ++ decimal owner.toNat)

/-- cmd/recover.go:74-83: one subvolume. -/
def recoverSubvol (env : Env) (rf fuel : Nat) (ix : Ix) (clobber : Bool) (dest : Bytes) (r : Range) (_ : Slice) :
    Rec (Option RecErr) := do
  let k ← Cmd.lift r.rKey
  if (← Cmd.get).visited.contains (k.objectID, FirstFreeObjectID) then return none
  else
    report (subvolDest dest k.objectID)
      (← recoverDir env rf ix clobber fuel k.objectID FirstFreeObjectID (subvolDest dest k.objectID))
    return none

/-- cmd/recover.go:57-84 -/
def doRecoverFiles (env : Env) (rf fuel : Nat) (ix : Ix) (clobber : Bool) (dest : Bytes) : Rec Unit := do
  if ← mkdirAll env dest then
    report dest (← recoverDir env rf ix clobber fuel FSTreeObjectID FirstFreeObjectID dest)
    let rd ← Cmd.lift ix.subvolumes
    let _ ← rangeLoopRec (recoverSubvol env rf fuel ix clobber dest) rf rd
    return ()
  else Cmd.exit

end Btrfscue
