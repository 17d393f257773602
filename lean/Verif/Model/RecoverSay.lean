import Verif.Model.Recover
/-!
# The recover command with what it prints on stdout (cmd/recover.go)

`Model/Recover.lean` leaves out what is printed. Here are the functions of cmd/recover.go that
print, or call one that does, once more, with the messages. `Proof/RecoverSay.lean` shows that they
do what those of `Model/Recover.lean` do, so everything proved of these holds here too.
-/

namespace Btrfscue

/-- The messages of recover on stdout. -/
inductive Line where
  | root (owner : UInt64)
  | subvol (owner : UInt64) (dest : Bytes)
  | special (path : Bytes) (typ : UInt8)
  | fileExists (path : Bytes)
  | file (path : Bytes) (size : UInt64)
  | linkExists (path : Bytes)
  | link (path target : Bytes)
  | stripe (logical offset gen : UInt64)
  deriving DecidableEq

/-- The text of a message: cmd/recover.go:67,79,130,138,154,228,257 and
pkg/btrfs/index/index_store.go:477. -/
def Line.text : Line → Bytes
  | .root o => ascii "Recovering root directory tree from subvolume " ++ (decimal o.toNat ++ ascii "...\n")
  | .subvol o p => ascii "Recovering unreferenced subvolume " ++ (decimal o.toNat ++ (ascii " to " ++ (p ++ ascii "...\n")))
  | .special p t => ascii "skipping special file " ++ (p ++ (ascii " of type " ++ (decimal t.toNat ++ [10])))
  | .fileExists p => ascii "file " ++ (p ++ ascii " already exists, skipping (--clobber not specified)\n")
  | .file p n => ascii "recovering file: " ++ (p ++ (ascii " (size: " ++ (decimal n.toNat ++ ascii ")\n")))
  | .linkExists p => ascii "symlink " ++ (p ++ ascii " already exists, skipping (--clobber not specified)\n")
  | .link p t => ascii "recovering symlink: " ++ (p ++ (ascii " -> " ++ (t ++ [10])))
  | .stripe l o g => ascii "stripe: " ++ (decimal l.toNat ++ (ascii " => " ++ (decimal o.toNat ++ (ascii " @ " ++ (decimal g.toNat ++ [10])))))

/-- The state of the command, and what it has printed. -/
structure Talk where
  rs : RecState
  said : List Line
  deriving DecidableEq

/-- A part of the command that may print. -/
abbrev Say := Cmd Talk

/-- Run a part that does not print. -/
def quietly {α : Type} (x : Rec α) : Say α := fun s =>
  match x s.rs with
  | .ok a r => .ok a { s with rs := r }
  | .exit r => .exit { s with rs := r }
  | .crash r => .crash { s with rs := r }
  | .hang r => .hang { s with rs := r }

/-- cmd/btrfscue/app/util/cliutil.go:33-38: `Verbosef`. -/
def sayVerbose (verbose : Bool) (l : Line) : Say Unit :=
  if verbose then Cmd.modify fun s => { s with said := s.said ++ [l] } else pure ()

/-- pkg/btrfs/index/index_store.go:468-478: the loop of `stripeMapBody`, with what line 477 prints. -/
def stripeLinesBody (s : List Line) (r : Range) (c : Chunk) : Go (List Line × Bool) := do
  if (← Chunk.numStripes c) = 0 then return (s, false)
  else
    let st ← Chunk.stripe c 0
    let k ← r.rKey
    return (s ++ [.stripe k.offset (← Stripe.offset st) (← r.rGeneration)], false)

/-- pkg/btrfs/index/index_store.go:465-479: what filling the stripe map prints. (If the loop does not
end normally, nor does `Ix.physical`; what the loop has printed by then is not modelled.) -/
def Ix.stripeLines (fuel : Nat) (ix : Ix) : Go (List Line) := do
  return (← rangeLoop stripeLinesBody fuel [] (← ix.chunks)).1

/-- pkg/btrfs/index/index_store.go:465: the stripe map is filled if it is nil. -/
def physicalLines (rf : Nat) (ix : Ix) (cache : Option (List StripeMapEntry)) : List Line :=
  match cache with
  | some _ => []
  | none =>
    match ix.stripeLines rf with
    | .ok t => t
    | _ => []

/-- `ix.Physical(logical)`, which fills the stripe map cache, and then prints. -/
def sayPhysical (rf : Nat) (ix : Ix) (logical : UInt64) : Say (UInt64 × UInt64) := fun s =>
  match ix.physical rf s.rs.cache logical with
  | .ok r => .ok r.2 ⟨{ s.rs with cache := r.1 }, s.said ++ physicalLines rf ix s.rs.cache⟩
  | .panic => .crash ⟨s.rs, s.said ++ physicalLines rf ix s.rs.cache⟩
  | .hang => .hang ⟨s.rs, s.said ++ physicalLines rf ix s.rs.cache⟩

/-- cmd/recover.go:186-212 -/
def sayData (env : Env) (rf : Nat) (ix : Ix) (fd : Nat) (fileOffset numBytes : UInt64) (e : FileExtentItem) : Say (Option RecErr) := do
  let phys ← sayPhysical rf ix (← Cmd.lift (FileExtentItem.diskByteNr e))
  let off ← Cmd.lift (FileExtentItem.offset e)
  quietly (copyLoop env fd fileOffset (phys.2 + off) numBytes (numBytes.toNat / chunkSize.toNat + 2) 0)

/-- cmd/recover.go:165-214: one extent. -/
def sayExtent (env : Env) (rf : Nat) (ix : Ix) (fd : Nat) (size : Option UInt64) (r : Range) (e : FileExtentItem) : Say (Option RecErr) := do
  let k ← Cmd.lift r.rKey
  if ← Cmd.lift (FileExtentItem.isInline e) then
    quietly (recoverInline env fd size k.offset (← Cmd.lift (FileExtentItem.data e)))
  else
    let numBytes ← Cmd.lift (FileExtentItem.numBytes e)
    if (← Cmd.lift (FileExtentItem.diskByteNr e)) = 0 then quietly (recoverHole env fd k.offset numBytes)
    else sayData env rf ix fd k.offset numBytes e

/-- `for ; r.HasNext(); e = r.Next() { body }` where the body may return an error. -/
def rangeLoopSay (body : Range → Slice → Say (Option RecErr)) : Nat → Range × Slice → Say (Option RecErr)
  | 0, _ => fun s => .hang s
  | fuel + 1, rd =>
    if rd.1.hasNext then do
      match ← body rd.1 rd.2 with
      | some e => return some e
      | none => rangeLoopSay body fuel (← Cmd.lift rd.1.next)
    else return none

/-- cmd/recover.go:156-222: fill the open file. -/
def sayContents (env : Env) (rf : Nat) (ix : Ix) (owner inode : UInt64) (fd : Nat) (size : Option UInt64) : Say (Option RecErr) := do
  let rd ← Cmd.lift (ix.fileExtentItems owner inode)
  if !rd.1.hasNext then quietly (finishEmpty env fd size)
  else
    match ← rangeLoopSay (sayExtent env rf ix fd size) rf rd with
    | some e => return some e
    | none => quietly (finishFile env fd size)

/-- cmd/recover.go:136-223; the size printed is 0 if there is no inode item (line 143). -/
def sayFile (verbose : Bool) (env : Env) (rf : Nat) (ix : Ix) (clobber : Bool) (owner inode : UInt64) (target : Bytes) :
    Say (Option RecErr) := do
  let st ← quietly (sysStat env target)
  if st.isSome && !clobber then
    sayVerbose verbose (.fileExists target)
    return none
  else
    let size ← Cmd.lift (do inodeSize (← ix.findInodeItem owner inode))
    match ← quietly (sysOpen env target) with
    | none => return some .sys
    | some fd =>
      sayVerbose verbose (.file target (size.getD 0))
      sayContents env rf ix owner inode fd size

/-- cmd/recover.go:244-251: a target that is not inline. -/
def sayReadTarget (env : Env) (rf : Nat) (ix : Ix) (e : FileExtentItem) : Say (Except RecErr Bytes) := do
  let phys ← sayPhysical rf ix (← Cmd.lift (FileExtentItem.diskByteNr e))
  let off ← Cmd.lift (FileExtentItem.offset e)
  let buf ← Cmd.lift (do goMake (← FileExtentItem.numBytes e))
  let r ← quietly (devRead env (int64OfU64 (phys.2 + off)) buf.length)
  if r.2 = none then return .ok (goCopy buf r.1) else return .error .readTarget

/-- cmd/recover.go:239-255. The device is never nil. -/
def sayTarget (env : Env) (rf : Nat) (ix : Ix) (e : FileExtentItem) : Say (Except RecErr Bytes) := do
  if ← Cmd.lift (FileExtentItem.isInline e) then return .ok (← Cmd.lift (FileExtentItem.data e))
  else if 0 < (← Cmd.lift (FileExtentItem.diskByteNr e)) then sayReadTarget env rf ix e
  else return .error .notInline

/-- cmd/recover.go:257-258 -/
def sayMakeLink (verbose : Bool) (env : Env) (target : Bytes) (t : Except RecErr Bytes) : Say (Option RecErr) :=
  match t with
  | .error e => return some e
  | .ok t => do
    sayVerbose verbose (.link target t)
    if ← quietly (sysSymlink env t target) then return none else return some .sys

/-- cmd/recover.go:234-258 -/
def sayLink (verbose : Bool) (env : Env) (rf : Nat) (ix : Ix) (owner inode : UInt64) (target : Bytes) : Say (Option RecErr) := do
  match ← Cmd.lift (ix.findFileExtentItem owner inode) with
  | none => return some .noExtent
  | some e => sayMakeLink verbose env target (← sayTarget env rf ix e)

/-- cmd/recover.go:225-259 -/
def saySymlink (verbose : Bool) (env : Env) (rf : Nat) (ix : Ix) (clobber : Bool) (owner inode : UInt64) (target : Bytes) :
    Say (Option RecErr) := do
  if (← quietly (sysLstat env target)).isSome then
    if !clobber then
      sayVerbose verbose (.linkExists target)
      return none
    else
      let _ ← quietly (sysRemove env target)
      sayLink verbose env rf ix owner inode target
  else sayLink verbose env rf ix owner inode target

/-- cmd/recover.go:111-131: an entry that is not skipped. `rec` is `sayDir`. -/
def sayNamed (rec : UInt64 → UInt64 → Bytes → Say (Option RecErr)) (verbose : Bool) (env : Env) (rf : Nat) (ix : Ix)
    (clobber : Bool) (owner : UInt64) (target : Bytes) (di : DirItem) : Say Unit := do
  let isDir ← Cmd.lift (DirItem.isDir di)
  let isSub ← Cmd.lift (DirItem.isSubvolume di)
  let loc ← Cmd.lift (DirItem.location di)
  let t ← Cmd.lift (DirItem.typ di)
  if isDir || isSub then
    quietly (report target (← rec (subDir owner loc isSub).1 (subDir owner loc isSub).2 target))
  else if t = FtRegFile then quietly (report target (← sayFile verbose env rf ix clobber owner loc.objectID target))
  else if t = FtSymlink then quietly (report target (← saySymlink verbose env rf ix clobber owner loc.objectID target))
  else sayVerbose verbose (.special target t)

/-- cmd/recover.go:104-131: one entry. -/
def sayEntry (rec : UInt64 → UInt64 → Bytes → Say (Option RecErr)) (verbose : Bool) (env : Env) (rf : Nat) (ix : Ix)
    (clobber : Bool) (owner : UInt64) (dest : Bytes) (di : DirItem) : Say Unit := do
  let name ← Cmd.lift (DirItem.name di)
  if skipName name then return ()
  else sayNamed rec verbose env rf ix clobber owner (goJoin dest name) di

/-- cmd/recover.go:103-132 -/
def sayEntries (rec : UInt64 → UInt64 → Bytes → Say (Option RecErr)) (verbose : Bool) (env : Env) (rf : Nat) (ix : Ix)
    (clobber : Bool) (owner : UInt64) (dest : Bytes) : List DirItem → Say Unit
  | [] => return ()
  | di :: r => do
    sayEntry rec verbose env rf ix clobber owner dest di
    sayEntries rec verbose env rf ix clobber owner dest r

/-- cmd/recover.go:88-96: mark the directory as visited and make it. -/
def enterDir (env : Env) (owner dirID : UInt64) (dest : Bytes) : Rec Bool := do
  Cmd.modify fun s => { s with visited := (owner, dirID) :: s.visited }
  note (.enter owner dirID dest)
  mkdirAll env dest

/-- cmd/recover.go:87-134; the first numeric argument bounds loops over the index, the second the
depth of the recursion. -/
def sayDir (verbose : Bool) (env : Env) (rf : Nat) (ix : Ix) (clobber : Bool) : Nat → UInt64 → UInt64 → Bytes → Say (Option RecErr)
  | 0, _, _, _ => fun s => .hang s
  | fuel + 1, owner, dirID, dest => do
    if (← Cmd.get).rs.visited.contains (owner, dirID) then return none
    else
      if ← quietly (enterDir env owner dirID dest) then
        let dis ← Cmd.lift (readDirItems rf ix owner dirID)
        sayEntries (sayDir verbose env rf ix clobber fuel) verbose env rf ix clobber owner dest dis
        return none
      else return some .sys

/-- cmd/recover.go:74-83: one subvolume. -/
def saySubvol (verbose : Bool) (env : Env) (rf fuel : Nat) (ix : Ix) (clobber : Bool) (dest : Bytes) (r : Range) (_ : Slice) :
    Say (Option RecErr) := do
  let k ← Cmd.lift r.rKey
  if (← Cmd.get).rs.visited.contains (k.objectID, FirstFreeObjectID) then return none
  else
    sayVerbose verbose (.subvol k.objectID (subvolDest dest k.objectID))
    let e ← sayDir verbose env rf ix clobber fuel k.objectID FirstFreeObjectID (subvolDest dest k.objectID)
    quietly (report (subvolDest dest k.objectID) e)
    return none

/-- cmd/recover.go:57-84 -/
def sayRecoverFiles (verbose : Bool) (env : Env) (rf fuel : Nat) (ix : Ix) (clobber : Bool) (dest : Bytes) : Say Unit := do
  if ← quietly (mkdirAll env dest) then
    sayVerbose verbose (.root FSTreeObjectID)
    let e ← sayDir verbose env rf ix clobber fuel FSTreeObjectID FirstFreeObjectID dest
    quietly (report dest e)
    let rd ← Cmd.lift ix.subvolumes
    let _ ← rangeLoopSay (saySubvol verbose env rf fuel ix clobber dest) rf rd
    return ()
  else Cmd.exit

end Btrfscue
