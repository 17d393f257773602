import Verif.Model.Physical
import Verif.Model.Leaf
/-!
# Extent backed files of the mounted file system (internal/rescuefs/files.go)

go-fuse itself (the `nodefs` wrappers, `fuse.ReadResultData`) is not modelled. The log
message of a failed read is left out.
-/

namespace Btrfscue

/-- internal/rescuefs/files.go:18-24 -/
structure ExtentMapEntry where
  fileOffset : UInt64
  length : UInt64
  physOffset : UInt64
  diskByteNr : UInt64
  devID : UInt64
  deriving DecidableEq

/-- The `fuse.Status` values used. -/
inductive FuseErr | ENOENT | EINVAL | EIO | ENOATTR | ENODATA
  deriving DecidableEq, Repr

/-- internal/rescuefs/files.go:46-59: the body of the loop over the extents. The state
is the extent map and the stripe map cache of the index. -/
def extentMapBody (fuel : Nat) (ix : Ix) (s : List ExtentMapEntry × Option (List StripeMapEntry)) (r : Range)
    (e : FileExtentItem) : Go ((List ExtentMapEntry × Option (List StripeMapEntry)) × Bool) := do
  let dbn ← FileExtentItem.diskByteNr e
  let (cache, (dev, phys)) ←
    if 0 < dbn then ix.physical fuel s.2 dbn else .ok (s.2, (0, 0))
  let k ← r.rKey
  let entry : ExtentMapEntry := ⟨k.offset, ← FileExtentItem.numBytes e, phys + (← FileExtentItem.offset e), dbn, dev⟩
  return ((s.1 ++ [entry], cache), false)

/-- internal/rescuefs/files.go:34-61. `none` is the nil file. -/
def newExtentFile (fuel : Nat) (ix : Ix) (cache : Option (List StripeMapEntry)) (owner id : UInt64) :
    Go (Option (List ExtentMapEntry) × Option (List StripeMapEntry)) := do
  let rd ← ix.fileExtentItems owner id
  if !rd.1.hasNext then return (none, cache)
  else
    let (s, _) ← rangeLoop (extentMapBody fuel ix) fuel ([], cache) rd
    return (some s.1, s.2)

/-- The attributes that the code sets of a `fuse.Attr`. -/
structure FuseAttr where
  ino : UInt64 := 0
  size : UInt64 := 0
  atime : UInt64 := 0
  mtime : UInt64 := 0
  ctime : UInt64 := 0
  atimensec : UInt32 := 0
  mtimensec : UInt32 := 0
  ctimensec : UInt32 := 0
  mode : UInt32 := 0
  nlink : UInt32 := 0
  uid : UInt32 := 0
  gid : UInt32 := 0
  rdev : UInt32 := 0
  deriving DecidableEq

/-- internal/rescuefs/files.go:70-80 and internal/rescuefs/nodefs.go:114-127: the
attributes of an inode item. -/
def attrOf (ino : UInt64) (ii : InodeItem) : Go FuseAttr := do
  let mode ← InodeItem.mode ii
  let size ← InodeItem.size ii
  let at_ ← InodeItem.atime ii
  let mt ← InodeItem.mtime ii
  let ct ← InodeItem.ctime ii
  let nlink ← InodeItem.nlink ii
  let uid ← InodeItem.uid ii
  let gid ← InodeItem.gid ii
  let rdev ← InodeItem.rdev ii
  return { ino := ino, size := size, atime := u64OfInt at_.unix, mtime := u64OfInt mt.unix,
           ctime := u64OfInt ct.unix, atimensec := UInt32.ofNat at_.nanosecond,
           mtimensec := UInt32.ofNat mt.nanosecond, ctimensec := UInt32.ofNat ct.nanosecond,
           mode := mode, nlink := nlink, uid := uid, gid := gid, rdev := rdev.toUInt32 }

/-- internal/rescuefs/files.go:86-91: the size if there is no inode item. -/
def fallbackSize (m : List ExtentMapEntry) : UInt64 :=
  match m.getLast? with
  | none => 0
  | some last => last.fileOffset + last.length

/-- internal/rescuefs/files.go:67-93. The attributes are written over `out`, which is
zero initially; `fuse.S_IFREG | 0644` is 0o100644. -/
def extentFileGetAttr (ix : Ix) (owner inode : UInt64) (m : List ExtentMapEntry) : Go FuseAttr := do
  match ← ix.findInodeItem owner inode with
  | some ii => attrOf 0 ii
  | none => return { mode := 0o100644, size := fallbackSize m }

/-- `for i := 0; i < chunkSize; i++ { buf[destOffset+i] = 0 }` (chunkSize > 0). -/
def zeroAt (buf : Bytes) (dest chunk : Int) : Go Bytes :=
  if 0 ≤ dest ∧ dest + chunk ≤ buf.length then
    .ok (buf.take dest.toNat ++ (List.replicate chunk.toNat 0 ++ buf.drop (dest + chunk).toNat))
  else .panic

/-- `dev.ReadAt(buf[dest:dest+chunk], off)`: the changed buffer and the error. The
capacity of `buf` is taken to be its length. -/
def readInto (r : ReaderAt) (buf : Bytes) (dest chunk off : Int) : Go (Bytes × Option IOErr) :=
  if 0 ≤ dest ∧ dest + chunk ≤ buf.length then
    let (bs, err) := r off chunk.toNat
    .ok (buf.take dest.toNat ++ (goCopy ((buf.drop dest.toNat).take chunk.toNat) bs ++ buf.drop (dest + chunk).toNat), err)
  else .panic

/-- internal/rescuefs/files.go:132-150: fill one chunk of the buffer. `none` is the
return with EIO. `dev` is the interface value, `none` the nil interface. -/
def fillChunk (dev : Option ReaderAt) (e : ExtentMapEntry) (buf : Bytes) (dest chunk skip : Int) : Go (Option Bytes) :=
  if e.diskByteNr = 0 then do
    return some (← zeroAt buf dest chunk)
  else
    match dev with
    | none => do return some (← zeroAt buf dest chunk)
    | some r => do
      let (buf', err) ← readInto r buf dest chunk (wrapInt64 (int64OfU64 e.physOffset + skip))
      if err = some .other then return none else return some buf'

/-- internal/rescuefs/files.go:103-153: the loop over the extent map. The result is the
number of bytes read and the buffer, or `none` for the return with EIO. -/
def readLoop (dev : Option ReaderAt) (off : Int) : List ExtentMapEntry → Int → Bytes → Go (Option (Int × Bytes))
  | [], bytesRead, buf => .ok (some (bytesRead, buf))
  | e :: rest, bytesRead, buf =>
    let extentStart := int64OfU64 e.fileOffset
    let extentEnd := int64OfU64 (e.fileOffset + e.length)
    let wantEnd := wrapInt64 (off + (buf.length - bytesRead))
    if off ≥ extentEnd then readLoop dev off rest bytesRead buf
    else if wantEnd ≤ extentStart then .ok (some (bytesRead, buf))
    else
      let readStart := if off < extentStart then extentStart else off
      let readEnd := if extentEnd < wantEnd then extentEnd else wantEnd
      if readEnd ≤ readStart then readLoop dev off rest bytesRead buf
      else do
        let chunkSize := wrapInt64 (readEnd - readStart)
        match ← fillChunk dev e buf (wrapInt64 (readStart - off)) chunkSize (readStart - extentStart) with
        | none => return none
        | some buf' => readLoop dev off rest (wrapInt64 (bytesRead + chunkSize)) buf'

/-- internal/rescuefs/files.go:95-159. The result is the data handed to FUSE or the
error status. -/
def extentFileRead (dev : Option ReaderAt) (m : List ExtentMapEntry) (buf : Bytes) (off : Int) :
    Go (Except FuseErr Bytes) := do
  if off < 0 then return .error .EINVAL
  else
    match ← readLoop dev off m 0 buf with
    | none => return .error .EIO
    | some (bytesRead, buf') =>
      if bytesRead < buf'.length then
        if bytesRead < 0 then .panic else return .ok (buf'.take bytesRead.toNat)
      else return .ok buf'

/-- `ReadAt` of a nil `*os.File`: returns `os.ErrInvalid`, writes nothing. -/
def nilFile : ReaderAt := fun _ _ => ([], some .other)

/-- cmd/mount.go:45-59, internal/rescuefs/rescuefs.go:28-32: the device interface of
the mounted file system. `none` is the nil `*os.File` left when no device was given;
converted to `io.ReaderAt` it is not the nil interface. -/
def mountDev (file : Option ReaderAt) : Option ReaderAt :=
  match file with
  | some f => some f
  | none => some nilFile

end Btrfscue
