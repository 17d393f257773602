import Verif.Model.IndexRead
/-!
# Transactional side of pkg/btrfs/index/index_store.go

The database file is modelled by the content of its "index" bucket. bbolt
(trusted, not part of `/repo`): a read-write transaction sees its own writes, a
commit makes them durable atomically, everything else is lost in a crash. I/O
errors of a commit are in `Model/ReconFault.lean`; the file lock is not modelled.
-/

namespace Btrfscue

/-- The metadata file on disk: missing, not a bbolt database, or a database whose
"index" bucket is missing or present. -/
inductive DBFile where
  | absent
  | invalid
  | db (b : Option Bucket)
  deriving DecidableEq

/-- Errors returned by the index functions. -/
inductive IxErr where
  | notExist | openFailed | noIndex | tooOld | incompatible | blockSizeMismatch | fsidMismatch
  | databaseReadOnly | txNotWritable | fnFailed | commitFailed
  deriving DecidableEq, Repr

/-- pkg/btrfs/index/index_store.go:34 -/
abbrev MetadataVersion : UInt64 := 20190809

/-- pkg/btrfs/index/index_store.go:60-66. `BlockSize` is a Go `uint` (64 bit). -/
structure Options where
  readOnly : Bool := false
  blockSize : UInt64
  fsid : UUID
  generation : UInt64
  allowOldVersion : Bool := false

/-- pkg/btrfs/index/index_store.go:72 -/ abbrev indexMetadataVersion : Nat := 0
/-- pkg/btrfs/index/index_store.go:73 -/ abbrev indexMetadataBlockSize : Nat := indexMetadataVersion + 8
/-- pkg/btrfs/index/index_store.go:74 -/ abbrev indexMetadataFSID : Nat := indexMetadataBlockSize + 4
/-- pkg/btrfs/index/index_store.go:75 -/ abbrev indexMetadataGeneration : Nat := indexMetadataFSID + 16
/-- pkg/btrfs/index/index_store.go:76 -/ abbrev indexMetadataEnd : Nat := indexMetadataGeneration + 8

/-- pkg/btrfs/index/index_store.go:79-87. `uint32(o.BlockSize)` truncates. -/
def newIndexMetadata (o : Options) : Bytes :=
  let m := List.replicate indexMetadataEnd 0
  let m := putAt m indexMetadataVersion (leBytes 8 MetadataVersion.toNat)
  let m := putAt m indexMetadataBlockSize (leBytes 4 o.blockSize.toUInt32.toNat)
  let m := putAt m indexMetadataFSID o.fsid.val
  putAt m indexMetadataGeneration (leBytes 8 o.generation.toNat)

/-- pkg/btrfs/index/index_store.go:89 -/
def metaVersion (m : Bytes) : Go UInt64 := u64at ⟨m, []⟩ indexMetadataVersion
/-- pkg/btrfs/index/index_store.go:90 -/
def metaBlockSize (m : Bytes) : Go UInt32 := u32at ⟨m, []⟩ indexMetadataBlockSize
/-- pkg/btrfs/index/index_store.go:91 -/
def metaFSID (m : Bytes) : Go UUID := uuidAt ⟨m, []⟩ indexMetadataFSID
/-- pkg/btrfs/index/index_store.go:92 -/
def metaGeneration (m : Bytes) : Go UInt64 := u64at ⟨m, []⟩ indexMetadataGeneration

/-- An open bbolt transaction on the index bucket: `bucket` is what it sees. -/
structure Tx where
  writable : Bool
  bucket : Option Bucket
  deriving DecidableEq

/-- pkg/btrfs/index/index_store.go:46-57. `disk` is the durable content of the
database, `readOnly` is `db.IsReadOnly()`, `bucketSet` is `ix.bucket != nil` (then
it is the bucket of `tx`). `stripeMap` is handled in `Model/Physical.lean`. -/
structure Index where
  readOnly : Bool
  disk : Option Bucket
  tx : Option Tx
  bucketSet : Bool
  txNum : Nat
  generation : UInt64
  deriving DecidableEq

/-- pkg/btrfs/index/index_store.go:126-176: the transaction body. `none` = nil
bucket. Returns the error or the bucket to be made durable. -/
def checkUpdateMetadata (o : Options) (bucket : Option Bucket) : Go (Except IxErr Bucket) :=
  if bucket = none ∧ o.readOnly then .ok (.error .noIndex)
  else
    let b := bucket.getD []
    match b.get metadataKey with
    | none =>
      if o.readOnly then .ok (.error .noIndex)
      else .ok (.ok (b.put metadataKey (newIndexMetadata o)))
    | some m => do
      let v ← metaVersion m
      if !o.allowOldVersion ∧ v < MetadataVersion then return .error .tooOld
      if MetadataVersion < v then return .error .incompatible
      if o.allowOldVersion || o.readOnly then return .ok b
      if (← metaBlockSize m) ≠ o.blockSize.toUInt32 then return .error .blockSizeMismatch
      if (← metaFSID m) ≠ o.fsid then return .error .fsidMismatch
      return .ok b

/-- pkg/btrfs/index/index_store.go:234-243. Committing a read-only transaction is an
error in bbolt; the fields are reset all the same. -/
def Index.commit (ix : Index) : Index × Option IxErr :=
  match ix.tx with
  | none => (ix, none)
  | some t =>
    if t.writable then
      ({ ix with disk := t.bucket, tx := none, txNum := 0, bucketSet := false }, none)
    else ({ ix with tx := none, txNum := 0, bucketSet := false }, some .txNotWritable)

/-- pkg/btrfs/index/index_store.go:203-207: `ix.db.Begin(writable)` and the bucket. -/
def Index.begin (ix : Index) (writable : Bool) : Index × Option IxErr :=
  if writable && ix.readOnly then ({ ix with tx := none }, some .databaseReadOnly)
  else ({ ix with tx := some ⟨writable, ix.disk⟩, bucketSet := ix.disk.isSome }, none)

/-- pkg/btrfs/index/index_store.go:193-208 -/
def Index.ensureTx (ix : Index) (writable : Bool) : Index × Option IxErr :=
  match ix.tx with
  | none => ix.begin writable
  | some t =>
    if t.writable = writable then (ix, none)
    else
      match ix.commit with
      | (ix', some e) => (ix', some e)
      | (ix', none) => ix'.begin writable

/-- pkg/btrfs/index/index_store.go:107-124 `openIndex` with options. Returns the file
as it is afterwards. A panic inside the transaction function rolls it back, so the
file is then unchanged. Opening a missing file read-write creates an empty
database (bbolt). -/
def openIndex (f : DBFile) (o : Options) : Go (DBFile × Except IxErr Index) :=
  match f with
  | .invalid => .ok (f, .error .openFailed)
  | .absent =>
    if o.readOnly then .ok (f, .error .openFailed)
    else openDB none
  | .db b => openDB b
where
  /-- pkg/btrfs/index/index_store.go:117-123 -/
  openDB (b : Option Bucket) : Go (DBFile × Except IxErr Index) := do
    match ← checkUpdateMetadata o b with
    | .error e => return (.db b, .error e)
    | .ok b' =>
      let disk := if o.readOnly then b else some b'
      let ix : Index := ⟨o.readOnly, disk, none, false, 0, o.generation⟩
      match ix.ensureTx (!o.readOnly) with
      | (ix, none) => return (.db disk, .ok ix)
      | (_, some e) => return (.db disk, .error e)

/-- pkg/btrfs/index/index_store.go:95-97 -/
def Open (f : DBFile) (o : Options) : Go (DBFile × Except IxErr Index) := openIndex f o

/-- pkg/btrfs/index/index_store.go:100-105, 108-110: the nil options. -/
def OpenReadOnly (f : DBFile) : Go (DBFile × Except IxErr Index) :=
  if f = .absent then .ok (f, .error .notExist)
  else openIndex f { readOnly := true, blockSize := 0, fsid := uuidAllZero, generation := ~~~0 }

/-- The bucket and generation the read side works on; `ix.bucket` nil panics. -/
def Index.view (ix : Index) : Go Ix :=
  if ix.bucketSet then
    match ix.tx with
    | some ⟨_, some b⟩ => .ok ⟨b, ix.generation⟩
    | _ => .panic
  else .panic

/-- pkg/btrfs/index/index_store.go:178-180 (nil if the key is missing). -/
def Index.metadata (ix : Index) : Go (Option Bytes) := do
  let v ← ix.view
  return v.bucket.get metadataKey

/-- pkg/btrfs/index/index_store.go:183-191. The result is the file after closing. -/
def Index.close (ix : Index) : Go DBFile :=
  if !ix.readOnly then .ok (.db ix.commit.1.disk)
  else
    match ix.tx with
    | none => .panic
    | some _ => .ok (.db ix.disk)

/-- pkg/btrfs/index/index_store.go:219-222: the stored value. -/
def itemValue (item data : Bytes) : Go Bytes :=
  goCopyAt (goCopy (List.replicate (ItemLen + data.length) 0) item) ItemLen data

/-- pkg/btrfs/index/index_store.go:213-231 -/
def Index.insertItem (ix : Index) (k : Key) (h : Header) (item data : Bytes) :
    Go (Index × Option IxErr) :=
  match ix.ensureTx true with
  | (ix, some e) => .ok (ix, some e)
  | (ix, none) => do
    let tc ← itemValue item data
    let key := newIndexKey (← Header.owner h) k (← Header.generation h)
    let v ← ix.view
    let ix := { ix with tx := some ⟨true, some (v.bucket.put key tc)⟩, txNum := ix.txNum + 1 }
    if ix.txNum > 10000 then return ix.commit
    else return (ix, none)

/-- pkg/btrfs/index/index_store.go:251-260. `fn` is the effect of the transaction
function on the index bucket and its error. -/
def Index.rawTx (ix : Index) (fn : Bucket → Bucket × Option IxErr) : Go (Index × Option IxErr) :=
  match ix.ensureTx true with
  | (ix, some e) => .ok (ix, some e)
  | (ix, none) => do
    let v ← ix.view
    let (b, err) := fn v.bucket
    let ix := { ix with tx := some ⟨true, some b⟩ }
    match err with
    | some e => return (ix, some e)
    | none => return ix.commit

/-- `FindItem` on an open index. -/
def Index.findItem (ix : Index) (owner : UInt64) (k : Key) : Go (Option Item) := do
  (← ix.view).findItem owner k

end Btrfscue
