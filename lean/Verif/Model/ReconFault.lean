import Verif.Model.Recon
/-!
# The recon command when writing the metadata file can fail

`Model/IndexDB.lean` lets every bbolt commit of a writable transaction succeed. Here the
commits of a run are numbered and the environment decides for each one whether it fails
(full disk, I/O error). bbolt (trusted, not part of `/repo`): a commit that returns an
error has been rolled back, or it has become durable all the same (the last sync failed
after the meta page was written); never anything in between. Creating the database file
(`bbolt.Open`) and beginning a transaction are still assumed to succeed.
-/

namespace Btrfscue

/-- What the environment does to a commit: it succeeds, or it returns an error and the
transaction is durable or not. -/
inductive CommitResult where
  | ok
  | failed (durable : Bool)
  deriving DecidableEq, Repr

/-- The results of all commits of a run. -/
abbrev Writes := Nat → CommitResult

/-- pkg/btrfs/index/index_store.go:46-57 and the number of commits tried so far. -/
structure FIndex where
  ix : Index
  n : Nat
  deriving DecidableEq

/-- pkg/btrfs/index/index_store.go:234-243. The fields are reset whether or not the commit
succeeds. -/
def FIndex.commit (w : Writes) (s : FIndex) : FIndex × Option IxErr :=
  match s.ix.tx with
  | none => (s, none)
  | some t =>
    if t.writable then
      match w s.n with
      | .ok => (⟨{ s.ix with disk := t.bucket, tx := none, txNum := 0, bucketSet := false }, s.n + 1⟩, none)
      | .failed d =>
        (⟨{ s.ix with disk := if d then t.bucket else s.ix.disk, tx := none, txNum := 0, bucketSet := false }, s.n + 1⟩,
          some .commitFailed)
    else (⟨{ s.ix with tx := none, txNum := 0, bucketSet := false }, s.n⟩, some .txNotWritable)

/-- pkg/btrfs/index/index_store.go:203-207 -/
def FIndex.begin (s : FIndex) (writable : Bool) : FIndex × Option IxErr :=
  (⟨(s.ix.begin writable).1, s.n⟩, (s.ix.begin writable).2)

/-- pkg/btrfs/index/index_store.go:193-208 -/
def FIndex.ensureTx (w : Writes) (s : FIndex) (writable : Bool) : FIndex × Option IxErr :=
  match s.ix.tx with
  | none => s.begin writable
  | some t =>
    if t.writable = writable then (s, none)
    else
      match s.commit w with
      | (s', some e) => (s', some e)
      | (s', none) => s'.begin writable

/-- pkg/btrfs/index/index_store.go:107-176 `openIndex`, read-write, as recon uses it: the
metadata is checked and written in the first commit of the run. The last result is the
number of commits tried. -/
def OpenF (w : Writes) (f : DBFile) (o : Options) : Go (DBFile × Except IxErr Index × Nat) :=
  match f with
  | .invalid => .ok (f, .error .openFailed, 0)
  | .absent => openDB none
  | .db b => openDB b
where
  /-- pkg/btrfs/index/index_store.go:117-123 -/
  openDB (b : Option Bucket) : Go (DBFile × Except IxErr Index × Nat) := do
    match ← checkUpdateMetadata o b with
    | .error e => return (.db b, .error e, 0)
    | .ok b' =>
      match w 0 with
      | .failed d => return (.db (if d then some b' else b), .error .commitFailed, 1)
      | .ok =>
        let ix : Index := ⟨false, some b', none, false, 0, o.generation⟩
        match ix.ensureTx true with
        | (ix, none) => return (.db (some b'), .ok ix, 1)
        | (_, some e) => return (.db (some b'), .error e, 1)

/-- pkg/btrfs/index/index_store.go:213-231 -/
def FIndex.insertItem (w : Writes) (s : FIndex) (k : Key) (h : Header) (item data : Bytes) :
    Go (FIndex × Option IxErr) :=
  match s.ensureTx w true with
  | (s, some e) => .ok (s, some e)
  | (s, none) => do
    let tc ← itemValue item data
    let key := newIndexKey (← Header.owner h) k (← Header.generation h)
    let v ← s.ix.view
    let ix : Index := { s.ix with tx := some ⟨true, some (v.bucket.put key tc)⟩, txNum := s.ix.txNum + 1 }
    if ix.txNum > 10000 then return FIndex.commit w ⟨ix, s.n⟩
    else return (⟨ix, s.n⟩, none)

/-- cmd/recon.go:108-109 `cliutil.ReportError(ix.InsertItem(...))`. -/
def insertOrExitF (w : Writes) : Inserter FIndex := fun k h item data s =>
  match s.insertItem w k h item data with
  | .ok (s', none) => .ok () s'
  | .ok (s', some _) => .exit s'
  | .panic => .crash s
  | .hang => .hang s

/-- pkg/btrfs/index/index_store.go:183-191. The results are the file and the number of
commits tried; the error of the commit is ignored. -/
def FIndex.close (w : Writes) (s : FIndex) : Go (DBFile × Nat) :=
  if !s.ix.readOnly then .ok (.db (s.commit w).1.ix.disk, (s.commit w).1.n)
  else
    match s.ix.tx with
    | none => .panic
    | some _ => .ok (.db s.ix.disk, s.n)

/-- cmd/recon.go:72-75: the deferred function. The results are the file, whether it ended
the program with an error, and the number of commits tried. -/
def reconDeferF (w : Writes) (s : FIndex) : DBFile × Bool × Nat :=
  match s.commit w with
  | (s', some _) => (.db s'.ix.disk, true, s'.n)
  | (s', none) =>
    match s'.close w with
    | .ok (f, n) => (f, false, n)
    | _ => (.db s'.ix.disk, false, s'.n)

/-- cmd/recon.go:49-115, as `doScanFS`. The last result is the number of commits tried. -/
def doScanFSF (w : Writes) (fuel : Nat) (r : ReaderAt) (seek : Option UInt64) (bs : UInt64) (id : UUID) (f : DBFile) :
    DBFile × CmdEnd × Nat :=
  if UUID.isZero id then (f, .exit, 0)
  else
    match CheckDeviceSize seek bs with
    | .error _ => (f, .exit, 0)
    | .ok size =>
      if bs = 0 then (f, .crash, 0)
      else
        let devSize := size - size % bs
        let buf := List.replicate bs.toNat 0
        match OpenF w f { blockSize := bs, fsid := id, generation := ~~~0 } with
        | .panic => (f, .crash, 0)
        | .hang => (f, .hang, 0)
        | .ok (f', .error _, n) => (f', .exit, n)
        | .ok (_, .ok ix, n) =>
          match reconLoop (insertOrExitF w) r id bs devSize fuel (UInt64.ofNat SuperInfoOffset + bs) buf ⟨ix, n⟩ with
          | .ok _ s => ((reconDeferF w s).1, if (reconDeferF w s).2.1 then .exit else .done, (reconDeferF w s).2.2)
          | .exit s => (.db s.ix.disk, .exit, s.n)
          | .crash s => ((reconDeferF w s).1, if (reconDeferF w s).2.1 then .exit else .crash, (reconDeferF w s).2.2)
          | .hang s => (.db s.ix.disk, .hang, s.n)

end Btrfscue
