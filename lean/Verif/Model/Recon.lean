import Verif.Model.IndexDB
import Verif.Go.Cmd
/-!
# The recon command (cmd/recon.go)

The progress bar and messages are not modelled. The device is an `io.ReaderAt` and
the result of seeking to its end.
-/

namespace Btrfscue

/-- How a command ended. -/
inductive CmdEnd | done | exit | crash | hang
  deriving DecidableEq, Repr

/-- `cliutil.ReportError(ix.InsertItem(...))`. A panic inside `InsertItem` leaves the
index as it was (a transaction begun but not written to has no effect). -/
def insertOrExit (k : Key) (h : Header) (item data : Bytes) : Cmd Index Unit := fun ix =>
  match ix.insertItem k h item data with
  | .ok (ix', none) => .ok () ix'
  | .ok (ix', some _) => .exit ix'
  | .panic => .crash ix
  | .hang => .hang ix

/-- The effect of `cliutil.ReportError(ix.InsertItem(...))` on a state `σ`, a parameter of
the loops below: `insertOrExit` here, `insertOrExitF` if writes can fail. -/
abbrev Inserter (σ : Type) := Key → Header → Bytes → Bytes → Cmd σ Unit

/-- cmd/recon.go:107-110, iterations for the given indices. -/
def insertLoop {σ : Type} (ins : Inserter σ) (l : Leaf) : List Nat → Cmd σ Unit
  | [] => pure ()
  | i :: is => do
    let k ← Cmd.lift (Leaf.key l i)
    let it ← Cmd.lift (Leaf.item l i)
    let d ← Cmd.lift (Leaf.data l i)
    ins k l (Slice.data it) d.data
    insertLoop ins l is

/-- cmd/recon.go:92-110: one block. `l.Len()` is evaluated once; the block does not
change meanwhile. `Header()` is the block itself (pkg/btrfs/leaf.go:68). -/
def scanBlock {σ : Type} (ins : Inserter σ) (id : UUID) (l : Leaf) : Cmd σ Unit := do
  if (← Cmd.lift (Header.fsid l)) ≠ id then pure ()
  else if (← Cmd.lift (Header.nrItems l)) = 0 then pure ()
  else if !(← Cmd.lift (Header.isLeaf l)) then pure ()
  else insertLoop ins l (List.range (← Cmd.lift (Leaf.len l)))

/-- cmd/recon.go:85-111. The buffer is kept between iterations. -/
def reconLoop {σ : Type} (ins : Inserter σ) (r : ReaderAt) (id : UUID) (bs devSize : UInt64) :
    Nat → UInt64 → Bytes → Cmd σ Unit
  | 0, _, _ => fun ix => .hang ix
  | fuel + 1, off, buf =>
    if off < devSize then
      match ReadBlockAt r buf off with
      | (_, some .eof) => pure ()
      | (_, some .other) => Cmd.exit
      | (buf', none) => do
        scanBlock ins id ⟨buf', []⟩
        reconLoop ins r id bs devSize fuel (off + bs) buf'
    else pure ()

/-- cmd/recon.go:72-75: the deferred function, which also runs while panicking. The
second result is whether it ended the program with an error. `Close` commits again,
which does nothing. -/
def reconDefer (ix : Index) : DBFile × Bool :=
  match ix.commit with
  | (ix', none) => (match ix'.close with | .ok f => f | _ => .db ix'.disk, false)
  | (ix', some _) => (.db ix'.disk, true)

/-- cmd/recon.go:49-115. `f` is the metadata file, `seek` the result of seeking to the
end of the device. The result is the metadata file afterwards and how the command
ended. Allocation failure (`make([]byte, bs)`) is not modelled. -/
def doScanFS (fuel : Nat) (r : ReaderAt) (seek : Option UInt64) (bs : UInt64) (id : UUID) (f : DBFile) :
    DBFile × CmdEnd :=
  if UUID.isZero id then (f, .exit)
  else
    match CheckDeviceSize seek bs with
    | .error _ => (f, .exit)
    | .ok size =>
      if bs = 0 then (f, .crash)
      else
        let devSize := size - size % bs
        let buf := List.replicate bs.toNat 0
        match Open f { blockSize := bs, fsid := id, generation := ~~~0 } with
        | .panic => (f, .crash)
        | .hang => (f, .hang)
        | .ok (f', .error _) => (f', .exit)
        | .ok (_, .ok ix) =>
          match reconLoop insertOrExit r id bs devSize fuel (UInt64.ofNat SuperInfoOffset + bs) buf ix with
          | .ok _ ix' => ((reconDefer ix').1, if (reconDefer ix').2 then .exit else .done)
          | .exit ix' => (.db ix'.disk, .exit)
          | .crash ix' => ((reconDefer ix').1, if (reconDefer ix').2 then .exit else .crash)
          | .hang ix' => (.db ix'.disk, .hang)

/-- cmd/recon.go:23-26: the options of the command. -/
structure ScanFSOptions where
  id : UUID
  append : Bool

/-- cmd/recon.go:35-40, 49: `doScanFS` with its options; `options.append` is not used in
its body. -/
def doScanFSOptions (fuel : Nat) (r : ReaderAt) (seek : Option UInt64) (bs : UInt64) (o : ScanFSOptions) (f : DBFile) :
    DBFile × CmdEnd :=
  doScanFS fuel r seek bs o.id f

end Btrfscue
