import Verif.Model.Commands
import Verif.Model.Output
import Verif.Model.RecoverSay
/-!
# The program as a whole (cmd/*.go)

From the parsed command line to the end of the process. The parsing of flags by cobra is
not modelled, only the checks of the number of arguments. The metadata file is taken to
be a file of its own, not one of the files below the destination of `recover`; likewise
the device. Messages on stderr and the progress bar are left out.
-/

namespace Btrfscue

/-- cmd/btrfscue/app/btrfscue.go:6-12 and cmd/root.go:43-53 (`Progress` only draws on stderr). -/
structure Globals where
  verbose : Bool := false
  machine : Bool := false
  blockSize : UInt64 := UInt64.ofNat DefaultBlockSize
  metadata : Bytes := []

/-- The sub-commands with their own options: cmd/identify.go:14-37, cmd/recon.go:28-47,
cmd/recover.go:26-47, cmd/ls.go:119-145, cmd/dump_index.go:17-32, cmd/mount.go:22-36,
cmd/completion.go:13-36. -/
inductive Command where
  | identify (o : IdentifyOptions)
  | recon (o : ScanFSOptions)
  | recover (clobber : Bool)
  | ls (o : LsOptions)
  | dumpIndex
  | mount
  | completion (script : Bytes)

/-- A device or image that could be opened for reading: its bytes and the result of
seeking to its end. -/
structure Device where
  reader : ReaderAt
  seek : Option UInt64

/-- What the program finds and does not decide: what opening a path for reading gives,
how the host file system behaves, the fuel of loops, random numbers, map order, sorting,
rounding, widths and times (see the definitions these are handed to), and whether
mounting and unmounting work. -/
structure Machine (F : Type) where
  openFile : Bytes → Option Device
  env : Env
  rf : Nat
  fuel : Nat
  rnd : Nat → Nat
  ordS : List UInt64 → List UInt64
  ordH : FSIDHist → FSIDHist
  ent : UUID → F
  avg : UInt64 → UInt64 → Nat
  wd : Bytes → Nat
  fe : F → Bytes
  srt : Sorter
  ft : Time → Bytes
  mountOK : Bool
  unmountOK : Bool

/-- What a run can change: the metadata file, the host file system (with what belongs to
it, see `RecState`), and what was printed on stdout. -/
structure World where
  db : DBFile
  rs : RecState
  out : Bytes
  deriving DecidableEq

/-- Print on stdout. -/
def say (t : Bytes) : Cmd World Unit := Cmd.modify fun w => { w with out := w.out ++ t }

/-- cmd/btrfscue/app/util/cliutil.go:33-38: `Verbosef` prints on stdout. -/
def verbosef (g : Globals) (t : Bytes) : Cmd World Unit := if g.verbose then say t else pure ()

/-- `cobra.ExactArgs(1)` (cmd/identify.go:19, cmd/recon.go:33), `cobra.ExactArgs(2)`
(cmd/recover.go:31), `cobra.RangeArgs(1, 2)` (cmd/mount.go:26), `cobra.NoArgs`
(cmd/dump_index.go:21); the others take any number of arguments. -/
def argsOK : Command → Nat → Bool
  | .identify _, n => n == 1
  | .recon _, n => n == 1
  | .recover _, n => n == 2
  | .mount, n => decide (1 ≤ n ∧ n ≤ 2)
  | .dumpIndex, n => n == 0
  | .ls _, _ => true
  | .completion _, _ => true

/-- `if len(app.Global.Metadata) == 0 { cliutil.Fatalf("missing metadata option\n") }`
(cmd/recon.go:35-37, cmd/recover.go:33-35, cmd/ls.go:127-129, cmd/dump_index.go:23-25,
cmd/mount.go:28-30). -/
def needMetadata (g : Globals) : Cmd World Unit :=
  if g.metadata.length = 0 then Cmd.exit else pure ()

/-- `f, err := os.Open(path); cliutil.ReportError(err)`. -/
def openDevice {F : Type} (m : Machine F) (p : Bytes) : Cmd World Device :=
  match m.openFile p with
  | none => Cmd.exit
  | some d => pure d

/-- `ix, err := index.OpenReadOnly(metadata); cliutil.ReportError(err); defer ix.Close()`
around the rest of a command (cmd/recover.go:50-52, cmd/ls.go:152-154,
cmd/dump_index.go:35-37, cmd/mount.go:39-41). The metadata file is what opening and
closing leave; `os.Exit` does not run the deferred call. -/
def withIndex (body : Ix → Cmd World Unit) : Cmd World Unit := fun w =>
  match OpenReadOnly w.db with
  | .panic => .crash w
  | .hang => .hang w
  | .ok (f, .error _) => .exit { w with db := f }
  | .ok (f, .ok ix) =>
    let shut (w : World) : World := match ix.close with
      | .ok f' => { w with db := f' }
      | _ => w
    match (Cmd.lift ix.view >>= body) { w with db := f } with
    | .ok a w' => .ok a (shut w')
    | .exit w' => .exit w'
    | .crash w' => .crash (shut w')
    | .hang w' => .hang w'

/-- Run a part of a command that changes the host file system and prints messages. -/
def talking (x : Say Unit) : Cmd World Unit := fun w =>
  let told (t : Talk) : World := ⟨w.db, t.rs, w.out ++ (t.said.map Line.text).flatten⟩
  match x ⟨w.rs, []⟩ with
  | .ok a t => .ok a (told t)
  | .exit t => .exit (told t)
  | .crash t => .crash (told t)
  | .hang t => .hang (told t)

/-- Run a part of a command that only prints. -/
def printing (x : Cmd Bytes Unit) : Cmd World Unit := fun w =>
  match x w.out with
  | .ok a s => .ok a { w with out := s }
  | .exit s => .exit { w with out := s }
  | .crash s => .crash { w with out := s }
  | .hang s => .hang { w with out := s }

/-- Run a part of a command that changes and prints nothing. -/
def reading {α : Type} (x : Cmd Unit α) : Cmd World α := fun w =>
  match x () with
  | .ok a _ => .ok a w
  | .exit _ => .exit w
  | .crash _ => .crash w
  | .hang _ => .hang w

/-- internal/identify/identify.go:71-136, from the opened device on, with everything it
prints on stdout. -/
def identifyRun {F : Type} [LinearOrder F] (m : Machine F) (g : Globals) (o : IdentifyOptions) (d : Device) : Cmd World Unit :=
  match CheckDeviceSize d.seek g.blockSize with
  | .error _ => Cmd.exit
  | .ok devSize => do
    if g.blockSize = 0 then Cmd.lift .panic
    else
      verbosef g (ascii "sampling " ++ (decimal o.numSamples.toNat ++ ascii " blocks...\n"))
      let samples ← Cmd.lift (MakeSampleOffsets m.fuel m.rnd m.ordS devSize g.blockSize o.numSamples)
      let h ← reading (identifyLoop d.reader samples (List.replicate g.blockSize.toNat 0) [])
      say (printEntries g.machine m.wd m.fe (entries m.ent m.avg m.ordH h o.minOccurrence))

/-- cmd/recon.go:49-115 on the world: the metadata file is changed. -/
def reconRun {F : Type} (m : Machine F) (g : Globals) (o : ScanFSOptions) (d : Device) : Cmd World Unit := fun w =>
  match doScanFS m.fuel d.reader d.seek g.blockSize o.id w.db with
  | (f, .done) => .ok () { w with db := f }
  | (f, .exit) => .exit { w with db := f }
  | (f, .crash) => .crash { w with db := f }
  | (f, .hang) => .hang { w with db := f }

/-- cmd/mount.go:44-57: the device, if there is one on the command line. -/
def optionalDevice {F : Type} (m : Machine F) (args : List Bytes) : Cmd World (Option Device) :=
  if args.length = 2 then do
    let d ← openDevice m (args.headD [])
    return some d
  else return none

/-- cmd/mount.go:38-70, without what happens between mounting and the signal
(`Model/RescueNode`, `Model/TopNodes`). -/
def mountRun {F : Type} (m : Machine F) (g : Globals) (args : List Bytes) : Cmd World Unit :=
  withIndex fun _ => do
    let _ ← optionalDevice m args
    if !m.mountOK then Cmd.exit
    else
      verbosef g (ascii "mounted rescue FS on " ++ (args.getLastD [] ++ [10]))
      if !m.unmountOK then Cmd.exit else pure ()

/-- The commands: cmd/identify.go:20-23, cmd/recon.go:34-39, cmd/recover.go:32-37,
cmd/ls.go:126-131, cmd/dump_index.go:22-27, cmd/mount.go:27-32, cmd/completion.go:30-32.
`recon` looks at `--id` before it opens the device (cmd/recon.go:50-55). `ls` prints when
it is done: what it has printed when it crashes is not modelled. -/
def runCommand {F : Type} [LinearOrder F] (m : Machine F) (g : Globals) (args : List Bytes) : Command → Cmd World Unit
  | .identify o => do
    let d ← openDevice m (args.headD [])
    identifyRun m g { o with blockSize := g.blockSize } d
  | .recon o => do
    needMetadata g
    if UUID.isZero o.id then Cmd.exit
    else
      let d ← openDevice m (args.headD [])
      reconRun m g o d
  | .recover clobber => do
    needMetadata g
    withIndex fun ix => do
      let d ← openDevice m (args.headD [])
      talking (sayRecoverFiles g.verbose { m.env with dev := fun _ => d.reader } m.rf m.fuel ix clobber (args.getLastD []))
  | .ls o => do
    needMetadata g
    withIndex fun ix => do
      let r ← Cmd.lift (lsPrinted m.wd m.rf m.fuel m.srt m.ft ix o args)
      say r.1
  | .dumpIndex => do
    needMetadata g
    withIndex fun ix => printing (doDumpIndex m.fuel ix)
  | .mount => do
    needMetadata g
    mountRun m g args
  | .completion script => say script

/-- cmd/btrfscue/btrfscue.go:12-17, cmd/root.go:55-59: the check of the number of
arguments comes first and ends the program with status 1. -/
def program {F : Type} [LinearOrder F] (m : Machine F) (g : Globals) (c : Command) (args : List Bytes) : Cmd World Unit := do
  if !argsOK c args.length then Cmd.exit
  else runCommand m g args c

end Btrfscue
