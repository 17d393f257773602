import Verif.Go.Tabwriter
import Verif.Model.Ls
import Verif.Model.Identify
import Verif.Model.Uuid
/-!
# What `ls` and `identify` print

The text handed to the tab writers is that of `Model/Ls.lean` and the entries are those
of `Model/Identify.lean`; here it goes through `text/tabwriter`. `wd` is the width of a
cell on the screen, `fe` is `%.6f` of an entropy: both are parameters.
-/

namespace Btrfscue

/-- cmd/ls.go:159,181 and internal/identify/identify.go:126:
`tabwriter.NewWriter(os.Stdout, 1, 4, 1, c, 0)`. -/
def tabParams (c : UInt8) : TabParams := ⟨1, 4, 1, c⟩

/-- cmd/ls.go:147-186 on an open index: what is printed, and the paths not found. Each of
the two writers is flushed on its own. -/
def lsPrinted (wd : Bytes → Nat) (rf fuel : Nat) (srt : Sorter) (ft : Time → Bytes) (ix : Ix) (o : LsOptions)
    (args : List Bytes) : Go (Bytes × List Bytes) := do
  let s ← lsArgsLoop rf ft ix o {} (if args.isEmpty then [[47]] else args)
  let t ← lsTodoLoop rf fuel srt ft ix o s.todo
  return (tabwrite (tabParams 32) wd s.out ++ tabwrite (tabParams 32) wd t, s.warned)

/-- internal/identify/identify.go:131-132: `"%s\t%d\t%.6f\t%d\n"`. -/
def entryLine {F : Type} (fe : F → Bytes) (e : FSEntry F) : Bytes :=
  e.fsid.toText ++ (9 :: (decimal e.count.toNat ++ (9 :: (fe e.entropy ++ (9 :: (decimal e.blockSize.toNat ++ [10]))))))

/-- internal/identify/identify.go:120-134. The warning of line 116 is not modelled. -/
def printEntries {F : Type} (machine : Bool) (wd : Bytes → Nat) (fe : F → Bytes) (occ : List (FSEntry F)) : Bytes :=
  tabwrite (tabParams (if machine then 9 else 32)) wd
    ((if !machine then ascii "fsid\tcount\tentropy\tblock size\n" else []) ++ (occ.map (entryLine fe)).flatten)

/-- internal/identify/identify.go:71-136 with its output. -/
def identifyPrinted {F : Type} [LinearOrder F] (machine : Bool) (wd : Bytes → Nat) (fe : F → Bytes) (fuel : Nat)
    (rnd : Nat → Nat) (ordS : List UInt64 → List UInt64) (ordH : FSIDHist → FSIDHist) (ent : UUID → F)
    (avg : UInt64 → UInt64 → Nat) (r : ReaderAt) (seek : Option UInt64) (o : IdentifyOptions) : Cmd Unit Bytes := do
  let occ ← IdentifyFS fuel rnd ordS ordH ent avg r seek o
  return printEntries machine wd fe occ

end Btrfscue
