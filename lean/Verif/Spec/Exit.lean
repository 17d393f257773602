import Verif.Go.Cmd
import Verif.Model.Recon
/-!
# Specification: exit statuses

`cliutil.Fatalf` and `ReportError` end the program with status 1, a panic nobody recovers with
status 2 (the Go runtime), returning from `main` with status 0.
-/

namespace Btrfscue

/-- The exit status of a run; none if it does not end. -/
def Out.status {σ α : Type} : Out σ α → Option Nat
  | .ok _ _ => some 0
  | .exit _ => some 1
  | .crash _ => some 2
  | .hang _ => none

/-- The exit status of a run of recon or identify. -/
def CmdEnd.status : CmdEnd → Option Nat
  | .done => some 0
  | .exit => some 1
  | .crash => some 2
  | .hang => none

end Btrfscue
