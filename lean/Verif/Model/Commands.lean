import Verif.Model.Recon
import Verif.Model.Recover
import Verif.Model.Ls
import Verif.Model.Dump
import Verif.Model.RescueNode
/-!
# Commands from the metadata file on (cmd/recover.go, cmd/ls.go, cmd/mount.go, cmd/dump_index.go)

What the commands do before the parts modelled in `Recover`, `Ls` and `RescueNode`: check
that the metadata option is given, open the index. Flag parsing is not modelled.
-/

namespace Btrfscue

/-- `ix, err := index.OpenReadOnly(metadata); cliutil.ReportError(err)` (cmd/recover.go:50-52,
cmd/ls.go:148-150, cmd/mount.go:38-40, cmd/dump_index.go:35-36) after the check for the option
(cmd/recover.go:33-35, cmd/ls.go:127-129, cmd/mount.go:29-31, cmd/dump_index.go:24-26). `f` is the metadata file, `none` if the option is
missing. An index opened read-only stays as it is until the program ends. -/
def openView {σ : Type} (f : Option DBFile) : Cmd σ Ix :=
  match f with
  | none => Cmd.exit
  | some f =>
    match OpenReadOnly f with
    | .ok (_, .ok ix) => Cmd.lift ix.view
    | .ok (_, .error _) => Cmd.exit
    | .panic => Cmd.lift .panic
    | .hang => Cmd.lift .hang

/-- cmd/recover.go:32-84; `image` is whether the image can be opened. -/
def recoverCommand (env : Env) (rf fuel : Nat) (f : Option DBFile) (image clobber : Bool) (dest : Bytes) : Rec Unit := do
  let ix ← openView f
  if image then doRecoverFiles env rf fuel ix clobber dest else Cmd.exit

/-- cmd/ls.go:126-186. What is written and which paths are reported are the state. -/
def lsCommand (rf fuel : Nat) (srt : Sorter) (ft : Time → Bytes) (f : Option DBFile) (o : LsOptions) (args : List Bytes) :
    Cmd Unit (Bytes × List Bytes) := do
  let ix ← openView f
  Cmd.lift (doListFiles rf fuel srt ft ix o args)

/-- cmd/dump_index.go:34-49. What is printed is the state. -/
def dumpIndexCommand (fuel : Nat) (f : Option DBFile) : Cmd Bytes Unit := do
  let ix ← openView f
  doDumpIndex fuel ix

/-- The two entries of the mounted file system's top directory
(internal/rescuefs/nodefs.go:34-39): the node shown as "rescue" and the file shown as
"metadata". Other names are not found; go-fuse answers for them. -/
inductive MountTop
  | rescue (n : RescueNode)
  | metadata
  deriving DecidableEq

/-- internal/rescuefs/nodefs.go:34-39, go-fuse's lookup among the registered children. -/
def mountTop (name : Bytes) : Option MountTop :=
  if name = ascii "rescue" then some (.rescue (newRescueNode FSTreeObjectID FirstFreeObjectID))
  else if name = ascii "metadata" then some .metadata
  else none

end Btrfscue
