import Verif.Model.Recover
import Verif.Spec.Recover
/-!
# Specification: running recover again and again
-/

namespace Btrfscue

/-- The file system `f` is what any number of runs of recover to `dest`, with and without `--clobber`,
each of which may have been broken off at any point, and with whatever errors other than that of
stat(2), have left of `fs`. -/
inductive LeftBy (ix : Ix) (dest : Bytes) (fs : HostFS) : HostFS → Prop
  | none : LeftBy ix dest fs fs
  | run {f g : HostFS} {env : Env} {rf fuel : Nat} {clobber : Bool} : LeftBy ix dest fs f → (∀ n, env.fails .stat n = false) →
      (doRecoverFiles env rf fuel ix clobber dest (RecState.start f)).state.reached g → LeftBy ix dest fs g

end Btrfscue
