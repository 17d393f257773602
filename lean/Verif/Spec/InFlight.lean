import Verif.Spec.History
/-!
# Specification: which inserts of a history are not committed yet
-/

namespace Btrfscue

/-- The number of inserts since the last commit, if `n` were pending before the history. The
10001st one is committed together with those before it. -/
def pendingAfter : Nat → List IxOp → Nat
  | n, [] => n
  | _, .commit :: r => pendingAfter 0 r
  | n, .insert _ :: r => pendingAfter (if n = 10000 then 0 else n + 1) r

end Btrfscue
