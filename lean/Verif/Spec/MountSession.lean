import Verif.Model.MountSession
/-!
# Specification: what a mount remembers
-/

namespace Btrfscue

/-- The answer of a request, without what the process remembers afterwards. -/
def answer : Go (MountState × MountAns) → Go MountAns
  | .ok r => .ok r.2
  | .panic => .panic
  | .hang => .hang

/-- A process that was just started and whose only node is that of this inode. -/
def MountState.only (owner inode : UInt64) : MountState := { nodes := [newRescueNode owner inode] }

/-- The same request for another node or file. -/
def MountReq.to (h : Nat) : MountReq → MountReq
  | .getAttr _ => .getAttr h
  | .lookup _ name => .lookup h name
  | .openDir _ ord => .openDir h ord
  | .open _ => .open h
  | .getXAttr _ a => .getXAttr h a
  | .listXAttr _ => .listXAttr h
  | .readlink _ => .readlink h
  | .fileAttr _ => .fileAttr h
  | .read _ buf off => .read h buf off

end Btrfscue
