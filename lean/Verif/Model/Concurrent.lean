import Verif.Go.Threads
import Verif.Model.Physical
import Verif.Model.RescueNode
/-!
# Requests served at the same time (cmd/mount.go:61, internal/rescuefs/rescuefs.go:35-42)

go-fuse answers each request in a goroutine. The requests share the index with its
stripe map, and the nodes with their directory maps; there are no locks. Each test, each
assignment, each `append` with its assignment, each map operation and each lookup in the
filled slice is one step.
-/

namespace Btrfscue

/-- Where a call of `Physical` is. -/
inductive PhysPC where
  | check
  | make
  | fill (rd : Range × Slice)
  | look
  | done (r : UInt64 × UInt64)
  deriving DecidableEq

/-- A call of `ix.Physical(logical)`. -/
structure PhysCall where
  logical : UInt64
  pc : PhysPC := .check
  deriving DecidableEq

/-- pkg/btrfs/index/index_store.go:464-496, one step. The shared state is the field
`stripeMap` (`none` = nil). -/
def PhysCall.step (ix : Ix) (m : Option (List StripeMapEntry)) (c : PhysCall) :
    ThreadStep (Option (List StripeMapEntry)) PhysCall :=
  match c.pc with
  | .check => .next m { c with pc := if m.isNone then .make else .look }
  | .make => .ofGo do return (some [], { c with pc := .fill (← ix.chunks) })
  | .fill rd =>
    if rd.1.hasNext then .ofGo do
      let s ← stripeMapBody (m.getD []) rd.1 rd.2
      return (some s.1, { c with pc := .fill (← rd.1.next) })
    else .next m { c with pc := .look }
  | .look => .ofGo do return (m, { c with pc := .done (← lookupStripe (m.getD []) c.logical) })
  | .done _ => .ended

/-- Where a call of `Lookup` is; only the part that uses the directory map. -/
inductive LookupPC where
  | check
  | fill (rd : Range × Slice)
  | find
  | done (d : Option DirItem)
  deriving DecidableEq

/-- A call of `n.Lookup(name)`. -/
structure LookupCall where
  name : Bytes
  pc : LookupPC := .check
  deriving DecidableEq

/-- internal/rescuefs/nodefs.go:133-148, one step. The shared state is `n.dirItems`;
`owner` and `inode` are those of the node. -/
def LookupCall.step (ix : Ix) (owner inode : UInt64) (m : DirMap) (c : LookupCall) : ThreadStep DirMap LookupCall :=
  match c.pc with
  | .check =>
    if 0 < m.length then .next m { c with pc := .find }
    else .ofGo do return (m, { c with pc := .fill (← ix.dirItems owner inode) })
  | .fill rd =>
    if rd.1.hasNext then .ofGo do
      let s ← dirMapBody m rd.1 rd.2
      return (s.1, { c with pc := .fill (← rd.1.next) })
    else .next m { c with pc := .find }
  | .find => .next m { c with pc := .done (m.find c.name) }
  | .done _ => .ended

end Btrfscue
