import Verif.Model.RescueNode
import Verif.Spec.Path
/-!
# Specification: sequences of operations on a mounted node
-/

namespace Btrfscue

/-- An operation on a mounted directory. The order in which a listing comes out is
part of the operation. -/
inductive NodeOp
  | getAttr
  | lookup (name : Bytes)
  | openDir (ord : DirMap → DirMap)

/-- What the caller sees of an operation. -/
inductive NodeAnswer
  | attr (r : Except FuseErr FuseAttr)
  | child (r : Except FuseErr (RescueNode × Bool × Except FuseErr FuseAttr))
  | listing (l : List (Bytes × Bool))

/-- Carry out one operation. -/
def NodeOp.run (fuel : Nat) (ix : Ix) (n : RescueNode) : NodeOp → Go (RescueNode × NodeAnswer)
  | .getAttr => do let (n, r) ← n.getAttr ix; return (n, .attr r)
  | .lookup name => do let (n, r) ← n.lookup fuel ix name; return (n, .child r)
  | .openDir ord => do let (n, l) ← n.openDir fuel ord ix; return (n, .listing l)

/-- Carry out operations one after the other on the same node: the answers. -/
def runOps (fuel : Nat) (ix : Ix) : RescueNode → List NodeOp → Go (List NodeAnswer)
  | _, [] => .ok []
  | n, op :: rest => do
    let (n, a) ← op.run fuel ix n
    return a :: (← runOps fuel ix n rest)

/-- Carry out each operation on a node of its own: the answers. -/
def runFresh (fuel : Nat) (ix : Ix) (owner inode : UInt64) : List NodeOp → Go (List NodeAnswer)
  | [] => .ok []
  | op :: rest => do
    let (_, a) ← op.run fuel ix (newRescueNode owner inode)
    return a :: (← runFresh fuel ix owner inode rest)

/-- Walking down from a node by `Lookup`s. `none`: a name was not found, or `Lookup` found an entry but
failed because the attributes of what it leads to could not be read (go-fuse fails a lookup whose
status is not OK). -/
def walk (fuel : Nat) (ix : Ix) : RescueNode → List Bytes → Go (Option RescueNode)
  | n, [] => .ok (some n)
  | n, name :: rest => do
    match (← n.lookup fuel ix name).2 with
    | .ok (c, _, .ok _) => walk fuel ix c rest
    | _ => return none

end Btrfscue
