import Verif.Model.ToString
import Verif.Model.IndexRead
import Verif.Go.Cmd
/-!
# The dump-index command (cmd/dump_index.go)

The state is what was printed so far. `fmt.Printf` errors are ignored by the code and
not modelled.
-/

namespace Btrfscue

/-- `fmt.Print` of a byte string. -/
def emit (s : Bytes) : Cmd Bytes Unit := Cmd.modify (· ++ s)

/-- cmd/dump_index.go:41-44 -/
def dumpOwner (o last : UInt64) : Cmd Bytes Unit :=
  if o ≠ last then emit (ascii "owner " ++ (decimal o.toNat ++ [10])) else pure ()

/-- cmd/dump_index.go:46 -/
def dumpKey (k : Key) (g : UInt64) : Cmd Bytes Unit :=
  emit (Key.string k ++ (ascii " @ " ++ (decimal g.toNat ++ [10])))

/-- cmd/dump_index.go:40-48. After an iteration `last` is the owner in either case. -/
def dumpLoop : Nat → FullRange × Slice → UInt64 → Cmd Bytes Unit
  | 0, _, _ => fun s => .hang s
  | fuel + 1, (f, _), last =>
    if f.r.hasNext then do
      let o ← Cmd.lift f.r.rOwner
      dumpOwner o last
      let k ← Cmd.lift f.r.rKey
      let g ← Cmd.lift f.r.rGeneration
      dumpKey k g
      let n ← Cmd.lift f.next
      dumpLoop fuel n o
    else pure ()

/-- cmd/dump_index.go:39-48, on an open index. -/
def doDumpIndex (fuel : Nat) (ix : Ix) : Cmd Bytes Unit := do
  let n ← Cmd.lift ix.fullRange
  dumpLoop fuel n (~~~0)

end Btrfscue
