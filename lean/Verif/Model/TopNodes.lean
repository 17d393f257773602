import Verif.Go.OpenFlags
import Verif.Model.RescueNode
/-!
# The root of the mounted file system and its file `metadata` (internal/rescuefs/nodefs.go:26-83)

go-fuse (trusted, not part of `/repo`): `NewLoopbackFile` passes reads to the file of the
host, `NewReadOnlyFile` refuses `Write` and `Truncate` with EPERM; a node without `Open`
of its own would refuse. Not modelled: times, block counts, device and inode numbers of
the two nodes; flags the kernel may remove from an open before it asks the node.
-/

namespace Btrfscue

/-- The permission and type bits the nodes use: `fuse.S_IFDIR`, `fuse.S_IFREG`. -/
abbrev fuseIFDIR : UInt32 := 0o040000
abbrev fuseIFREG : UInt32 := 0o100000

/-- internal/rescuefs/nodefs.go:41-45: the attributes kept in `info`, as far as modelled. -/
structure TopAttr where
  mode : UInt32
  size : UInt64
  deriving DecidableEq

/-- internal/rescuefs/nodefs.go:26-32 -/
def newTopNode : TopAttr := ⟨0o555 ||| fuseIFDIR, 0⟩

/-- internal/rescuefs/nodefs.go:65-74. `Stat` of a missing file fails, its error is ignored
and the attributes stay zero. -/
def newMetadataNode (f : Option HostFile) : TopAttr :=
  let info : TopAttr :=
    match f with
    | none => ⟨0, 0⟩
    | some h => ⟨h.mode, UInt64.ofNat h.data.length⟩
  { info with mode := info.mode &&& 0o555 ||| fuseIFREG }

/-- internal/rescuefs/nodefs.go:34-39: the children of the root: name, directory or not. -/
def topChildren : List (String × Bool) := [("rescue", true), ("metadata", false)]

/-- internal/rescuefs/nodefs.go:34-37: the node behind `rescue`. -/
def topRescueNode : RescueNode := newRescueNode FSTreeObjectID FirstFreeObjectID

/-- internal/rescuefs/nodefs.go:47-51 -/
def TopAttr.getAttr (n : TopAttr) : TopAttr := n

/-- internal/rescuefs/nodefs.go:76-83: the flags of the client are passed on to the host.
The result is the file of the host afterwards, and the error or an open read-only
handle. -/
def metadataOpen (may : UInt32 → Bool) (flags : UInt32) (f : Option HostFile) : Option HostFile × Option OpenErr :=
  openFile may flags 0o555 f

/-- `Read` of the handle: pread(2). -/
def metadataRead (f : Option HostFile) (off n : Nat) : Bytes :=
  match f with
  | none => []
  | some h => (h.data.drop off).take n

/-- `Write` and `Truncate` of the handle (`NewReadOnlyFile`): EPERM, the file stays. -/
def metadataWrite (f : Option HostFile) : Option HostFile × Bool := (f, false)

end Btrfscue
