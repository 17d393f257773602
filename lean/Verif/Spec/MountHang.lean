import Verif.Spec.RecoverHang
import Verif.Spec.MountSession
/-!
# Specification: what keeps a request to a mounted file system from being answered
-/

namespace Btrfscue

/-- Some iteration that the request starts does not end. A lookup or the opening of a directory iterates over the entries of
the directory unless the node has entries already. Opening a file iterates over its extents, unless the first of
them is inline, and over the chunks, unless the process did so before. The requests for extended attributes iterate over
the attributes of the inode. The other requests iterate over nothing. -/
def Ix.holdsUp (ix : Ix) (s : MountState) : MountReq → Prop
  | .lookup h _ => ∃ n, s.nodes[h]? = some n ∧ n.dirItems = [] ∧ ∃ rd, ix.dirItems n.owner n.ixInode = .ok rd ∧ Range.Endless rd
  | .openDir h _ => ∃ n, s.nodes[h]? = some n ∧ n.dirItems = [] ∧ ∃ rd, ix.dirItems n.owner n.ixInode = .ok rd ∧ Range.Endless rd
  | .open h => ∃ n rd, s.nodes[h]? = some n ∧ ix.fileExtentItems n.owner n.ixInode = .ok rd ∧ rd.1.hasNext = true ∧
      FileExtentItem.isInline rd.2 = .ok false ∧
      (Range.Endless rd ∨ s.cache = none ∧ ∃ rd, ix.chunks = .ok rd ∧ Range.Endless rd)
  | .getXAttr h _ => ∃ n rd, s.nodes[h]? = some n ∧ ix.xattrItems n.owner n.ixInode = .ok rd ∧ Range.Endless rd
  | .listXAttr h => ∃ n rd, s.nodes[h]? = some n ∧ ix.xattrItems n.owner n.ixInode = .ok rd ∧ Range.Endless rd
  | _ => False

end Btrfscue
