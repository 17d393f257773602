import Verif.Model.Dump
import Verif.Spec.Store
/-!
# Specification: the text of a dump
-/

namespace Btrfscue

/-- One line per version: the key and the generation after an at sign. -/
def versionLine (v : VKey) : Bytes := v.key.string ++ ascii " @ " ++ decimal v.gen.toNat ++ [10]

/-- The heading of the versions of one tree. -/
def ownerLine (o : UInt64) : Bytes := ascii "owner " ++ decimal o.toNat ++ [10]

/-- The text for versions in the given order, with a heading wherever the tree differs
from that of the version before (`last` before the first one). -/
def dumpText (last : UInt64) : List VKey → Bytes
  | [] => []
  | v :: r => (if v.owner = last then [] else ownerLine v.owner) ++ versionLine v ++ dumpText v.owner r

end Btrfscue
