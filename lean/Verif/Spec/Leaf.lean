import Verif.Spec.Layout
/-!
# Specification: what a BTRFS leaf block looks like on disk

A leaf is the block header, then the item headers growing upwards, a gap, and the
item payloads growing downwards from the end of the block. Item offsets are
relative to the end of the block header. (From the BTRFS on-disk format, not from
the code under test.)
-/

namespace Btrfscue

/-- The item headers for payloads stored downwards from `endOff`. -/
def leafItemRecs (endOff : Nat) : List (Key × Bytes) → List ItemRec
  | [] => []
  | (k, d) :: r =>
    ⟨k, UInt32.ofNat (endOff - d.length), UInt32.ofNat d.length⟩ ::
      leafItemRecs (endOff - d.length) r

/-- The payloads in block order: the last item's payload comes first. -/
def leafPayloads : List (Key × Bytes) → Bytes
  | [] => []
  | (_, d) :: r => leafPayloads r ++ d

/-- The image of a leaf block holding `items` with free space `gap`. -/
def leafImage (hdr : HeaderRec) (items : List (Key × Bytes)) (gap : Bytes) : Bytes :=
  hdr.layout ++ ((leafItemRecs (25 * items.length + gap.length + (leafPayloads items).length)
    items).flatMap ItemRec.layout ++ (gap ++ leafPayloads items))

end Btrfscue
