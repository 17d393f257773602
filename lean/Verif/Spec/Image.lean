import Verif.Spec.Recon
import Verif.Spec.Leaf
import Verif.Spec.Range
import Verif.Proof.Store
/-!
# Specification: the items in an image
-/

namespace Btrfscue

/-- The image holds, in a leaf of the file system `id`, an item with payload `d`; `v` is the
tree, key and generation of the item. -/
def imageItem (dev : Bytes) (bs : Nat) (id : UUID) (v : VKey) (d : Bytes) : Prop :=
  ∃ hdr items gap, leafImage hdr items gap ∈ scanBlocks dev bs ∧ hdr.nrItems.toNat = items.length ∧ hdr.fsid = id ∧
    hdr.level = 0 ∧ v.owner = hdr.owner ∧ v.gen = hdr.generation ∧ (v.key, d) ∈ items

/-- Copies of an item in the image have the same payload. -/
def imageAgrees (dev : Bytes) (bs : Nat) (id : UUID) : Prop :=
  ∀ v d d', imageItem dev bs id v d → imageItem dev bs id v d' → d = d'

/-- The index holds exactly the items in the image, besides its own metadata. -/
structure Bucket.IndexOf (b : Bucket) (dev : Bytes) (bs : Nat) (id : UUID) : Prop where
  wf : b.WF
  metadata : ∃ m, b.stores metadataVersionKey m
  spared : ∀ d, ¬ imageItem dev bs id metadataVersionKey d
  sound : ∀ v x, b.stores v x → v ≠ metadataVersionKey → ∃ d, holdsItem x d ∧ imageItem dev bs id v d
  complete : ∀ v d, imageItem dev bs id v d → ∃ x, b.stores v x ∧ holdsItem x d

end Btrfscue
