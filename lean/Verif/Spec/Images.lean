import Verif.Spec.Image
import Verif.Props.Recon
/-!
# Specification: several images of one file system
-/

namespace Btrfscue

/-- `recon` is run on one image after the other, with the same index file; all runs end normally. -/
def reconEach (fuel : Nat) (bs : UInt64) (id : UUID) : List Bytes → DBFile → Option DBFile
  | [], f => some f
  | dev :: rest, f =>
    match recon fuel dev bs id f with
    | (f', .done) => reconEach fuel bs id rest f'
    | _ => none

/-- One of the images holds, in a leaf of the file system `id`, an item with payload `d`. -/
def imagesItem (devs : List Bytes) (bs : Nat) (id : UUID) (v : VKey) (d : Bytes) : Prop := ∃ dev ∈ devs, imageItem dev bs id v d

/-- Copies of an item, also in different images, have the same payload. -/
def imagesAgree (devs : List Bytes) (bs : Nat) (id : UUID) : Prop :=
  ∀ v d d', imagesItem devs bs id v d → imagesItem devs bs id v d' → d = d'

/-- The index holds exactly the items in the images, besides its own metadata. -/
structure Bucket.IndexOfAll (b : Bucket) (devs : List Bytes) (bs : Nat) (id : UUID) : Prop where
  wf : b.WF
  metadata : ∃ m, b.stores metadataVersionKey m
  spared : ∀ d, ¬ imagesItem devs bs id metadataVersionKey d
  sound : ∀ v x, b.stores v x → v ≠ metadataVersionKey → ∃ d, holdsItem x d ∧ imagesItem devs bs id v d
  complete : ∀ v d, imagesItem devs bs id v d → ∃ x, b.stores v x ∧ holdsItem x d

end Btrfscue
