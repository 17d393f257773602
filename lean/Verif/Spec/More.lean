import Verif.Spec.RecoverSeen
/-!
# Specification: an index with more in it
-/

namespace Btrfscue

/-- Every version of every item in `b` is in `b'`. -/
def Bucket.Within (b b' : Bucket) : Prop := ∀ v x, b.stores v x → b'.stores v x

/-- There is some item of object `id` of tree `o`. -/
def Bucket.hasObject (b : Bucket) (o id : UInt64) : Prop := ∃ t off g, b.hasVersion o ⟨id, t, off⟩ g

/-- What `b'` has and `b` has not is of objects of which `b` has nothing at all, and no root items. -/
structure Bucket.MoreObjects (b b' : Bucket) : Prop where
  within : b.Within b'
  objects : ∀ o id t off g x, b.hasObject o id → b'.stores ⟨o, ⟨id, t, off⟩, g⟩ x → b.stores ⟨o, ⟨id, t, off⟩, g⟩ x
  roots : ∀ id off g x, b'.stores ⟨1, ⟨id, 132, off⟩, g⟩ x → b.stores ⟨1, ⟨id, 132, off⟩, g⟩ x

/-- Every directory has only one place. -/
def Bucket.OneParent (b : Bucket) (dest : Bytes) : Prop :=
  ∀ o d p p', b.SeenAt dest o d p → b.SeenAt dest o d p' → p = p'

end Btrfscue
