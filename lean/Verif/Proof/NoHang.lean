import Verif.Model.Recover
/-!
# Code without loops ends
-/

namespace Btrfscue

/-- The computation ends, with a value or a panic. -/
class NH {α : Type} (x : Go α) : Prop where
  out : x ≠ .hang

section
variable {α β : Type}

instance (a : α) : NH (Go.ok a) := ⟨by simp⟩
instance : NH (Go.panic : Go α) := ⟨by simp⟩
instance (a : α) : NH (pure a : Go α) := ⟨by simp⟩
instance {x : Go α} {f : α → Go β} [h : NH x] [hf : ∀ a, NH (f a)] : NH (x >>= f) :=
  ⟨fun h' => by
    rcases Go.bind_eq_hang.mp h' with h1 | ⟨a, -, h1⟩
    · exact h.out h1
    · exact (hf a).out h1⟩
theorem nh_bind {x : Go α} {f : α → Go β} (_ : NH x) (_ : ∀ a, NH (f a)) : NH (x >>= f) := inferInstance
instance {p : Prop} [Decidable p] {x y : Go α} [NH x] [NH y] : NH (if p then x else y) := by
  by_cases h : p
  · rw [if_pos h]; infer_instance
  · rw [if_neg h]; infer_instance

instance (s : Slice) (i j : Nat) : NH (s.sub i j) := by unfold Slice.sub; infer_instance
instance (s : Slice) (j : Nat) : NH (s.to j) := by unfold Slice.to; infer_instance
instance (s : Slice) (j : Nat) : NH (s.from j) := by unfold Slice.from; infer_instance
instance (s : Slice) (j : Nat) : NH (s.get j) := by unfold Slice.get; split <;> infer_instance
instance (s : Slice) : NH (SliceUint16LE s) := by unfold SliceUint16LE; infer_instance
instance (s : Slice) : NH (SliceUint32LE s) := by unfold SliceUint32LE; infer_instance
instance (s : Slice) : NH (SliceUint64LE s) := by unfold SliceUint64LE; infer_instance
instance (s : Slice) : NH (SliceKey s) := by unfold SliceKey; infer_instance
instance (s : Slice) (n : Nat) : NH (u16at s n) := by unfold u16at; infer_instance
instance (s : Slice) (n : Nat) : NH (u32at s n) := by unfold u32at; infer_instance
instance (s : Slice) (n : Nat) : NH (u64at s n) := by unfold u64at; infer_instance
instance (s : Slice) (n : Nat) : NH (keyAt s n) := by unfold keyAt; infer_instance
instance (d : DirItem) : NH (DirItem.location d) := by unfold DirItem.location; infer_instance
instance (d : DirItem) : NH (DirItem.nameLen d) := by unfold DirItem.nameLen; infer_instance
instance (d : DirItem) : NH (DirItem.typ d) := by unfold DirItem.typ; infer_instance
instance (d : DirItem) : NH (DirItem.name d) := by unfold DirItem.name; infer_instance
instance (d : DirItem) : NH (DirItem.isDir d) := by unfold DirItem.isDir; infer_instance
instance (d : DirItem) : NH (DirItem.isSubvolume d) := by unfold DirItem.isSubvolume; infer_instance
instance (d : FileExtentItem) : NH (FileExtentItem.ramBytes d) := by unfold FileExtentItem.ramBytes; infer_instance
instance (d : FileExtentItem) : NH (FileExtentItem.typ d) := by unfold FileExtentItem.typ; infer_instance
instance (d : FileExtentItem) : NH (FileExtentItem.diskByteNr d) := by unfold FileExtentItem.diskByteNr; infer_instance
instance (d : FileExtentItem) : NH (FileExtentItem.offset d) := by unfold FileExtentItem.offset; infer_instance
instance (d : FileExtentItem) : NH (FileExtentItem.numBytes d) := by unfold FileExtentItem.numBytes; infer_instance
instance (d : FileExtentItem) : NH (FileExtentItem.isInline d) := by unfold FileExtentItem.isInline; infer_instance
instance (d : FileExtentItem) : NH (FileExtentItem.data d) := by unfold FileExtentItem.data; infer_instance
instance (d : InodeItem) : NH (InodeItem.size d) := by unfold InodeItem.size; infer_instance
instance (d : Chunk) : NH (Chunk.numStripes d) := by unfold Chunk.numStripes; infer_instance
instance (d : Chunk) (i : UInt16) : NH (Chunk.stripe d i) := by unfold Chunk.stripe; infer_instance
instance (d : Stripe) : NH (Stripe.devID d) := by unfold Stripe.devID; infer_instance
instance (d : Stripe) : NH (Stripe.offset d) := by unfold Stripe.offset; infer_instance
instance (d : Item) : NH (Item.size d) := by unfold Item.size; infer_instance
instance (d : Item) : NH (Item.data d) := by unfold Item.data; infer_instance
instance (k : Bytes) (n : Nat) : NH (be64at k n) := by unfold be64at; infer_instance
instance (k : Bytes) (n : Nat) : NH (byteAt k n) := by unfold byteAt; split <;> infer_instance
instance (k : Bytes) : NH (KeyV2.owner k) := by unfold KeyV2.owner; infer_instance
instance (k : Bytes) : NH (KeyV2.typ k) := by unfold KeyV2.typ; infer_instance
instance (k : Bytes) : NH (KeyV2.objectID k) := by unfold KeyV2.objectID; infer_instance
instance (k : Bytes) : NH (KeyV2.offset k) := by unfold KeyV2.offset; infer_instance
instance (k : Bytes) : NH (KeyV2.generation k) := by unfold KeyV2.generation; infer_instance
instance (k : Bytes) : NH (KeyV2.key k) := by unfold KeyV2.key; infer_instance
instance (k : Bytes) (n : Nat) : NH (keyTo k n) := by unfold keyTo; infer_instance

theorem lowerBoundLoop_nh (gen : UInt64) : ∀ (rest : Bucket) (cur : Bytes), NH (lowerBoundLoop gen cur rest) := by
  intro rest
  induction rest with
  | nil => intro cur; unfold lowerBoundLoop; infer_instance
  | cons e r ih => intro cur; obtain ⟨n, x⟩ := e; unfold lowerBoundLoop; have := ih n; infer_instance

instance (gen : UInt64) (cur : Bytes) (rest : Bucket) : NH (lowerBoundLoop gen cur rest) := lowerBoundLoop_nh gen rest cur

instance (b : Bucket) (o : UInt64) (k : Key) (g : UInt64) (n : Nat) : NH (lowerBound b o k g n) := by
  unfold lowerBound
  refine nh_bind inferInstance fun s => ?_
  simp only
  split <;> infer_instance

instance (b : Bucket) (o : UInt64) (k : Key) (g : UInt64) : NH (find b o k g) := by
  unfold find
  simp only
  cases (b.seek _).cur <;> cases (b.seek _).prev <;> infer_instance

instance (b : Bucket) (k : Bytes) : NH (findNext b k) := by
  unfold findNext
  refine nh_bind inferInstance fun _ => nh_bind inferInstance fun _ => ?_
  simp only
  split
  · infer_instance
  · refine nh_bind inferInstance fun _ => nh_bind inferInstance fun _ => nh_bind inferInstance fun _ => ?_
    split <;> infer_instance

instance (r : Range) : NH r.current := by unfold Range.current; split <;> infer_instance
instance (r : Range) : NH r.next := by unfold Range.next; split <;> infer_instance
instance (r : Range) : NH r.rKey := by unfold Range.rKey; split <;> infer_instance
instance (ix : Ix) (o : UInt64) (f l : Key) : NH (ix.range o f l) := by unfold Ix.range; infer_instance
instance (ix : Ix) (o : UInt64) (t : UInt8) (l : UInt64) : NH (ix.rangeAll o t l) := by unfold Ix.rangeAll; infer_instance
instance (ix : Ix) (o l : UInt64) : NH (ix.dirItems o l) := by unfold Ix.dirItems; infer_instance
instance (ix : Ix) (o l : UInt64) : NH (ix.fileExtentItems o l) := by unfold Ix.fileExtentItems; infer_instance
instance (ix : Ix) : NH (ix.chunks) := by unfold Ix.chunks; infer_instance
instance (ix : Ix) : NH (ix.subvolumes) := by unfold Ix.subvolumes; infer_instance
instance (ix : Ix) (o : UInt64) (k : Key) : NH (ix.findItem o k) := by
  unfold Ix.findItem
  refine nh_bind inferInstance fun _ => ?_
  split <;> infer_instance
instance (ix : Ix) (o : UInt64) (k : Key) : NH (ix.findData o k) := by
  unfold Ix.findData
  refine nh_bind inferInstance fun _ => ?_
  split <;> infer_instance
instance (ix : Ix) (o k : UInt64) : NH (ix.findInodeItem o k) := by unfold Ix.findInodeItem; infer_instance
instance (ix : Ix) (o k : UInt64) : NH (ix.findFileExtentItem o k) := by unfold Ix.findFileExtentItem; infer_instance
instance (n : UInt64) : NH (goMake n) := by unfold goMake; infer_instance
instance (m : List StripeMapEntry) (l : UInt64) : NH (lookupStripe m l) := by
  unfold lookupStripe
  have h : ∀ x : Option StripeMapEntry, NH (match x with
      | none => (Go.panic : Go (UInt64 × UInt64))
      | some s => .ok (s.devID, s.offset + l - s.logical)) := by
    intro x; cases x <;> infer_instance
  simp only
  refine (show ∀ i : Int, NH (if i < 0 then _ else _) from fun i => ?_) _
  by_cases hi : i < 0
  · rw [if_pos hi]; infer_instance
  · rw [if_neg hi]; exact h _
instance (i : Option InodeItem) : NH (inodeSize i) := by unfold inodeSize; split <;> infer_instance
instance (s : List StripeMapEntry) (r : Range) (c : Chunk) : NH (stripeMapBody s r c) := by
  unfold stripeMapBody; infer_instance

end

end Btrfscue
