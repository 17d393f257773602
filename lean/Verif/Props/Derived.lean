import Verif.Proof.Recon
import Verif.Props.Layout
/-!
# C07: accessors derived from the packed fields
-/

namespace Btrfscue

/-- C07: an extent item is of the old (version 0) kind exactly when it is too short for
the current 24 byte structure, that is, exactly when it does not decode as one. -/
theorem C07_ExtentItem_compat (b : Bytes) :
    ExtentItem.isCompatV0 ⟨b, []⟩ = true ↔ ¬ ∃ (f : ExtentItemRec) (rest : Bytes), b = f.layout ++ rest := by
  unfold ExtentItem.isCompatV0
  rw [decide_eq_true_iff]
  show b.length < 24 ↔ _
  constructor
  · rintro h ⟨f, rest, rfl⟩
    have := (C07_ExtentItem_decodes f rest []).1
    rw [List.length_append, this] at h; omega
  · intro h
    rcases Nat.lt_or_ge b.length 24 with hc | hc
    · exact hc
    exfalso
    apply h
    obtain ⟨r, b, rfl, h1, h2⟩ := split_at 8 b (by omega)
    obtain ⟨g, b, rfl, h3, h4⟩ := split_at 8 b (by simp only [List.length_append] at *; omega)
    obtain ⟨f, b, rfl, h5, h6⟩ := split_at 8 b (by simp only [List.length_append] at *; omega)
    obtain ⟨r, rfl⟩ := le64_of r h1
    obtain ⟨g, rfl⟩ := le64_of g h3
    obtain ⟨f, rfl⟩ := le64_of f h5
    exact ⟨⟨r, g, f⟩, b, by simp [ExtentItemRec.layout, List.append_assoc]⟩

/-- C07: a root item is reported as carrying the extended (version 2) fields exactly when
its two generation fields agree. -/
theorem C07_RootItem_isGenerationV2 (inode : Bytes) (hi : inode.length = 160) (f : RootItemRec) (rest tail : Bytes) :
    RootItem.isGenerationV2 ⟨inode ++ (f.layout ++ rest), tail⟩ = .ok (decide (f.generation = f.generationV2)) := by
  obtain ⟨-, h1, -, -, -, -, -, -, -, -, -, -, h2, -⟩ := C07_RootItem_decodes f inode rest tail hi
  unfold RootItem.isGenerationV2
  rw [h1, h2]
  rfl

/-- C07: the checksum of a checksum item is its first 32 bytes, padded with zeros when the
item is shorter. -/
theorem C07_CSumItem_decodes (b tail : Bytes) :
    ∃ c, CSumItem.csum ⟨b, tail⟩ = .ok c ∧ c.length = 32 ∧
      ∀ i < 32, c[i]? = some (if h : i < b.length then b[i] else 0) := by
  have e : CSumItem.csum ⟨b, tail⟩ = .ok (goCopy (List.replicate 32 0) b) := by
    simp [CSumItem.csum, Slice.from, cSumItemCSum, CSumSize]
  refine ⟨_, e, by simp [goCopy]; omega, ?_⟩
  intro i hi
  unfold goCopy
  rw [List.length_replicate]
  by_cases hb : i < b.length
  · rw [dif_pos hb, List.getElem?_append_left (by rw [List.length_take]; omega), List.getElem?_take_of_lt hi]
    exact List.getElem?_eq_getElem hb
  · rw [dif_neg hb, List.getElem?_append_right (by rw [List.length_take]; omega), List.drop_replicate,
      List.getElem?_replicate, List.length_take, if_pos (by omega)]

/-- C07: a file extent is inline exactly when its type byte is 0. -/
theorem C07_FileExtentItem_isInline (f : FileExtentItemRec) (rest tail : Bytes) :
    FileExtentItem.isInline ⟨f.layout ++ rest, tail⟩ = .ok (decide (f.typ = 0)) := by
  obtain ⟨-, -, -, -, -, -, h, -⟩ := C07_FileExtentItem_decodes f rest tail
  unfold FileExtentItem.isInline
  rw [h]
  rfl

example : ExtentItem.isCompatV0 ⟨List.replicate 23 0, []⟩ = true ∧
    ExtentItem.isCompatV0 ⟨List.replicate 24 0, []⟩ = false := by decide
example : CSumItem.csum ⟨[1, 2, 3, 4], []⟩ = .ok ([1, 2, 3, 4] ++ List.replicate 28 0) := by decide

end Btrfscue
