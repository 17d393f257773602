import Verif.Spec.Leaf
import Verif.Props.Items
import Verif.Props.Layout
/-! # Reading a leaf image -/

namespace Btrfscue

theorem cap_nil (b : Bytes) : Slice.cap ⟨b, []⟩ = b.length := by
  rw [Slice.cap, Slice.all, List.append_nil]

theorem all_nil (b : Bytes) : Slice.all ⟨b, []⟩ = b := by
  rw [Slice.all, List.append_nil]

theorem header_length (h : HeaderRec) : h.layout.length = 101 := by
  simp [HeaderRec.layout]

theorem itemRec_length (r : ItemRec) : r.layout.length = 25 := by
  simp [ItemRec.layout]

theorem leafItemRecs_length (e : Nat) (items : List (Key × Bytes)) :
    (leafItemRecs e items).length = items.length := by
  induction items generalizing e with
  | nil => rfl
  | cons x r ih => obtain ⟨k, d⟩ := x; simp [leafItemRecs, ih]

theorem flatMap_item_length (rs : List ItemRec) :
    (rs.flatMap ItemRec.layout).length = 25 * rs.length := by
  induction rs with
  | nil => rfl
  | cons r rs ih => simp only [List.flatMap_cons, List.length_append, itemRec_length, ih,
      List.length_cons]; omega

theorem flatMap_item_drop (rs : List ItemRec) (i : Nat) :
    (rs.flatMap ItemRec.layout).drop (25 * i) = (rs.drop i).flatMap ItemRec.layout := by
  induction rs generalizing i with
  | nil => simp
  | cons r rs ih =>
    cases i with
    | zero => simp
    | succ i =>
      rw [List.drop_succ_cons, ← ih i, List.flatMap_cons, List.drop_append,
        List.drop_eq_nil_of_le (by rw [itemRec_length]; omega), itemRec_length, List.nil_append]
      congr 1

/-- Splitting the item header area at header `i`. -/
theorem flatMap_item_split (rs : List ItemRec) (i : Nat) (r : ItemRec) (h : rs[i]? = some r) :
    ∃ pre, rs.flatMap ItemRec.layout =
      pre ++ (r.layout ++ (rs.drop (i + 1)).flatMap ItemRec.layout) ∧ pre.length = 25 * i := by
  have hi : i < rs.length := by
    rcases Nat.lt_or_ge i rs.length with h' | h'
    · exact h'
    · rw [List.getElem?_eq_none h'] at h; cases h
  refine ⟨(rs.flatMap ItemRec.layout).take (25 * i), ?_, ?_⟩
  · have h1 : (rs.flatMap ItemRec.layout).drop (25 * i) =
        r.layout ++ (rs.drop (i + 1)).flatMap ItemRec.layout := by
      rw [flatMap_item_drop, List.drop_eq_getElem_cons hi, List.flatMap_cons]
      rw [List.getElem?_eq_getElem hi] at h
      rw [Option.some.inj h]
    rw [← h1, List.take_append_drop]
  · rw [List.length_take, flatMap_item_length]; omega

/-- Where item `i` and its payload are in the item and payload lists. -/
theorem leafItemRecs_get (e : Nat) (items : List (Key × Bytes)) (i : Nat) (k : Key) (d : Bytes)
    (h : items[i]? = some (k, d)) (he : (leafPayloads items).length ≤ e) :
    ∃ pre post, leafPayloads items = pre ++ (d ++ post) ∧
      (leafItemRecs e items)[i]? =
        some ⟨k, UInt32.ofNat (e - (leafPayloads items).length + pre.length),
          UInt32.ofNat d.length⟩ := by
  induction items generalizing e i with
  | nil => simp at h
  | cons x r ih =>
    obtain ⟨k', d'⟩ := x
    simp only [leafPayloads, List.length_append] at he
    cases i with
    | zero =>
      simp only [List.getElem?_cons_zero, Option.some.injEq, Prod.mk.injEq] at h
      obtain ⟨rfl, rfl⟩ := h
      refine ⟨leafPayloads r, [], by simp [leafPayloads], ?_⟩
      simp only [leafItemRecs, List.getElem?_cons_zero, leafPayloads, List.length_append]
      congr 3
      omega
    | succ i =>
      simp only [List.getElem?_cons_succ] at h
      obtain ⟨pre, post, hp, hr⟩ := ih (e - d'.length) i h (by omega)
      refine ⟨pre, post ++ d', by simp [leafPayloads, hp], ?_⟩
      simp only [leafItemRecs, List.getElem?_cons_succ, hr, leafPayloads, List.length_append]
      congr 3
      have : (leafPayloads r).length = pre.length + (d.length + post.length) := by
        rw [hp]; simp
      omega

theorem leafImage_length (hdr : HeaderRec) (items : List (Key × Bytes)) (gap : Bytes) :
    (leafImage hdr items gap).length =
      101 + 25 * items.length + gap.length + (leafPayloads items).length := by
  simp only [leafImage, List.length_append, header_length, flatMap_item_length,
    leafItemRecs_length]
  omega

end Btrfscue
