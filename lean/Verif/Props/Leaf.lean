import Verif.Proof.Leaf
/-!
# C13, C14: leaf blocks
-/

namespace Btrfscue

/-! ## C13 -/

/-- C13: on the image of a leaf that stores `items`, `Len`, `Key(i)`, `Item(i)` and
`Data(i)` give exactly what is stored. Blocks are smaller than 4 GiB. -/
theorem C13_leaf_decodes (hdr : HeaderRec) (items : List (Key × Bytes)) (gap : Bytes)
    (hn : hdr.nrItems.toNat = items.length) (hs : (leafImage hdr items gap).length < 2 ^ 32) :
    Leaf.len ⟨leafImage hdr items gap, []⟩ = .ok items.length ∧
    ∀ i k d, items[i]? = some (k, d) →
      Leaf.key ⟨leafImage hdr items gap, []⟩ i = .ok k ∧
      (∃ it, Leaf.item ⟨leafImage hdr items gap, []⟩ i = .ok it ∧ (Slice.data it).length = 25 ∧
        Item.key it = .ok k ∧ ∃ sz, Item.size it = .ok sz ∧ sz.toNat = d.length) ∧
      ∃ s, Leaf.data ⟨leafImage hdr items gap, []⟩ i = .ok s ∧ s.data = d := by
  have hlen := leafImage_length hdr items gap
  have hnr : Header.nrItems ⟨leafImage hdr items gap, []⟩ = .ok hdr.nrItems :=
    (C07_Header_decodes hdr _ []).2.2.2.2.2.2.2.2.1
  constructor
  · simp only [Leaf.len, hnr, Go.ok_bind, ItemLen, itemSize, itemOffset, itemKey, KeyLen,
      cap_nil]
    rw [if_neg]
    · simp [hn]
    · rw [UInt32.lt_iff_toNat_lt, UInt32.toNat_ofNat', hn]
      have : (leafImage hdr items gap).length / (0 + (8 + 1 + 8) + 4 + 4) < 2 ^ 32 := by
        rw [show 0 + (8 + 1 + 8) + 4 + 4 = 25 by rfl]; omega
      rw [Nat.mod_eq_of_lt this, show 0 + (8 + 1 + 8) + 4 + 4 = 25 by rfl]
      omega
  · intro i k d hi
    obtain ⟨pp, post, hp, hr⟩ := leafItemRecs_get
      (25 * items.length + gap.length + (leafPayloads items).length) items i k d hi (by omega)
    have hilt : i < items.length := by
      rcases Nat.lt_or_ge i items.length with h' | h'
      · exact h'
      · rw [List.getElem?_eq_none h'] at hi; cases hi
    rw [Nat.add_sub_cancel] at hr
    obtain ⟨pre, hsp, hpre⟩ := flatMap_item_split _ _ _ hr
    generalize hrec : (ItemRec.mk k (UInt32.ofNat (25 * items.length + gap.length + pp.length))
      (UInt32.ofNat d.length)) = rec at hsp hr
    have himg : leafImage hdr items gap = (hdr.layout ++ pre) ++ (rec.layout ++
        ((List.flatMap ItemRec.layout (List.drop (i + 1) (leafItemRecs (25 * items.length +
          gap.length + (leafPayloads items).length) items)) ++ (gap ++ leafPayloads items)))) := by
      rw [leafImage, hsp]; simp only [List.append_assoc]
    have hoff : HeaderLen + i * ItemLen = (hdr.layout ++ pre).length := by
      rw [List.length_append, header_length, hpre]
      simp only [HeaderLen, headerLevel, headerNrItems, headerOwner, headerGeneration,
        headerChunkTreeUUID, headerFlags, headerByteNr, headerFSID, headerCSum, CSumSize, ItemLen,
        itemSize, itemOffset, itemKey, KeyLen]
      omega
    have hitem : ∃ t, Leaf.item ⟨leafImage hdr items gap, []⟩ i = .ok ⟨rec.layout, t⟩ := by
      have := fun rest => sub_mid (hdr.layout ++ pre) rec.layout rest [] (HeaderLen + i * ItemLen)
        (HeaderLen + i * ItemLen + ItemLen) hoff.symm (by rw [hoff, itemRec_length]; rfl)
      rw [himg]
      exact ⟨_, this _⟩
    obtain ⟨t, hitem⟩ := hitem
    have hik := C07_Item_decodes rec [] t
    rw [List.append_nil] at hik
    have hplen : (leafPayloads items).length = pp.length + (d.length + post.length) := by
      rw [hp]; simp
    have hsz : rec.size.toNat = d.length := by
      rw [← hrec]; simp only [UInt32.toNat_ofNat']; omega
    have ho : rec.offset.toNat = 25 * items.length + gap.length + pp.length := by
      rw [← hrec]; simp only [UInt32.toNat_ofNat']; omega
    refine ⟨?_, ⟨_, hitem, itemRec_length _, ?_, _, hik.2.2.2, hsz⟩, ?_⟩
    · have hkl : HeaderLen + i * ItemLen + itemKey = (hdr.layout ++ pre).length := hoff
      rw [Leaf.key, hkl, himg, keyAt_skip _ _ _ _ (Nat.le_refl _), Nat.sub_self, ItemRec.layout,
        List.append_assoc, keyAt_zero, ← hrec]
    · rw [hik.2.1, ← hrec]
    · simp only [Leaf.data, hitem, Go.ok_bind, hik.2.2.1, hik.2.2.2]
      have e1 : (UInt32.ofNat HeaderLen + rec.offset).toNat =
          101 + (25 * items.length + gap.length + pp.length) := by
        rw [UInt32.toNat_add, ho]
        have : (UInt32.ofNat HeaderLen).toNat = 101 := by decide
        rw [this]; omega
      have e2 : (UInt32.ofNat HeaderLen + rec.offset + rec.size).toNat =
          101 + (25 * items.length + gap.length + pp.length) + d.length := by
        rw [UInt32.toNat_add, e1, hsz]; omega
      rw [if_neg (by
        rw [UInt32.lt_iff_toNat_lt, e2, UInt32.toNat_ofNat']
        simp only [hlen] at *
        omega)]
      rw [e1, e2]
      have himg2 : leafImage hdr items gap = (hdr.layout ++ ((leafItemRecs (25 * items.length +
          gap.length + (leafPayloads items).length) items).flatMap ItemRec.layout ++ (gap ++ pp))) ++
          (d ++ post) := by
        rw [leafImage, hp]; simp only [List.append_assoc]
      rw [himg2]
      refine ⟨_, sub_mid _ _ _ _ _ _ ?_ ?_, rfl⟩
      · simp only [List.length_append, header_length, flatMap_item_length, leafItemRecs_length]
        omega
      · simp only [List.length_append, header_length, flatMap_item_length, leafItemRecs_length]
        omega

/-- A concrete leaf with two items and a gap satisfies the hypotheses. -/
def exampleLeafHeader : HeaderRec :=
  ⟨⟨List.replicate 32 0, by simp⟩, uuidAllFs, 4096, 0, uuidAllZero, 7, 5, 2, 0⟩

example : exampleLeafHeader.nrItems.toNat =
      ([(⟨256, 1, 0⟩, [1, 2, 3]), (⟨257, 1, 0⟩, [4])] : List (Key × Bytes)).length ∧
    (leafImage exampleLeafHeader [(⟨256, 1, 0⟩, [1, 2, 3]), (⟨257, 1, 0⟩, [4])]
      [0, 0]).length < 2 ^ 32 := by
  rw [leafImage_length]; decide

/-! ## C14 -/

/-- C14: whatever the block contains, the number of items reported is at most a 25th
of the block size, so a corrupted count cannot blow up a scan. -/
theorem C14_item_count_bounded (b : Bytes) (n : Nat) (h : Leaf.len ⟨b, []⟩ = .ok n) :
    n ≤ b.length / 25 := by
  simp only [Leaf.len, Go.bind_eq_ok] at h
  obtain ⟨m, -, h⟩ := h
  have h25 : ItemLen = 25 := by decide
  rw [h25, cap_nil] at h
  have hm : (UInt32.ofNat (b.length / 25)).toNat ≤ b.length / 25 := by
    rw [UInt32.toNat_ofNat']; exact Nat.mod_le _ _
  split at h
  · simp only [Go.pure_eq, Go.ok.injEq] at h; omega
  · rename_i hlt
    rw [UInt32.lt_iff_toNat_lt] at hlt
    simp only [Go.pure_eq, Go.ok.injEq] at h; omega

/-- What a scan reads of one block (cmd/recon.go:92-110): header fields and, for
every item, key, item header and payload. -/
def Leaf.scan (l : Leaf) : Go (List (Key × Bytes × Bytes)) := do
  let _ ← Header.fsid l
  let _ ← Header.nrItems l
  let _ ← Header.level l
  let n ← Leaf.len l
  (List.range n).mapM fun i => do
    let k ← Leaf.key l i
    let it ← Leaf.item l i
    let d ← Leaf.data l i
    return (k, Slice.data it, d.data)

theorem mapM_isOk {α β : Type} (f : α → Go β) (l : List α) :
    (l.mapM f).isOk ↔ ∀ a ∈ l, (f a).isOk := by
  induction l with
  | nil => simp
  | cons x xs ih =>
    rw [List.mapM_cons, isOk_bind]
    simp only [List.mem_cons, forall_eq_or_imp]
    rw [← ih, Go.isOk_iff (x := f x)]
    constructor
    · rintro ⟨a, h1, h2⟩
      refine ⟨⟨a, h1⟩, ?_⟩
      rw [isOk_bind_pure] at h2; exact h2
    · rintro ⟨⟨a, h1⟩, h2⟩
      refine ⟨a, h1, ?_⟩
      rw [isOk_bind_pure]; exact h2

theorem leaf_item_eq (b : Bytes) (i : Nat) : Leaf.item ⟨b, []⟩ i =
    if 101 + 25 * i + 25 ≤ b.length then
      .ok ⟨(b.drop (101 + 25 * i)).take 25, b.drop (101 + 25 * i + 25)⟩ else .panic := by
  have e : HeaderLen + i * ItemLen = 101 + 25 * i := by
    have h1 : HeaderLen = 101 := by decide
    have h2 : ItemLen = 25 := by decide
    rw [h1, h2]; omega
  simp only [Leaf.item, Slice.sub, e, cap_nil, all_nil]
  have h2 : ItemLen = 25 := by decide
  rw [h2]
  by_cases h : 101 + 25 * i + 25 ≤ b.length
  · rw [if_pos ⟨by omega, h⟩, if_pos h]
    congr 2
    rw [List.drop_take]
    congr 1
    omega
  · rw [if_neg (by omega), if_neg h]

/-- Offset field of item header `i` of a raw block. -/
def rawOffset (b : Bytes) (i : Nat) : Nat := leNat ((b.drop (101 + 25 * i + 17)).take 4)
/-- Size field of item header `i` of a raw block. -/
def rawSize (b : Bytes) (i : Nat) : Nat := leNat ((b.drop (101 + 25 * i + 21)).take 4)
/-- Item count field of a raw block. -/
def rawNrItems (b : Bytes) : Nat := leNat ((b.drop 96).take 4)

theorem leNat_take4_lt (b : Bytes) : leNat (b.take 4) < 2 ^ 32 := by
  have h := leNat_lt (b.take 4)
  have h2 : (b.take 4).length ≤ 4 := by simp; omega
  have : 256 ^ (b.take 4).length ≤ 256 ^ 4 := Nat.pow_le_pow_right (by omega) h2
  omega

theorem take_drop_join (b : Bytes) (i n : Nat) :
    (b.drop i).take n ++ b.drop (i + n) = b.drop i := by
  rw [← List.drop_drop, List.take_append_drop]

theorem leaf_data_eq (b : Bytes) (i : Nat) (hb : b.length < 2 ^ 32)
    (hi : 101 + 25 * i + 25 ≤ b.length) :
    Leaf.data ⟨b, []⟩ i = Slice.sub ⟨b, []⟩ ((101 + rawOffset b i) % 2 ^ 32)
      (min (((101 + rawOffset b i) % 2 ^ 32 + rawSize b i) % 2 ^ 32) b.length) := by
  have hlen : ((b.drop (101 + 25 * i)).take 25).length = 25 := by
    rw [List.length_take, List.length_drop]; omega
  have ho : Item.offset ⟨(b.drop (101 + 25 * i)).take 25, b.drop (101 + 25 * i + 25)⟩ =
      .ok (UInt32.ofNat (rawOffset b i)) := by
    have : itemOffset = 17 := by decide
    rw [Item.offset, this, u32at_eq, if_pos (by omega)]
    rw [take_drop_join b _ 25, List.drop_drop]
    rfl
  have hz : Item.size ⟨(b.drop (101 + 25 * i)).take 25, b.drop (101 + 25 * i + 25)⟩ =
      .ok (UInt32.ofNat (rawSize b i)) := by
    have : itemSize = 21 := by decide
    rw [Item.size, this, u32at_eq, if_pos (by omega)]
    rw [take_drop_join b _ 25, List.drop_drop]
    rfl
  simp only [Leaf.data, leaf_item_eq, if_pos hi, Go.ok_bind, ho, hz]
  have h101 : (UInt32.ofNat HeaderLen).toNat = 101 := by decide
  have l1 := leNat_take4_lt (b.drop (101 + 25 * i + 17))
  have l2 := leNat_take4_lt (b.drop (101 + 25 * i + 21))
  have e1 : (UInt32.ofNat HeaderLen + UInt32.ofNat (rawOffset b i)).toNat =
      (101 + rawOffset b i) % 2 ^ 32 := by
    rw [UInt32.toNat_add, h101, UInt32.toNat_ofNat']
    simp only [rawOffset] at *; omega
  have e2 : (UInt32.ofNat HeaderLen + UInt32.ofNat (rawOffset b i) +
      UInt32.ofNat (rawSize b i)).toNat =
      ((101 + rawOffset b i) % 2 ^ 32 + rawSize b i) % 2 ^ 32 := by
    rw [UInt32.toNat_add, e1, UInt32.toNat_ofNat']
    simp only [rawSize] at *; omega
  have e3 : (UInt32.ofNat b.length).toNat = b.length := by
    rw [UInt32.toNat_ofNat']; omega
  rw [e1]
  congr 1
  split
  · rename_i hlt
    rw [UInt32.lt_iff_toNat_lt, e2, e3] at hlt
    rw [e3]; omega
  · rename_i hlt
    rw [UInt32.lt_iff_toNat_lt, e2, e3] at hlt
    rw [e2]; omega

theorem header_nrItems_raw (b : Bytes) (h : 101 ≤ b.length) :
    Header.nrItems ⟨b, []⟩ = .ok (UInt32.ofNat (rawNrItems b)) := by
  have : headerNrItems = 96 := by decide
  rw [Header.nrItems, this, u32at_eq, if_pos (by simp only [List.length_nil]; omega),
    List.append_nil]
  rfl

theorem leaf_len_raw (b : Bytes) (h : 101 ≤ b.length) (hb : b.length < 2 ^ 32) :
    Leaf.len ⟨b, []⟩ = .ok (min (rawNrItems b) (b.length / 25)) := by
  have h25 : ItemLen = 25 := by decide
  simp only [Leaf.len, header_nrItems_raw b h, Go.ok_bind, h25, cap_nil]
  have l1 := leNat_take4_lt (b.drop 96)
  have e1 : (UInt32.ofNat (rawNrItems b)).toNat = rawNrItems b := by
    rw [UInt32.toNat_ofNat']; simp only [rawNrItems] at *; omega
  have e2 : (UInt32.ofNat (b.length / 25)).toNat = b.length / 25 := by
    rw [UInt32.toNat_ofNat']; omega
  split
  · rename_i hlt
    rw [UInt32.lt_iff_toNat_lt, e1, e2] at hlt
    rw [e2, Go.pure_eq]; congr 1; omega
  · rename_i hlt
    rw [UInt32.lt_iff_toNat_lt, e1, e2] at hlt
    rw [e1, Go.pure_eq]; congr 1; omega

/-- C14: exactly which blocks can be scanned without a crash: the header fits, every
item header below the (clamped) count fits, and every payload starts before its
end, the end being clipped to the block. -/
theorem C14_scan_crash_iff (b : Bytes) (hb : b.length < 2 ^ 32) :
    (Leaf.scan ⟨b, []⟩).isOk ↔ 101 ≤ b.length ∧
      ∀ i < min (rawNrItems b) (b.length / 25), 101 + 25 * (i + 1) ≤ b.length ∧
        (101 + rawOffset b i) % 2 ^ 32 ≤
          min (((101 + rawOffset b i) % 2 ^ 32 + rawSize b i) % 2 ^ 32) b.length := by
  by_cases h : 101 ≤ b.length
  · have hf : ∃ u, Header.fsid ⟨b, []⟩ = .ok u := by
      apply Go.isOk_iff.mp
      have : headerFSID = 32 := by decide
      rw [Header.fsid, this, isOk_uuid]; omega
    have hl : ∃ u, Header.level ⟨b, []⟩ = .ok u := by
      apply Go.isOk_iff.mp
      have : headerLevel = 100 := by decide
      rw [Header.level, this, isOk_u8]; omega
    obtain ⟨u, hf⟩ := hf
    obtain ⟨v, hl⟩ := hl
    simp only [Leaf.scan, hf, hl, header_nrItems_raw b h, leaf_len_raw b h hb, Go.ok_bind,
      mapM_isOk, List.mem_range, h, true_and]
    apply forall_congr'
    intro i
    apply imp_congr_right
    intro _
    have hk := isOk_key b (HeaderLen + i * ItemLen + itemKey)
    have e : HeaderLen + i * ItemLen + itemKey = 101 + 25 * i := by
      have h1 : HeaderLen = 101 := by decide
      have h2 : ItemLen = 25 := by decide
      have h3 : itemKey = 0 := by decide
      rw [h1, h2, h3]; omega
    rw [e] at hk
    constructor
    · intro hok
      rw [isOk_bind] at hok
      obtain ⟨k, -, hok⟩ := hok
      rw [isOk_bind] at hok
      obtain ⟨it, hit, hok⟩ := hok
      rw [isOk_bind] at hok
      obtain ⟨d, hd, -⟩ := hok
      rw [leaf_item_eq] at hit
      by_cases hi : 101 + 25 * i + 25 ≤ b.length
      · refine ⟨by omega, ?_⟩
        rw [leaf_data_eq b i hb hi] at hd
        exact ((sub_isOk b _ _).mp (Go.isOk_iff.mpr ⟨d, hd⟩)).1
      · rw [if_neg hi] at hit; cases hit
    · rintro ⟨h1, h2⟩
      have hi : 101 + 25 * i + 25 ≤ b.length := by omega
      obtain ⟨k, hk⟩ := Go.isOk_iff.mp (hk.mpr (by omega))
      have hd := (sub_isOk b _ _).mpr ⟨h2, Nat.min_le_right _ _⟩
      rw [← leaf_data_eq b i hb hi] at hd
      obtain ⟨d, hd⟩ := Go.isOk_iff.mp hd
      simp only [Leaf.key, e, hk, leaf_item_eq, if_pos hi, hd, Go.ok_bind, Go.pure_eq, Go.isOk_ok]
  · simp only [h, false_and, iff_false]
    intro hok
    simp only [Leaf.scan, isOk_bind] at hok
    obtain ⟨_, -, _, -, l, hl, -⟩ := hok
    have := (isOk_u8 b headerLevel).mp (Go.isOk_iff.mpr ⟨l, hl⟩)
    have e : headerLevel = 100 := by decide
    omega

/-- C14 (partial): a block whose item count fits behind the header and whose payload
offsets and ends do not exceed 32 bits and start inside the block is scanned
without a crash. Missing: all other blocks (`C14_scan_can_crash`). -/
theorem C14_scan_partial (b : Bytes) (h101 : 101 ≤ b.length) (hb : b.length < 2 ^ 32)
    (hn : 101 + 25 * rawNrItems b ≤ b.length)
    (hi : ∀ i < rawNrItems b, 101 + rawOffset b i ≤ b.length ∧
      101 + rawOffset b i + rawSize b i < 2 ^ 32) :
    (Leaf.scan ⟨b, []⟩).isOk := by
  rw [C14_scan_crash_iff b hb]
  refine ⟨h101, fun i hlt => ?_⟩
  have hlt' : i < rawNrItems b := by omega
  obtain ⟨h1, h2⟩ := hi i hlt'
  refine ⟨by omega, ?_⟩
  rw [Nat.mod_eq_of_lt (by omega : 101 + rawOffset b i < 2 ^ 32), Nat.mod_eq_of_lt h2]
  omega

/-- A block that satisfies the hypotheses. -/
example : ∃ b : Bytes, 101 ≤ b.length ∧ b.length < 2 ^ 32 ∧ 101 + 25 * rawNrItems b ≤ b.length ∧
    rawNrItems b = 2 ∧ ∀ i < rawNrItems b, 101 + rawOffset b i ≤ b.length ∧
      101 + rawOffset b i + rawSize b i < 2 ^ 32 :=
  ⟨leafImage exampleLeafHeader [(⟨256, 1, 0⟩, [1, 2, 3]), (⟨257, 1, 0⟩, [4])] [0, 0],
    by decide +kernel, by decide +kernel, by decide +kernel, by decide +kernel,
    by decide +kernel⟩

/-- C14 (recorded disagreement): a corrupted item count crashes the scan of a block
of 4096 bytes, because the clamp in `Len` forgets the header: 163 item headers
do not fit behind it. -/
theorem C14_scan_can_crash (b : Bytes) (hb : b.length = 4096) (hn : rawNrItems b = 200) :
    ¬ (Leaf.scan ⟨b, []⟩).isOk := by
  rw [C14_scan_crash_iff b (by omega)]
  rintro ⟨-, h⟩
  have := (h 162 (by rw [hn, hb]; decide)).1
  omega

/-- C14 (recorded disagreement): an item offset beyond the block crashes the scan. -/
theorem C14_bad_offset_crashes (b : Bytes) (hb : b.length < 2 ^ 32) (hn : 0 < rawNrItems b)
    (ho : b.length < 101 + rawOffset b 0) (ho2 : 101 + rawOffset b 0 < 2 ^ 32) :
    ¬ (Leaf.scan ⟨b, []⟩).isOk := by
  rw [C14_scan_crash_iff b hb]
  rintro ⟨h1, h⟩
  have := (h 0 (by omega)).2
  rw [Nat.mod_eq_of_lt ho2] at this
  omega

/-- Blocks as in the two disagreements exist. -/
example : ∃ b : Bytes, b.length = 4096 ∧ rawNrItems b = 200 := by
  refine ⟨List.replicate 96 0 ++ ([200, 0, 0, 0] ++ List.replicate 3996 0), ?_, ?_⟩
  · simp only [List.length_append, List.length_replicate, List.length_cons, List.length_nil]
  · simp only [rawNrItems]
    rw [List.drop_left' (by simp only [List.length_replicate]), List.take_left' (by rfl)]
    decide

example : ∃ b : Bytes, b.length < 2 ^ 32 ∧ 0 < rawNrItems b ∧ b.length < 101 + rawOffset b 0 ∧
    101 + rawOffset b 0 < 2 ^ 32 :=
  ⟨exampleLeafHeader.layout ++ (ItemRec.mk ⟨256, 1, 0⟩ 60000 4).layout,
    by decide +kernel, by decide +kernel, by decide +kernel, by decide +kernel⟩

end Btrfscue
