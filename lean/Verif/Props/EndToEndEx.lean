import Verif.Props.EndToEnd
import Verif.Props.RecoverAllEx
/-!
# C84: an image
-/

namespace Btrfscue

/-! ## Images made of leaves -/

/-- Zeroes up to the end of the block of the first superblock, blocks, zeroes. -/
def blocksDevice (bs : Nat) (blks : List Bytes) (m : Nat) : Bytes :=
  List.replicate (65536 + bs) 0 ++ (blks.flatten ++ List.replicate m 0)

theorem flatten_length {bs : Nat} {blks : List Bytes} (hl : ∀ b ∈ blks, b.length = bs) : blks.flatten.length = bs * blks.length := by
  induction blks with
  | nil => simp
  | cons b r ih =>
    rw [List.flatten_cons, List.length_append, ih fun x hx => hl x (List.mem_cons_of_mem _ hx), hl b (List.mem_cons_self ..),
      List.length_cons, Nat.mul_succ, Nat.add_comm]

theorem blocksDevice_length {bs : Nat} {blks : List Bytes} {m : Nat} (hl : ∀ b ∈ blks, b.length = bs) :
    (blocksDevice bs blks m).length = 65536 + bs + (bs * blks.length + m) := by
  simp only [blocksDevice, List.length_append, List.length_replicate, flatten_length hl]

theorem flatten_block {bs : Nat} {blks : List Bytes} (hl : ∀ b ∈ blks, b.length = bs) (m j : Nat) :
    ((blks.flatten ++ List.replicate m (0 : UInt8)).drop (bs * j)).take bs =
      match blks[j]? with
      | some b => b
      | none => List.replicate (min bs (m - bs * (j - blks.length))) 0 := by
  induction blks generalizing j with
  | nil => simp [List.drop_replicate, List.take_replicate]
  | cons b r ih =>
    have hb := hl b (List.mem_cons_self ..)
    have hr : ∀ x ∈ r, x.length = bs := fun x hx => hl x (List.mem_cons_of_mem _ hx)
    cases j with
    | zero => simp [List.take_left' hb]
    | succ j =>
      have := ih hr j
      rw [List.flatten_cons, List.append_assoc, Nat.mul_succ, Nat.add_comm, ← List.drop_drop, List.drop_left' hb, this]
      simp [Nat.add_sub_add_right]

theorem blocksDevice_get {bs : Nat} {blks : List Bytes} {m : Nat} (hl : ∀ b ∈ blks, b.length = bs) (j : Nat) :
    ((blocksDevice bs blks m).drop (65536 + bs * (j + 1))).take bs =
      match blks[j]? with
      | some b => b
      | none => List.replicate (min bs (m - bs * (j - blks.length))) 0 := by
  rw [← flatten_block hl m j, blocksDevice, Nat.mul_succ, show 65536 + (bs * j + bs) = 65536 + bs + bs * j by omega, ← List.drop_drop,
    List.drop_left' (by simp)]

theorem blocksDevice_mem {bs : Nat} {blks : List Bytes} {m : Nat} (h0 : 0 < bs) (hl : ∀ b ∈ blks, b.length = bs) {b : Bytes}
    (hb : b ∈ blks) : b ∈ scanBlocks (blocksDevice bs blks m) bs := by
  obtain ⟨j, hj⟩ := List.getElem?_of_mem hb
  simp only [scanBlocks, List.mem_map, List.mem_range]
  refine ⟨j, ?_, by rw [blocksDevice_get hl, hj]⟩
  have hlt := (List.getElem?_eq_some_iff.mp hj).1
  rw [blocksDevice_length hl]
  have h1 : bs * (j + 2) ≤ 65536 + bs + (bs * blks.length + m) - 65536 := by
    have := Nat.mul_le_mul_left bs hlt
    rw [Nat.mul_succ] at this
    rw [Nat.mul_add]
    omega
  have : j + 2 ≤ (65536 + bs + (bs * blks.length + m) - 65536) / bs := by
    rw [Nat.le_div_iff_mul_le h0, Nat.mul_comm]
    exact h1
  omega

theorem blocksDevice_blocks {bs : Nat} {blks : List Bytes} {m : Nat} (hl : ∀ b ∈ blks, b.length = bs) {b : Bytes}
    (hb : b ∈ scanBlocks (blocksDevice bs blks m) bs) : b ∈ blks ∨ ∃ n, b = List.replicate n 0 := by
  simp only [scanBlocks, List.mem_map, List.mem_range] at hb
  obtain ⟨j, -, rfl⟩ := hb
  rw [blocksDevice_get hl]
  cases hj : blks[j]? with
  | some b => exact Or.inl (List.mem_of_getElem? hj)
  | none => exact Or.inr ⟨_, rfl⟩

/-- A leaf of the tree `owner` with generation `gen`, padded to 4096 bytes. -/
def exLeaf (owner gen : UInt64) (items : List (Key × Bytes)) : HeaderRec × List (Key × Bytes) :=
  (⟨⟨List.replicate 32 0, by simp⟩, uuidAllFs, 4096, 0, uuidAllZero, gen, owner, UInt32.ofNat items.length, 0⟩, items)

def leafBlock (l : HeaderRec × List (Key × Bytes)) : Bytes :=
  leafImage l.1 l.2 (List.replicate (4096 - (101 + 25 * l.2.length + (leafPayloads l.2).length)) 0)

/-- The items of the leaves of a list. -/
def leafItems (ls : List (HeaderRec × List (Key × Bytes))) : List (VKey × Bytes) :=
  ls.flatMap fun l => l.2.map fun e => (⟨l.1.owner, e.1, l.1.generation⟩, e.2)

/-- The leaves fit, and are non-empty leaves of the file system. -/
def LeavesOK (ls : List (HeaderRec × List (Key × Bytes))) : Prop :=
  ∀ l ∈ ls, 101 + 25 * l.2.length + (leafPayloads l.2).length ≤ 4096 ∧ l.1.nrItems.toNat = l.2.length ∧ l.1.nrItems ≠ 0 ∧
    l.1.fsid = uuidAllFs ∧ l.1.level = 0

def leavesDevice (ls : List (HeaderRec × List (Key × Bytes))) : Bytes := blocksDevice 4096 (ls.map leafBlock) (2 ^ 27)

theorem leafBlock_length {ls : List (HeaderRec × List (Key × Bytes))} (h : LeavesOK ls) : ∀ b ∈ ls.map leafBlock, b.length = 4096 := by
  intro b hb
  obtain ⟨l, hl, rfl⟩ := List.mem_map.mp hb
  have := (h l hl).1
  rw [leafBlock, leafImage_length, List.length_replicate]
  omega

theorem leaves_blocks {ls : List (HeaderRec × List (Key × Bytes))} (h : LeavesOK ls) {b : Bytes}
    (hb : b ∈ scanBlocks (leavesDevice ls) 4096) (hl : leafOf uuidAllFs b) : ∃ l ∈ ls, b = leafBlock l := by
  rcases blocksDevice_blocks (leafBlock_length h) hb with hb | ⟨n, rfl⟩
  · obtain ⟨l, h1, rfl⟩ := List.mem_map.mp hb
    exact ⟨l, h1, rfl⟩
  · exact absurd hl (zeroes_not_leaf (by decide))

theorem leaves_wellFormed {ls : List (HeaderRec × List (Key × Bytes))} (h : LeavesOK ls) : wellFormedDevice (leavesDevice ls) 4096 uuidAllFs := by
  intro b hb hl
  obtain ⟨l, h1, rfl⟩ := leaves_blocks h hb hl
  exact ⟨l.1, l.2, _, rfl, (h l h1).2.1⟩

theorem leaves_args {ls : List (HeaderRec × List (Key × Bytes))} (h : LeavesOK ls) (hn : ls.length < 2 ^ 20) :
    ReconArgs (leavesDevice ls) 4096 uuidAllFs := by
  have hlen : (leavesDevice ls).length = 65536 + 4096 + (4096 * ls.length + 2 ^ 27) := by
    rw [leavesDevice, blocksDevice_length (leafBlock_length h), List.length_map]
  have hb : (4096 : UInt64).toNat = 4096 := by decide
  exact ⟨by rw [hb]; omega, by rw [hb]; omega, by rw [hlen]; omega, by rw [hlen, hb]; omega, by decide⟩

/-- A leaf block says which items it has. -/
theorem leafImage_mem {hdr hdr' : HeaderRec} {items items' : List (Key × Bytes)} {gap gap' : Bytes}
    (h : leafImage hdr items gap = leafImage hdr' items' gap') (hn : hdr.nrItems.toNat = items.length)
    (hn' : hdr'.nrItems.toNat = items'.length) (hs : (leafImage hdr items gap).length < 2 ^ 32) {k : Key} {d : Bytes}
    (hm : (k, d) ∈ items) : (k, d) ∈ items' := by
  obtain ⟨i, hi⟩ := List.getElem?_of_mem hm
  have hlt := (List.getElem?_eq_some_iff.mp hi).1
  have hh := header_unique ((leafImage_hdr hdr items gap).choose_spec.symm.trans (h.trans (leafImage_hdr hdr' items' gap').choose_spec))
  have hlt' : i < items'.length := by rw [← hn', ← hh.2.2.2.1, hn]; exact hlt
  obtain ⟨r, h1, h2, h3⟩ := leafImage_item hn hs hi
  obtain ⟨r', h1', h2', h3'⟩ := leafImage_item hn' (by rw [← h]; exact hs) (i := i) (k := items'[i].1) (d := items'[i].2) (by simp [hlt'])
  rw [h] at h3
  obtain ⟨hv, hx⟩ := blockItem_unique h3 h3'
  simp only [VKey.mk.injEq] at hv
  have hd := (List.append_inj hx (by rw [itemRec_length, itemRec_length])).2
  rw [hv.2.1, hd]
  exact List.getElem_mem hlt'

theorem leaves_item {ls : List (HeaderRec × List (Key × Bytes))} (h : LeavesOK ls) {v : VKey} {d : Bytes} :
    imageItem (leavesDevice ls) 4096 uuidAllFs v d ↔ (v, d) ∈ leafItems ls := by
  constructor
  · rintro ⟨hdr, items, gap, hmem, hn, hid, hlv, ho, hg, hi⟩
    have hne : hdr.nrItems ≠ 0 := by
      intro h0
      rw [h0] at hn
      have : 0 < items.length := List.length_pos_of_mem hi
      simp at hn
      omega
    obtain ⟨l, hl, he⟩ := leaves_blocks h hmem (leafImage_leafOf hid hlv hne)
    have hlen : (leafImage hdr items gap).length = 4096 := by
      rw [he]
      exact leafBlock_length h _ (List.mem_map_of_mem hl)
    have hm := leafImage_mem he hn (h l hl).2.1 (by rw [hlen]; decide) hi
    have hh := header_unique ((leafImage_hdr hdr items gap).choose_spec.symm.trans (he.trans (leafImage_hdr l.1 l.2 _).choose_spec))
    refine List.mem_flatMap.mpr ⟨l, hl, List.mem_map.mpr ⟨_, hm, ?_⟩⟩
    simp only
    rw [← hh.2.1, ← hh.2.2.1, ← ho, ← hg]
  · intro hv
    obtain ⟨l, hl, hm⟩ := List.mem_flatMap.mp hv
    obtain ⟨e, he, hve⟩ := List.mem_map.mp hm
    simp only [Prod.mk.injEq] at hve
    obtain ⟨rfl, rfl⟩ := hve
    obtain ⟨h1, h2, h3, h4, h5⟩ := h l hl
    exact ⟨l.1, l.2, _, blocksDevice_mem (by decide) (leafBlock_length h) (List.mem_map_of_mem hl), h2, h4, h5, rfl, rfl, he⟩

/-! ## The image of `exAll` -/

/-- The payloads of `exAll`, leaf by leaf. -/
def exAllLeaves : List (HeaderRec × List (Key × Bytes)) :=
  [exLeaf 1 10 [(⟨256, 132, 0⟩, [1]), (⟨256, 144, 5⟩, [])],
   exLeaf 3 7 [(⟨1, 216, 1⟩, []), (⟨256, 228, 16⟩, (ChunkRec.mk 64 2 65536 1 4096 4096 4096 1 0).layout ++
     (stripesLayout [⟨1, 0, uuidAllZero⟩] ++ [])), (⟨257, 229, 0⟩, [])],
   exLeaf 5 10 [(⟨257, 1, 0⟩, (exInode 5).layout), (⟨258, 1, 0⟩, (exInode 5).layout), (⟨259, 1, 0⟩, (exInode 5).layout),
     (⟨256, 84, (NameHash [115]).toUInt64⟩, exEntry ⟨256, 132, ~~~0⟩ 2 [115]),
     (⟨256, 84, (NameHash [97]).toUInt64⟩, exEntry ⟨257, 1, 0⟩ 1 [97]),
     (⟨256, 84, (NameHash [98]).toUInt64⟩, exEntry ⟨258, 1, 0⟩ 2 [98]),
     (⟨258, 84, (NameHash [99]).toUInt64⟩, exEntry ⟨259, 1, 0⟩ 7 [99])],
   exLeaf 5 10 [(⟨257, 108, 0⟩, exInline 3 [1, 2, 3]), (⟨259, 108, 0⟩, exInline 2 [46, 46]), (⟨260, 132, 0⟩, [])],
   exLeaf 256 11 [(⟨256, 1, 0⟩, (exInode 3).layout), (⟨257, 1, 0⟩, (exInode 3).layout), (⟨256, 84, (NameHash [102]).toUInt64⟩, exEntry ⟨257, 1, 0⟩ 1 [102]),
     (⟨257, 108, 0⟩, (FileExtentItemRec.mk 9 3 0 0 0 1 20 64 0 3).layout), (⟨260, 132, 0⟩, [])]]

theorem exAll_leaves : exAll = (leafItems exAllLeaves).map (fun e => (e.1, mkItem e.1.key e.2)) ++ [(metadataVersionKey, [])] := by
  decide +kernel

theorem exAllLeaves_ok : LeavesOK exAllLeaves := by
  unfold LeavesOK
  decide +kernel

/-- The image. -/
def exAllImage : Bytes := leavesDevice exAllLeaves

theorem exAll_short : ∀ e ∈ leafItems exAllLeaves, e.2.length + 25 < 2 ^ 32 ∧ e.1 ≠ metadataVersionKey := by decide +kernel

theorem exAll_indexOf : exAll.enc.IndexOf exAllImage (4096 : UInt64).toNat uuidAllFs where
  wf := AStore.enc_wf exAll_sorted
  metadata := ⟨[], enc_stores.mpr (by decide +kernel)⟩
  spared d hd := (exAll_short _ ((leaves_item exAllLeaves_ok).mp hd)).2 rfl
  sound v x hx hv := by
    have h1 := enc_stores.mp hx
    rw [exAll_leaves] at h1
    rcases List.mem_append.mp h1 with h1 | h1
    · obtain ⟨e, he, heq⟩ := List.mem_map.mp h1
      simp only [Prod.mk.injEq] at heq
      obtain ⟨rfl, rfl⟩ := heq
      exact ⟨e.2, mkItem_holds _ _ (exAll_short e he).1, (leaves_item exAllLeaves_ok).mpr he⟩
    · simp only [List.mem_singleton, Prod.mk.injEq] at h1
      exact absurd h1.1 hv
  complete v d hd := by
    have he := (leaves_item exAllLeaves_ok).mp hd
    refine ⟨mkItem v.key d, enc_stores.mpr ?_, mkItem_holds _ _ (exAll_short _ he).1⟩
    rw [exAll_leaves]
    exact List.mem_append_left _ (List.mem_map.mpr ⟨_, he, rfl⟩)

theorem exAll_agrees : imageAgrees exAllImage (4096 : UInt64).toNat uuidAllFs := by
  intro v d d' h h'
  have h1 := (leaves_item exAllLeaves_ok).mp h
  have h2 := (leaves_item exAllLeaves_ok).mp h'
  have key : ∀ e ∈ leafItems exAllLeaves, ∀ e' ∈ leafItems exAllLeaves, e.1 = e'.1 → e.2 = e'.2 := by decide +kernel
  exact key _ h1 _ h2 rfl

/-- The hypotheses of C84 are met by an image with five leaves: files, a directory, a link
and a subvolume. -/
example : ReconArgs exAllImage 4096 uuidAllFs ∧ wellFormedDevice exAllImage 4096 uuidAllFs ∧
    imageAgrees exAllImage (4096 : UInt64).toNat uuidAllFs ∧ exAll.enc.IndexOf exAllImage (4096 : UInt64).toNat uuidAllFs ∧
    exAll.enc.Undamaged 7 ∧ Quiet (imageEnv exAllImage) exAllImage ∧ EmptyDest exEmptyDir (ascii "/d") 1 ∧
    exAll.enc.Recoverable 7 exAllImage (ascii "/d") :=
  ⟨leaves_args exAllLeaves_ok (by decide), leaves_wellFormed exAllLeaves_ok, exAll_agrees, exAll_indexOf, exAll_undamaged,
    ⟨fun _ _ => rfl, fun _ => rfl⟩, exEmptyDir_ok, exAll_recoverable (by
      rw [exAllImage, leavesDevice, blocksDevice_length (leafBlock_length exAllLeaves_ok)]; omega)⟩

end Btrfscue
