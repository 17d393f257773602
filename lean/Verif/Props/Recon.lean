import Verif.Proof.Recon
import Verif.Props.IndexLookup
import Verif.Props.IndexDB
/-!
# C40–C43: recon

`doScanFS fuel (imageReader dev) (some size) bs id f` is the command `recon` on a
device with content `dev` and the metadata file `f`. Fuel larger than the device
size is always enough: the scan loop ends by itself.
-/

namespace Btrfscue

/-- What `recon` is run on: block size, FSID and device accepted by the option checks. -/
structure ReconArgs (dev : Bytes) (bs : UInt64) (id : UUID) : Prop where
  bs_header : 101 ≤ bs.toNat
  bs_small : bs.toNat < 2 ^ 32
  dev_small : dev.length < 2 ^ 63
  dev_large : 64 * 2 ^ 20 + 100 * bs.toNat ≤ dev.length
  id_set : UUID.isZero id = false

/-- Running recon on an image. -/
def recon (fuel : Nat) (dev : Bytes) (bs : UInt64) (id : UUID) (f : DBFile) : DBFile × CmdEnd :=
  doScanFS fuel (imageReader dev) (some (UInt64.ofNat dev.length)) bs id f

theorem scanBlocks_length_le (dev : Bytes) (bs : Nat) : (scanBlocks dev bs).length ≤ dev.length := by
  simp only [scanBlocks, List.length_map, List.length_range]
  have := Nat.div_le_self (dev.length - 65536) bs
  omega

theorem recon_fresh {dev : Bytes} {bs : UInt64} {id : UUID} (h : ReconArgs dev bs id) :
    ∃ ops fin, ScanOps id (scanBlocks dev bs.toNat) ops fin ∧ ∀ f : DBFile, f.fresh → ∀ fuel, dev.length < fuel →
      recon fuel dev bs id f = (.db (some ((AStore.init (reconOptions bs id)).apply ops).enc),
        if fin then .done else .crash) := by
  obtain ⟨ops, fin, h1, h2⟩ := doScan_image dev id bs h.1 h.2 h.3 h.4 h.5
  refine ⟨ops, fin, h1, fun f hf fuel hfu => ?_⟩
  obtain ⟨ix, h3, h4, -⟩ := open_fresh (reconOptions bs id) rfl f hf
  have := scanBlocks_length_le dev bs.toNat
  exact h2 f _ ix _ h3 h4 fuel (by omega)

theorem lastValue_scan {dev : Bytes} {bs : UInt64} {id : UUID} {ops : List IxOp} {fin : Bool}
    (h : ScanOps id (scanBlocks dev bs.toNat) ops fin) {v : VKey} {x : Bytes} (hl : lastValue ops v = some x) :
    onDevice dev bs.toNat id v x := by
  obtain ⟨ins, h1, rfl, rfl⟩ := lastValue_mem hl
  obtain ⟨ins', i, h2, b, h3, h4, h5⟩ := h.sound _ h1
  cases h2
  exact ⟨b, h3, h4, i, h5⟩

theorem lastValue_insert {ops : List IxOp} {ins : Ins} (h : IxOp.insert ins ∈ ops) :
    ∃ x, lastValue ops ins.version = some x := by
  cases hl : lastValue ops ins.version with
  | some x => exact ⟨x, rfl⟩
  | none => exact absurd (versionsOf_mem h) (lastValue_none_iff.mp hl)

theorem lastValue_complete {dev : Bytes} {bs : UInt64} {id : UUID} {ops : List IxOp}
    (h : ScanOps id (scanBlocks dev bs.toNat) ops true) {v : VKey} {x : Bytes}
    (hx : onDevice dev bs.toNat id v x) : ∃ y, lastValue ops v = some y := by
  obtain ⟨b, hb, hl, i, hi⟩ := hx
  obtain ⟨ins, h1, rfl, -⟩ := h.complete b hb hl i v x hi
  exact lastValue_insert h1

/-- No leaf on the device claims to hold the entry the index keeps its metadata under. -/
def sparesDevice (dev : Bytes) (bs : UInt64) (id : UUID) : Prop :=
  ∀ x, ¬ onDevice dev bs.toNat id metadataVersionKey x

/-- No leaf of the file system on the device belongs to tree `2^64-1`; then the
metadata entry is spared. -/
theorem sparesDevice_of {dev : Bytes} {bs : UInt64} {id : UUID}
    (h : ∀ v x, onDevice dev bs.toNat id v x → v.owner ≠ ~~~0) : sparesDevice dev bs id :=
  fun x hx => h _ x hx rfl

/-- Every leaf of the file system on the device is sound. -/
def soundDevice (dev : Bytes) (bs : UInt64) (id : UUID) : Prop :=
  ∀ b ∈ scanBlocks dev bs.toNat, leafOf id b → soundLeaf b

theorem fresh_stores {ops : List IxOp} {o : Options} {v : VKey} {x : Bytes} :
    Bucket.stores ((AStore.init o).apply ops).enc v x ↔ (lastValue ops v = some x ∨
      (lastValue ops v = none ∧ v = metadataVersionKey ∧ x = newIndexMetadata o)) := by
  rw [enc_stores, AStore.mem_apply (AStore.init_sorted o)]
  simp [AStore.init]

/-! ### Well-formed leaves -/

theorem leafImage_hdr (hdr : HeaderRec) (items : List (Key × Bytes)) (gap : Bytes) :
    ∃ rest, leafImage hdr items gap = hdr.layout ++ rest := ⟨_, rfl⟩

theorem leafImage_leafOf {hdr : HeaderRec} {items : List (Key × Bytes)} {gap : Bytes} {id : UUID}
    (hi : hdr.fsid = id) (hl : hdr.level = 0) (hn : hdr.nrItems ≠ 0) : leafOf id (leafImage hdr items gap) :=
  ⟨hdr, _, rfl, hi, hl, hn⟩

/-- A well-formed leaf is sound. -/
theorem leafImage_sound {hdr : HeaderRec} {items : List (Key × Bytes)} {gap : Bytes}
    (hn : hdr.nrItems.toNat = items.length) (hs : (leafImage hdr items gap).length < 2 ^ 32) :
    soundLeaf (leafImage hdr items gap) := by
  intro hdr' rest he i hi hi2
  have hh := header_unique (he.symm.trans (leafImage_hdr hdr items gap).choose_spec)
  rw [hh.2.2.2.1, hn] at hi
  have hlen := leafImage_length hdr items gap
  refine ⟨by omega, fun r hr => ?_⟩
  obtain ⟨-, hd⟩ := C13_leaf_decodes hdr items gap hn hs
  obtain ⟨-, -, s, hs1, -⟩ := hd i items[i].1 items[i].2 (by simp [hi])
  rw [item_data hs hr] at hs1
  by_cases hle : r.start ≤ r.stop (leafImage hdr items gap)
  · exact hle
  · rw [if_neg hle] at hs1; cases hs1

/-- The items of a well-formed leaf: the item header and then exactly the payload. -/
theorem leafImage_item {hdr : HeaderRec} {items : List (Key × Bytes)} {gap : Bytes}
    (hn : hdr.nrItems.toNat = items.length) (hs : (leafImage hdr items gap).length < 2 ^ 32) {i : Nat} {k : Key}
    {d : Bytes} (hi : items[i]? = some (k, d)) :
    ∃ r : ItemRec, r.key = k ∧ r.size.toNat = d.length ∧
      blockItem (leafImage hdr items gap) i ⟨hdr.owner, k, hdr.generation⟩ (r.layout ++ d) := by
  obtain ⟨hlt, -⟩ := List.getElem?_eq_some_iff.mp hi
  have hlen := leafImage_length hdr items gap
  obtain ⟨rest, hrest⟩ := leafImage_hdr hdr items gap
  obtain ⟨r, hr⟩ := blockItemRec_exists hrest (i := i) (by omega) (by omega) (by omega)
  obtain ⟨-, hd⟩ := C13_leaf_decodes hdr items gap hn hs
  obtain ⟨hk, ⟨it, hit, -, -, sz, hsz, hszl⟩, s, hs1, rfl⟩ := hd i k d hi
  rw [item_key hr] at hk
  simp only [Go.ok.injEq] at hk
  obtain ⟨post, hpost⟩ := item_hdr hr
  rw [hpost] at hit
  simp only [Go.ok.injEq] at hit
  subst hit
  have := (C07_Item_decodes r [] post).2.2.2
  rw [List.append_nil] at this
  rw [this] at hsz
  simp only [Go.ok.injEq] at hsz
  rw [item_data hs hr] at hs1
  split at hs1
  · simp only [Go.ok.injEq] at hs1
    subst hs1
    exact ⟨r, hk, by rw [hsz]; exact hszl, hdr, r, hr, by rw [hk], rfl⟩
  · cases hs1

/-- Every matching leaf on the device is a well-formed leaf. -/
def wellFormedDevice (dev : Bytes) (bs : UInt64) (id : UUID) : Prop :=
  ∀ b ∈ scanBlocks dev bs.toNat, leafOf id b →
    ∃ hdr items gap, b = leafImage hdr items gap ∧ hdr.nrItems.toNat = items.length

theorem wellFormedDevice.sound {dev : Bytes} {bs : UInt64} {id : UUID} (ha : ReconArgs dev bs id)
    (h : wellFormedDevice dev bs id) : soundDevice dev bs id := by
  intro b hb hl
  obtain ⟨hdr, items, gap, rfl, hn⟩ := h b hb hl
  obtain ⟨j, hj⟩ := List.getElem?_of_mem hb
  have h1 := scanBlocks_get (by have := ha.1; omega) hj
  exact leafImage_sound hn (by rw [h1.2.1]; exact ha.2)

/-! ### A device with one interesting block -/

/-- Zeroes, one block right after the first superblock's block, zeroes. -/
def oneBlockDevice (bs : Nat) (blk : Bytes) (m : Nat) : Bytes :=
  List.replicate (65536 + bs) 0 ++ (blk ++ List.replicate m 0)

theorem oneBlockDevice_length (bs : Nat) (blk : Bytes) (m : Nat) :
    (oneBlockDevice bs blk m).length = 65536 + bs + (blk.length + m) := by
  simp [oneBlockDevice]

theorem oneBlockDevice_mem {bs : Nat} {blk : Bytes} {m : Nat} (h0 : 0 < bs) (hl : blk.length = bs) :
    blk ∈ scanBlocks (oneBlockDevice bs blk m) bs := by
  simp only [scanBlocks, List.mem_map, List.mem_range]
  refine ⟨0, ?_, ?_⟩
  · rw [oneBlockDevice_length, hl]
    have : 2 ≤ (65536 + bs + (bs + m) - 65536) / bs := by
      rw [Nat.le_div_iff_mul_le h0]; omega
    omega
  · rw [oneBlockDevice, Nat.zero_add, Nat.mul_one, drop_mid _ _ _ (by simp), List.take_left' hl]

theorem oneBlockDevice_blocks {bs : Nat} {blk : Bytes} {m : Nat} (h0 : 0 < bs) (hl : blk.length = bs) {b : Bytes}
    (hb : b ∈ scanBlocks (oneBlockDevice bs blk m) bs) : b = blk ∨ b = List.replicate bs 0 := by
  obtain ⟨j, hj⟩ := List.getElem?_of_mem hb
  obtain ⟨h1, h2, h3⟩ := scanBlocks_get h0 hj
  cases j with
  | zero =>
    left
    rw [h1, oneBlockDevice, Nat.zero_add, Nat.mul_one, drop_mid _ _ _ (by simp), List.take_left' hl]
  | succ j =>
    right
    have he : 65536 + bs * (j + 1 + 1) = (65536 + bs) + (blk.length + bs * j) := by
      rw [hl, Nat.mul_add, Nat.mul_add]; omega
    rw [he, oneBlockDevice, ← List.drop_drop, drop_mid _ _ _ (by simp), ← List.drop_drop,
      drop_mid _ _ _ rfl, List.drop_replicate, List.take_replicate] at h1
    rw [h1, List.length_replicate] at h2
    rw [h1, h2]

theorem zeroes_not_leaf {id : UUID} {n : Nat} (hid : UUID.isZero id = false) : ¬ leafOf id (List.replicate n 0) := by
  rintro ⟨hdr, rest, he, h1, -, h3⟩
  have hz : ∀ x ∈ hdr.layout, x = (0 : UInt8) := fun x hx => by
    have : x ∈ List.replicate n (0 : UInt8) := by rw [he]; exact List.mem_append_left _ hx
    exact (List.mem_replicate.mp this).2
  have h4 : ∀ x ∈ le32 hdr.nrItems, x = (0 : UInt8) := fun x hx => hz x (by
    simp only [HeaderRec.layout, List.mem_append]; simp [hx])
  apply h3
  rw [← UInt32.toNat_inj]
  have h5 : le32 hdr.nrItems = List.replicate 4 0 := by
    rw [List.eq_replicate_iff]
    exact ⟨by simp [le32], h4⟩
  have h6 := congrArg leNat h5
  rw [le32, leNat_leBytes, Nat.mod_eq_of_lt (hdr.nrItems.toNat_lt)] at h6
  rw [h6]; rfl

/-- A leaf with one item (an inode of tree 5). -/
def exReconHeader : HeaderRec :=
  ⟨⟨List.replicate 32 0, by simp⟩, uuidAllFs, 4096, 0, uuidAllZero, 7, 5, 1, 0⟩
def exReconLeaf : Bytes := leafImage exReconHeader [(⟨256, 1, 0⟩, [1, 2, 3])] (List.replicate 3967 0)
def exReconDev : Bytes := oneBlockDevice 4096 exReconLeaf (2 ^ 27)

theorem exReconLeaf_length : exReconLeaf.length = 4096 := by
  rw [exReconLeaf, leafImage_length, List.length_replicate]; rfl

theorem exReconArgs : ReconArgs exReconDev 4096 uuidAllFs := by
  have h : exReconDev.length = 65536 + 4096 + (4096 + 2 ^ 27) := by
    rw [exReconDev, oneBlockDevice_length, exReconLeaf_length]
  have hb : (4096 : UInt64).toNat = 4096 := by decide
  exact ⟨by rw [hb]; omega, by rw [hb]; omega, by rw [h]; omega, by rw [h, hb]; omega, by decide⟩

theorem exRecon_blocks {b : Bytes} (hb : b ∈ scanBlocks exReconDev (4096 : UInt64).toNat)
    (hl : leafOf uuidAllFs b) : b = exReconLeaf := by
  rcases oneBlockDevice_blocks (by decide) exReconLeaf_length hb with rfl | rfl
  · rfl
  · exact absurd hl (zeroes_not_leaf (by decide))

theorem exRecon_wellFormed : wellFormedDevice exReconDev 4096 uuidAllFs := by
  intro b hb hl
  exact ⟨exReconHeader, _, _, exRecon_blocks hb hl, rfl⟩

theorem exRecon_item {v : VKey} {x : Bytes} (h : onDevice exReconDev (4096 : UInt64).toNat uuidAllFs v x) :
    v = ⟨5, ⟨256, 1, 0⟩, 7⟩ := by
  obtain ⟨b, hb, hl, i, hi⟩ := h
  have := exRecon_blocks hb hl
  subst this
  have hlt : i = 0 := by
    obtain ⟨hdr, r, ⟨pre, post, he, -, h1, -⟩, -⟩ := hi
    have := (header_unique (he.symm.trans (leafImage_hdr _ _ _).choose_spec)).2.2.2.1
    rw [this] at h1
    have : exReconHeader.nrItems.toNat = 1 := by decide
    omega
  subst hlt
  obtain ⟨r, -, -, h1⟩ := leafImage_item (hdr := exReconHeader) (items := [(⟨256, 1, 0⟩, [1, 2, 3])])
    (gap := List.replicate 3967 0) (i := 0) (k := ⟨256, 1, 0⟩) (d := [1, 2, 3]) rfl (by
      have := exReconLeaf_length; rw [exReconLeaf] at this; rw [this]; decide) rfl
  exact (blockItem_unique hi h1).1

theorem exRecon_onDevice : ∃ x, onDevice exReconDev (4096 : UInt64).toNat uuidAllFs ⟨5, ⟨256, 1, 0⟩, 7⟩ x := by
  obtain ⟨r, -, -, h1⟩ := leafImage_item (hdr := exReconHeader) (items := [(⟨256, 1, 0⟩, [1, 2, 3])])
    (gap := List.replicate 3967 0) (i := 0) (k := ⟨256, 1, 0⟩) (d := [1, 2, 3]) rfl (by
      have := exReconLeaf_length; rw [exReconLeaf] at this; rw [this]; decide) rfl
  exact ⟨_, exReconLeaf, oneBlockDevice_mem (by decide) exReconLeaf_length,
    leafImage_leafOf rfl rfl (by decide), 0, h1⟩

/-- The device meets all hypotheses used below, and the item is on it. -/
example : ReconArgs exReconDev 4096 uuidAllFs ∧ soundDevice exReconDev 4096 uuidAllFs ∧
    sparesDevice exReconDev 4096 uuidAllFs ∧
    (∃ x, onDevice exReconDev (4096 : UInt64).toNat uuidAllFs ⟨5, ⟨256, 1, 0⟩, 7⟩ x) ∧
    DBFile.fresh .absent := by
  refine ⟨exReconArgs, exRecon_wellFormed.sound exReconArgs, ?_, exRecon_onDevice, Or.inl rfl⟩
  intro x hx
  have := exRecon_item hx
  exact absurd (congrArg VKey.owner this) (by decide)

/-! ## C40 -/

/-- C40, nothing else: whatever the device contains, and even if the scan crashes,
every entry of the index is an item of a matching leaf of the device, or the
metadata. -/
theorem C40_only_items_of_matching_leaves (dev : Bytes) (bs : UInt64) (id : UUID) (h : ReconArgs dev bs id)
    (f : DBFile) (hf : f.fresh) (fuel : Nat) (hfu : dev.length < fuel) :
    ∃ b e, recon fuel dev bs id f = (.db (some b), e) ∧ ∀ k x, (k, x) ∈ b →
      ∃ v : VKey, k = v.encode ∧ (onDevice dev bs.toNat id v x ∨
        (v = metadataVersionKey ∧ x = newIndexMetadata (reconOptions bs id))) := by
  obtain ⟨ops, fin, h1, h2⟩ := recon_fresh h
  refine ⟨_, _, h2 f hf fuel hfu, fun k x hkx => ?_⟩
  have hkx' := hkx
  simp only [AStore.enc, List.mem_map] at hkx'
  obtain ⟨⟨v, y⟩, -, he⟩ := hkx'
  simp only [Prod.mk.injEq] at he
  obtain ⟨rfl, rfl⟩ := he
  refine ⟨v, rfl, ?_⟩
  rcases (fresh_stores (v := v) (x := y)).mp hkx with h3 | ⟨-, h3⟩
  · exact Or.inl (lastValue_scan h1 h3)
  · exact Or.inr h3

/-- C40, everything: if the matching leaves are sound, the scan succeeds and the index
has a version exactly for each version in a matching leaf (and the metadata); its
value is that of one of the copies on the device. -/
theorem C40_all_items_of_matching_leaves (dev : Bytes) (bs : UInt64) (id : UUID) (h : ReconArgs dev bs id)
    (hs : soundDevice dev bs id) (f : DBFile) (hf : f.fresh) (fuel : Nat) (hfu : dev.length < fuel) :
    ∃ b, recon fuel dev bs id f = (.db (some b), .done) ∧
      (∀ v, (∃ x, onDevice dev bs.toNat id v x) → ∃ x, b.stores v x ∧ onDevice dev bs.toNat id v x) ∧
      (∀ v x, onDevice dev bs.toNat id v x → (∀ y, onDevice dev bs.toNat id v y → y = x) → b.stores v x) ∧
      (∀ v x y, b.stores v x → b.stores v y → x = y) ∧
      (sparesDevice dev bs id → b.stores metadataVersionKey (newIndexMetadata (reconOptions bs id))) := by
  obtain ⟨ops, fin, h1, h2⟩ := recon_fresh h
  have hfin : fin = true := h1.fin_iff.mpr hs
  subst hfin
  have key : ∀ v, (∃ x, onDevice dev bs.toNat id v x) →
      ∃ x, Bucket.stores ((AStore.init (reconOptions bs id)).apply ops).enc v x ∧ onDevice dev bs.toNat id v x := by
    rintro v ⟨x, hx⟩
    obtain ⟨y, hy⟩ := lastValue_complete h1 hx
    exact ⟨y, fresh_stores.mpr (Or.inl hy), lastValue_scan h1 hy⟩
  refine ⟨_, h2 f hf fuel hfu, key, ?_, ?_, ?_⟩
  · intro v x hx hu
    obtain ⟨y, hy, hd⟩ := key v ⟨x, hx⟩
    rw [hu y hd] at hy
    exact hy
  · intro v x y hx hy
    exact (AStore.apply_sorted (AStore.init_sorted _) ops).unique (enc_stores.mp hx) (enc_stores.mp hy)
  · intro hsp
    refine fresh_stores.mpr (Or.inr ⟨?_, rfl, rfl⟩)
    cases hl : lastValue ops metadataVersionKey with
    | none => rfl
    | some x => exact absurd (lastValue_scan h1 hl) (hsp x)

/-- C40 for a device on which no two leaves disagree about an item: every item
`(k, d)` of every well-formed matching leaf is in the index, with payload `d`. -/
theorem C40_wellformed_leaf_items_stored (dev : Bytes) (bs : UInt64) (id : UUID) (h : ReconArgs dev bs id)
    (hs : soundDevice dev bs id)
    (hagree : ∀ v x y, onDevice dev bs.toNat id v x → onDevice dev bs.toNat id v y → x = y)
    (f : DBFile) (hf : f.fresh) (fuel : Nat) (hfu : dev.length < fuel)
    (hdr : HeaderRec) (items : List (Key × Bytes)) (gap : Bytes) (hn : hdr.nrItems.toNat = items.length)
    (hmem : leafImage hdr items gap ∈ scanBlocks dev bs.toNat) (hid : hdr.fsid = id) (hlv : hdr.level = 0)
    (k : Key) (d : Bytes) (hkd : (k, d) ∈ items) :
    ∃ b r, recon fuel dev bs id f = (.db (some b), .done) ∧ r.key = k ∧ r.size.toNat = d.length ∧
      b.stores ⟨hdr.owner, k, hdr.generation⟩ (ItemRec.layout r ++ d) := by
  obtain ⟨b, h1, -, h2, -⟩ := C40_all_items_of_matching_leaves dev bs id h hs f hf fuel hfu
  obtain ⟨j, hj⟩ := List.getElem?_of_mem hmem
  have h3 := scanBlocks_get (by have := h.1; omega) hj
  obtain ⟨i, hi⟩ := List.getElem?_of_mem hkd
  obtain ⟨r, h4, h5, h6⟩ := leafImage_item hn (by rw [h3.2.1]; exact h.2) hi
  have hne : hdr.nrItems ≠ 0 := by
    intro h0
    rw [h0] at hn
    have : 0 < items.length := List.length_pos_of_mem hkd
    simp at hn
    omega
  have hd : onDevice dev bs.toNat id ⟨hdr.owner, k, hdr.generation⟩ (ItemRec.layout r ++ d) :=
    ⟨_, hmem, leafImage_leafOf hid hlv hne, i, h6⟩
  exact ⟨b, r, h1, h4, h5, h2 _ _ hd fun y hy => hagree _ _ _ hy hd⟩

/-! ## C41 -/

/-- C41: recon, then open the index and look an item up: the result is a copy of the
item in a matching leaf of the highest generation on the device, and nil exactly if
the device has none. -/
theorem C41_lookup_after_recon (dev : Bytes) (bs : UInt64) (id : UUID) (h : ReconArgs dev bs id)
    (hs : soundDevice dev bs id) (hsp : sparesDevice dev bs id) (f : DBFile) (hf : f.fresh) (fuel : Nat)
    (hfu : dev.length < fuel) :
    ∃ f' ix, recon fuel dev bs id f = (f', .done) ∧ OpenReadOnly f' = .ok (f', .ok ix) ∧
      ∀ owner k, owner ≠ ~~~0 →
        (∀ g, (∃ x, onDevice dev bs.toNat id ⟨owner, k, g⟩ x) →
          (∀ g', (∃ x, onDevice dev bs.toNat id ⟨owner, k, g'⟩ x) → g' ≤ g) →
          ∃ x, onDevice dev bs.toNat id ⟨owner, k, g⟩ x ∧ ix.findItem owner k = .ok (some ⟨x, []⟩)) ∧
        ((∀ g x, ¬ onDevice dev bs.toNat id ⟨owner, k, g⟩ x) → ix.findItem owner k = .ok none) := by
  obtain ⟨ops, fin, h1, h2⟩ := recon_fresh h
  have hfin : fin = true := h1.fin_iff.mpr hs
  subst hfin
  have hm : sparesMetadata ops := by
    cases hl : lastValue ops metadataVersionKey with
    | none => exact hl
    | some x => exact absurd (lastValue_scan h1 hl) (hsp x)
  obtain ⟨f', ix, h3, h4, h5⟩ := C20_lookup_newest f hf (reconOptions bs id) rfl ops hm
  rw [writeSession_fresh hf (reconOptions bs id) rfl ops] at h3
  simp only [Go.ok.injEq, Prod.mk.injEq, and_true] at h3
  subst h3
  refine ⟨_, ix, h2 f hf fuel hfu, h4, fun owner k ho => ?_⟩
  obtain ⟨h6, h7⟩ := h5 owner k (C20_ordinary_owner owner k ho)
  constructor
  · rintro g ⟨x, hx⟩ hg
    obtain ⟨y, hy⟩ := lastValue_complete h1 hx
    refine ⟨y, lastValue_scan h1 hy, h6 g y ⟨by rw [hy]; simp, fun g' hg' => ?_⟩ hy⟩
    cases hl : lastValue ops ⟨owner, k, g'⟩ with
    | none => exact absurd hl hg'
    | some z => exact hg g' ⟨z, lastValue_scan h1 hl⟩
  · intro hn
    refine h7 fun g => ?_
    cases hl : lastValue ops ⟨owner, k, g⟩ with
    | none => rfl
    | some z => exact absurd (lastValue_scan h1 hl) (hn g z)

/-! ## C42 -/

/-- C42: exactly when recon crashes: some matching leaf is not sound. -/
theorem C42_crash_iff (dev : Bytes) (bs : UInt64) (id : UUID) (h : ReconArgs dev bs id) (f : DBFile)
    (hf : f.fresh) (fuel : Nat) (hfu : dev.length < fuel) :
    ((recon fuel dev bs id f).2 = .crash ↔ ∃ b ∈ scanBlocks dev bs.toNat, leafOf id b ∧ ¬ soundLeaf b) ∧
    ((recon fuel dev bs id f).2 = .done ↔ soundDevice dev bs id) := by
  obtain ⟨ops, fin, h1, h2⟩ := recon_fresh h
  rw [h2 f hf fuel hfu]
  have h3 := h1.fin_iff
  have h4 : (∃ b ∈ scanBlocks dev bs.toNat, leafOf id b ∧ ¬ soundLeaf b) ↔ ¬ soundDevice dev bs id := by
    simp only [soundDevice]
    constructor
    · rintro ⟨b, hb, hl, hn⟩ hs
      exact hn (hs b hb hl)
    · intro hn
      apply Classical.byContradiction
      intro hne
      apply hn
      intro b hb hl
      apply Classical.byContradiction
      intro hns
      exact hne ⟨b, hb, hl, hns⟩
  rw [h4]
  cases fin with
  | true =>
    have hsd : soundDevice dev bs id := h3.mp rfl
    simp [hsd]
  | false =>
    have hsd : ¬ soundDevice dev bs id := fun hs => by
      have := h3.mpr hs
      simp at this
    simp [hsd]

/-- C42 (partial): recon finishes on every device whose matching leaves are
well-formed. Missing: corrupted leaves, see `C42_crash_iff`, `C42_bad_count_crashes`
and `C42_bad_offset_crashes`. -/
theorem C42_finishes_partial (dev : Bytes) (bs : UInt64) (id : UUID) (h : ReconArgs dev bs id)
    (hw : wellFormedDevice dev bs id) (f : DBFile) (hf : f.fresh) (fuel : Nat) (hfu : dev.length < fuel) :
    (recon fuel dev bs id f).2 = .done :=
  (C42_crash_iff dev bs id h f hf fuel hfu).2.mpr (hw.sound h)

/-- C42 (recorded disagreement): one matching leaf whose item count is at least a 25th
of the block size crashes recon, although the count is clipped. -/
theorem C42_bad_count_crashes (dev : Bytes) (bs : UInt64) (id : UUID) (h : ReconArgs dev bs id)
    (f : DBFile) (hf : f.fresh) (fuel : Nat) (hfu : dev.length < fuel) (b : Bytes)
    (hb : b ∈ scanBlocks dev bs.toNat) (hdr : HeaderRec) (rest : Bytes) (hbe : b = hdr.layout ++ rest)
    (hid : hdr.fsid = id) (hlv : hdr.level = 0) (hn : bs.toNat / 25 ≤ hdr.nrItems.toNat) :
    (recon fuel dev bs id f).2 = .crash := by
  rw [(C42_crash_iff dev bs id h f hf fuel hfu).1]
  obtain ⟨j, hj⟩ := List.getElem?_of_mem hb
  have h1 := scanBlocks_get (by have := h.1; omega) hj
  have h101 := h.1
  refine ⟨b, hb, ⟨hdr, rest, hbe, hid, hlv, ?_⟩, fun hs => ?_⟩
  · intro h0
    rw [h0] at hn
    simp at hn
    omega
  · have := (hs hdr rest hbe (bs.toNat / 25 - 1) (by omega) (by rw [h1.2.1]; omega)).1
    rw [h1.2.1] at this
    omega

/-- Such devices exist. -/
theorem C42_crashing_device : ∃ dev, ReconArgs dev 4096 uuidAllFs ∧
    ∀ fuel, dev.length < fuel → (recon fuel dev 4096 uuidAllFs .absent).2 = .crash := by
  let hdr : HeaderRec := { exReconHeader with nrItems := 200 }
  have hbl : (hdr.layout ++ List.replicate 3995 0).length = 4096 := by
    rw [List.length_append, headerRec_length, List.length_replicate]
  have hl : (oneBlockDevice 4096 (hdr.layout ++ List.replicate 3995 0) (2 ^ 27)).length =
      65536 + 4096 + (4096 + 2 ^ 27) := by
    rw [oneBlockDevice_length, hbl]
  have hb : (4096 : UInt64).toNat = 4096 := by decide
  have ha : ReconArgs (oneBlockDevice 4096 (hdr.layout ++ List.replicate 3995 0) (2 ^ 27)) 4096 uuidAllFs :=
    ⟨by rw [hb]; omega, by rw [hb]; omega, by rw [hl]; omega, by rw [hl, hb]; omega, by decide⟩
  refine ⟨_, ha, fun fuel hfu => ?_⟩
  exact C42_bad_count_crashes _ _ _ ha .absent (Or.inl rfl) fuel hfu _
    (oneBlockDevice_mem (by decide) hbl) hdr _ rfl rfl rfl (by decide)

/-- C42 (recorded disagreement): so does one whose first item points behind the block. -/
theorem C42_bad_offset_crashes (dev : Bytes) (bs : UInt64) (id : UUID) (h : ReconArgs dev bs id)
    (f : DBFile) (hf : f.fresh) (fuel : Nat) (hfu : dev.length < fuel) (b : Bytes)
    (hb : b ∈ scanBlocks dev bs.toNat) (hdr : HeaderRec) (r : ItemRec) (rest : Bytes)
    (hbe : b = hdr.layout ++ (r.layout ++ rest)) (hid : hdr.fsid = id) (hlv : hdr.level = 0)
    (hn : hdr.nrItems ≠ 0) (ho : bs.toNat < 101 + r.offset.toNat) (ho2 : 101 + r.offset.toNat < 2 ^ 32) :
    (recon fuel dev bs id f).2 = .crash := by
  rw [(C42_crash_iff dev bs id h f hf fuel hfu).1]
  obtain ⟨j, hj⟩ := List.getElem?_of_mem hb
  have h1 := scanBlocks_get (by have := h.1; omega) hj
  have h101 := h.1
  have hn' : 0 < hdr.nrItems.toNat := by
    have : hdr.nrItems.toNat ≠ 0 := fun h0 => hn (UInt32.toNat_inj.mp h0)
    omega
  refine ⟨b, hb, ⟨hdr, _, hbe, hid, hlv, hn⟩, fun hs => ?_⟩
  have h2 := (hs hdr _ hbe 0 hn' (by rw [h1.2.1]; omega)).2 r
    ⟨[], rest, hbe, rfl, hn', by rw [h1.2.1]; omega⟩
  simp only [ItemRec.start, ItemRec.stop] at h2
  rw [Nat.mod_eq_of_lt ho2, h1.2.1] at h2
  omega

/-- C42 (recorded disagreement): block size 0 divides by zero, whatever the device. -/
theorem C42_zero_block_size (dev : Bytes) (id : UUID) (hid : UUID.isZero id = false) (f : DBFile) (fuel : Nat)
    (hl : dev.length < 2 ^ 63) (h : 64 * 2 ^ 20 ≤ dev.length) : recon fuel dev 0 id f = (f, .crash) := by
  have hsz' : (UInt64.ofNat dev.length).toNat = dev.length := by
    rw [UInt64.toNat_ofNat']; exact Nat.mod_eq_of_lt (by omega)
  simp only [recon, doScanFS, hid, Bool.false_eq_true, if_false]
  rw [check_ok _ 0 (by decide) (by rw [hsz']; simpa using h)]
  rfl

/-- C42: after a crash nothing found before the bad leaf is lost: the index holds every
item of every matching leaf before it. -/
theorem C42_crash_keeps_earlier_leaves (dev : Bytes) (bs : UInt64) (id : UUID) (h : ReconArgs dev bs id)
    (f : DBFile) (hf : f.fresh) (fuel : Nat) (hfu : dev.length < fuel) (pre : List Bytes) (b : Bytes)
    (post : List Bytes) (hbl : scanBlocks dev bs.toNat = pre ++ b :: post)
    (hpre : ∀ c ∈ pre ++ [b], leafOf id c → soundLeaf c) (hl : leafOf id b) (i : Nat) (v : VKey) (x : Bytes)
    (hv : blockItem b i v x) :
    ∃ c e, recon fuel dev bs id f = (.db (some c), e) ∧ ∃ y, c.stores v y ∧ onDevice dev bs.toNat id v y := by
  obtain ⟨ops, fin, h1, h2⟩ := recon_fresh h
  refine ⟨_, _, h2 f hf fuel hfu, ?_⟩
  obtain ⟨ins, h3, rfl, -⟩ := h1.before pre b post hbl (fun c hc => hpre c (List.mem_append_left _ hc)) hl
    (hpre b (List.mem_append_right _ (List.mem_singleton_self b)) hl) i v x hv
  obtain ⟨y, hy⟩ := lastValue_insert h3
  exact ⟨y, fresh_stores.mpr (Or.inl hy), lastValue_scan h1 hy⟩

/-- C42: an unreadable block ends recon with an error and without the final commit;
the index then holds all but at most the last 10000 items of the blocks before. -/
theorem C42_read_error_loses_bounded_suffix (r : ReaderAt) (size : UInt64) (bs : UInt64) (id : UUID)
    (h101 : 101 ≤ bs.toNat) (hbs : bs.toNat < 2 ^ 32) (hid : UUID.isZero id = false)
    (hsz : 64 * 2 ^ 20 + 100 * bs.toNat ≤ size.toNat) (f : DBFile) (hf : f.fresh) (bl : List Bytes)
    (hin : 65536 + bs.toNat * (bl.length + 1) < size.toNat - size.toNat % bs.toNat)
    (hread : ∀ j b, bl[j]? = some b → b.length = bs.toNat ∧
      r (int64OfU64 (UInt64.ofNat (65536 + bs.toNat * (j + 1)))) bs.toNat = (b, none))
    (herr : (r (int64OfU64 (UInt64.ofNat (65536 + bs.toNat * (bl.length + 1)))) bs.toNat).2 = some .other)
    (hsound : ∀ b ∈ bl, leafOf id b → soundLeaf b) (fuel : Nat) (hfu : bl.length < fuel) :
    ∃ f' kept lost, doScanFS fuel r (some size) bs id f = (f', .exit) ∧ f'.holds (reconOptions bs id) kept ∧
      lost.length ≤ 10000 ∧
      (∀ op ∈ kept ++ lost, ∃ ins i, op = IxOp.insert ins ∧
        ∃ b ∈ bl, leafOf id b ∧ blockItem b i ins.version ins.value) ∧
      (∀ b ∈ bl, leafOf id b → ∀ i v x, blockItem b i v x →
        ∃ ins, IxOp.insert ins ∈ kept ++ lost ∧ ins.version = v ∧ ins.value = x) := by
  have hb0 : bs ≠ 0 := by rintro rfl; simp at h101
  have hlim : (size - size % bs).toNat = size.toNat - size.toNat % bs.toNat := by
    rw [UInt64.toNat_sub_of_le, UInt64.toNat_mod]
    rw [UInt64.le_iff_toNat_le, UInt64.toNat_mod]
    exact Nat.mod_le _ _
  have hsl := size.toNat_lt
  have hoff : ∀ j, j ≤ bl.length → (UInt64.ofNat SuperInfoOffset + bs + bs * UInt64.ofNat j).toNat =
      65536 + bs.toNat * (j + 1) ∧ 65536 + bs.toNat * (j + 1) < size.toNat - size.toNat % bs.toNat := by
    intro j hj
    have : bs.toNat * (j + 1) ≤ bs.toNat * (bl.length + 1) := Nat.mul_le_mul_left _ (by omega)
    exact ⟨off_toNat bs j (by omega), by omega⟩
  have hoff' : ∀ j, j ≤ bl.length → UInt64.ofNat SuperInfoOffset + bs + bs * UInt64.ofNat j =
      UInt64.ofNat (65536 + bs.toNat * (j + 1)) := by
    intro j hj
    have h1 := hoff j hj
    rw [← UInt64.toNat_inj, h1.1, UInt64.toNat_ofNat', Nat.mod_eq_of_lt (by omega)]
  obtain ⟨ops, fin, buf', hbuf', hops, h⟩ := reconLoop_gen r id bs (size - size % bs) h101 hbs bl
    (UInt64.ofNat SuperInfoOffset + bs) (List.replicate bs.toNat 0) List.length_replicate (by
      intro j b hj
      obtain ⟨h1, h2⟩ := hread j b hj
      have hjl : j < bl.length := (List.getElem?_eq_some_iff.mp hj).1
      refine ⟨h1, ?_, ?_⟩
      · rw [UInt64.lt_iff_toNat_lt, hlim, (hoff j (by omega)).1]; exact (hoff j (by omega)).2
      · rw [hoff' j (by omega)]; exact h2)
  have hfin : fin = true := hops.fin_iff.mpr hsound
  subst hfin
  obtain ⟨f1, ix, ix', p, s, h1, h2, h3, h4, h5, h6, -⟩ := run_fresh hf (reconOptions bs id) rfl ops
  obtain ⟨ix1, h7, h8, -⟩ := open_fresh (reconOptions bs id) rfl f hf
  rw [h1] at h7
  simp only [Go.ok.injEq, Prod.mk.injEq, Except.ok.injEq] at h7
  obtain ⟨ix2, -, h9, h10⟩ := h ix (h7.2 ▸ ⟨_, _, _, h8⟩)
  rw [h2] at h9
  simp only [Go.ok.injEq, Prod.mk.injEq, and_true] at h9
  subst h9
  obtain ⟨k, rfl⟩ : ∃ k, fuel = (k + 1) + bl.length := ⟨fuel - bl.length - 1, by omega⟩
  have h11 : reconLoop insertOrExit r id bs (size - size % bs) (k + 1 + bl.length) (UInt64.ofNat SuperInfoOffset + bs)
      (List.replicate bs.toNat 0) ix = .exit ix' := by
    rw [h10, if_pos rfl, reconLoop, if_pos (by
      rw [UInt64.lt_iff_toNat_lt, hlim, (hoff _ (Nat.le_refl _)).1]; exact (hoff _ (Nat.le_refl _)).2)]
    have h12 : (ReadBlockAt r buf' (UInt64.ofNat SuperInfoOffset + bs + bs * UInt64.ofNat bl.length)).2 =
        some .other := by
      apply readBlockAt_err
      rw [hbuf', hoff' _ (Nat.le_refl _)]; exact herr
    generalize ReadBlockAt r buf' (UInt64.ofNat SuperInfoOffset + bs + bs * UInt64.ofNat bl.length) = q at h12
    obtain ⟨q, e⟩ := q
    simp only at h12
    subst h12
    rfl
  have ho' : Open f { blockSize := bs, fsid := id, generation := ~~~0 } = .ok (f1, .ok ix) := h1
  refine ⟨.db ix'.disk, p, s, ?_, ?_, ?_, ?_, ?_⟩
  · simp only [doScanFS, hid, Bool.false_eq_true, if_false, check_ok _ bs hbs hsz, hb0, ho', h11]
  · rw [h4.2.1]; exact holds_enc _ p
  · have : ∀ s : List IxOp, NoCommit s → s.length = insertCount s := by
      intro s
      induction s with
      | nil => intro _; rfl
      | cons op t ih =>
        intro hn
        obtain ⟨i, rfl⟩ := hn op List.mem_cons_self
        simp only [List.length_cons, insertCount, ih fun op ho => hn op (List.mem_cons_of_mem _ ho)]
    rw [this s h5]; exact h6
  · rw [← h3]; exact hops.sound
  · rw [← h3]; exact hops.complete

/-! ## C43 -/

theorem lastValue_twice (ops : List IxOp) (v : VKey) : lastValue (ops ++ ops) v = lastValue ops v := by
  rw [lastValue_append]
  cases lastValue ops v <;> rfl

/-- C43: running recon again on the same device and metadata file succeeds and leaves
the file as it is. -/
theorem C43_recon_idempotent (dev : Bytes) (bs : UInt64) (id : UUID) (h : ReconArgs dev bs id)
    (hs : soundDevice dev bs id) (hsp : sparesDevice dev bs id) (f : DBFile) (hf : f.fresh) (fuel : Nat)
    (hfu : dev.length < fuel) :
    ∃ f', recon fuel dev bs id f = (f', .done) ∧ recon fuel dev bs id f' = (f', .done) := by
  obtain ⟨ops, fin, h1, h2⟩ := doScan_image dev id bs h.1 h.2 h.3 h.4 h.5
  have hfin : fin = true := h1.fin_iff.mpr hs
  subst hfin
  have hm : sparesMetadata ops := by
    cases hl : lastValue ops metadataVersionKey with
    | none => exact hl
    | some x => exact absurd (lastValue_scan h1 hl) (hsp x)
  have hn := scanBlocks_length_le dev bs.toNat
  obtain ⟨ix, h3, h4, -⟩ := open_fresh (reconOptions bs id) rfl f hf
  refine ⟨_, h2 f _ ix _ h3 h4 fuel (by omega), ?_⟩
  obtain ⟨ix', h5, h6, -⟩ := reopen_rw (o := reconOptions bs id) (o' := reconOptions bs id) hm rfl rfl rfl
  have := h2 _ _ ix' _ h5 h6 fuel (by omega)
  have h7 : (AStore.init (reconOptions bs id)).apply (ops ++ ops) = (AStore.init (reconOptions bs id)).apply ops :=
    apply_congr (lastValue_twice ops)
  rw [AStore.apply_append] at h7
  rw [h7] at this
  exact this

/-- C43: a metadata file made for another file system or block size is refused and not
touched. -/
theorem C43_other_filesystem_refused (r : ReaderAt) (seek : Option UInt64) (bs : UInt64) (id : UUID)
    (hb0 : bs ≠ 0) (b : Bucket) (v : UInt64) (bs' : UInt32) (id' : UUID) (g : UInt64) (rest : Bytes)
    (hm : b.get metadataKey = some (metadataLayout v bs' id' g rest))
    (hne : bs'.toNat ≠ bs.toNat % 2 ^ 32 ∨ id' ≠ id) (fuel : Nat) :
    doScanFS fuel r seek bs id (.db (some b)) = (.db (some b), .exit) := by
  have h1 := (C25_open_existing (reconOptions bs id) b v bs' id' g rest hm).2 (by
    simp only [Options.accepts, reconOptions]
    rintro h
    simp at h
    rcases hne with hne | hne
    · exact hne h.2.2.1
    · exact hne h.2.2.2)
  obtain ⟨e, h1⟩ := h1
  have ho' : Open (.db (some b)) { blockSize := bs, fsid := id, generation := ~~~0 } = .ok (.db (some b), .error e) := h1
  simp only [doScanFS]
  split
  · rfl
  · split
    · rfl
    · simp only [hb0, if_false, ho']

end Btrfscue
