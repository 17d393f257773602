import Verif.Spec.Checksum
import Verif.Props.ReconMore
/-!
# C97: checksums of metadata blocks
-/

namespace Btrfscue

open Cmd

/-- The blocks are the same from byte 32 on. -/
structure SameBody (b b' : Bytes) : Prop where
  length : b.length = b'.length
  body : b.drop 32 = b'.drop 32

theorem SameBody.drop {b b' : Bytes} (h : SameBody b b') {i : Nat} (hi : 32 ≤ i) : b.drop i = b'.drop i := by
  obtain ⟨k, rfl⟩ : ∃ k, i = 32 + k := ⟨i - 32, by omega⟩
  rw [← List.drop_drop, ← List.drop_drop, h.body]

theorem SameBody.from {b b' : Bytes} (h : SameBody b b') {i : Nat} (hi : 32 ≤ i) :
    Slice.from ⟨b, []⟩ i = Slice.from ⟨b', []⟩ i := by
  rw [from_eq, from_eq, h.length, h.drop hi]

theorem SameBody.sub {b b' : Bytes} (h : SameBody b b') {i j : Nat} (hi : 32 ≤ i) :
    Slice.sub ⟨b, []⟩ i j = Slice.sub ⟨b', []⟩ i j := by
  unfold Slice.sub
  simp only [Slice.cap, Slice.all, List.append_nil, h.length]
  by_cases hc : i ≤ j ∧ j ≤ b'.length
  · rw [if_pos hc, if_pos hc, List.drop_take, List.drop_take, h.drop hi, h.drop (by omega : 32 ≤ j)]
  · rw [if_neg hc, if_neg hc]

theorem SameBody.get {b b' : Bytes} (h : SameBody b b') {i : Nat} (hi : 32 ≤ i) :
    Slice.get ⟨b, []⟩ i = Slice.get ⟨b', []⟩ i := by
  unfold Slice.get
  have : b[i]? = b'[i]? := by
    have := congrArg (fun l => l[i - 32]?) h.body
    simpa only [List.getElem?_drop, Nat.add_sub_cancel' hi] using this
  simp only [this]

theorem SameBody.insert {b b' : Bytes} (h : SameBody b b') (k : Key) (it d : Bytes) :
    insertOrExit k ⟨b, []⟩ it d = insertOrExit k ⟨b', []⟩ it d := by
  funext ix
  have h1 : Header.owner ⟨b, []⟩ = Header.owner ⟨b', []⟩ := by
    simp only [Header.owner, u64at]; rw [h.from (by decide)]
  have h2 : Header.generation ⟨b, []⟩ = Header.generation ⟨b', []⟩ := by
    simp only [Header.generation, u64at]; rw [h.from (by decide)]
  simp only [insertOrExit, Index.insertItem, h1, h2]

theorem SameBody.item {b b' : Bytes} (h : SameBody b b') (i : Nat) : Leaf.item ⟨b, []⟩ i = Leaf.item ⟨b', []⟩ i := by
  simp only [Leaf.item]
  exact h.sub (by simp only [HeaderLen, headerLevel, headerNrItems, headerOwner, headerGeneration, headerChunkTreeUUID,
    headerFlags, headerByteNr, headerFSID, headerCSum, CSumSize]; omega)

theorem SameBody.key {b b' : Bytes} (h : SameBody b b') (i : Nat) : Leaf.key ⟨b, []⟩ i = Leaf.key ⟨b', []⟩ i := by
  simp only [Leaf.key, keyAt]
  rw [h.from (by simp only [HeaderLen, headerLevel, headerNrItems, headerOwner, headerGeneration, headerChunkTreeUUID,
    headerFlags, headerByteNr, headerFSID, headerCSum, CSumSize]; omega)]

theorem SameBody.insertLoop {b b' : Bytes} (h : SameBody b b') (hb : b.length < 2 ^ 32) {hdr : HeaderRec} {rest : Bytes}
    (hbe : b = hdr.layout ++ rest) (hs : ∀ i hdr r, blockItemRec b i hdr r → 32 ≤ r.start) :
    ∀ is : List Nat, (∀ i ∈ is, i < hdr.nrItems.toNat ∧ i < b.length / 25) →
      insertLoop insertOrExit ⟨b, []⟩ is = insertLoop insertOrExit ⟨b', []⟩ is
  | [], _ => rfl
  | i :: is, hi => by
    have ih := SameBody.insertLoop h hb hbe hs is fun j hj => hi j (List.mem_cons_of_mem _ hj)
    simp only [Btrfscue.insertLoop, h.key, h.item, ih, h.insert]
    obtain ⟨h1, h2⟩ := hi i List.mem_cons_self
    have hd : Leaf.data ⟨b, []⟩ i = Leaf.data ⟨b', []⟩ i := by
      by_cases hl : 101 + 25 * (i + 1) ≤ b.length
      · obtain ⟨r, hr⟩ := blockItemRec_exists hbe h1 h2 hl
        have hst := hs i hdr r hr
        obtain ⟨post, hit⟩ := item_hdr hr
        have hoff : Item.offset ⟨r.layout, post⟩ = .ok r.offset := by
          have := (C07_Item_decodes r [] post).2.2.1
          rwa [List.append_nil] at this
        simp only [Leaf.data, ← h.item, hit, Go.ok_bind, hoff, Slice.len, h.length]
        congr 1
        funext sz
        refine h.sub ?_
        have : (UInt32.ofNat HeaderLen + r.offset).toNat = r.start := by
          rw [UInt32.toNat_add]; rfl
        omega
      · have : Leaf.item ⟨b, []⟩ i = .panic := by
          rw [leaf_item_eq, if_neg (by omega)]
        simp only [Leaf.data, ← h.item, this, Go.panic_bind]
    rw [hd]

theorem SameBody.scanBlock {b b' : Bytes} (h : SameBody b b') (hb : b.length < 2 ^ 32) (h101 : 101 ≤ b.length) (id : UUID)
    (hs : leafOf id b → ∀ i hdr r, blockItemRec b i hdr r → 32 ≤ r.start) :
    scanBlock insertOrExit id ⟨b, []⟩ = scanBlock insertOrExit id ⟨b', []⟩ := by
  have e1 : Header.fsid ⟨b, []⟩ = Header.fsid ⟨b', []⟩ := by
    simp only [Header.fsid, uuidAt]; rw [h.from (by decide)]
  have e2 : Header.nrItems ⟨b, []⟩ = Header.nrItems ⟨b', []⟩ := by
    simp only [Header.nrItems, u32at]; rw [h.from (by decide)]
  have e3 : Header.isLeaf ⟨b, []⟩ = Header.isLeaf ⟨b', []⟩ := by
    simp only [Header.isLeaf, Header.level]; rw [h.get (by decide)]
  have e4 : Leaf.len ⟨b, []⟩ = Leaf.len ⟨b', []⟩ := by
    simp only [Leaf.len, Slice.cap, Slice.all, List.append_nil, h.length, e2]
  by_cases hl : leafOf id b
  · have hl2 := hl
    obtain ⟨hdr, rest, hbe, -⟩ := hl2
    have hlen := leaf_len_hdr hb hbe
    have hloop := h.insertLoop hb hbe (hs hl) (List.range (min hdr.nrItems.toNat (b.length / 25))) (by
      intro i hi
      rw [List.mem_range] at hi
      omega)
    simp only [Btrfscue.scanBlock, ← e1, ← e2, ← e3, ← e4, hlen]
    have : ∀ (c c' : Nat → Cmd Index Unit), c (min hdr.nrItems.toNat (b.length / 25)) = c' (min hdr.nrItems.toNat (b.length / 25)) →
        ((Cmd.lift (Go.ok (min hdr.nrItems.toNat (b.length / 25)))) >>= c) =
          ((Cmd.lift (Go.ok (min hdr.nrItems.toNat (b.length / 25)))) >>= c') := by
      intro c c' hc
      funext ix
      rw [Cmd.bind_ok (Cmd.lift_ok _ ix), Cmd.bind_ok (Cmd.lift_ok _ ix), hc]
    rw [this _ (fun n => Btrfscue.insertLoop insertOrExit ⟨b', []⟩ (List.range n)) hloop]
  · funext ix
    have hl' : ¬ leafOf id b' := by
      rintro ⟨hdr', rest', hbe', k1, k2, k3⟩
      obtain ⟨hdr, rest, hbe, g1, g2, g3, g4⟩ := leafOf_matches (id := id) h101
      obtain ⟨hdr2, rest2, hbe2, g1', g2', g3', g4'⟩ := leafOf_matches (id := id) (b := b') (by rw [← h.length]; exact h101)
      obtain ⟨m1, m2, m3⟩ := g4'.mp ⟨hdr', rest', hbe', k1, k2, k3⟩
      refine hl (g4.mpr ⟨?_, ?_, ?_⟩)
      · rw [e1, g1'] at g1
        rw [← Go.ok.inj g1]; exact m1
      · rw [e2, g2'] at g2
        rw [← Go.ok.inj g2]; exact m2
      · have e3' : Header.level ⟨b, []⟩ = Header.level ⟨b', []⟩ := by
          simp only [Header.level]; rw [h.get (by decide)]
        rw [e3', g3'] at g3
        rw [← Go.ok.inj g3]; exact m3
    rw [scanBlock_skip h101 hl, scanBlock_skip (by rw [← h.length]; exact h101) hl']

theorem block_same {dev dev' : Bytes} {bs : Nat} (h : SameButChecksums dev dev' bs) (hbs : 32 ≤ bs) {j : Nat}
    (hj : 65536 + bs * (j + 2) ≤ dev.length) :
    SameBody ((dev.drop (65536 + bs * (j + 1))).take bs) ((dev'.drop (65536 + bs * (j + 1))).take bs) := by
  have e : bs * (j + 2) = bs * (j + 1) + bs := by rw [Nat.mul_add bs j 2, Nat.mul_add bs j 1]; omega
  constructor
  · rw [List.length_take, List.length_take, List.length_drop, List.length_drop, h.length]
  · apply List.ext_getElem?
    intro i
    rw [List.getElem?_drop, List.getElem?_drop, List.getElem?_take, List.getElem?_take]
    by_cases hi : 32 + i < bs
    · rw [if_pos hi, if_pos hi, List.getElem?_drop, List.getElem?_drop]
      apply h.same
      rintro ⟨-, hlt⟩
      rw [show 65536 + bs * (j + 1) + (32 + i) - 65536 = (32 + i) + bs * (j + 1) by omega, Nat.add_mul_mod_self_left,
        Nat.mod_eq_of_lt hi] at hlt
      omega
    · rw [if_neg hi, if_neg hi]

theorem block_mem {dev : Bytes} {bs j : Nat} (hbs : 0 < bs) (hj : 65536 + bs * (j + 2) ≤ dev.length) :
    (dev.drop (65536 + bs * (j + 1))).take bs ∈ scanBlocks dev bs := by
  refine List.mem_map.mpr ⟨j, List.mem_range.mpr ?_, rfl⟩
  have : j + 2 ≤ (dev.length - 65536) / bs := by
    rw [Nat.le_div_iff_mul_le hbs, Nat.mul_comm]
    omega
  omega

theorem reconLoop_congr {dev dev' : Bytes} {bs : UInt64} {id : UUID} (ha : ReconArgs dev bs id)
    (h : SameButChecksums dev dev' bs.toNat) (hs : payloadsBehind dev bs.toNat id) (lim : UInt64) :
    ∀ (fuel j : Nat) (off : UInt64) (buf buf' : Bytes), off.toNat = 65536 + bs.toNat * (j + 1) →
      buf.length = bs.toNat → buf'.length = bs.toNat → lim.toNat ≤ dev.length →
      reconLoop insertOrExit (imageReader dev) id bs lim fuel off buf =
        reconLoop insertOrExit (imageReader dev') id bs lim fuel off buf'
  | 0, _, _, _, _, _, _, _, _ => rfl
  | fuel + 1, j, off, buf, buf', ho, hb, hb', hlim => by
    have h101 := ha.bs_header
    have hsm := ha.bs_small
    have hdl := ha.dev_small
    have e : bs.toNat * (j + 2) = bs.toNat * (j + 1) + bs.toNat := by
      rw [Nat.mul_add _ j 2, Nat.mul_add _ j 1]; omega
    by_cases hfull : 65536 + bs.toNat * (j + 2) ≤ dev.length
    · rw [reconLoop, reconLoop]
      by_cases hlt : off < lim
      · rw [if_pos hlt, if_pos hlt]
        have hi : int64OfU64 off = (off.toNat : Int) := int64_small (by omega)
        have r1 : ReadBlockAt (imageReader dev) buf off = ((dev.drop (65536 + bs.toNat * (j + 1))).take bs.toNat, none) := by
          apply readBlockAt_eq
          · rw [hi, hb, imageReader_full (by omega), ho]
          · rw [List.length_take, List.length_drop]; omega
        have r2 : ReadBlockAt (imageReader dev') buf' off = ((dev'.drop (65536 + bs.toNat * (j + 1))).take bs.toNat, none) := by
          apply readBlockAt_eq
          · rw [hi, hb', imageReader_full (by rw [← h.length]; omega), ho]
          · rw [List.length_take, List.length_drop, ← h.length]; omega
        rw [r1, r2]
        simp only
        have hbody := block_same h (by omega) hfull
        have hl1 : ((dev.drop (65536 + bs.toNat * (j + 1))).take bs.toNat).length = bs.toNat := by
          rw [List.length_take, List.length_drop]; omega
        have hl2 := hbody.length.symm.trans hl1
        rw [hbody.scanBlock (by omega) (by omega) id (hs _ (block_mem (by omega) hfull)),
          reconLoop_congr ha h hs lim fuel (j + 1) (off + bs) _ _ (by
            rw [UInt64.toNat_add, ho, Nat.mod_eq_of_lt (by omega), show j + 1 + 1 = j + 2 from rfl, e]; omega) hl1 hl2 hlim]
      · rw [if_neg hlt, if_neg hlt]
    · funext ix
      rw [reconLoop_end dev id bs lim off buf hb (by omega) hlim hdl (by omega),
        reconLoop_end dev' id bs lim off buf' hb' (by omega) (by rw [← h.length]; exact hlim)
          (by rw [← h.length]; exact hdl) (by rw [← h.length]; omega)]

/-- C97: recon takes no notice of checksums. On two devices that differ only there it does
the same, with the same result, from the same index file and however it ends. -/
theorem C97_checksums_unread (dev dev' : Bytes) (bs : UInt64) (id : UUID) (ha : ReconArgs dev bs id)
    (h : SameButChecksums dev dev' bs.toNat) (hs : payloadsBehind dev bs.toNat id) (f : DBFile) (fuel : Nat) :
    recon fuel dev bs id f = recon fuel dev' bs id f := by
  have h101 := ha.bs_header
  have hdl := ha.dev_small
  have h1 : (UInt64.ofNat SuperInfoOffset + bs).toNat = 65536 + bs.toNat * (0 + 1) := by
    have := off_toNat bs 0 (by have := ha.dev_large; omega)
    rwa [show bs * UInt64.ofNat 0 = 0 from by rw [show UInt64.ofNat 0 = 0 from rfl, UInt64.mul_zero], UInt64.add_zero] at this
  have h2 : ∀ lim : UInt64, lim.toNat ≤ dev.length →
      reconLoop insertOrExit (imageReader dev) id bs lim fuel (UInt64.ofNat SuperInfoOffset + bs) (List.replicate bs.toNat 0) =
      reconLoop insertOrExit (imageReader dev') id bs lim fuel (UInt64.ofNat SuperInfoOffset + bs) (List.replicate bs.toNat 0) :=
    fun lim hlim => reconLoop_congr ha h hs lim fuel 0 _ _ _ h1 List.length_replicate List.length_replicate hlim
  have h3 := scanLimit_toNat dev bs hdl
  have hlim := h2 (scanLimit dev bs) (by rw [h3]; omega)
  simp only [scanLimit] at hlim
  unfold recon doScanFS
  rw [check_ok (UInt64.ofNat dev.length) bs ha.bs_small (by
    rw [UInt64.toNat_ofNat', Nat.mod_eq_of_lt (by omega)]; exact ha.dev_large), ← h.length,
    check_ok (UInt64.ofNat dev.length) bs ha.bs_small (by
    rw [UInt64.toNat_ofNat', Nat.mod_eq_of_lt (by omega)]; exact ha.dev_large)]
  simp only [hlim]

/-- `exReconDev` with another checksum in its leaf. -/
def exSumLeaf (c : { l : Bytes // l.length = 32 }) : Bytes :=
  leafImage { exReconHeader with csum := c } [(⟨256, 1, 0⟩, [1, 2, 3])] (List.replicate 3967 0)
def exSumDev (c : { l : Bytes // l.length = 32 }) : Bytes := oneBlockDevice 4096 (exSumLeaf c) (2 ^ 27)

theorem exSumLeaf_length (c) : (exSumLeaf c).length = 4096 := by
  rw [exSumLeaf, leafImage_length, List.length_replicate]; rfl

theorem exSumArgs (c) : ReconArgs (exSumDev c) 4096 uuidAllFs := by
  have h : (exSumDev c).length = 65536 + 4096 + (4096 + 2 ^ 27) := by
    rw [exSumDev, oneBlockDevice_length, exSumLeaf_length]
  have hb : (4096 : UInt64).toNat = 4096 := by decide
  exact ⟨by rw [hb]; omega, by rw [hb]; omega, by rw [h]; omega, by rw [h, hb]; omega, by decide⟩

theorem exSum_blocks {c} {b : Bytes} (hb : b ∈ scanBlocks (exSumDev c) (4096 : UInt64).toNat)
    (hl : leafOf uuidAllFs b) : b = exSumLeaf c := by
  rcases oneBlockDevice_blocks (by decide) (exSumLeaf_length c) hb with rfl | rfl
  · rfl
  · exact absurd hl (zeroes_not_leaf (by decide))

theorem exSum_wellFormed (c) : wellFormedDevice (exSumDev c) 4096 uuidAllFs := by
  intro b hb hl
  exact ⟨{ exReconHeader with csum := c }, _, _, exSum_blocks hb hl, rfl⟩

/-- In a well-formed leaf all payloads are behind the headers. -/
theorem leafImage_start {hdr hdr' : HeaderRec} {items : List (Key × Bytes)} {gap : Bytes}
    (hn : hdr.nrItems.toNat = items.length) (hs : (leafImage hdr items gap).length < 2 ^ 32) {i : Nat} {r : ItemRec}
    (h : blockItemRec (leafImage hdr items gap) i hdr' r) : 101 ≤ r.start := by
  have hlen := leafImage_length hdr items gap
  obtain ⟨pre, post, hbe, hp, hi, -⟩ := h
  have hh := header_unique (hbe.symm.trans (leafImage_hdr hdr items gap).choose_spec)
  rw [hh.2.2.2.1, hn] at hi
  obtain ⟨pp, post', hp', hr⟩ := leafItemRecs_get (25 * items.length + gap.length + (leafPayloads items).length) items i
    items[i].1 items[i].2 (by simp [hi]) (by omega)
  rw [Nat.add_sub_cancel] at hr
  obtain ⟨pre', hsp, hpre'⟩ := flatMap_item_split _ _ _ hr
  have himg := hbe
  rw [leafImage, hsp] at himg
  have h1 := (List.append_inj himg (by rw [headerRec_length, headerRec_length])).2
  rw [List.append_assoc] at h1
  have h2 := (List.append_inj h1 (hpre'.trans hp.symm)).2
  rw [List.append_assoc] at h2
  have h3 := (List.append_inj h2 (by rw [itemRec_length, itemRec_length])).1
  have o1 := (C07_Item_decodes r [] []).2.2.1
  have o2 := (C07_Item_decodes ⟨items[i].1, UInt32.ofNat (25 * items.length + gap.length + pp.length),
    UInt32.ofNat items[i].2.length⟩ [] []).2.2.1
  rw [h3, o1] at o2
  have h4 := Go.ok.inj o2
  have hpl : (leafPayloads items).length = pp.length + (items[i].2.length + post'.length) := by rw [hp']; simp
  rw [ItemRec.start, h4, UInt32.toNat_ofNat']
  omega

/-- Well-formed devices meet the hypothesis of C97. -/
theorem wellFormedDevice.behind {dev : Bytes} {bs : UInt64} {id : UUID} (ha : ReconArgs dev bs id)
    (h : wellFormedDevice dev bs id) : payloadsBehind dev bs.toNat id := by
  intro b hb hl i hdr' r hr
  obtain ⟨hdr, items, gap, rfl, hn⟩ := h b hb hl
  obtain ⟨j, hj⟩ := List.getElem?_of_mem hb
  have h1 := scanBlocks_get (by have := ha.1; omega) hj
  have := leafImage_start hn (by rw [h1.2.1]; exact ha.bs_small) hr
  omega

/-- The hypotheses of C97 are met by two devices whose leaf has different checksums. -/
theorem exSum_same (c c') : SameButChecksums (exSumDev c) (exSumDev c') (4096 : UInt64).toNat where
  length := by
    simp only [exSumDev, oneBlockDevice_length, exSumLeaf_length]
  same i hi := by
    have hb : (4096 : UInt64).toNat = 4096 := by decide
    rw [hb] at hi
    have hl : ∀ c, exSumDev c = (List.replicate (65536 + 4096) 0 ++ c.val) ++ ((exSumLeaf c).drop 32 ++ List.replicate (2 ^ 27) 0) := by
      intro c
      have : exSumLeaf c = c.val ++ (exSumLeaf c).drop 32 := by
        have h := List.take_append_drop 32 (exSumLeaf c)
        have h2 : (exSumLeaf c).take 32 = c.val := by
          simp only [exSumLeaf, leafImage, HeaderRec.layout, List.append_assoc]
          exact List.take_left' c.property
        rw [h2] at h
        exact h.symm
      rw [exSumDev, oneBlockDevice, this, List.append_assoc, List.append_assoc]
      congr 1
      rw [List.drop_left' c.property]
    have hd : (exSumLeaf c).drop 32 = (exSumLeaf c').drop 32 := by
      simp only [exSumLeaf, leafImage, HeaderRec.layout, List.append_assoc]
      rw [List.drop_left' c.property, List.drop_left' c'.property]
    rw [hl c, hl c', hd]
    generalize (exSumLeaf c').drop 32 ++ List.replicate (2 ^ 27) 0 = tail
    generalize hz : List.replicate (65536 + 4096) (0 : UInt8) = z
    have hzl : z.length = 65536 + 4096 := by rw [← hz, List.length_replicate]
    have hlen : ∀ c : { l : Bytes // l.length = 32 }, (z ++ c.val).length = 65536 + 4096 + 32 := by
      intro c; rw [List.length_append, hzl, c.property]
    by_cases h1 : i < 65536 + 4096
    · rw [List.getElem?_append_left (l₁ := z ++ c.val) (by rw [hlen]; omega),
        List.getElem?_append_left (l₁ := z ++ c'.val) (by rw [hlen]; omega),
        List.getElem?_append_left (l₁ := z) (by omega), List.getElem?_append_left (l₁ := z) (by omega)]
    · rw [List.getElem?_append_right (l₁ := z ++ c.val) (by rw [hlen]; omega),
        List.getElem?_append_right (l₁ := z ++ c'.val) (by rw [hlen]; omega), hlen, hlen]

/-- C97 is false of the code: there is a device none of whose leaves holds the right
checksum, and an item of them is indexed. -/
theorem C97_bad_checksum_indexed : ∃ dev, ReconArgs dev 4096 uuidAllFs ∧
    (∀ b ∈ scanBlocks dev (4096 : UInt64).toNat, leafOf uuidAllFs b → ¬ checksumOK b) ∧
    ∀ f : DBFile, f.fresh → ∀ fuel, dev.length < fuel →
      ∃ b x, recon fuel dev 4096 uuidAllFs f = (.db (some b), .done) ∧ b.stores ⟨5, ⟨256, 1, 0⟩, 7⟩ x := by
  have hex : ∃ c, ¬ checksumOK (exSumLeaf c) := by
    have hd : ∀ c : { l : Bytes // l.length = 32 }, (exSumLeaf c).take 4 = c.val.take 4 ∧
        (exSumLeaf c).drop 32 = (exSumLeaf ⟨List.replicate 32 0, by simp⟩).drop 32 := by
      intro c
      simp only [exSumLeaf, leafImage, HeaderRec.layout, List.append_assoc]
      refine ⟨?_, ?_⟩
      · rw [List.take_append_of_le_length (by rw [c.property]; omega)]
      · rw [List.drop_left' c.property, List.drop_left' (by simp)]
    by_cases h0 : checksumOK (exSumLeaf ⟨List.replicate 32 0, by simp⟩)
    · refine ⟨⟨List.replicate 32 1, by simp⟩, fun h1 => ?_⟩
      unfold checksumOK at h0 h1
      rw [(hd _).1] at h0 h1
      rw [(hd _).2, ← h0] at h1
      exact absurd h1 (by decide)
    · exact ⟨_, h0⟩
  obtain ⟨c, hc⟩ := hex
  refine ⟨exSumDev c, exSumArgs c, fun b hb hl => by rw [exSum_blocks hb hl]; exact hc, fun f hf fuel hfu => ?_⟩
  obtain ⟨b, h1, h2, -⟩ := C40_all_items_of_matching_leaves (exSumDev c) 4096 uuidAllFs (exSumArgs c)
    ((exSum_wellFormed c).sound (exSumArgs c)) f hf fuel hfu
  obtain ⟨r, -, -, h3⟩ := leafImage_item (hdr := { exReconHeader with csum := c }) (items := [(⟨256, 1, 0⟩, [1, 2, 3])])
    (gap := List.replicate 3967 0) (i := 0) (k := ⟨256, 1, 0⟩) (d := [1, 2, 3]) rfl (by
      have := exSumLeaf_length c; rw [exSumLeaf] at this; rw [this]; decide) rfl
  obtain ⟨x, hx, -⟩ := h2 ⟨5, ⟨256, 1, 0⟩, 7⟩ ⟨_, exSumLeaf c, oneBlockDevice_mem (by decide) (exSumLeaf_length c),
    leafImage_leafOf rfl rfl (by show exReconHeader.nrItems ≠ 0; decide), 0, h3⟩
  exact ⟨b, x, h1, hx⟩

example : ReconArgs (exSumDev ⟨List.replicate 32 1, by simp⟩) 4096 uuidAllFs ∧
    payloadsBehind (exSumDev ⟨List.replicate 32 1, by simp⟩) (4096 : UInt64).toNat uuidAllFs ∧
    SameButChecksums (exSumDev ⟨List.replicate 32 1, by simp⟩) (exSumDev ⟨List.replicate 32 2, by simp⟩) (4096 : UInt64).toNat :=
  ⟨exSumArgs _, (exSum_wellFormed _).behind (exSumArgs _), exSum_same _ _⟩

end Btrfscue
