import Verif.Spec.MountOpen
import Verif.Props.RescueFile
import Verif.Props.RescueNode
import Verif.Props.Physical
/-!
# C55, C71: opening a mounted file
-/

namespace Btrfscue

theorem yields_head {rd : Range × Slice} {items : List (Range × Slice)} (h : Range.Yields rd items) :
    (items = [] ∧ rd.1.hasNext = false) ∨ (∃ rest, items = rd :: rest ∧ rd.1.hasNext = true) := by
  cases h with
  | done h => exact Or.inl ⟨rfl, h⟩
  | step h1 _ _ => exact Or.inr ⟨_, rfl, h1⟩

theorem extentAt_unique {l : AStore} (hl : l.Sorted) {o ino g off : UInt64} {f f' : FileExtentItemRec}
    (h : l.enc.extentAt o ino g off f) (h' : l.enc.extentAt o ino g off f') : f = f' := by
  obtain ⟨x, d, rest, h1, h2, h3⟩ := h
  obtain ⟨x', d', rest', h1', h2', h3'⟩ := h'
  obtain rfl := hl.unique (enc_stores.mp h1) (enc_stores.mp h1')
  obtain rfl := h2.unique h2'
  have e := h3.symm.trans h3'
  obtain ⟨-, a1, a2, a3, a4, a5, a6, a7, a8, a9, a10⟩ := C07_FileExtentItem_decodes f rest []
  obtain ⟨-, b1, b2, b3, b4, b5, b6, b7, b8, b9, b10⟩ := C07_FileExtentItem_decodes f' rest' []
  rw [e] at a1 a2 a3 a4 a5 a6 a7 a8 a9 a10
  obtain ⟨f1, f2, f3, f4, f5, f6, f7, f8, f9, f10⟩ := f
  obtain ⟨g1, g2, g3, g4, g5, g6, g7, g8, g9, g10⟩ := f'
  simp only at *
  simp only [a1.symm.trans b1 |> Go.ok.inj, a2.symm.trans b2 |> Go.ok.inj, a3.symm.trans b3 |> Go.ok.inj,
    a4.symm.trans b4 |> Go.ok.inj, a5.symm.trans b5 |> Go.ok.inj, a6.symm.trans b6 |> Go.ok.inj,
    a7.symm.trans b7 |> Go.ok.inj, a8.symm.trans b8 |> Go.ok.inj, a9.symm.trans b9 |> Go.ok.inj,
    a10.symm.trans b10 |> Go.ok.inj]

/-! ## C71 -/

/-- C71 (what is proved): on an index with intact extents and chunks of one generation
each, a file with at least one extent opens, and its extents are those stored, one for
one, ascending, at the addresses the chunks map them to. Missing: extents or chunks of
mixed generations (see C36). The stripe map cache of the index may be empty or hold what
an earlier translation left there. -/
theorem C71_open_extents_partial (b : Bucket) (hb : b.WF) (m : Bytes) (hm : b.stores metadataVersionKey m)
    (owner ino g gc : UInt64) (ha : b.AddrOK gc) (hf : b.FileOK owner ino g gc)
    (hne : ∃ off, b.hasKey owner ⟨ino, 108, off⟩) :
    ∃ N map ext, (∀ fuel, N ≤ fuel → ∀ cache, cache = none ∨ cache = some map →
        ∃ c', (newRescueNode owner ino).open fuel ⟨b, ~~~0⟩ cache = .ok (c', .ok (.extents ext)) ∧
          (c' = none ∨ c' = some map)) ∧
      ext.Pairwise (fun x y => x.fileOffset < y.fileOffset) ∧
      ∀ e, e ∈ ext ↔ ∃ f phys, b.extentAt owner ino g e.fileOffset f ∧ b.translated gc f.diskByteNr e.devID phys ∧
        e.length = f.numBytes ∧ e.diskByteNr = f.diskByteNr ∧ e.physOffset = phys + f.offset := by
  obtain ⟨N0, map, hphys⟩ := C36_physical_partial b hb m hm ha.range gc ha.chunks ha.disjoint
  obtain ⟨l, hl, rfl⟩ := hb.exists_abs
  obtain ⟨rd, items, hr, hy, hp, hs⟩ := rangeAll_single hl ⟨m, hm⟩ hf.range hf.newest
  -- the items decode
  have hdec : ∀ e ∈ items, ∃ off f rest phys dev t, e.1.1 = ⟨owner, ⟨ino, 108, off⟩, g⟩ ∧
      l.enc.extentAt owner ino g off f ∧ f.typ ≠ 0 ∧ l.enc.translated gc f.diskByteNr dev phys ∧
      e.2 = ⟨f.layout ++ rest, t⟩ := by
    rintro ⟨⟨w, y⟩, s⟩ he
    obtain ⟨off, rfl, h1, h2⟩ := (hs _ _ _).mp he
    obtain ⟨f, ⟨x, d, rest, h3, h4, h5⟩, h6, dev, phys, h7⟩ := hf.intact off ⟨g, y, h1⟩
    obtain rfl := hl.unique (enc_stores.mp h1) (enc_stores.mp h3)
    obtain ⟨⟨sd, st⟩, h8, h9⟩ := h4.data
    rw [h8] at h2
    cases h2
    simp only at h9
    subst h9; subst h5
    exact ⟨off, f, rest, phys, dev, st, rfl, ⟨y, _, rest, h3, h4, rfl⟩, h6, h7, rfl⟩
  have hbody : ∀ e ∈ items, ∃ (off : UInt64) (x : ExtentMapEntry) (f : FileExtentItemRec) (phys : UInt64),
      e.1.1 = ⟨owner, ⟨ino, 108, off⟩, g⟩ ∧ x.fileOffset = off ∧
      l.enc.extentAt owner ino g off f ∧ l.enc.translated gc f.diskByteNr x.devID phys ∧
      x.length = f.numBytes ∧ x.diskByteNr = f.diskByteNr ∧ x.physOffset = phys + f.offset ∧
      ∀ fuel, N0 ≤ fuel → ∀ (s : List ExtentMapEntry) cache, cache = none ∨ cache = some map →
        ∃ c', (c' = none ∨ c' = some map) ∧
        extentMapBody fuel ⟨l.enc, ~~~0⟩ (s, cache) (Range.at l.enc (VKey.mk owner (KL2 108 ino) (~~~0)).encode e.1) e.2 =
          .ok ((s ++ [x], c'), false) := by
    intro e he
    obtain ⟨off, f, rest, phys, dev, t, h1, h2, h3, h4, h5⟩ := hdec e he
    obtain ⟨-, -, -, -, -, -, -, d7, -, d9, d10⟩ := C07_FileExtentItem_decodes f rest t
    refine ⟨off, ⟨off, f.numBytes, phys + f.offset, f.diskByteNr, dev⟩, f, phys, h1, rfl, h2, h4, rfl, rfl, rfl, ?_⟩
    intro fuel hfu s cache hc
    have hk : (Range.at l.enc (VKey.mk owner (KL2 108 ino) (~~~0)).encode e.1).rKey = .ok ⟨ino, 108, off⟩ := by
      simp only [Range.at, Range.rKey, h1, key_encode]
    unfold extentMapBody
    rw [h5]
    simp only [d7, Go.ok_bind, d9, d10, hk]
    rcases h4 with ⟨z, rfl, rfl⟩ | ⟨nz, start, c, st, ss, i1, i2, i3, rfl, rfl⟩
    · rw [if_neg (by rw [z]; decide)]
      exact ⟨cache, hc, rfl⟩
    · rw [if_pos (by
        rw [UInt64.lt_iff_toNat_lt]
        have : f.diskByteNr.toNat ≠ 0 := fun hz => nz (by rw [← UInt64.toNat_inj]; exact hz)
        have h0 : (0 : UInt64).toNat = 0 := rfl
        omega), hphys fuel hfu cache hc start c st ss _ i1 i2 i3]
      exact ⟨some map, Or.inr rfl, rfl⟩
  -- the loop
  have hfold : ∀ (its : List ((VKey × Bytes) × Slice)), (∀ e ∈ its, e ∈ items) →
      ∃ ext : List ExtentMapEntry, (∀ fuel, N0 ≤ fuel → ∀ (s : List ExtentMapEntry) cache, cache = none ∨ cache = some map →
        ∃ c', (c' = none ∨ c' = some map) ∧
        foldRange (extentMapBody fuel ⟨l.enc, ~~~0⟩) (s, cache)
          (its.map fun e => (Range.at l.enc (VKey.mk owner (KL2 108 ino) (~~~0)).encode e.1, e.2)) =
          .ok ((s ++ ext, c'), false)) ∧
        ext.map (fun x => (⟨owner, ⟨ino, 108, x.fileOffset⟩, g⟩ : VKey)) = its.map (fun e => e.1.1) ∧
        ∀ x ∈ ext, ∃ f phys, l.enc.extentAt owner ino g x.fileOffset f ∧ l.enc.translated gc f.diskByteNr x.devID phys ∧
          x.length = f.numBytes ∧ x.diskByteNr = f.diskByteNr ∧ x.physOffset = phys + f.offset := by
    intro its
    induction its with
    | nil => intro _; exact ⟨[], fun fuel _ s cache hc => ⟨cache, hc, by simp [foldRange]⟩, rfl, by simp⟩
    | cons e r ih =>
      intro hsub
      obtain ⟨ext, a1, a2, a3⟩ := ih fun x hx => hsub x (List.mem_cons_of_mem _ hx)
      obtain ⟨off, x, f, phys, b1, b2, b3, b4, b5, b6, b7, b8⟩ := hbody e (hsub e List.mem_cons_self)
      refine ⟨x :: ext, ?_, ?_, ?_⟩
      · intro fuel hfu s cache hc
        obtain ⟨c', hc', hb'⟩ := b8 fuel hfu s cache hc
        obtain ⟨c'', hc'', hb''⟩ := a1 fuel hfu (s ++ [x]) c' hc'
        refine ⟨c'', hc'', ?_⟩
        simp only [List.map_cons, foldRange, hb', Go.ok_bind, Bool.false_eq_true, if_false, hb'']
        simp
      · simp only [List.map_cons, a2, b1, b2]
      · intro y hy'
        rcases List.mem_cons.mp hy' with rfl | hy'
        · rw [b2]; exact ⟨f, phys, b3, b4, b5, b6, b7⟩
        · exact a3 y hy'
  obtain ⟨ext, e1, e2, e3⟩ := hfold items fun _ h => h
  refine ⟨max N0 (items.length + 1), map, ext, ?_, ?_, ?_⟩
  · intro fuel hfu cache hc
    obtain ⟨c', hc', hfl⟩ := e1 fuel (by omega) [] cache hc
    rcases yields_head hy with ⟨hnil, -⟩ | ⟨rest, hcons, hnx⟩
    · have : items = [] := List.map_eq_nil_iff.mp hnil
      subst this
      obtain ⟨off, g', x, hx⟩ := hne
      obtain ⟨hv, -⟩ := hf.newest off ⟨g', x, hx⟩
      obtain ⟨x', hx'⟩ := hv
      obtain ⟨d, hd⟩ := hf.range.intact _ _ hx' rfl
      obtain ⟨s, hs', -⟩ := hd.data
      have := (hs _ _ _).mpr ⟨off, rfl, hx', hs'⟩
      cases this
    · refine ⟨c', ?_, hc'⟩
      have hr' : (Ix.mk l.enc (~~~0)).fileExtentItems owner ino = .ok rd := hr
      cases items with
      | nil => cases hcons
      | cons e its =>
        obtain ⟨off, f, frest, phys, dev, t, h1, h2, h3, h4, h5⟩ := hdec e List.mem_cons_self
        have hrd : rd.2 = ⟨f.layout ++ frest, t⟩ := by
          simp only [List.map_cons, List.cons.injEq] at hcons
          rw [← hcons.1]; exact h5
        have hin : FileExtentItem.isInline rd.2 = .ok false := by
          rw [hrd, C07_FileExtentItem_isInline]; simp [h3]
        have hnew : newExtentFile fuel ⟨l.enc, ~~~0⟩ cache owner ino = .ok (some ext, c') := by
          unfold newExtentFile
          rw [hr']
          simp only [Go.ok_bind, hnx, Bool.not_true, Bool.false_eq_true, if_false]
          rw [rangeLoop_eq _ hy fuel _ (by simp only [List.length_map]; omega), hfl]
          rfl
        obtain ⟨rd1, rd2⟩ := rd
        unfold RescueNode.open newRescueNode
        rw [hr']
        simp only [Go.ok_bind, hnx, Bool.not_true, Bool.false_eq_true, if_false, hin, hnew]
        rfl
  · have hpm : (ext.map (fun x => (⟨owner, ⟨ino, 108, x.fileOffset⟩, g⟩ : VKey))).Pairwise (fun a b => a.num < b.num) := by
      rw [e2, List.pairwise_map]; exact hp
    rw [List.pairwise_map] at hpm
    refine hpm.imp ?_
    intro x y hxy
    rw [VKey.num_eq, VKey.num_eq, VKey.p25_eq, VKey.p25_eq] at hxy
    have h17 : (VKey.mk owner ⟨ino, 108, x.fileOffset⟩ g).p17 = (VKey.mk owner ⟨ino, 108, y.fileOffset⟩ g).p17 :=
      VKey.p17_inj.mpr ⟨rfl, rfl, rfl⟩
    rw [h17] at hxy
    rw [UInt64.lt_iff_toNat_lt]
    simp only at hxy
    omega
  · intro e
    constructor
    · exact e3 e
    · rintro ⟨f, phys, h1, h2, h3, h4, h5⟩
      obtain ⟨x, d, rest, k1, k2, k3⟩ := id h1
      obtain ⟨s, k4, -⟩ := k2.data
      have hmem := (hs _ _ _).mpr ⟨e.fileOffset, rfl, k1, k4⟩
      have hmem2 : (⟨owner, ⟨ino, 108, e.fileOffset⟩, g⟩ : VKey) ∈ items.map (fun e => e.1.1) :=
        List.mem_map.mpr ⟨_, hmem, rfl⟩
      rw [← e2] at hmem2
      obtain ⟨y, hy1, hy2⟩ := List.mem_map.mp hmem2
      have hoff : y.fileOffset = e.fileOffset := by
        injection hy2 with _ hk _
        injection hk
      obtain ⟨f', phys', q1, q2, q3, q4, q5⟩ := e3 y hy1
      rw [hoff] at q1
      obtain rfl := extentAt_unique hl h1 q1
      have htr : e.devID = y.devID ∧ phys = phys' := by
        rcases h2 with ⟨z, r1, r2⟩ | ⟨nz, st, c, s1, ss, r1, r2, r3, r4, r5⟩
        · rcases q2 with ⟨_, t1, t2⟩ | ⟨nz, _⟩
          · exact ⟨r1.trans t1.symm, r2.trans t2.symm⟩
          · exact absurd z nz
        · rcases q2 with ⟨z, _⟩ | ⟨_, st', c', s1', ss', t1, t2, t3, t4, t5⟩
          · exact absurd z nz
          · have p1 := hphys N0 (Nat.le_refl _) none (Or.inl rfl) st c s1 ss _ r1 r2 r3
            have p2 := hphys N0 (Nat.le_refl _) none (Or.inl rfl) st' c' s1' ss' _ t1 t2 t3
            rw [p1] at p2
            injection p2 with p2
            injection p2 with _ p2
            injection p2 with p3 p4
            exact ⟨by rw [r4, t4, p3], by rw [r5, t5, p4]⟩
      have : e = y := by
        obtain ⟨v1, v2, v3, v4, v5⟩ := e
        obtain ⟨w1, w2, w3, w4, w5⟩ := y
        simp only at *
        rw [hoff, h3, q3, h4, q4, h5, q5, htr.1, htr.2]
      rw [this]; exact hy1

/-- C71: what is read from a file opened in the mount is what the stored extents and
chunks say: inside an extent with header `f`, zeroes for a hole, otherwise the bytes of
the device at the translated address. (Reads that cross extents: see C50.) -/
theorem C71_mounted_read_partial (b : Bucket) (hb : b.WF) (m : Bytes) (hm : b.stores metadataVersionKey m)
    (owner ino g gc : UInt64) (ha : b.AddrOK gc) (hf : b.FileOK owner ino g gc)
    (hne : ∃ off, b.hasKey owner ⟨ino, 108, off⟩) (D : Bytes) (hD : D.length < 2 ^ 63)
    (hdis : ∀ off f off' f', b.extentAt owner ino g off f → b.extentAt owner ino g off' f' → off < off' →
      off.toNat + f.numBytes.toNat ≤ off'.toNat)
    (hbnd : ∀ off f, b.extentAt owner ino g off f → off.toNat + f.numBytes.toNat < 2 ^ 63)
    (hdev : ∀ off f dev phys, b.extentAt owner ino g off f → f.diskByteNr ≠ 0 → b.translated gc f.diskByteNr dev phys →
      (phys + f.offset).toNat + f.numBytes.toNat ≤ D.length) :
    ∃ N ext, (∀ fuel, N ≤ fuel → ∃ c', (newRescueNode owner ino).open fuel ⟨b, ~~~0⟩ none = .ok (c', .ok (.extents ext))) ∧
      ∀ off f, b.extentAt owner ino g off f → ∀ (buf : Bytes) (p : Nat), buf ≠ [] → off.toNat ≤ p →
        p + buf.length ≤ off.toNat + f.numBytes.toNat →
        ∃ d, extentFileRead (some (imageReader D)) ext buf p = .ok (.ok d) ∧ d.length = buf.length ∧
          ∀ i v, d[i]? = some v → (f.diskByteNr = 0 ∧ v = 0) ∨
            (f.diskByteNr ≠ 0 ∧ ∃ dev phys, b.translated gc f.diskByteNr dev phys ∧
              D[(phys + f.offset).toNat + (p + i - off.toNat)]? = some v) := by
  obtain ⟨N, map, ext, h1, h2, h3⟩ := C71_open_extents_partial b hb m hm owner ino g gc ha hf hne
  have hok : ExtentsOK D ext := by
    refine ⟨hD, ?_, ?_, ?_⟩
    · intro e he
      obtain ⟨f, phys, a1, a2, a3, a4, a5⟩ := (h3 e).mp he
      unfold ExtentMapEntry.fileEnd
      rw [a3]; exact hbnd _ f a1
    · refine List.Pairwise.imp_of_mem ?_ h2
      intro x y hx hy hxy
      obtain ⟨f, phys, a1, a2, a3, a4, a5⟩ := (h3 x).mp hx
      obtain ⟨f', phys', b1, b2, b3, b4, b5⟩ := (h3 y).mp hy
      unfold ExtentMapEntry.fileEnd
      rw [a3]; exact hdis _ f _ f' a1 b1 hxy
    · intro e he hz
      obtain ⟨f, phys, a1, a2, a3, a4, a5⟩ := (h3 e).mp he
      rw [a5, a3]
      rw [a4] at hz
      exact hdev _ f _ phys a1 hz a2
  refine ⟨N, ext, fun fuel hfu => ?_, ?_⟩
  · obtain ⟨c', hc, -⟩ := h1 fuel hfu none (Or.inl rfl)
    exact ⟨c', hc⟩
  · intro off f hat buf p hbuf hp1 hp2
    obtain ⟨f0, hf0, -, dev, phys, htr⟩ := hf.intact off (by
      obtain ⟨x, _, _, hx, _⟩ := hat
      exact ⟨g, x, hx⟩)
    obtain ⟨l, hl, rfl⟩ := hb.exists_abs
    obtain rfl := extentAt_unique hl hat hf0
    have hmem : (⟨off, f.numBytes, phys + f.offset, f.diskByteNr, dev⟩ : ExtentMapEntry) ∈ ext :=
      (h3 _).mpr ⟨f, phys, hat, htr, rfl, rfl, rfl⟩
    obtain ⟨d, hd, hl', hv⟩ := C50_read_in_extent D ext buf p hok _ hmem hp1 hp2 hbuf
    refine ⟨d, hd, hl', ?_⟩
    intro i v hi
    have hilt : i < d.length := by
      rw [List.getElem?_eq_some_iff] at hi; exact hi.1
    rcases hv i v hi with ⟨e, he, hc, hval⟩ | ⟨hno, -⟩
    · obtain ⟨f', phys', b1, b2, b3, b4, b5⟩ := (h3 e).mp he
      have hoff : e.fileOffset = off := by
        obtain ⟨c1, c2⟩ := hc
        unfold ExtentMapEntry.fileEnd at c2
        rw [b3] at c2
        rcases Nat.lt_trichotomy e.fileOffset.toNat off.toNat with h | h | h
        · have := hdis _ f' _ f b1 hat (UInt64.lt_iff_toNat_lt.mpr h)
          omega
        · exact UInt64.toNat_inj.mp h
        · have := hdis _ f _ f' hat b1 (UInt64.lt_iff_toNat_lt.mpr h)
          omega
      rw [hoff] at b1
      obtain rfl := extentAt_unique hl hat b1
      rcases hval with ⟨z, rfl⟩ | ⟨nz, hval⟩
      · exact Or.inl ⟨by rw [← b4]; exact z, rfl⟩
      · rw [b5, hoff] at hval
        exact Or.inr ⟨by rw [← b4]; exact nz, e.devID, phys', b2, hval⟩
    · exact absurd ⟨by show off.toNat ≤ p + i; omega, by
        show p + i < off.toNat + f.numBytes.toNat
        omega⟩ (hno _ hmem)

/-- A file of a data extent and a hole, with the chunks of `exChunks`. -/
def exFileStore : AStore :=
  [(⟨3, ⟨1, 216, 1⟩, 7⟩, mkItem ⟨1, 216, 1⟩ []),
   (⟨3, ⟨256, 228, 0x1000000⟩, 7⟩, exChunk 0x1000000 0x800000 1 0x100000),
   (⟨3, ⟨256, 228, 0x1800000⟩, 7⟩, exChunk 0x1800000 0x800000 2 0x900000),
   (⟨3, ⟨257, 229, 0⟩, 7⟩, mkItem ⟨257, 229, 0⟩ []),
   (⟨5, ⟨257, 1, 0⟩, 10⟩, mkItem ⟨257, 1, 0⟩ (exInode 5000).layout),
   (⟨5, ⟨257, 108, 0⟩, 10⟩, mkItem ⟨257, 108, 0⟩ (FileExtentItemRec.mk 9 8192 0 0 0 1 0x1001000 8192 4096 4096).layout),
   (⟨5, ⟨257, 108, 4096⟩, 10⟩, mkItem ⟨257, 108, 4096⟩ (FileExtentItemRec.mk 9 4096 0 0 0 1 0 0 0 4096).layout),
   (⟨5, ⟨258, 132, 0⟩, 10⟩, mkItem ⟨258, 132, 0⟩ []),
   (metadataVersionKey, [])]

theorem exFileStore_sorted : exFileStore.Sorted := sorted_of_before (by decide +kernel)

theorem exFileStore_intact (e : VKey × Bytes) (he : e ∈ exFileStore) (ho : e.1.owner ≠ ~~~0) : ∃ d, holdsItem e.2 d := by
  simp only [exFileStore, List.mem_cons, List.not_mem_nil, or_false] at he
  rcases he with rfl | rfl | rfl | rfl | rfl | rfl | rfl | rfl | rfl
  · exact ⟨_, mkItem_holds _ _ (by decide +kernel)⟩
  · exact exChunk_holds _ _ _ _
  · exact exChunk_holds _ _ _ _
  · exact ⟨_, mkItem_holds _ _ (by decide +kernel)⟩
  · exact ⟨_, mkItem_holds _ _ (by decide +kernel)⟩
  · exact ⟨_, mkItem_holds _ _ (by decide +kernel)⟩
  · exact ⟨_, mkItem_holds _ _ (by decide +kernel)⟩
  · exact ⟨_, mkItem_holds _ _ (by decide +kernel)⟩
  · exact absurd rfl ho

theorem exFileStore_gens : ∀ e ∈ exFileStore, e.1.owner ≠ ~~~0 → (e.1.gen ≠ ~~~0 ∧ e.1.key ≠ KL0) ∧
    (e.1.owner = 3 → e.1.gen = 7) ∧ (e.1.owner = 5 → e.1.gen = 10) := by decide +kernel

theorem exFileStore_newest {o : UInt64} {k : Key} {g : UInt64} (ho : o ≠ ~~~0)
    (hg : ∀ e ∈ exFileStore, e.1.owner = o → e.1.gen = g) (hk : exFileStore.enc.hasKey o k) :
    exFileStore.enc.newest o k g := by
  obtain ⟨g', x, hx⟩ := enc_hasKey.mp hk
  have := hg _ hx rfl
  simp only at this
  subst this
  refine ⟨enc_hasVersion.mpr ⟨x, hx⟩, fun g'' hv => ?_⟩
  obtain ⟨y, hy⟩ := enc_hasVersion.mp hv
  have := hg _ hy rfl
  simp only at this
  rw [this]
  exact UInt64.le_refl _

theorem exFileStore_addr : exFileStore.enc.AddrOK 7 where
  range := rangeOK_of (by decide) (fun e he ho => exFileStore_intact e he (by rw [ho]; decide))
    (fun e he ho => (exFileStore_gens e he (by rw [ho]; decide)).1) (by decide +kernel)
  chunks := by
    intro start hk
    refine ⟨exFileStore_newest (by decide) (fun e he ho => (exFileStore_gens e he (by rw [ho]; decide)).2.1 ho) hk, ?_⟩
    obtain ⟨g, x, hx⟩ := enc_hasKey.mp hk
    have hg := (exFileStore_gens _ hx (by show ¬ (3 : UInt64) = ~~~0; decide)).2.1 rfl
    simp only at hg
    subst hg
    have hx' := hx
    simp only [exFileStore, List.mem_cons, List.not_mem_nil, or_false, Prod.mk.injEq, VKey.mk.injEq, Key.mk.injEq] at hx'
    rcases hx' with ⟨⟨-, ⟨-, h, -⟩, -⟩, -⟩ | ⟨⟨-, ⟨-, -, rfl⟩, -⟩, rfl⟩ | ⟨⟨-, ⟨-, -, rfl⟩, -⟩, rfl⟩ | ⟨⟨-, ⟨h, -, -⟩, -⟩, -⟩ |
      ⟨⟨h, -⟩, -⟩ | ⟨⟨h, -⟩, -⟩ | ⟨⟨h, -⟩, -⟩ | ⟨⟨h, -⟩, -⟩ | ⟨h, -⟩
    · exact absurd h (by decide)
    · exact ⟨_, _, exChunk_at hx⟩
    · exact ⟨_, _, exChunk_at hx⟩
    · exact absurd h (by decide)
    · exact absurd h (by decide)
    · exact absurd h (by decide)
    · exact absurd h (by decide)
    · exact absurd h (by decide)
    · exact absurd (congrArg VKey.owner h) (by show ¬ (3 : UInt64) = ~~~0; decide)
  disjoint := by
    have hst : ∀ a c ss, exFileStore.enc.chunkAt 7 a c ss → (a = 0x1000000 ∨ a = 0x1800000) ∧ c.length = 0x800000 := by
      intro a c ss hat
      obtain ⟨x, d, rest, h1, h2, h3, h4⟩ := id hat
      have hx := enc_stores.mp h1
      have hx' := hx
      simp only [exFileStore, List.mem_cons, List.not_mem_nil, or_false, Prod.mk.injEq, VKey.mk.injEq, Key.mk.injEq] at hx'
      rcases hx' with ⟨⟨-, ⟨-, h, -⟩, -⟩, -⟩ | ⟨⟨-, ⟨-, -, rfl⟩, -⟩, rfl⟩ | ⟨⟨-, ⟨-, -, rfl⟩, -⟩, rfl⟩ | ⟨⟨-, ⟨h, -, -⟩, -⟩, -⟩ |
        ⟨⟨h, -⟩, -⟩ | ⟨⟨h, -⟩, -⟩ | ⟨⟨h, -⟩, -⟩ | ⟨⟨h, -⟩, -⟩ | ⟨h, -⟩
      · exact absurd h (by decide)
      · exact ⟨Or.inl rfl, chunkAt_length exFileStore_sorted hat (exChunk_at hx)⟩
      · exact ⟨Or.inr rfl, chunkAt_length exFileStore_sorted hat (exChunk_at hx)⟩
      · exact absurd h (by decide)
      · exact absurd h (by decide)
      · exact absurd h (by decide)
      · exact absurd h (by decide)
      · exact absurd h (by decide)
      · exact absurd (congrArg VKey.owner h) (by show ¬ (3 : UInt64) = ~~~0; decide)
    intro a c ss a' c' ss' h h' hlt
    obtain ⟨h1, h2⟩ := hst _ _ _ h
    obtain ⟨h3, -⟩ := hst _ _ _ h'
    rw [h2]
    rcases h1 with rfl | rfl <;> rcases h3 with rfl | rfl
    · exact absurd hlt (by decide)
    · decide
    · exact absurd hlt (by decide)
    · exact absurd hlt (by decide)

/-- The hypotheses of C71 are met by `exFileStore`. -/
theorem exFileStore_ok : exFileStore.enc.FileOK 5 257 10 7 where
  range := rangeOK_of (by decide) (fun e he ho => exFileStore_intact e he (by rw [ho]; decide))
    (fun e he ho => (exFileStore_gens e he (by rw [ho]; decide)).1) (by decide +kernel)
  newest off hk := exFileStore_newest (by decide)
    (fun e he ho => (exFileStore_gens e he (by rw [ho]; decide)).2.2 ho) hk
  intact off hk := by
    obtain ⟨g, x, hx⟩ := enc_hasKey.mp hk
    have hg := (exFileStore_gens _ hx (by show ¬ (5 : UInt64) = ~~~0; decide)).2.2 rfl
    simp only at hg
    subst hg
    have hx' := hx
    simp only [exFileStore, List.mem_cons, List.not_mem_nil, or_false, Prod.mk.injEq, VKey.mk.injEq, Key.mk.injEq] at hx'
    rcases hx' with ⟨⟨h, -⟩, -⟩ | ⟨⟨h, -⟩, -⟩ | ⟨⟨h, -⟩, -⟩ | ⟨⟨h, -⟩, -⟩ | ⟨⟨-, ⟨-, h, -⟩, -⟩, -⟩ |
      ⟨⟨-, ⟨-, -, rfl⟩, -⟩, rfl⟩ | ⟨⟨-, ⟨-, -, rfl⟩, -⟩, rfl⟩ | ⟨⟨-, ⟨h, -⟩, -⟩, -⟩ | ⟨h, -⟩
    · exact absurd h (by decide)
    · exact absurd h (by decide)
    · exact absurd h (by decide)
    · exact absurd h (by decide)
    · exact absurd h (by decide)
    · refine ⟨_, ⟨_, _, [], enc_stores.mpr hx, mkItem_holds _ _ (by decide), (List.append_nil _).symm⟩, by decide, 1,
        0x101000, Or.inr ⟨by decide, 0x1000000, _, _, _, exChunk_at (len := 0x800000) (dev := 1) (off := 0x100000)
          (by simp only [exFileStore, List.mem_cons]; right; left; trivial), by decide +kernel, by decide +kernel, rfl, by decide +kernel⟩⟩
    · exact ⟨_, ⟨_, _, [], enc_stores.mpr hx, mkItem_holds _ _ (by decide), (List.append_nil _).symm⟩, by decide, 0, 0,
        Or.inl ⟨rfl, rfl, rfl⟩⟩
    · exact absurd h (by decide)
    · exact absurd (congrArg VKey.owner h) (by show ¬ (5 : UInt64) = ~~~0; decide)

example : exFileStore.enc.WF ∧ exFileStore.enc.stores metadataVersionKey [] ∧ exFileStore.enc.hasKey 5 ⟨257, 108, 0⟩ :=
  ⟨AStore.enc_wf exFileStore_sorted, enc_stores.mpr (by simp [exFileStore]),
    enc_hasKey.mpr ⟨10, _, by simp only [exFileStore, List.mem_cons]; right; right; right; right; right; left; rfl⟩⟩

/-! ## C55 -/

/-- C55 is false of the code: a file without extent items (as every empty file is)
cannot be opened, whatever its inode says. -/
theorem C55_no_extents_not_found (b : Bucket) (hb : b.WF) (m : Bytes) (hm : b.stores metadataVersionKey m)
    (owner ino : UInt64) (ho : owner ≠ ~~~0) (hkl : ¬ b.hasKey owner KL0)
    (hno : ∀ off, ¬ b.hasKey owner ⟨ino, 108, off⟩) (G : UInt64) (fuel : Nat) (cache : Option (List StripeMapEntry)) :
    (newRescueNode owner ino).open fuel ⟨b, G⟩ cache = .ok (cache, .error .ENOENT) := by
  obtain ⟨l, hl, rfl⟩ := hb.exists_abs
  have hr := range_none hl (first := KF 108 ino) (last := KL2 108 ino) (o := owner) G
      ⟨_, enc_stores.mp hm, Nat.le_of_lt (num_lt_of_owner (ne_max_lt ho))⟩
      (fun g x hx => hkl (enc_hasKey.mpr ⟨g, x, hx⟩))
      (fun k g x hx hc => hno k.offset (enc_hasKey.mpr ⟨g, x, by
        obtain ⟨k1, k2, k3⟩ := k
        obtain ⟨hc1, hc2⟩ := hc
        simp only [KF] at hc1 hc2
        subst hc1; subst hc2
        exact hx⟩))
  have hr' : (Ix.mk l.enc G).fileExtentItems owner ino = _ := hr
  unfold RescueNode.open newRescueNode
  rw [hr']
  rfl

/-- An empty file: inode item of size 0, no extents. It has attributes, but cannot be
opened. -/
example : (∃ n, (newRescueNode 5 257).getAttr ⟨exInodeStore.enc, ~~~0⟩ = .ok (n, .ok
      { ino := 257, size := 4, mode := 0o100644, nlink := 1, uid := 1000, gid := 100, atime := 5, atimensec := 6,
        ctime := 7, ctimensec := 8, mtime := 9, mtimensec := 10 })) ∧
    (newRescueNode 5 257).open 9 ⟨exInodeStore.enc, ~~~0⟩ none = .ok (none, .error .ENOENT) := by
  refine ⟨⟨⟨5, 257, some
      { ino := 257, size := 4, mode := 0o100644, nlink := 1, uid := 1000, gid := 100, atime := 5, atimensec := 6,
        ctime := 7, ctimensec := 8, mtime := 9, mtimensec := 10 }, []⟩, by decide +kernel⟩, by decide +kernel⟩

/-- What opening does on a file whose first extent item is `d`. -/
theorem open_first {fuel : Nat} {ix : Ix} {cache : Option (List StripeMapEntry)} {owner ino : UInt64} {r : Range} {d : Slice}
    (h : ix.fileExtentItems owner ino = .ok (r, d)) (hn : r.hasNext = true) (hi : FileExtentItem.isInline d = .ok true) :
    (newRescueNode owner ino).open fuel ix cache = FileExtentItem.data d >>= fun v => .ok (cache, .ok (.data v)) := by
  unfold RescueNode.open newRescueNode
  rw [h]
  simp only [Go.ok_bind, hn, hi, if_true, Bool.not_true, Bool.false_eq_true, if_false]
  rfl

/-- C55, what holds: a file opens if it has extents and they are intact: with inline
data as stored ... -/
theorem C55_open_inline_partial (b : Bucket) (hb : b.WF) (m : Bytes) (hm : b.stores metadataVersionKey m)
    (owner ino g : UInt64) (hok : b.RangeOK owner (KL2 108 ino))
    (hg : b.newest owner ⟨ino, 108, 0⟩ g) (honly : ∀ off, b.hasKey owner ⟨ino, 108, off⟩ → off = 0)
    (x : Bytes) (hs : b.stores ⟨owner, ⟨ino, 108, 0⟩, g⟩ x) (f : InlineExtentRec) (data rest : Bytes)
    (hd : holdsItem x (f.layout ++ (data ++ rest))) (hr : f.ramBytes.toNat = data.length) (hlen : data.length ≤ 16384)
    (fuel : Nat) (cache : Option (List StripeMapEntry)) :
    (newRescueNode owner ino).open fuel ⟨b, ~~~0⟩ cache = .ok (cache, .ok (.data data)) := by
  obtain ⟨l, hl, rfl⟩ := hb.exists_abs
  obtain ⟨rd, items, hrr, hy, -, hits⟩ := rangeAll_single hl ⟨m, hm⟩ hok (g := g)
    (fun off hk => by rw [honly off hk]; exact hg)
  obtain ⟨⟨sd, st⟩, h1, h2⟩ := hd.data
  simp only at h2
  subst h2
  have hmem := (hits _ _ _).mpr ⟨0, rfl, hs, h1⟩
  rcases yields_head hy with ⟨hnil, -⟩ | ⟨r', hcons, hnx⟩
  · rw [List.map_eq_nil_iff.mp hnil] at hmem; cases hmem
  · have h2 : rd.2 = ⟨f.layout ++ (data ++ rest), st⟩ := by
      cases items with
      | nil => cases hmem
      | cons e its =>
        simp only [List.map_cons, List.cons.injEq] at hcons
        obtain ⟨⟨w, y⟩, s⟩ := e
        obtain ⟨off, rfl, k1, k2⟩ := (hits _ _ _).mp (List.mem_cons_self)
        obtain rfl := honly off ⟨g, y, k1⟩
        obtain rfl := hl.unique (enc_stores.mp k1) (enc_stores.mp hs)
        rw [h1] at k2
        cases k2
        rw [← hcons.1]
    obtain ⟨rd1, rd2⟩ := rd
    simp only at h2
    subst h2
    obtain ⟨c1, c2⟩ := C12_inline_data f data rest st hr hlen
    rw [open_first hrr hnx c2, c1]
    rfl

/-- ... or with regular extents in known chunks (see `C71_open_extents_partial` for
which). -/
theorem C55_open_regular_partial (b : Bucket) (hb : b.WF) (m : Bytes) (hm : b.stores metadataVersionKey m)
    (owner ino g gc : UInt64) (ha : b.AddrOK gc) (hf : b.FileOK owner ino g gc)
    (hne : ∃ off, b.hasKey owner ⟨ino, 108, off⟩) :
    ∃ N, ∀ fuel, N ≤ fuel → ∃ c' ext, (newRescueNode owner ino).open fuel ⟨b, ~~~0⟩ none = .ok (c', .ok (.extents ext)) := by
  obtain ⟨N, map, ext, h, -⟩ := C71_open_extents_partial b hb m hm owner ino g gc ha hf hne
  exact ⟨N, fun fuel hfu => by
    obtain ⟨c', h1, -⟩ := h fuel hfu none (Or.inl rfl)
    exact ⟨c', ext, h1⟩⟩

/-- C55 is false of the code: opening a file whose inline extent is compressed (it stores
fewer bytes than the uncompressed size it records) crashes. -/
theorem C55_compressed_inline_crashes (fuel : Nat) (ix : Ix) (cache : Option (List StripeMapEntry)) (owner ino : UInt64)
    (r : Range) (f : InlineExtentRec) (data : Bytes)
    (h : ix.fileExtentItems owner ino = .ok (r, ⟨f.layout ++ data, []⟩)) (hn : r.hasNext = true)
    (h1 : data.length < f.ramBytes.toNat) (h2 : data.length < 16384) :
    (newRescueNode owner ino).open fuel ix cache = .panic := by
  have hi : FileExtentItem.isInline ⟨f.layout ++ data, []⟩ = .ok true := by
    simp [InlineExtentRec.layout, FileExtentItem.isInline, FileExtentItem.typ, fileExtentItemType,
      fileExtentItemOtherEncoding, fileExtentItemEncryption, fileExtentItemCompression, fileExtentItemRAMBytes]
  have hram : FileExtentItem.ramBytes ⟨f.layout ++ data, []⟩ = .ok f.ramBytes := by
    simp [InlineExtentRec.layout, FileExtentItem.ramBytes, fileExtentItemRAMBytes]
  have hll : f.layout.length = 21 := by simp [InlineExtentRec.layout]
  have hd : FileExtentItem.data ⟨f.layout ++ data, []⟩ = .panic := by
    simp only [fileExtent_data_eq, hram, Go.ok_bind]
    by_cases hneg : int64OfU64 f.ramBytes < 0
    · rw [if_pos hneg]
    · rw [if_neg hneg]
      have hz : int64OfU64 f.ramBytes = (f.ramBytes.toNat : Int) := by
        have := f.ramBytes.toNat_lt
        unfold int64OfU64 at hneg ⊢
        split at hneg
        · rename_i hc; rw [if_pos hc]
        · omega
      have : (Slice.sub (⟨f.layout ++ data, []⟩ : Slice) 21 (21 + min (int64OfU64 f.ramBytes).toNat 16384)) = .panic := by
        rw [hz, Int.toNat_natCast]
        unfold Slice.sub
        rw [if_neg (by
          simp only [Slice.cap, List.length_append, hll, List.length_nil]
          omega)]
      rw [this]; rfl
  rw [open_first h hn hi, hd]
  rfl

/-- A compressed inline extent: 3 bytes stored of 100. -/
def exCompressed : AStore :=
  [(⟨5, ⟨257, 108, 0⟩, 10⟩, mkItem ⟨257, 108, 0⟩ ((InlineExtentRec.mk 7 100 1 0 0).layout ++ [1, 2, 3])),
   (⟨5, ⟨258, 255, 0⟩, 10⟩, mkItem ⟨258, 255, 0⟩ []),
   (metadataVersionKey, [])]

example : (newRescueNode 5 257).open 9 ⟨exCompressed.enc, ~~~0⟩ none = .panic := by decide +kernel

end Btrfscue
