import Verif.Props.MountContent
import Verif.Props.EndToEndEx
/-!
# C85, C86: from the image to the mounted file system; examples
-/

namespace Btrfscue

namespace Bucket.SameItems

variable {a b : Bucket}

theorem leadsTo (h : a.SameItems b) {o d : UInt64} {names : List Bytes} {o' i : UInt64} (hl : a.LeadsTo o d names o' i) :
    b.LeadsTo o d names o' i := by
  induction hl with
  | here => exact .here
  | step h1 _ ih => exact .step (h.entryNow h1) ih

theorem inodeNow (h : a.SameItems b) {o i : UInt64} {f : InodeItemRec} (hf : a.inodeNow o i f) : b.inodeNow o i f := by
  obtain ⟨g, x, rest, h1, h2, h3⟩ := hf
  obtain ⟨y, hy, hd⟩ := h.get (by show ¬ (1 : UInt8) = 255; decide) h2 h3
  exact ⟨g, y, rest, h.newest.mp h1, hy, hd⟩

theorem mountable (h : a.SameItems b) (hm : a.Mountable) : b.Mountable where
  inodes o ho i hk := by
    obtain ⟨f, hf⟩ := hm.inodes o ho i (h.hasKey.mpr hk)
    exact ⟨f, h.inodeNow hf⟩
  trees o d name e he := hm.trees o d name e (h.symm.entryNow he)
  present o d name e he := h.hasKey.mp (hm.present o d name e (h.symm.entryNow he))

end Bucket.SameItems

/-- C85: recon, then mount. The image holds an undamaged file system (as in C84). Then the
index file made by scanning it opens, and in the mounted file system every path below
`rescue` leads where the entries in the image lead; directories have the entries the image
gives them; everything has the attributes of its inode item, and links their targets. -/
theorem C85_image_partial (dev : Bytes) (bs : UInt64) (id : UUID) (ha : ReconArgs dev bs id)
    (hw : wellFormedDevice dev bs id) (hg : imageAgrees dev bs.toNat id) (b : Bucket) (hb : b.IndexOf dev bs.toNat id)
    (gc : UInt64) (hu : b.Undamaged gc) (hM : b.Mountable) :
    ∃ N, ∀ fuel, N ≤ fuel → ∃ f ix v, recon fuel dev bs id .absent = (f, .done) ∧ OpenReadOnly f = .ok (f, .ok ix) ∧ ix.view = .ok v ∧
      ∀ names,
        ((∀ o i, ¬ b.LeadsTo 5 256 names o i) → mountWalk fuel v (ascii "rescue" :: names) = .ok none) ∧
        ∀ o i, b.LeadsTo 5 256 names o i → ∃ c, mountWalk fuel v (ascii "rescue" :: names) = .ok (some c) ∧ c.owner = o ∧ c.ixInode = i ∧
          (∀ ord, MapOrder ord → ∃ n es, c.openDir fuel ord v = .ok (n, es) ∧ (es.map (·.1)).Nodup ∧
            ∀ name isDir, (name, isDir) ∈ es ↔ ∃ e, b.entryNow o i name e ∧ isDir = (e.typ == 2)) ∧
          (∀ f, b.inodeNow o i f → f.timesOK → ∃ n a, c.getAttr v = .ok (n, .ok a) ∧ attrSays i f a) ∧
          ∀ x, b.targetIs o i x → c.readlink v = .ok (.ok x) := by
  obtain ⟨r, hr, h1, ix, h2, h3⟩ := recon_indexOf ha hw hg hb.spared
  have hs := hb.same hr
  obtain ⟨m, hm⟩ := hr.metadata
  have hu' := hs.undamaged hu
  have hM' := hs.mountable hM
  obtain ⟨N1, k1⟩ := C85_paths_partial r hr.wf m hm gc hu' hM'
  obtain ⟨N2, k2⟩ := C85_listing_partial r hr.wf m hm gc hu' hM'
  obtain ⟨N3, k3⟩ := C85_attributes_partial r hr.wf m hm gc hu' hM'
  obtain ⟨N4, k4⟩ := C85_links_partial r hr.wf m hm gc hu' hM'
  refine ⟨N1 + N2 + N3 + N4 + dev.length + 1, fun fuel hf => ⟨_, ix, _, h1 .absent (Or.inl rfl) fuel (by omega), h2, h3, fun names => ?_⟩⟩
  obtain ⟨w, hw1, hw2⟩ := k1 fuel (by omega) names
  constructor
  · intro hno
    rw [hw1]
    cases w with
    | none => rfl
    | some c => exact absurd (hs.symm.leadsTo ((hw2 c.owner c.ixInode).mp ⟨c, rfl, rfl, rfl⟩)) (hno _ _)
  · intro o i hl
    have hl' := hs.leadsTo hl
    obtain ⟨c, rfl, hc1, hc2⟩ := (hw2 o i).mpr hl'
    refine ⟨c, hw1, hc1, hc2, fun ord hord => ?_, fun f hf ht => ?_, fun x hx => ?_⟩
    · obtain ⟨c', n, es, g1, g2, g3, g4⟩ := k2 fuel (by omega) names o i hl' ord hord
      rw [hw1] at g1
      simp only [Go.ok.injEq, Option.some.injEq] at g1
      subst g1
      refine ⟨n, es, g2, g3, fun name isDir => (g4 name isDir).trans ⟨?_, ?_⟩⟩
      · rintro ⟨e, he, hd⟩; exact ⟨e, hs.symm.entryNow he, hd⟩
      · rintro ⟨e, he, hd⟩; exact ⟨e, hs.entryNow he, hd⟩
    · obtain ⟨c', n, a, g1, g2, g3⟩ := k3 fuel (by omega) names o i hl' f (hs.inodeNow hf) ht
      rw [hw1] at g1
      simp only [Go.ok.injEq, Option.some.injEq] at g1
      subst g1
      exact ⟨n, a, g2, g3⟩
    · obtain ⟨c', g1, g2⟩ := k4 fuel (by omega) names o i hl' x (hs.targetIs hx)
      rw [hw1] at g1
      simp only [Go.ok.injEq, Option.some.injEq] at g1
      subst g1
      exact g2

/-- C86: the same, starting from the image: the mounted index made by recon shows the contents
that the image gives the file, which are those that recover writes (C84). -/
theorem C86_image_partial (dev : Bytes) (bs : UInt64) (id : UUID) (ha : ReconArgs dev bs id)
    (hw : wellFormedDevice dev bs id) (hg : imageAgrees dev bs.toNat id) (b : Bucket) (hb : b.IndexOf dev bs.toNat id)
    (gc : UInt64) (hu : b.Undamaged gc) (hM : b.Mountable) (names : List Bytes) (o i : UInt64)
    (hl : b.LeadsTo 5 256 names o i) (hr : b.recoverable gc o i) (hdev : ∀ g, b.FileOK o i g gc → b.OnDevice o i g gc dev)
    (hne : ∃ off, b.hasKey o ⟨i, 108, off⟩) (hzero : ∀ g start data, b.InlineFile o i g start data → start = 0)
    (x : Bytes) (hx : b.contentIs gc dev o i x) :
    ∃ N h, (∀ fuel, N ≤ fuel → ∃ f ix v c r, recon fuel dev bs id .absent = (f, .done) ∧ OpenReadOnly f = .ok (f, .ok ix) ∧
        ix.view = .ok v ∧ mountWalk fuel v (ascii "rescue" :: names) = .ok (some c) ∧ c.open fuel v none = .ok (r, .ok h)) ∧
      ((∃ data, h = .data data ∧ ∀ k, k < x.length → x[k]? = some ((data[k]?).getD 0)) ∨
       ∃ ext, h = .extents ext ∧ ∀ off g f, b.newest o ⟨i, 108, off⟩ g → b.extentAt o i g off f → ∀ (buf : Bytes) (p : Nat),
        buf ≠ [] → off.toNat ≤ p → p + buf.length ≤ off.toNat + f.numBytes.toNat → p + buf.length ≤ x.length →
        extentFileRead (some (imageReader dev)) ext buf p = .ok (.ok ((x.drop p).take buf.length))) := by
  obtain ⟨r, hr', h1, ix, h2, h3⟩ := recon_indexOf ha hw hg hb.spared
  have hs := hb.same hr'
  obtain ⟨m, hm⟩ := hr'.metadata
  have hD : dev.length < 2 ^ 63 := ha.dev_small
  obtain ⟨N, h, k1, k2⟩ := C86_same_content_partial r hr'.wf m hm gc (hs.undamaged hu) (hs.mountable hM) dev hD names o i
    (hs.leadsTo hl) (hs.recoverable hr) (fun g hf => hs.onDevice (hdev g (hs.symm.fileOK hf)))
    (hne.imp fun _ h => hs.hasKey.mp h) (fun g start data h => hzero g start data (hs.symm.inlineFile h)) x (hs.contentIs hx)
  refine ⟨N + dev.length + 1, h, fun fuel hf => ?_, ?_⟩
  · obtain ⟨c, q, g1, g2⟩ := k1 fuel (by omega)
    exact ⟨_, ix, _, c, q, h1 .absent (Or.inl rfl) fuel (by omega), h2, h3, g1, g2⟩
  · rcases k2 with k2 | ⟨ext, e1, e2⟩
    · exact Or.inl k2
    · exact Or.inr ⟨ext, e1, fun off g f hn he => e2 off g f (hs.newest.mp hn) (hs.extentAt he)⟩

/-! ## Examples -/

theorem exAll_mountable : exAll.enc.Mountable where
  inodes o ho i hk := by
    obtain ⟨g, x, hx⟩ := enc_hasKey.mp hk
    have key : ∀ e ∈ exAll, e.1.key.typ = 1 → (e.1.owner = 5 ∧ e.1.gen = 10 ∧ e.2 = mkItem e.1.key (exInode 5).layout) ∨
        (e.1.owner = 256 ∧ e.1.gen = 11 ∧ e.2 = mkItem e.1.key (exInode 3).layout) := by decide +kernel
    rcases key _ hx rfl with ⟨h1, h2, h3⟩ | ⟨h1, h2, h3⟩
    · simp only at h1 h2 h3
      subst h1 h2
      refine ⟨exInode 5, 10, x, [], exAll_newest5 hk, enc_stores.mpr hx, ?_⟩
      rw [h3, List.append_nil]
      exact mkItem_holds _ _ (by simp [InodeItemRec.layout, exInode])
    · simp only at h1 h2 h3
      subst h1 h2
      refine ⟨exInode 3, 11, x, [], exAll_newest256 hk, enc_stores.mpr hx, ?_⟩
      rw [h3, List.append_nil]
      exact mkItem_holds _ _ (by simp [InodeItemRec.layout, exInode])
  trees o d name e he _ := by
    have : ∀ x ∈ exAllEntries, x.2.2.2.2.objectID ≠ ~~~0 := by decide
    exact this _ (exAll_entry he)
  present o d name e he := by
    have : ∀ x ∈ exAllEntries, ∃ y ∈ exAll, y.1.owner = (target x.1 x.2.2.2.2).1 ∧ y.1.key = ⟨(target x.1 x.2.2.2.2).2, 1, 0⟩ := by decide +kernel
    obtain ⟨⟨⟨yo, yk, yg⟩, yx⟩, h1, h2, h3⟩ := this _ (exAll_entry he)
    simp only at h2 h3
    subst h2 h3
    exact enc_hasKey.mpr ⟨_, _, h1⟩

/-- "s/f" leads to file 257 of the subvolume 256, "b/c" to the link 259. -/
theorem exAll_leads : exAll.enc.LeadsTo 5 256 [[115], [102]] 256 257 ∧ exAll.enc.LeadsTo 5 256 [[98], [99]] 5 259 := by
  obtain ⟨e1, h1, -, l1⟩ := entry_of_mem (o := 5) (d := 256) (n := [115]) (t := 2) (loc := ⟨256, 132, ~~~0⟩) (by decide)
  obtain ⟨e2, h2, -, l2⟩ := entry_of_mem (o := 256) (d := 256) (n := [102]) (t := 1) (loc := ⟨257, 1, 0⟩) (by decide)
  obtain ⟨e3, h3, -, l3⟩ := entry_of_mem (o := 5) (d := 256) (n := [98]) (t := 2) (loc := ⟨258, 1, 0⟩) (by decide)
  obtain ⟨e4, h4, -, l4⟩ := entry_of_mem (o := 5) (d := 258) (n := [99]) (t := 7) (loc := ⟨259, 1, 0⟩) (by decide)
  have t1 : target 5 e1.location = (256, 256) := by rw [l1]; decide
  have t2 : target 256 e2.location = (256, 257) := by rw [l2]; decide
  have t3 : target 5 e3.location = (5, 258) := by rw [l3]; decide
  have t4 : target 5 e4.location = (5, 259) := by rw [l4]; decide
  refine ⟨.step h1 ?_, .step h3 ?_⟩
  · rw [t1]
    refine .step h2 ?_
    rw [t2]
    exact .here
  · rw [t3]
    refine .step h4 ?_
    rw [t4]
    exact .here

/-- The hypotheses of C85 are met: by the image with five leaves, a file in a subvolume, and
a link ... -/
example : ReconArgs exAllImage 4096 uuidAllFs ∧ wellFormedDevice exAllImage 4096 uuidAllFs ∧
    imageAgrees exAllImage (4096 : UInt64).toNat uuidAllFs ∧ exAll.enc.IndexOf exAllImage (4096 : UInt64).toNat uuidAllFs ∧
    exAll.enc.Undamaged 7 ∧ exAll.enc.Mountable ∧ exAll.enc.LeadsTo 5 256 [[115], [102]] 256 257 ∧
    exAll.enc.LeadsTo 5 256 [[98], [99]] 5 259 ∧ exAll.enc.targetIs 5 259 [46, 46] ∧
    exAll.enc.inodeNow 256 257 (exInode 3) ∧ (exInode 3).timesOK := by
  refine ⟨leaves_args exAllLeaves_ok (by decide), leaves_wellFormed exAllLeaves_ok, exAll_agrees, exAll_indexOf, exAll_undamaged,
    exAll_mountable, exAll_leads.1, exAll_leads.2, exAll_link, ?_, by unfold InodeItemRec.timesOK; decide⟩
  exact ⟨11, mkItem ⟨257, 1, 0⟩ (exInode 3).layout, [],
    exAll_newest256 (enc_hasKey.mpr ⟨11, mkItem ⟨257, 1, 0⟩ (exInode 3).layout, by decide +kernel⟩), enc_stores.mpr (by decide +kernel),
    by rw [List.append_nil]; exact mkItem_holds _ _ (by simp [InodeItemRec.layout, exInode])⟩

/-- The hypotheses of C86 are met: by the file "s/f", which has a regular extent ... -/
example : exAll.enc.LeadsTo 5 256 [[115], [102]] 256 257 ∧ exAll.enc.recoverable 7 256 257 ∧
    (∀ g, exAll.enc.FileOK 256 257 g 7 → exAll.enc.OnDevice 256 257 g 7 [0, 0, 0, 0, 4, 5, 6]) ∧
    (∃ off, exAll.enc.hasKey 256 ⟨257, 108, off⟩) ∧
    (∀ g start data, exAll.enc.InlineFile 256 257 g start data → start = 0) ∧
    exAll.enc.contentIs 7 [0, 0, 0, 0, 4, 5, 6] 256 257 [4, 5, 6] ∧
    exAll.enc.newest 256 ⟨257, 108, 0⟩ 11 ∧ exAll.enc.extentAt 256 257 11 0 ⟨9, 3, 0, 0, 0, 1, 20, 64, 0, 3⟩ := by
  have hk : exAll.enc.hasKey 256 ⟨257, 108, 0⟩ :=
    enc_hasKey.mpr ⟨11, mkItem ⟨257, 108, 0⟩ (FileExtentItemRec.mk 9 3 0 0 0 1 20 64 0 3).layout, by decide +kernel⟩
  refine ⟨exAll_leads.1, exAll_file (Or.inr rfl), fun g _ => exAll_onDevice (by decide) g, ⟨0, hk⟩,
    fun g start data h => (exAll_fileOK.not_inline (AStore.enc_wf exAll_sorted) h).elim,
    ⟨3, exAll_size, rfl, Or.inl ⟨11, exAll_fileOK, fun k v hv => Or.inl ⟨0, _, exAll_extentAt, ?_, Or.inr ⟨by decide, ⟨rfl, rfl, rfl, rfl⟩, 1, 4, exAll_translated, ?_⟩⟩⟩⟩,
    exAll_newest256 hk, exAll_extentAt⟩
  · have : k < 3 := (List.getElem?_eq_some_iff.mp hv).1
    exact ⟨by simp, by show k < 0 + 3; omega⟩
  · have : k < 3 := (List.getElem?_eq_some_iff.mp hv).1
    rcases k with _ | _ | _ | k
    · exact hv
    · exact hv
    · exact hv
    · omega

/-- ... and reading the mounted file gives the bytes that are on the device. -/
example : (match mountWalk 40 ⟨exAll.enc, ~~~0⟩ [ascii "rescue", [115], [102]] with
    | .ok (some c) =>
      match c.open 40 ⟨exAll.enc, ~~~0⟩ none with
      | .ok (_, .ok (.extents ext)) =>
        match extentFileRead (some (imageReader [0, 0, 0, 0, 4, 5, 6])) ext [9, 9] 1 with
        | .ok (.ok d) => d
        | _ => []
      | _ => []
    | _ => []) = [5, 6] := by decide +kernel

end Btrfscue
