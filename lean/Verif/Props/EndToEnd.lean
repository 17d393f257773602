import Verif.Model.Commands
import Verif.Spec.Image
import Verif.Proof.SameItems
import Verif.Props.Recon
import Verif.Props.RecoverAll
/-!
# C84: from the image to the recovered files
-/

namespace Btrfscue

theorem itemRec_layout_inj {r r' : ItemRec} (h : r.layout = r'.layout) : r = r' := by
  obtain ⟨-, h1, h2, h3⟩ := C07_Item_decodes r [] []
  obtain ⟨-, h1', h2', h3'⟩ := C07_Item_decodes r' [] []
  rw [h] at h1 h2 h3
  rw [h1] at h1'; rw [h2] at h2'; rw [h3] at h3'
  simp only [Go.ok.injEq] at h1' h2' h3'
  cases r
  cases r'
  simp only at h1' h2' h3'
  rw [h1', h2', h3']

theorem blockItemRec_unique {b : Bytes} {i : Nat} {hdr hdr' : HeaderRec} {r r' : ItemRec} (h : blockItemRec b i hdr r)
    (h' : blockItemRec b i hdr' r') : r = r' := by
  obtain ⟨p, hp⟩ := item_hdr h
  obtain ⟨p', hp'⟩ := item_hdr h'
  rw [hp] at hp'
  simp only [Go.ok.injEq, Slice.mk.injEq] at hp'
  exact itemRec_layout_inj hp'.1

theorem leafPayloads_ge {items : List (Key × Bytes)} {k : Key} {d : Bytes} (h : (k, d) ∈ items) : d.length ≤ (leafPayloads items).length := by
  induction items with
  | nil => cases h
  | cons e r ih =>
    obtain ⟨k', d'⟩ := e
    simp only [leafPayloads, List.length_append]
    rcases List.mem_cons.mp h with h | h
    · simp only [Prod.mk.injEq] at h
      rw [h.2]
      omega
    · have := ih h
      omega

/-- The payload of an item stored by recon. -/
theorem wellFormed_item {dev : Bytes} {bs : UInt64} {id : UUID} (ha : ReconArgs dev bs id) (hw : wellFormedDevice dev bs id)
    {v : VKey} {x : Bytes} (h : onDevice dev bs.toNat id v x) : ∃ d, holdsItem x d ∧ imageItem dev bs.toNat id v d := by
  obtain ⟨blk, hmem, hleaf, i, hi⟩ := h
  obtain ⟨hdr, items, gap, rfl, hn⟩ := hw blk hmem hleaf
  obtain ⟨j, hj⟩ := List.getElem?_of_mem hmem
  have h3 := scanBlocks_get (by have := ha.1; omega) hj
  have hs : (leafImage hdr items gap).length < 2 ^ 32 := by rw [h3.2.1]; exact ha.2
  obtain ⟨hdr0, rest0, he0, hid, hlv, -⟩ := hleaf
  obtain ⟨hdr1, r1, hr1, rfl, rfl⟩ := hi
  have hh0 := header_unique (he0.symm.trans (leafImage_hdr hdr items gap).choose_spec)
  have hr1' := hr1
  obtain ⟨pre, post, he1, -, hlt, -⟩ := hr1'
  have hh1 := header_unique (he1.symm.trans (leafImage_hdr hdr items gap).choose_spec)
  rw [hh1.2.2.2.1, hn] at hlt
  obtain ⟨r2, hk2, hsz2, hdr2, r3, hr3, hv3, hx3⟩ := leafImage_item hn hs (i := i) (k := items[i].1) (d := items[i].2) (by simp [hlt])
  have he := blockItemRec_unique hr1 hr3
  subst he
  have hmi : items[i] ∈ items := List.getElem_mem hlt
  have hlen := leafImage_length hdr items gap
  have hge := leafPayloads_ge (k := items[i].1) (d := items[i].2) hmi
  have hpos : 0 < items.length := by omega
  have hinj := List.append_inj hx3 (by rw [itemRec_length, itemRec_length])
  have hr := itemRec_layout_inj hinj.1
  subst hr
  refine ⟨items[i].2, ⟨r2, [], by rw [List.append_nil, hinj.2], hsz2, by omega⟩, hdr, items, gap, hmem, hn, ?_, ?_, ?_, ?_, ?_⟩
  · rw [← hid, hh0.2.2.2.2.1]
  · rw [← hlv, hh0.2.2.2.2.2]
  · exact hh1.2.1
  · exact hh1.2.2.1
  · show (r2.key, items[i].2) ∈ items
    rw [hk2]
    exact hmi

/-- An item of the image is found by the scan. -/
theorem imageItem_onDevice {dev : Bytes} {bs : UInt64} {id : UUID} (ha : ReconArgs dev bs id) {v : VKey} {d : Bytes}
    (h : imageItem dev bs.toNat id v d) : ∃ x, onDevice dev bs.toNat id v x := by
  obtain ⟨hdr, items, gap, hmem, hn, hid, hlv, ho, hg, hi⟩ := h
  obtain ⟨j, hj⟩ := List.getElem?_of_mem hmem
  have h3 := scanBlocks_get (by have := ha.1; omega) hj
  obtain ⟨i, hi'⟩ := List.getElem?_of_mem hi
  obtain ⟨r, h4, h5, h6⟩ := leafImage_item hn (by rw [h3.2.1]; exact ha.2) hi'
  have hne : hdr.nrItems ≠ 0 := by
    intro h0
    rw [h0] at hn
    have : 0 < items.length := List.length_pos_of_mem hi
    simp at hn
    omega
  refine ⟨r.layout ++ d, _, hmem, leafImage_leafOf hid hlv hne, i, ?_⟩
  have hv : v = ⟨hdr.owner, v.key, hdr.generation⟩ := by
    rw [← ho, ← hg]
  rw [hv]
  exact h6

/-- What recon makes of an image is the index of the image. -/
theorem recon_indexOf {dev : Bytes} {bs : UInt64} {id : UUID} (ha : ReconArgs dev bs id) (hw : wellFormedDevice dev bs id)
    (hg : imageAgrees dev bs.toNat id) (hsp : ∀ d, ¬ imageItem dev bs.toNat id metadataVersionKey d) :
    ∃ r : Bucket, r.IndexOf dev bs.toNat id ∧ (∀ f : DBFile, f.fresh → ∀ fuel, dev.length < fuel → recon fuel dev bs id f = (.db (some r), .done)) ∧
      ∃ ix, OpenReadOnly (.db (some r)) = .ok (.db (some r), .ok ix) ∧ ix.view = .ok ⟨r, ~~~0⟩ := by
  obtain ⟨ops, fin, h1, h2⟩ := recon_fresh ha
  have hfin : fin = true := h1.fin_iff.mpr (hw.sound ha)
  subst hfin
  have hm : sparesMetadata ops := by
    cases hl : lastValue ops metadataVersionKey with
    | none => exact hl
    | some x =>
      obtain ⟨d, -, hd⟩ := wellFormed_item ha hw (lastValue_scan h1 hl)
      exact absurd hd (hsp d)
  have hsnd : ∀ v x, Bucket.stores ((AStore.init (reconOptions bs id)).apply ops).enc v x → v ≠ metadataVersionKey →
      ∃ d, holdsItem x d ∧ imageItem dev bs.toNat id v d := by
    intro v x hx hv
    rcases fresh_stores.mp hx with h3 | ⟨-, h3, -⟩
    · exact wellFormed_item ha hw (lastValue_scan h1 h3)
    · exact absurd h3 hv
  refine ⟨_, ⟨AStore.enc_wf (AStore.apply_sorted (AStore.init_sorted _) ops),
      ⟨_, fresh_stores.mpr (Or.inr ⟨hm, rfl, rfl⟩)⟩, hsp, hsnd, fun v d hd => ?_⟩, fun f hf fuel hfu => h2 f hf fuel hfu, _,
    openReadOnly_holds hm, rfl⟩
  obtain ⟨x, hx⟩ := imageItem_onDevice ha hd
  obtain ⟨y, hy⟩ := lastValue_complete h1 hx
  have hst := fresh_stores (o := reconOptions bs id).mpr (Or.inl hy)
  have hv : v ≠ metadataVersionKey := by
    rintro rfl
    exact hsp d hd
  obtain ⟨d', hd1, hd2⟩ := hsnd v y hst hv
  rw [hg v d d' hd hd2]
  exact ⟨y, hst, hd1⟩

/-- Two indexes of one image say the same. -/
theorem Bucket.IndexOf.same {a b : Bucket} {dev : Bytes} {bs : Nat} {id : UUID} (ha : a.IndexOf dev bs id) (hb : b.IndexOf dev bs id) :
    a.SameItems b := by
  have key : ∀ {a b : Bucket}, a.IndexOf dev bs id → b.IndexOf dev bs id → (∀ v, (∃ x, a.stores v x) → ∃ x, b.stores v x) ∧
      ∀ v d, v ≠ metadataVersionKey → (∃ x, a.stores v x ∧ holdsItem x d) → ∃ x, b.stores v x ∧ holdsItem x d := by
    intro a b ha hb
    constructor
    · rintro v ⟨x, hx⟩
      by_cases hv : v = metadataVersionKey
      · subst hv
        exact hb.metadata
      · obtain ⟨d, -, h2⟩ := ha.sound v x hx hv
        obtain ⟨y, hy, -⟩ := hb.complete v d h2
        exact ⟨y, hy⟩
    · rintro v d hv ⟨x, hx, hd⟩
      obtain ⟨d', h1, h2⟩ := ha.sound v x hx hv
      rw [hd.unique h1]
      exact hb.complete v d' h2
  exact ⟨ha.wf, hb.wf, fun v => ⟨(key ha hb).1 v, (key hb ha).1 v⟩, fun v d hv => ⟨(key ha hb).2 v d hv, (key hb ha).2 v d hv⟩⟩

/-- C84: recon, then recover. The image holds a file system that is undamaged in the sense of
C83: the index `b` of its items — which is unique up to things that do not matter, see
`Bucket.IndexOf.same` — is undamaged and what is in it can be recovered. Then scanning the
image and recovering from it with the index file made by the scan recovers everything: every
directory is there, in it every file with the contents the image gives it and every link with
its target. Missing: what C83 does not cover. -/
theorem C84_image_recovered_partial (dev : Bytes) (bs : UInt64) (id : UUID) (ha : ReconArgs dev bs id)
    (hw : wellFormedDevice dev bs id) (hg : imageAgrees dev bs.toNat id) (b : Bucket) (hb : b.IndexOf dev bs.toNat id)
    (gc : UInt64) (hu : b.Undamaged gc) :
    ∃ N, ∀ rf fuel, N ≤ rf → N ≤ fuel → ∀ env, Quiet env dev → ∀ fs dest r, EmptyDest fs dest r → b.Recoverable gc dev dest →
      ∃ f s', recon fuel dev bs id .absent = (f, .done) ∧
        recoverCommand env rf fuel (some f) true false dest (RecState.start fs) = .ok () s' ∧ s'.silent ∧
        ∀ o d p0, b.BelongsAt dest o d p0 → ∃ p, b.BelongsAt dest o d p ∧ s'.fs.stat true p = some true ∧
          ∀ name e, b.entryNow o d name e → e.location.typ ≠ 132 →
            (e.typ = 1 → ∃ x, s'.fs.readFile (goJoin p name) = some x ∧ b.contentIs gc dev o e.location.objectID x) ∧
            (e.typ = 7 → ∃ x, s'.fs.readLink (goJoin p name) = some x ∧ b.targetIs o e.location.objectID x) := by
  obtain ⟨c, hc, h1, ix, h2, h3⟩ := recon_indexOf ha hw hg hb.spared
  have hs := hb.same hc
  obtain ⟨m, hm⟩ := hc.metadata
  obtain ⟨N, hN⟩ := C83_recovers_all_partial c hc.wf m hm gc (hs.undamaged hu)
  refine ⟨N + dev.length + 1, fun rf fuel hrf hfuel env hq fs dest r he hr => ?_⟩
  obtain ⟨s', k1, k2, k3⟩ := hN rf (by omega) fuel (by omega) env dev hq fs dest r he (hs.recoverableAll hr)
  refine ⟨_, s', h1 .absent (Or.inl rfl) fuel (by omega), ?_, k2, fun o d p0 hp0 => ?_⟩
  · have hopen : (openView (some (.db (some c))) : Rec Ix) (RecState.start fs) = .ok ⟨c, ~~~0⟩ (RecState.start fs) := by
      simp only [openView, h2, h3, Cmd.lift_ok]
    simp only [recoverCommand, Cmd.bind_def, hopen, if_true]
    exact k1
  · obtain ⟨p, l1, l2, l3⟩ := k3 o d p0 (hs.belongsAt hp0)
    refine ⟨p, hs.symm.belongsAt l1, l2, fun name e hen ht => ?_⟩
    obtain ⟨l4, l5⟩ := l3 name e (hs.entryNow hen) ht
    refine ⟨fun h => ?_, fun h => ?_⟩
    · obtain ⟨x, l6, l7⟩ := l4 h
      exact ⟨x, l6, hs.symm.contentIs l7⟩
    · obtain ⟨x, l6, l7⟩ := l5 h
      exact ⟨x, l6, hs.symm.targetIs l7⟩

/-- C84: and nothing else is there afterwards, at whatever point the run of recover is
stopped. -/
theorem C84_nothing_else (dev : Bytes) (bs : UInt64) (id : UUID) (ha : ReconArgs dev bs id)
    (hw : wellFormedDevice dev bs id) (hg : imageAgrees dev bs.toNat id) (b : Bucket) (hb : b.IndexOf dev bs.toNat id)
    (gc : UInt64) (hu : b.Undamaged gc) :
    ∃ N, ∀ rf fuel, N ≤ rf → N ≤ fuel → ∀ env, Honest env dev → (∀ n, env.fails .stat n = false) → ∀ fs dest r,
      EmptyDest fs dest r → b.Recoverable gc dev dest →
      ∃ f, recon fuel dev bs id .absent = (f, .done) ∧ ∀ fuel',
        ∀ fs', (recoverCommand env rf fuel' (some f) true false dest (RecState.start fs)).state.reached fs' →
        ∀ A i, fs'.down r A = some i →
          (fs'.isDirAt i = true ∧ ∃ o d, b.BelongsAt dest o d (pathOf dest A)) ∨
          ∃ o d p name e x, b.BelongsAt dest o d p ∧ b.entryNow o d name e ∧ pathOf dest A = goJoin p name ∧
            ((e.typ = 1 ∧ fs'.inodes[i]? = some (.file x)) ∨ (e.typ = 7 ∧ fs'.inodes[i]? = some (.link x))) := by
  obtain ⟨c, hc, h1, ix, h2, h3⟩ := recon_indexOf ha hw hg hb.spared
  have hs := hb.same hc
  obtain ⟨m, hm⟩ := hc.metadata
  obtain ⟨N, hN⟩ := C83_nothing_else c hc.wf m hm gc (hs.undamaged hu)
  refine ⟨N + dev.length + 1, fun rf fuel hrf hfuel env hq hst fs dest r he hr => ?_⟩
  refine ⟨_, h1 .absent (Or.inl rfl) fuel (by omega), fun fuel' fs' hfs A i hi => ?_⟩
  have hopen : (openView (some (.db (some c))) : Rec Ix) (RecState.start fs) = .ok ⟨c, ~~~0⟩ (RecState.start fs) := by
    simp only [openView, h2, h3, Cmd.lift_ok]
  have main : (doRecoverFiles env rf fuel' ⟨c, ~~~0⟩ false dest (RecState.start fs)).state.reached fs' → _ := fun hx =>
    hN rf (by omega) fuel' env dev hq hst fs dest r he (hs.recoverableAll hr) fs' hx A i hi
  have back : (doRecoverFiles env rf fuel' ⟨c, ~~~0⟩ false dest (RecState.start fs)).state.reached fs' := by
    simp only [recoverCommand, Cmd.bind_def, hopen, if_true] at hfs
    exact hfs
  rcases main back with ⟨k1, o, d, k2⟩ | ⟨o, d, p, name, e, x, k1, k2, k3⟩
  · exact Or.inl ⟨k1, o, d, hs.symm.belongsAt k2⟩
  · exact Or.inr ⟨o, d, p, name, e, x, hs.symm.belongsAt k1, hs.symm.entryNow k2, k3⟩

end Btrfscue
