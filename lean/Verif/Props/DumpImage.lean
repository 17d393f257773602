import Verif.Props.Dump
import Verif.Props.EndToEndEx
import Verif.Props.ReconMore
/-!
# C87: from the image to the dump
-/

namespace Btrfscue

/-- A sorted store whose only entry of tree `2^64-1` is the metadata ends with it. -/
theorem sorted_ends {l : AStore} (hs : l.Sorted) {m : Bytes} (hm : (metadataVersionKey, m) ∈ l)
    (ho : ∀ e ∈ l, e.1.owner = ~~~0 → e.1 = metadataVersionKey) : ∃ vs : AStore, l = vs ++ [(metadataVersionKey, m)] := by
  obtain ⟨vs, r, rfl⟩ := List.append_of_mem hm
  cases r with
  | nil => exact ⟨vs, rfl⟩
  | cons e r =>
    exfalso
    have h1 := (List.pairwise_cons.mp (List.pairwise_append.mp hs).2.1).1 e (List.mem_cons_self ..)
    by_cases he : e.1.owner = ~~~0
    · rw [ho e (by simp) he] at h1
      exact Nat.lt_irrefl _ h1
    · have h2 : lexLt (VKey.fields metadataVersionKey) e.1.fields := VKey.num_lt_iff.mp h1
      have h3 : ((~~~0 : UInt64)).toNat ≤ e.1.owner.toNat := by
        have : metadataVersionKey.owner = ~~~0 := rfl
        rw [← this]
        simp only [VKey.fields, List.cons_append, lexLt] at h2
        rcases h2 with h2 | h2
        · omega
        · omega
      have h4 := e.1.owner.toNat_lt
      apply he
      rw [← UInt64.toNat_inj]
      have h5 : ((~~~0 : UInt64)).toNat = 2 ^ 64 - 1 := by decide
      omega

/-- Bytes 9 to 12 of the id are read as the length of the metadata entry's payload. -/
theorem metadata_data_panics (bs : UInt64) (id : UUID) (hid : 11 < leNat ((id.val.drop 9).take 4)) :
    Item.data ⟨newIndexMetadata (reconOptions bs id), []⟩ = .panic := by
  rw [newIndexMetadata_eq]
  have hl : (id.val).length = 16 := id.property
  have hlt := leNat_lt ((id.val.drop 9).take 4)
  have hs : Item.size ⟨le64 MetadataVersion ++ (le32 (reconOptions bs id).blockSize.toUInt32 ++ ((reconOptions bs id).fsid.val ++ le64 (reconOptions bs id).generation)), []⟩ =
      .ok (UInt32.ofNat (leNat ((id.val.drop 9).take 4))) := by
    rw [Item.size, u32at_skip _ _ _ _ (by rw [le64_length]; decide), u32at_skip _ _ _ _ (by rw [le64_length, le32_length]; decide), u32at_eq, le64_length, le32_length]
    rw [if_pos (by simp only [reconOptions, List.length_append, le64_length, hl, List.length_nil]; decide)]
    rw [List.append_nil, show itemSize - 8 - 4 = 9 from rfl, List.drop_append_of_le_length (by simp only [reconOptions]; omega),
      List.take_append_of_le_length (by simp only [reconOptions, List.length_drop]; omega)]
    rfl
  simp only [Item.data, hs, Go.ok_bind, Slice.sub]
  have h4 : ((id.val.drop 9).take 4).length = 4 := by simp only [List.length_take, List.length_drop, hl]; decide
  rw [h4] at hlt
  rw [if_neg]
  rintro ⟨h1, h2⟩
  have hcap : Slice.cap ⟨le64 MetadataVersion ++ (le32 (reconOptions bs id).blockSize.toUInt32 ++ ((reconOptions bs id).fsid.val ++ le64 (reconOptions bs id).generation)), []⟩ = 36 := by
    simp only [Slice.cap, reconOptions, List.length_append, le64_length, le32_length, hl, List.length_nil]
  rw [hcap, UInt32.toNat_add, UInt32.toNat_ofNat', UInt32.toNat_ofNat'] at h2
  rw [UInt32.toNat_add, UInt32.toNat_ofNat', UInt32.toNat_ofNat'] at h1
  have : ItemLen = 25 := rfl
  omega

/-- C87 (what is proved): recon, then dump-index. Of an image with at least one item the dump
has one line for every item of the image's leaves — for each of its versions — in the
order of tree, type, object, offset and generation, under the heading of its tree, and
at the end the entry the index keeps about itself. Missing: the last entry should not be
shown, and an image without items should not crash the command. -/
theorem C87_dump_of_image_partial (dev : Bytes) (bs : UInt64) (id : UUID) (ha : ReconArgs dev bs id)
    (hw : wellFormedDevice dev bs id) (hown : ∀ v d, imageItem dev bs.toNat id v d → v.owner ≠ ~~~0)
    (hne : ∃ v d, imageItem dev bs.toNat id v d) :
    ∃ vs : List VKey, vs.Pairwise VKey.before ∧ (∀ v, v ∈ vs ↔ ∃ d, imageItem dev bs.toNat id v d) ∧
      ∃ f, (∀ fuel, dev.length < fuel → recon fuel dev bs id .absent = (f, .done)) ∧
        ∀ fuel, vs.length + 1 < fuel →
          dumpIndexCommand fuel (some f) [] = .ok () (dumpText (~~~0) (vs ++ [metadataVersionKey])) := by
  obtain ⟨ops, fin, h1, h2⟩ := recon_fresh ha
  have hfin : fin = true := h1.fin_iff.mpr (hw.sound ha)
  subst hfin
  have hm : sparesMetadata ops := by
    cases hl : lastValue ops metadataVersionKey with
    | none => exact hl
    | some x =>
      obtain ⟨d, -, hd⟩ := wellFormed_item ha hw (lastValue_scan h1 hl)
      exact absurd rfl (hown _ d hd)
  have hsort := AStore.apply_sorted (AStore.init_sorted (reconOptions bs id)) ops
  have hmem : ∀ v x, (v, x) ∈ (AStore.init (reconOptions bs id)).apply ops → v ≠ metadataVersionKey →
      ∃ d, holdsItem x d ∧ imageItem dev bs.toNat id v d := by
    intro v x hx hv
    rcases fresh_stores.mp (enc_stores.mpr hx) with h3 | ⟨-, h3, -⟩
    · exact wellFormed_item ha hw (lastValue_scan h1 h3)
    · exact absurd h3 hv
  obtain ⟨es, hes⟩ := sorted_ends hsort (enc_stores.mp (fresh_stores.mpr (Or.inr ⟨hm, rfl, rfl⟩))) (fun e he ho => by
    by_cases hv : e.1 = metadataVersionKey
    · exact hv
    · obtain ⟨d, -, hd⟩ := hmem e.1 e.2 he hv
      exact absurd ho (hown _ d hd))
  rw [hes] at hsort
  have hnot : ∀ e ∈ es, e.1 ≠ metadataVersionKey := by
    intro e he h
    have := (List.pairwise_append.mp hsort).2.2 e he _ (List.mem_singleton.mpr rfl)
    rw [h] at this
    exact Nat.lt_irrefl _ this
  have hitem : ∀ e ∈ es, ∃ d, holdsItem e.2 d ∧ imageItem dev bs.toNat id e.1 d := fun e he =>
    hmem e.1 e.2 (by rw [hes]; exact List.mem_append_left _ he) (hnot e he)
  have hback : ∀ v d, imageItem dev bs.toNat id v d → ∃ y, (v, y) ∈ es := by
    intro v d hd
    obtain ⟨x, hx⟩ := imageItem_onDevice ha hd
    obtain ⟨y, hy⟩ := lastValue_complete h1 hx
    have hst := enc_stores.mp (fresh_stores (o := reconOptions bs id).mpr (Or.inl hy))
    rw [hes] at hst
    rcases List.mem_append.mp hst with h | h
    · exact ⟨y, h⟩
    · simp only [List.mem_singleton, Prod.mk.injEq] at h
      exact absurd (by rw [h.1]; rfl) (hown v d hd)
  have hopen : ∀ s : Bytes, (openView (some (.db (some ((AStore.init (reconOptions bs id)).apply ops).enc))) : Cmd Bytes Ix) s =
      .ok ⟨((AStore.init (reconOptions bs id)).apply ops).enc, ~~~0⟩ s := by
    intro s
    simp only [openView, openReadOnly_holds hm, Index.view, if_true, Cmd.lift_ok]
  refine ⟨es.map (·.1), ?_, fun v => ⟨fun hv => ?_, fun ⟨d, hd⟩ => ?_⟩, _, fun fuel hfu => h2 .absent (Or.inl rfl) fuel hfu, fun fuel hfu => ?_⟩
  · rw [List.pairwise_map]
    exact ((List.pairwise_append.mp hsort).1).imp fun h => VKey.num_lt_iff.mp h
  · obtain ⟨e, he, rfl⟩ := List.mem_map.mp hv
    obtain ⟨d, -, hd⟩ := hitem e he
    exact ⟨d, hd⟩
  · obtain ⟨y, hy⟩ := hback v d hd
    exact List.mem_map.mpr ⟨_, hy, rfl⟩
  · simp only [dumpIndexCommand, Cmd.bind_def, hopen]
    rw [hes]
    classical
    refine C73_dump_partial es _ ?_ hsort (fun x => if h : ∃ d, holdsItem x d then h.choose else []) (fun e he => ?_) fuel (by simpa using hfu)
    · rintro rfl
      obtain ⟨v, d, hd⟩ := hne
      obtain ⟨y, hy⟩ := hback v d hd
      cases hy
    · obtain ⟨d, hd, -⟩ := hitem e he
      have hex : ∃ d, holdsItem e.2 d := ⟨d, hd⟩
      simp only [dif_pos hex]
      exact hex.choose_spec

/-- C87 refuted for an image without leaves of the file system: recon ends well, dump-index
crashes — for nearly every file system id: the entry the index keeps about itself is taken
for an item whose length is in four bytes of the id. -/
theorem C87_empty_image_crashes (dev : Bytes) (bs : UInt64) (id : UUID) (ha : ReconArgs dev bs id)
    (hno : ∀ v x, ¬ onDevice dev bs.toNat id v x) (hs : soundDevice dev bs id) (hid : 11 < leNat ((id.val.drop 9).take 4))
    (fuel : Nat) (hf : dev.length < fuel) :
    ∃ f, recon fuel dev bs id .absent = (f, .done) ∧ ∀ n, dumpIndexCommand n (some f) [] = .crash [] := by
  obtain ⟨ops, fin, h1, h2⟩ := recon_fresh ha
  have hfin : fin = true := h1.fin_iff.mpr hs
  subst hfin
  have hnone : ∀ v, lastValue ops v = none := by
    intro v
    cases hl : lastValue ops v with
    | none => rfl
    | some x => exact absurd (lastValue_scan h1 hl) (hno v x)
  have hall : (AStore.init (reconOptions bs id)).apply ops = [(metadataVersionKey, newIndexMetadata (reconOptions bs id))] := by
    have hsort := AStore.apply_sorted (AStore.init_sorted (reconOptions bs id)) ops
    have hmem : ∀ e, e ∈ (AStore.init (reconOptions bs id)).apply ops ↔ e = (metadataVersionKey, newIndexMetadata (reconOptions bs id)) := by
      intro e
      rw [show e = (e.1, e.2) from rfl, ← enc_stores, fresh_stores]
      simp [hnone, Prod.ext_iff]
    cases hl : (AStore.init (reconOptions bs id)).apply ops with
    | nil => simp [hl] at hmem
    | cons a r =>
      rw [hl] at hmem hsort
      have ha' := (hmem a).mp (List.mem_cons_self ..)
      cases r with
      | nil => rw [ha']
      | cons c r =>
        have hc := (hmem c).mp (by simp)
        have := (List.pairwise_cons.mp hsort).1 c (List.mem_cons_self ..)
        rw [ha', hc] at this
        exact absurd this (Nat.lt_irrefl _)
  refine ⟨_, h2 .absent (Or.inl rfl) fuel hf, fun n => ?_⟩
  have hfull : (Ix.mk [(metadataVersionKey.encode, newIndexMetadata (reconOptions bs id))] (~~~0)).fullRange = .panic := by
    simp only [Ix.fullRange, Bucket.first, Cursor.cur, Range.setTo, List.getElem?_cons_zero, metadata_data_panics bs id hid]
    rfl
  simp only [dumpIndexCommand, openView, openReadOnly_holds (hnone _), Index.view, if_true, Cmd.bind_def, Cmd.lift_ok, doDumpIndex]
  rw [hall]
  simp only [AStore.enc, List.map_cons, List.map_nil, hfull, Cmd.lift_panic]

/-- The image of C84's example meets the hypotheses of `C87_dump_of_image_partial`: it holds
20 item versions. -/
example : ReconArgs exAllImage 4096 uuidAllFs ∧ wellFormedDevice exAllImage 4096 uuidAllFs ∧
    (∀ v d, imageItem exAllImage (4096 : UInt64).toNat uuidAllFs v d → v.owner ≠ ~~~0) ∧
    (∃ v d, imageItem exAllImage (4096 : UInt64).toNat uuidAllFs v d) ∧ (leafItems exAllLeaves).length = 20 := by
  refine ⟨leaves_args exAllLeaves_ok (by decide), leaves_wellFormed exAllLeaves_ok, fun v d h => ?_,
    ⟨⟨1, ⟨256, 132, 0⟩, 10⟩, [1], (leaves_item exAllLeaves_ok).mpr (by decide +kernel)⟩, by decide +kernel⟩
  have key : ∀ e ∈ leafItems exAllLeaves, e.1.owner ≠ ~~~0 := by decide +kernel
  exact key _ ((leaves_item exAllLeaves_ok).mp h)

/-- An image of zeroes makes dump-index crash. -/
example : ∃ f, recon (2 ^ 28) exZeroDev 4096 uuidAllFs .absent = (f, .done) ∧ ∀ n, dumpIndexCommand n (some f) [] = .crash [] :=
  C87_empty_image_crashes exZeroDev 4096 uuidAllFs exZero_args exZero_empty exZero_sound (by decide +kernel) _ (by
    rw [exZeroDev, oneBlockDevice_length, List.length_replicate]; decide)

end Btrfscue
