import Verif.Proof.ReconFault
import Verif.Props.ReconMore
/-!
# C90: recon when writing the index fails

`w m` is what happens to commit number `m` of the run (full disk, I/O error); the last
component of the result of `doScanFSF` is the number of commits that were tried.
-/

namespace Btrfscue

/-- C90: if `recon` ends without an error, no write failed, and the index is the one made
when writes cannot fail. For every device, option and previous index. -/
theorem C90_done_means_written (w : Writes) (fuel : Nat) (r : ReaderAt) (seek : Option UInt64) (bs : UInt64) (id : UUID)
    (f f' : DBFile) (n : Nat) (h : doScanFSF w fuel r seek bs id f = (f', .done, n)) :
    (∀ m, m < n → w m = .ok) ∧ doScanFS fuel r seek bs id f = (f', .done) := by
  obtain ⟨f1, e, n1, h1, h2⟩ := Sim.scan w fuel r seek bs id f
  rw [h1] at h
  simp only [Prod.mk.injEq] at h
  obtain ⟨rfl, rfl, rfl⟩ := h
  rcases h2 with ⟨h2, h3⟩ | ⟨-, h3⟩
  · exact ⟨fun m hm => h2 m (Nat.zero_le _) hm, h3⟩
  · cases h3

/-- C90: a write that fails is reported: `recon` ends with an error. -/
theorem C90_failed_write_reported (w : Writes) (fuel : Nat) (r : ReaderAt) (seek : Option UInt64) (bs : UInt64) (id : UUID)
    (f f' : DBFile) (e : CmdEnd) (n : Nat) (h : doScanFSF w fuel r seek bs id f = (f', e, n)) (m : Nat) (hm : m < n)
    (hw : w m ≠ .ok) : e = .exit := by
  obtain ⟨f1, e, n1, h1, h2⟩ := Sim.scan w fuel r seek bs id f
  rw [h1] at h
  simp only [Prod.mk.injEq] at h
  obtain ⟨rfl, rfl, rfl⟩ := h
  rcases h2 with ⟨h2, h3⟩ | ⟨-, h3⟩
  · exact absurd (h2 m (Nat.zero_le _) hm) hw
  · exact h3

/-- C90: without failures it is the run of `doScanFS`. -/
theorem C90_no_failure (w : Writes) (hw : ∀ m, w m = .ok) (fuel : Nat) (r : ReaderAt) (seek : Option UInt64) (bs : UInt64)
    (id : UUID) (f : DBFile) :
    ((doScanFSF w fuel r seek bs id f).1, (doScanFSF w fuel r seek bs id f).2.1) = doScanFS fuel r seek bs id f := by
  obtain ⟨f1, e, n1, h1, h2⟩ := Sim.scan w fuel r seek bs id f
  rw [h1]
  rcases h2 with ⟨-, h3⟩ | ⟨h2, -⟩
  · exact h3.symm
  · exact absurd (fun m _ _ => hw m) h2

theorem Interrupted.db {dev : Bytes} {bs : UInt64} {id : UUID} {f : DBFile} (h : Interrupted dev bs id f) :
    f = .absent ∨ ∃ b, f = .db b := by
  induction h with
  | fresh hf => rcases hf with rfl | rfl | rfl <;> simp
  | @again f0 f' ops _ _ hc ih =>
    have key : ∀ b f1 x, openIndex.openDB (reconOptions bs id) b = .ok (f1, x) → ∃ b, f1 = .db b := by
      intro b f1 x hb
      simp only [openIndex.openDB, Go.bind_eq_ok] at hb
      obtain ⟨y, -, hb⟩ := hb
      cases y with
      | error e' => simp only [Go.pure_eq, Go.ok.injEq, Prod.mk.injEq] at hb; exact ⟨_, hb.1.symm⟩
      | ok b' =>
        simp only at hb
        generalize Index.ensureTx _ _ = q at hb
        obtain ⟨ix, o⟩ := q
        cases o with
        | none => simp only [Go.pure_eq, Go.ok.injEq, Prod.mk.injEq] at hb; exact ⟨_, hb.1.symm⟩
        | some o => simp only [Go.pure_eq, Go.ok.injEq, Prod.mk.injEq] at hb; exact ⟨_, hb.1.symm⟩
    simp only [crashSession, Go.bind_eq_ok, Go.pure_eq] at hc
    obtain ⟨⟨f1, x⟩, h1, h2⟩ := hc
    cases x with
    | error e =>
      simp only [Go.ok.injEq] at h2
      subst h2
      rcases ih with rfl | ⟨b, rfl⟩
      · exact Or.inr (key none _ _ h1)
      · exact Or.inr (key b _ _ h1)
    | ok ix =>
      simp only [Go.bind_eq_ok] at h2
      obtain ⟨r, -, h2⟩ := h2
      cases h2
      exact Or.inr ⟨_, rfl⟩

/-- Opening the index of an interrupted scan when writing can fail. -/
theorem openF_interrupted (w : Writes) {dev : Bytes} {bs : UInt64} {id : UUID} (hsp : sparesDevice dev bs id) {f : DBFile}
    (hf : Interrupted dev bs id f) :
    (∃ f' e n, OpenF w f (reconOptions bs id) = .ok (f', .error e, n) ∧ Interrupted dev bs id f') ∨
    (∃ f' ix n, OpenF w f (reconOptions bs id) = .ok (f', .ok ix, n) ∧ Open f (reconOptions bs id) = .ok (f', .ok ix) ∧
      ix.Good) := by
  obtain ⟨p, f1, ix, hp, h1, h2⟩ := hf.opens hsp
  have hg : ix.Good := ⟨_, _, _, h2⟩
  have hcs : crashSession f (reconOptions bs id) [] = .ok (.db ix.disk) := by
    simp only [crashSession, h1, Go.ok_bind, Index.run, Go.pure_eq]
  have hI : Interrupted dev bs id (.db ix.disk) := .again hf (by intro op h; cases h) hcs
  have key : ∀ b, openIndex.openDB (reconOptions bs id) b = .ok (f1, .ok ix) → Interrupted dev bs id (.db b) →
      (∃ f' e n, OpenF.openDB w (reconOptions bs id) b = .ok (f', .error e, n) ∧ Interrupted dev bs id f') ∨
      (∃ f' ix n, OpenF.openDB w (reconOptions bs id) b = .ok (f', .ok ix, n) ∧
        openIndex.openDB (reconOptions bs id) b = .ok (f', .ok ix) ∧ ix.Good) := by
    intro b hb hib
    have hb' := hb
    simp only [openIndex.openDB, Go.bind_eq_ok] at hb
    obtain ⟨y, hy, hb⟩ := hb
    cases y with
    | error e => simp at hb
    | ok b' =>
      have hro : (reconOptions bs id).readOnly = false := rfl
      simp only [hro, Bool.not_false, Bool.false_eq_true, if_false, Index.ensureTx, Index.begin, Bool.and_false, Go.pure_eq,
        Go.ok.injEq, Prod.mk.injEq, Except.ok.injEq] at hb
      obtain ⟨hb1, hb2⟩ := hb
      simp only [OpenF.openDB, hy, Go.ok_bind]
      cases w 0 with
      | failed d =>
        refine Or.inl ⟨_, _, _, rfl, ?_⟩
        cases d with
        | false => exact hib
        | true =>
          have : ix.disk = some b' := by rw [← hb2]
          rw [this] at hI
          exact hI
      | ok =>
        simp only [Index.ensureTx, Index.begin, Bool.and_false, Bool.false_eq_true, if_false]
        refine Or.inr ⟨f1, ix, 1, ?_, hb', hg⟩
        rw [← hb1, ← hb2]; rfl
  rcases hf.db with rfl | ⟨b, rfl⟩
  · rcases key none h1 (.fresh (Or.inr (Or.inl rfl))) with h | h
    · exact Or.inl h
    · exact Or.inr h
  · exact key b h1 hf

theorem sel_true {σ : Type} (A B : Cmd σ Unit) (t : σ) : (if true = true then A else B) t = A t := rfl
theorem sel_false {σ : Type} (A B : Cmd σ Unit) (t : σ) : (if false = true then A else B) t = B t := rfl

/-- The scan of an image, whatever inserting does. -/
theorem scan_image_replay (dev : Bytes) (bs : UInt64) (id : UUID) (h : ReconArgs dev bs id) :
    ∃ (ops : List Ins) (fin : Bool), ScanOps id (scanBlocks dev bs.toNat) (ops.map .insert) fin ∧
      ∀ (σ : Type) (g : Inserter σ) (s : σ) (fuel : Nat), dev.length < fuel →
        reconLoop g (imageReader dev) id bs (scanLimit dev bs) fuel (UInt64.ofNat SuperInfoOffset + bs)
          (List.replicate bs.toNat 0) s = (replay g ops >>= fun _ => endCmd fin) s := by
  obtain ⟨ops, fin, buf', hbuf', hops, hrep⟩ := reconLoop_replay (imageReader dev) id bs (scanLimit dev bs) h.1 h.2
    (scanBlocks dev bs.toNat) (UInt64.ofNat SuperInfoOffset + bs) (List.replicate bs.toNat 0) List.length_replicate
    (scan_reads dev bs h.1 h.3)
  refine ⟨ops, fin, hops, fun σ g s fuel hfu => ?_⟩
  have hb := h.1
  have hb2 := h.2
  have hl := h.3
  have hn := scanBlocks_length_le dev bs.toNat
  have h3 := scanBlocks_bound dev (bs := bs.toNat)
  have h4 := scanBlocks_count dev (bs := bs.toNat) (by omega)
  have h5 := off_toNat bs (scanBlocks dev bs.toNat).length (by omega)
  have h6 : (scanLimit dev bs).toNat ≤ dev.length := by rw [scanLimit_toNat dev bs hl]; omega
  generalize (scanBlocks dev bs.toNat).length = nb at *
  obtain ⟨k, rfl⟩ : ∃ k, fuel = (k + 1) + nb := ⟨fuel - nb - 1, by omega⟩
  rw [hrep]
  have hend : ∀ t : σ, reconLoop g (imageReader dev) id bs (scanLimit dev bs) (k + 1)
      (UInt64.ofNat SuperInfoOffset + bs + bs * UInt64.ofNat nb) buf' t = .ok () t := fun t =>
    reconLoop_end dev id bs _ _ buf' hbuf' (by omega) h6 hl (by rw [h5]; exact h4) k _ t
  rw [Cmd.bind_def, Cmd.bind_def]
  cases replay g ops s with
  | ok a t =>
    cases fin with
    | true => exact (sel_true _ _ t).trans ((hend t).trans (sel_true _ _ t).symm)
    | false => exact (sel_false _ _ t).trans (sel_false _ _ t).symm
  | exit t => rfl
  | crash t => rfl
  | hang t => rfl

/-- The command on an image, once the index is open. -/
theorem doScanFSF_opened (w : Writes) {dev : Bytes} {bs : UInt64} {id : UUID} (h : ReconArgs dev bs id) (f f' : DBFile)
    (x : Except IxErr Index) (n : Nat) (ho : OpenF w f (reconOptions bs id) = .ok (f', x, n)) (fuel : Nat) :
    doScanFSF w fuel (imageReader dev) (some (UInt64.ofNat dev.length)) bs id f =
      match x with
      | .error _ => (f', .exit, n)
      | .ok ix =>
        match reconLoop (insertOrExitF w) (imageReader dev) id bs (scanLimit dev bs) fuel (UInt64.ofNat SuperInfoOffset + bs)
            (List.replicate bs.toNat 0) ⟨ix, n⟩ with
        | .ok _ s => ((reconDeferF w s).1, if (reconDeferF w s).2.1 then .exit else .done, (reconDeferF w s).2.2)
        | .exit s => (.db s.ix.disk, .exit, s.n)
        | .crash s => ((reconDeferF w s).1, if (reconDeferF w s).2.1 then .exit else .crash, (reconDeferF w s).2.2)
        | .hang s => (.db s.ix.disk, .hang, s.n) := by
  have hsz' : (UInt64.ofNat dev.length).toNat = dev.length := by
    have := h.3
    rw [UInt64.toNat_ofNat']; exact Nat.mod_eq_of_lt (by omega)
  have hb0 : bs ≠ 0 := by rintro rfl; have := h.1; simp at this
  have ho' : OpenF w f { blockSize := bs, fsid := id, generation := ~~~0 } = .ok (f', x, n) := ho
  rw [scanLimit]
  simp only [doScanFSF, h.id_set, Bool.false_eq_true, if_false, check_ok _ bs h.2 (hsz'.symm ▸ h.4), hb0, ho']
  cases x <;> rfl

/-- C90: whatever writes fail, the file left behind is one an interrupted scan leaves:
everything in it was found on the device, and nothing that was durable is damaged. -/
theorem C90_failed_write_leaves_interrupted (w : Writes) (dev : Bytes) (bs : UInt64) (id : UUID) (h : ReconArgs dev bs id)
    (hsp : sparesDevice dev bs id) (f : DBFile) (hf : Interrupted dev bs id f) (fuel : Nat) (hfu : dev.length < fuel) :
    Interrupted dev bs id
      (doScanFSF w fuel (imageReader dev) (some (UInt64.ofNat dev.length)) bs id f).1 := by
  obtain ⟨ops, fin, hops, hrep⟩ := scan_image_replay dev bs id h
  have hdev : fromDevice dev bs id (ops.map .insert) := hops.fromDevice fun b hb => hb
  rcases openF_interrupted w hsp hf with ⟨f', e, n, h6, h7⟩ | ⟨f', ix, n, h6, h7, hg⟩
  · rw [doScanFSF_opened w h f f' _ n h6]; exact h7
  · rw [doScanFSF_opened w h f f' _ n h6]
    simp only [hrep FIndex (insertOrExitF w) ⟨ix, n⟩ fuel hfu]
    have hses : ∀ o ix', ix.run o = .ok (ix', none) → crashSession f (reconOptions bs id) o = .ok (.db ix'.disk) := by
      intro o ix' ho
      simp only [crashSession, h7, Go.ok_bind, ho, Go.pure_eq]
    rcases replayF_cases w hg ops n with ⟨ix', n', hg', h8, h9⟩ | ⟨s, p, q, ix', h8, h9, h10, h11⟩
    · have hcm : ix.run (ops.map .insert ++ [.commit]) = .ok (ix'.commit.1, none) := by
        obtain ⟨l, d, m, hi⟩ := hg'
        obtain ⟨ix2, h10, -⟩ := hi.commit
        rw [run_append h8]
        simp only [Index.run, Index.step, h10, Go.ok_bind]
      have hfile : Interrupted dev bs id (reconDeferF w ⟨ix', n'⟩).1 := by
        rcases deferF_disk w ix' n' with h10 | h10
        · rw [h10]; exact .again hf hdev (hses _ _ h8)
        · rw [h10]
          refine .again hf (hdev.append ?_) (hses _ _ hcm)
          intro op ho
          rw [List.mem_singleton] at ho
          exact Or.inl ho
      rw [Cmd.bind_ok h9]
      cases fin <;> exact hfile
    · rw [Cmd.bind_exit h11]
      simp only [h10]
      refine .again hf (ops := p.map .insert) ?_ (hses _ _ h9)
      rw [h8, List.map_append] at hdev
      exact hdev.left

/-- C90: if already the first write of items fails without a trace, the new index holds
nothing but its metadata, and the error is reported. -/
theorem C90_first_write_fails (w : Writes) (h0 : w 0 = .ok) (h1 : w 1 = .failed false) (dev : Bytes) (bs : UInt64)
    (id : UUID) (h : ReconArgs dev bs id) (f : DBFile) (hf : f.fresh) (fuel : Nat) (hfu : dev.length < fuel) :
    doScanFSF w fuel (imageReader dev) (some (UInt64.ofNat dev.length)) bs id f =
      (.db (some [(metadataKey, newIndexMetadata (reconOptions bs id))]), .exit, 2) := by
  obtain ⟨ops, fin, hops, hrep⟩ := scan_image_replay dev bs id h
  have hc : ∀ b, b = none ∨ b = some [] →
      checkUpdateMetadata (reconOptions bs id) b = .ok (.ok [(metadataKey, newIndexMetadata (reconOptions bs id))]) := by
    rintro b (rfl | rfl) <;> rfl
  have ho : OpenF w f (reconOptions bs id) =
      .ok (.db (some [(metadataKey, newIndexMetadata (reconOptions bs id))]),
        .ok ⟨false, some [(metadataKey, newIndexMetadata (reconOptions bs id))],
          some ⟨true, some [(metadataKey, newIndexMetadata (reconOptions bs id))]⟩, true, 0,
          (reconOptions bs id).generation⟩, 1) := by
    rcases hf with rfl | rfl | rfl
    · simp only [OpenF, OpenF.openDB, hc none (Or.inl rfl), Go.ok_bind, h0]; rfl
    · simp only [OpenF, OpenF.openDB, hc none (Or.inl rfl), Go.ok_bind, h0]; rfl
    · simp only [OpenF, OpenF.openDB, hc (some []) (Or.inr rfl), Go.ok_bind, h0]; rfl
  have hg : Index.Good ⟨false, some [(metadataKey, newIndexMetadata (reconOptions bs id))],
      some ⟨true, some [(metadataKey, newIndexMetadata (reconOptions bs id))]⟩, true, 0,
      (reconOptions bs id).generation⟩ :=
    ⟨[(metadataVersionKey, newIndexMetadata (reconOptions bs id))], [(metadataVersionKey, newIndexMetadata (reconOptions bs id))],
      0, rfl, rfl, rfl, List.pairwise_singleton _ _, List.pairwise_singleton _ _, Or.inr ⟨rfl, rfl⟩⟩
  rw [doScanFSF_opened w h f _ _ 1 ho]
  simp only [hrep FIndex (insertOrExitF w) _ fuel hfu]
  rcases replayF_lost w h1 ops hg (by simp) with ⟨ix', h2, h3, h4, h5⟩ | ⟨ix', h2, h3⟩
  · have hd := deferF_lost w h1 h2 h3
    rw [h4] at hd
    rw [Cmd.bind_ok h5]
    cases fin
    · show ((reconDeferF w ⟨ix', 1⟩).1, _, (reconDeferF w ⟨ix', 1⟩).2.2) = _
      rw [hd]; rfl
    · show ((reconDeferF w ⟨ix', 1⟩).1, _, (reconDeferF w ⟨ix', 1⟩).2.2) = _
      rw [hd]; rfl
  · rw [Cmd.bind_exit h3]
    simp only [h2]

/-- C90: after a failed write (say, once there is space again) `recon` can simply be run
again: the index then is the one an undisturbed scan makes. -/
theorem C90_rerun_after_failed_write (w : Writes) (dev : Bytes) (bs : UInt64) (id : UUID) (h : ReconArgs dev bs id)
    (hs : soundDevice dev bs id) (hsp : sparesDevice dev bs id) (f : DBFile) (hf : f.fresh) (fuel : Nat)
    (hfu : dev.length < fuel) :
    ∃ f', recon fuel dev bs id
        (doScanFSF w fuel (imageReader dev) (some (UInt64.ofNat dev.length)) bs id f).1 = (f', .done) ∧
      recon fuel dev bs id .absent = (f', .done) :=
  C78_rerun dev bs id h hs hsp _ (C90_failed_write_leaves_interrupted w dev bs id h hsp f (.fresh hf) fuel hfu) fuel hfu

/-- Only commit number 1, the final one of a short scan, fails, without a trace. -/
def exFailLast : Writes := fun m => if m = 1 then .failed false else .ok

/-- The hypotheses are met: the scan finds an item, the final write fails, the error is
reported and the item is not in the file; the second run stores it. -/
example : ∃ f1 f2 x b, doScanFSF exFailLast (2 ^ 28) (imageReader exReconDev) (some (UInt64.ofNat exReconDev.length)) 4096
      uuidAllFs .absent = (f1, .exit, 2) ∧
    recon (2 ^ 28) exReconDev 4096 uuidAllFs f1 = (f2, .done) ∧ f2 = .db (some b) ∧ b.stores ⟨5, ⟨256, 1, 0⟩, 7⟩ x := by
  have hfu : exReconDev.length < 2 ^ 28 := by
    rw [exReconDev, oneBlockDevice_length, exReconLeaf_length]; omega
  have h1 := C90_first_write_fails exFailLast rfl rfl exReconDev 4096 uuidAllFs exReconArgs .absent (Or.inl rfl) _ hfu
  obtain ⟨f', h2, h3⟩ := C90_rerun_after_failed_write exFailLast exReconDev 4096 uuidAllFs exReconArgs exRecon_sound
    exRecon_spares .absent (Or.inl rfl) _ hfu
  rw [h1] at h2
  obtain ⟨b, h4, h5, -⟩ := C40_all_items_of_matching_leaves exReconDev 4096 uuidAllFs exReconArgs exRecon_sound .absent
    (Or.inl rfl) _ hfu
  rw [h3] at h4
  simp only [Prod.mk.injEq, and_true] at h4
  obtain ⟨x, h6, -⟩ := h5 _ exRecon_onDevice
  exact ⟨_, f', x, b, h1, h2, h4, h6⟩

end Btrfscue
