import Verif.Props.LsRecoverEx
import Verif.Props.EndToEndSeen
/-!
# C114: from the image to the listing and the recovered files
-/

namespace Btrfscue

theorem Bucket.SameItems.lsSame {a b : Bucket} (h : a.SameItems b) {dest : Bytes} (hs : LsSameOK a dest) : LsSameOK b dest := by
  have hr : ∀ o k, o ≠ ~~~0 → b.hasKey o k → k.typ = 84 → b.RangeOK o (KL2 84 k.objectID) := fun o k ho hk ht =>
    h.rangeOK (hs.dirs.ranges o k ho (h.hasKey.mpr hk) ht)
  have back : ∀ {o dir d}, o ≠ ~~~0 → b.dirItem o dir d → ∃ d', a.dirItem o dir d' ∧ Slice.data d' = Slice.data d := by
    rintro o dir d ho ⟨off, g, x, h1, h2⟩
    obtain ⟨y, hy⟩ := (hr o _ ho ⟨g, x, h1⟩ rfl).intact _ _ h1 rfl
    obtain ⟨s, h3, rfl⟩ := hy.data
    rw [h2] at h3
    cases h3
    obtain ⟨x', k1, k2⟩ := h.symm.get (by show ¬ (84 : UInt8) = 255; decide) h1 hy
    obtain ⟨s', k3, k4⟩ := k2.data
    exact ⟨s', ⟨off, g, x', k1, k3⟩, k4⟩
  have hfull : ∀ o dir d, o ≠ ~~~0 → b.dirItem o dir d → wholeEntry (Slice.data d) := fun o dir d ho hd => by
    obtain ⟨d', h1, h2⟩ := back ho hd
    rw [← h2]
    exact hs.full o dir d' ho h1
  exact {
    dirs := {
      noKL := fun o ho hk => hs.dirs.noKL o ho (h.hasKey.mpr hk)
      ranges := hr
      noMetaTree := fun o dir d loc ho hd hl ht => by
        obtain ⟨d', h1, h2⟩ := back ho hd
        obtain ⟨n, e, w1, w2⟩ := (hfull o dir d ho hd).named
        obtain ⟨n', e', w1', w2'⟩ := (hs.full o dir d' ho h1).named
        rw [h2] at w1'
        obtain ⟨rfl, rfl⟩ := startsEntry_unique w1 w1'
        rw [w2.2.2] at hl
        cases hl
        exact hs.dirs.noMetaTree o dir d' _ ho h1 w2'.2.2 ht }
    full := hfull
    inodes := fun ino hk => by
      obtain ⟨f, hf⟩ := hs.inodes ino (h.hasKey.mpr hk)
      exact ⟨f, h.inodeNow hf⟩
    plain := fun d name e he => hs.plain d name e (h.symm.entrySeen he)
    ends := fun ⟨s, h0, hn⟩ => hs.ends ⟨s, h0, fun n => by
      obtain ⟨m, e, h1, h2⟩ := hn n
      exact ⟨m, e, h.symm.entrySeen h1, h2⟩⟩
    readable := h.treeReadable hs.readable }

/-- C114, the whole way, from an image: an index file is made by scanning it, `ls --recursive` prints a
listing with that file, and recovering with it (no system call failing) ends without a warning and
leaves below the empty destination, outside the directories `subvol_N`, exactly what is in the
listing: everything there is in the listing, as a directory, file or link, and everything in the
listing is there, if its names are ones a directory entry can have, without backslash. -/
theorem C114_image_partial (dev : Bytes) (bs : UInt64) (id : UUID) (ha : ReconArgs dev bs id)
    (hw : wellFormedDevice dev bs id) (hg : imageAgrees dev bs.toNat id) (b : Bucket) (hb : b.IndexOf dev bs.toNat id)
    (hcr : b.RangeOK 3 (KL2 228 256)) (hci : b.SeenIntact) (hok : b.RecoverOK) (srt : Sorter) (hsrt : SortOK srt) (ft : Time → Bytes) (si : Bool) :
    ∃ N, ∀ rf fuel, N ≤ rf → N ≤ fuel → ∀ env, Quiet env dev → ∀ fs dest r, EmptyDest fs dest r → LsSameOK b dest →
      b.SeenRecoverable dev dest → b.OneParent dest →
      ∃ f s' ts M, recon fuel dev bs id .absent = (f, .done) ∧
        (∀ rf' fuel', M ≤ rf' → M ≤ fuel' → lsCommand rf' fuel' srt ft (some f) ⟨true, si⟩ [] () = .ok (listingText ts, []) ()) ∧
        recoverCommand env rf fuel (some f) true false dest (RecState.start fs) = .ok () s' ∧ s'.silent ∧
        (∀ A s, HasPath ts A s → (∀ n ∈ A, usable n ∧ 92 ∉ n) →
          (s.typ = 2 → s'.fs.stat true (pathOf dest A) = some true) ∧
          (s.typ = 1 → ∃ x size, s'.fs.readFile (pathOf dest A) = some x ∧ b.knownSize 5 s.ino size ∧ b.fileSeen 5 s.ino size dev x ∧
            (s.size = some (decimal x.length) ∨ s.size = some [63])) ∧
          (s.typ = 7 → ∃ x, s'.fs.readLink (pathOf dest A) = some x ∧ b.targetSeen 5 s.ino x)) ∧
        ∀ A i, A ≠ [] → s'.fs.down r A = some i → ¬ b.inSubvolume A → ∃ s, HasPath ts A s ∧
          ((s.typ = 2 ∧ s'.fs.isDirAt i = true) ∨ (s.typ = 1 ∧ ∃ x, s'.fs.inodes[i]? = some (.file x)) ∨
            (s.typ = 7 ∧ ∃ x, s'.fs.inodes[i]? = some (.link x))) := by
  obtain ⟨c, hc, h1, ix, h2, h3⟩ := recon_indexOf ha hw hg hb.spared
  have hs := hb.same hc
  obtain ⟨m, hm⟩ := hc.metadata
  obtain ⟨N, hN⟩ := listed_recovered hc.wf hm (hs.rangeOK hcr) (hs.seenIntact hci) (hs.recoverOK hok)
  obtain ⟨N', hN'⟩ := recovered_listed hc.wf hm (hs.rangeOK hcr) (hs.seenIntact hci)
  refine ⟨N + N' + dev.length + 1, fun rf fuel hrf hfuel env hq fs dest r he ht hr hone => ?_⟩
  have ht' := hs.lsSame ht
  obtain ⟨M, ts, hts, hls⟩ := ((C88_recursive_exact c hc.wf m hm ht'.dirs ht'.full ht'.inodes srt hsrt ft si [] (Or.inl rfl)).resolve_left
    fun h => ht'.ends h.1).2
  obtain ⟨s', k1, k2, k3⟩ := hN rf (by omega) fuel (by omega) env dev hq fs dest r he ht' (hs.seenRecoverable hr)
    (fun o d p p' h h' => hone o d p p' (hs.symm.seenAt h) (hs.symm.seenAt h'))
  have l1 := hN' rf (by omega) env dev hq.honest (fun n => hq.calls .stat n) fuel fs dest r he ht' ft si ts hts s'.fs
    (by rw [k1]; exact Or.inl rfl)
  refine ⟨_, s', ts, M, h1 .absent (Or.inl rfl) fuel (by omega), fun rf' fuel' hrf' hfu' => ?_, ?_, k2, fun A s hA hAn => ?_, fun A i hA hi hns => ?_⟩
  · simp only [lsCommand, openView, h2, h3, Cmd.bind_def, Cmd.lift_ok, hls rf' fuel' hrf' hfu']
  · have hopen : (openView (some (.db (some c))) : Rec Ix) (RecState.start fs) = .ok ⟨c, ~~~0⟩ (RecState.start fs) := by
      simp only [openView, h2, h3, Cmd.lift_ok]
    simp only [recoverCommand, Cmd.bind_def, hopen, if_true]
    exact k1
  · obtain ⟨g1, g2, g3⟩ := k3 ft si ts hts A s hA hAn
    refine ⟨g1, fun h => ?_, fun h => ?_⟩
    · obtain ⟨x, size, w1, w2, w3, w4⟩ := g2 h
      exact ⟨x, size, w1, hs.symm.knownSize w2, hs.symm.fileSeen w3, w4⟩
    · obtain ⟨x, w1, w2⟩ := g3 h
      exact ⟨x, w1, hs.symm.targetSeen w2⟩
  · exact l1 A i hA hi fun ⟨o, w1, w2⟩ => hns ⟨o, hs.subvolumeSeen.mpr w1, w2⟩

/-- The hypotheses are met by the image of `exSeen`. -/
example : ReconArgs exSeenImage 4096 uuidAllFs ∧ wellFormedDevice exSeenImage 4096 uuidAllFs ∧
    imageAgrees exSeenImage (4096 : UInt64).toNat uuidAllFs ∧ exSeen.enc.IndexOf exSeenImage (4096 : UInt64).toNat uuidAllFs ∧
    exSeen.enc.RangeOK 3 (KL2 228 256) ∧ exSeen.enc.SeenIntact ∧ exSeen.enc.RecoverOK ∧ SortOK lsInsertSort ∧
    Quiet (imageEnv exSeenImage) exSeenImage ∧ EmptyDest exEmptyDir (ascii "/d") 1 ∧ LsSameOK exSeen.enc (ascii "/d") ∧
    exSeen.enc.SeenRecoverable exSeenImage (ascii "/d") ∧ exSeen.enc.OneParent (ascii "/d") :=
  ⟨leaves_args exSeenLeaves_ok (by decide), leaves_wellFormed exSeenLeaves_ok, exSeen_agrees, exSeen_indexOf, exSeen_range3, exSeen_chunks,
    exSeen_ends, lsInsertSort_ok, ⟨fun _ _ => rfl, fun _ => rfl⟩, exEmptyDir_ok, exSeen_lsSame,
    exSeen_recoverable (by rw [exSeenImage, leavesDevice, blocksDevice_length (leafBlock_length exSeenLeaves_ok)]; omega), exSeen_oneParent⟩

end Btrfscue
