import Verif.Props.SameTree
import Verif.Props.LsRecoverImage
/-!
# C109: from the image to the mounted file system and the recovered files
-/

namespace Btrfscue

theorem Bucket.SameItems.sameOK {a b : Bucket} (h : a.SameItems b) {dest : Bytes} (hs : SameOK a dest) : SameOK b dest := by
  have hr : ∀ o k, o ≠ ~~~0 → b.hasKey o k → k.typ = 84 → b.RangeOK o (KL2 84 k.objectID) := fun o k ho hk ht =>
    h.rangeOK (hs.dirs.ranges o k ho (h.hasKey.mpr hk) ht)
  have back : ∀ {o dir d}, o ≠ ~~~0 → b.dirItem o dir d → ∃ d', a.dirItem o dir d' ∧ Slice.data d' = Slice.data d := by
    rintro o dir d ho ⟨off, g, x, h1, h2⟩
    obtain ⟨y, hy⟩ := (hr o _ ho ⟨g, x, h1⟩ rfl).intact _ _ h1 rfl
    obtain ⟨s, h3, rfl⟩ := hy.data
    rw [h2] at h3
    cases h3
    obtain ⟨x', k1, k2⟩ := h.symm.get (by show ¬ (84 : UInt8) = 255; decide) h1 hy
    obtain ⟨s', k3, k4⟩ := k2.data
    exact ⟨s', ⟨off, g, x', k1, k3⟩, k4⟩
  have hfull : ∀ o dir d, o ≠ ~~~0 → b.dirItem o dir d → wholeEntry (Slice.data d) := fun o dir d ho hd => by
    obtain ⟨d', h1, h2⟩ := back ho hd
    rw [← h2]
    exact hs.full o dir d' ho h1
  exact {
    dirs := {
      noKL := fun o ho hk => hs.dirs.noKL o ho (h.hasKey.mpr hk)
      ranges := hr
      noMetaTree := fun o dir d loc ho hd hl ht => by
        obtain ⟨d', h1, h2⟩ := back ho hd
        obtain ⟨n, e, w1, w2⟩ := (hfull o dir d ho hd).named
        obtain ⟨n', e', w1', w2'⟩ := (hs.full o dir d' ho h1).named
        rw [h2] at w1'
        obtain ⟨rfl, rfl⟩ := startsEntry_unique w1 w1'
        rw [w2.2.2] at hl
        cases hl
        exact hs.dirs.noMetaTree o dir d' _ ho h1 w2'.2.2 ht }
    full := hfull
    inodes := fun o ho ino hk => by
      obtain ⟨g, x, f, rest, w1, w2, w3⟩ := hs.inodes o ho ino (h.hasKey.mpr hk)
      obtain ⟨y, u1, u2⟩ := h.get (by show ¬ (1 : UInt8) = 255; decide) w2 w3
      exact ⟨g, y, f, rest, h.newest.mp w1, u1, u2⟩
    trees := fun o d name e he => hs.trees o d name e (h.symm.entrySeen he)
    present := fun o d name e he => h.hasKey.mp (hs.present o d name e (h.symm.entrySeen he))
    readable := h.treeReadable hs.readable }

/-- C109, the whole way: an index file is made by scanning an image, and with it the file system is mounted and recovered to
an empty directory, no system call failing. Then recovering ends without a warning, and

* all that was recovered, outside the directories `subvol_N`, can be looked up under the same path below `rescue`, is a directory in
  one exactly if it is in the other, and has the contents (the target) the image gives the object shown there;
* every directory shown below `rescue`, reached by names a directory entry can have and without backslash, has been recovered at one of
  its places, and in it every regular file and every link shown in that directory, with the contents (the target) the image gives it.

Missing: the directories `subvol_N`, and what `C109_recovered_is_shown_partial` misses. -/
theorem C109_image_partial (dev : Bytes) (bs : UInt64) (id : UUID) (ha : ReconArgs dev bs id)
    (hw : wellFormedDevice dev bs id) (hg : imageAgrees dev bs.toNat id) (b : Bucket) (hb : b.IndexOf dev bs.toNat id)
    (hcr : b.RangeOK 3 (KL2 228 256)) (hci : b.SeenIntact) (hok : b.RecoverOK) :
    ∃ N, ∀ rf fuel, N ≤ rf → N ≤ fuel → ∀ env, Quiet env dev → ∀ fs dest r, EmptyDest fs dest r → SameOK b dest →
      b.SeenRecoverable dev dest →
      ∃ f ix v s' M, recon fuel dev bs id .absent = (f, .done) ∧ OpenReadOnly f = .ok (f, .ok ix) ∧ ix.view = .ok v ∧
        recoverCommand env rf fuel (some f) true false dest (RecState.start fs) = .ok () s' ∧ s'.silent ∧
        ∀ mf, M ≤ mf →
          (∀ A i, A ≠ [] → s'.fs.down r A = some i → ¬ b.inSubvolume A → (∃ c, MountShows mf v A (s'.fs.isDirAt i) c) ∧
            (∀ x, s'.fs.inodes[i]? = some (.file x) → ∃ c, MountShows mf v A false c ∧
              ∀ size, b.FileReadable c.owner c.ixInode size → b.fileSeen c.owner c.ixInode size dev x) ∧
            (∀ x, s'.fs.inodes[i]? = some (.link x) → ∃ c, MountShows mf v A false c ∧
              ∀ y, b.targetSeen c.owner c.ixInode y → x = y)) ∧
          ∀ X n, MountDir mf v X n → (∀ x ∈ X, usable x ∧ 92 ∉ x) →
            ∃ p, b.SeenAt dest n.owner n.ixInode p ∧ s'.fs.stat true p = some true ∧
              ∀ name n' c isDir a, n.lookup mf v name = .ok (n', .ok (c, isDir, a)) → usable name → 92 ∉ name →
                ∃ e, b.entrySeen n.owner n.ixInode name e ∧ isDir = (e.typ == 2) ∧
                  (e.typ = 1 → e.location.typ ≠ 132 → ∃ x size, s'.fs.readFile (goJoin p name) = some x ∧
                    b.knownSize c.owner c.ixInode size ∧ b.fileSeen c.owner c.ixInode size dev x) ∧
                  (e.typ = 7 → e.location.typ ≠ 132 → ∃ x, s'.fs.readLink (goJoin p name) = some x ∧ b.targetSeen c.owner c.ixInode x) := by
  obtain ⟨q, hq', h1, ix, h2, h3⟩ := recon_indexOf ha hw hg hb.spared
  have hs := hb.same hq'
  obtain ⟨m, hm⟩ := hq'.metadata
  have hcr' := hs.rangeOK hcr
  have hci' := hs.seenIntact hci
  obtain ⟨N1, k1⟩ := C109_recovered_is_shown_partial q hq'.wf m hm hcr' hci'
  obtain ⟨N2, k2⟩ := C109_recovered_contents_partial q hq'.wf m hm hcr' hci'
  obtain ⟨N3, k3⟩ := C109_shown_is_recovered q hq'.wf m hm hcr' hci' (hs.recoverOK hok)
  refine ⟨N1 + N2 + N3 + dev.length + 1, fun rf fuel hrf hfuel env hq fs dest r he hso hsr => ?_⟩
  have hso' := hs.sameOK hso
  have hst := fun n => hq.calls .stat n
  obtain ⟨s', r1, r2, r3⟩ := k3 rf (by omega) fuel (by omega) env dev hq fs dest r he hso' (hs.seenRecoverable hsr)
  have hsub : ∀ A, q.inSubvolume A ↔ b.inSubvolume A := fun A =>
    ⟨fun ⟨o, w1, w2⟩ => ⟨o, hs.subvolumeSeen.mpr w1, w2⟩, fun ⟨o, w1, w2⟩ => ⟨o, hs.subvolumeSeen.mp w1, w2⟩⟩
  refine ⟨_, ix, _, s', q.length + 1, h1 .absent (Or.inl rfl) fuel (by omega), h2, h3, ?_, r2, fun mf hmf => ⟨fun A i hA hi hns => ?_, fun X n hX hXn => ?_⟩⟩
  · have hopen : (openView (some (.db (some q))) : Rec Ix) (RecState.start fs) = .ok ⟨q, ~~~0⟩ (RecState.start fs) := by
      simp only [openView, h2, h3, Cmd.lift_ok]
    simp only [recoverCommand, Cmd.bind_def, hopen, if_true]
    exact r1
  · have hns' : ¬ q.inSubvolume A := fun w => hns ((hsub A).mp w)
    refine ⟨k1 rf (by omega) env dev hq.honest hst fuel fs dest r he hso' s'.fs (by rw [r1]; exact Or.inl rfl) mf (by omega) A i hA hi hns', ?_⟩
    obtain ⟨g1, g2⟩ := k2 rf (by omega) env dev hq.honest hst fuel fs dest r he hso' s' r1 mf (by omega) A i hi hns' (r2 _)
    refine ⟨fun x hx => ?_, fun x hx => ?_⟩
    · obtain ⟨c, w1, w2⟩ := g1 x hx
      exact ⟨c, w1, fun size hfr => hs.symm.fileSeen (w2 size (hs.fileReadable hfr) (Or.inr (Or.inr fun n => hq.calls .truncate n)))⟩
    · obtain ⟨c, w1, w2⟩ := g2 x hx
      exact ⟨c, w1, fun y hy => w2 y (hs.targetSeen hy)⟩
  · obtain ⟨p, w1, w2, w3⟩ := r3 mf (by omega) X n hX hXn
    refine ⟨p, hs.symm.seenAt w1, w2, fun name n' c isDir a hl hun hbs => ?_⟩
    obtain ⟨e, v1, v2, v3, v4⟩ := w3 name n' c isDir a hl hun hbs
    refine ⟨e, hs.symm.entrySeen v1, v2, fun ht hty => ?_, fun ht hty => ?_⟩
    · obtain ⟨x, size, u1, u2, u3⟩ := v3 ht hty
      exact ⟨x, size, u1, hs.symm.knownSize u2, hs.symm.fileSeen u3⟩
    · obtain ⟨x, u1, u2⟩ := v4 ht hty
      exact ⟨x, u1, hs.symm.targetSeen u2⟩

/-- The hypotheses are met by the image of `exSeen`. -/
example : ReconArgs exSeenImage 4096 uuidAllFs ∧ wellFormedDevice exSeenImage 4096 uuidAllFs ∧
    imageAgrees exSeenImage (4096 : UInt64).toNat uuidAllFs ∧ exSeen.enc.IndexOf exSeenImage (4096 : UInt64).toNat uuidAllFs ∧
    exSeen.enc.RangeOK 3 (KL2 228 256) ∧ exSeen.enc.SeenIntact ∧ exSeen.enc.RecoverOK ∧
    Quiet (imageEnv exSeenImage) exSeenImage ∧ EmptyDest exEmptyDir (ascii "/d") 1 ∧ SameOK exSeen.enc (ascii "/d") ∧
    exSeen.enc.SeenRecoverable exSeenImage (ascii "/d") :=
  ⟨leaves_args exSeenLeaves_ok (by decide), leaves_wellFormed exSeenLeaves_ok, exSeen_agrees, exSeen_indexOf, exSeen_range3, exSeen_chunks,
    exSeen_ends, ⟨fun _ _ => rfl, fun _ => rfl⟩, exEmptyDir_ok, exSeen_same,
    exSeen_recoverable (by rw [exSeenImage, leavesDevice, blocksDevice_length (leafBlock_length exSeenLeaves_ok)]; omega)⟩

end Btrfscue
