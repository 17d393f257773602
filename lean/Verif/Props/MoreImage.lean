import Verif.Props.More
import Verif.Props.EndToEndSeen
/-!
# C113: two images, one with more metadata
-/

namespace Btrfscue

/-- C113, the whole way: two images of a file system, `b` and `b'` the indexes of their items (unique up to things that do not
matter, see `Bucket.IndexOf.same`), where the second has, besides all items of the first, only items of objects of which the first
has none. If both are scanned and, with the two index files, everything is recovered from the same device to equal empty
directories, no system call failing, then all that the first run recovers the second recovers too: every directory, every link
with the same target, every file with the same contents — except that a file which was empty may now have contents. Missing: newer
versions of objects of which the first image has something (`C113_newer_version_loses_files`). -/
theorem C113_image_partial (dev dev' : Bytes) (bs : UInt64) (id : UUID) (ha : ReconArgs dev bs id) (ha' : ReconArgs dev' bs id)
    (hw : wellFormedDevice dev bs id) (hw' : wellFormedDevice dev' bs id) (hg : imageAgrees dev bs.toNat id)
    (hg' : imageAgrees dev' bs.toNat id) (b b' : Bucket) (hb : b.IndexOf dev bs.toNat id) (hb' : b'.IndexOf dev' bs.toNat id)
    (hcr : b.RangeOK 3 (KL2 228 256)) (hcr' : b'.RangeOK 3 (KL2 228 256)) (hci' : b'.SeenIntact) (hok : b.RecoverOK)
    (hok' : b'.RecoverOK) (h : b.MoreObjects b') :
    ∃ N, ∀ rf fuel, N ≤ rf → N ≤ fuel → ∀ env D, Quiet env D → ∀ fs dest r, EmptyDest fs dest r →
      b'.TreeReadable dest → b.SeenRecoverable D dest → b'.SeenRecoverable D dest → b'.OneParent dest →
      ∃ f f' s s', recon fuel dev bs id .absent = (f, .done) ∧ recon fuel dev' bs id .absent = (f', .done) ∧
        recoverCommand env rf fuel (some f) true false dest (RecState.start fs) = .ok () s ∧ s.silent ∧
        recoverCommand env rf fuel (some f') true false dest (RecState.start fs) = .ok () s' ∧ s'.silent ∧
        ∀ A i, s.fs.down r A = some i →
          (s.fs.isDirAt i = true → s'.fs.stat true (pathOf dest A) = some true) ∧
          (∀ x, s.fs.inodes[i]? = some (.file x) → ∃ y, s'.fs.readFile (pathOf dest A) = some y ∧ (x ≠ [] → y = x)) ∧
          (∀ x, s.fs.inodes[i]? = some (.link x) → s'.fs.readLink (pathOf dest A) = some x) := by
  have hci : b.SeenIntact := fun start g k1 k2 => by
    have hk : b.hasObject 3 256 := ⟨_, _, _, k2⟩
    obtain ⟨c, ss, x, d, r, k1, k2⟩ := hci' start g ((h.runVersion_iff hk).mpr k1) ((h.hasVersion_iff hk).mpr k2)
    exact ⟨c, ss, x, d, r, (h.stores_iff hk).mp k1, k2⟩
  obtain ⟨c0, hc0, f1, ix0, f2, f3⟩ := recon_indexOf ha hw hg hb.spared
  have hs0 := hb.same hc0
  obtain ⟨m0, hm0⟩ := hc0.metadata
  obtain ⟨N1, h1⟩ := C83_recovers_seen c0 hc0.wf m0 hm0 (hs0.rangeOK hcr) (hs0.seenIntact hci) (hs0.recoverOK hok)
  obtain ⟨c, hc, g1, ix, g2, g3⟩ := recon_indexOf ha' hw' hg' hb'.spared
  have hs := hb'.same hc
  obtain ⟨m, hm⟩ := hc.metadata
  obtain ⟨m', hm'⟩ := hb'.metadata
  obtain ⟨N2, h2⟩ := C83_recovers_seen c hc.wf m hm (hs.rangeOK hcr') (hs.seenIntact hci') (hs.recoverOK hok')
  obtain ⟨N3, h3⟩ := C81_everything_seen c hc.wf m hm (hs.rangeOK hcr') (hs.seenIntact hci')
  refine ⟨N1 + N2 + N3 + dev.length + dev'.length + 1, fun rf fuel hrf hfuel env D hq fs dest r he hu' hr hr' hone => ?_⟩
  have hu := h.readable hu' hok hcr
  obtain ⟨s, k1, k2, -, k3⟩ := h1 rf (by omega) fuel (by omega) env D hq fs dest r he (hs0.treeReadable hu) (hs0.seenRecoverable hr)
  obtain ⟨s', l1, l2, -, -⟩ := h2 rf (by omega) fuel (by omega) env D hq fs dest r he (hs.treeReadable hu') (hs.seenRecoverable hr')
  have l3 := h3 rf (by omega) env D hq.honest (fun n => hq.calls .stat n) fuel fs dest r he (hs.treeReadable hu') s' l1 l2
  refine ⟨_, _, s, s', f1 .absent (Or.inl rfl) fuel (by omega), g1 .absent (Or.inl rfl) fuel (by omega), ?_, k2, ?_, l2, ?_⟩
  · have hopen : (openView (some (.db (some c0))) : Rec Ix) (RecState.start fs) = .ok ⟨c0, ~~~0⟩ (RecState.start fs) := by
      simp only [openView, f2, f3, Cmd.lift_ok]
    simp only [recoverCommand, Cmd.bind_def, hopen, if_true]
    exact k1
  · have hopen : (openView (some (.db (some c))) : Rec Ix) (RecState.start fs) = .ok ⟨c, ~~~0⟩ (RecState.start fs) := by
      simp only [openView, g2, g3, Cmd.lift_ok]
    simp only [recoverCommand, Cmd.bind_def, hopen, if_true]
    exact l1
  refine more_core hb'.wf hm' hcr' hci' h hr' hone (fun A i hi => ?_) fun o d p0 hp => ?_
  · rcases k3 A i hi with ⟨q1, o, d, q2⟩ | ⟨x, o, n, size, q1, q2, q3, q4⟩ | ⟨x, o, n, q1, q2, q3⟩
    · exact Or.inl ⟨q1, o, d, hs0.symm.seenAt q2⟩
    · exact Or.inr (Or.inl ⟨x, o, n, size, q1, hs0.symm.objectAt q2, hs0.symm.knownSize q3, hs0.symm.fileSeen q4⟩)
    · exact Or.inr (Or.inr ⟨x, o, n, q1, hs0.symm.objectAt q2, hs0.symm.targetSeen q3⟩)
  · obtain ⟨p, q1, q2, q3⟩ := l3 o d p0 (hs.seenAt hp)
    refine ⟨p, hs.symm.seenAt q1, q2, fun name e w1 w2 w3 w4 => ?_⟩
    obtain ⟨q4, q5⟩ := q3 name e (hs.entrySeen w1) w2 w3 w4
    refine ⟨fun w5 size w6 => ?_, fun w5 x w6 => q5 w5 x (hs.targetSeen w6)⟩
    obtain ⟨x, q6, q7⟩ := q4 w5 size (hs.fileReadable w6) (Or.inr (Or.inr fun n => hq.calls .truncate n))
    exact ⟨x, q6, hs.symm.fileSeen q7⟩

/-- The payloads of `exNoFile`, leaf by leaf: those of `exSeen` without the items of object 257. -/
def exNoFileLeaves : List (HeaderRec × List (Key × Bytes)) :=
  [exLeaf 3 7 [(⟨1, 216, 1⟩, []), (⟨256, 228, 16⟩, (ChunkRec.mk 64 2 65536 1 4096 4096 4096 1 0).layout ++
     (stripesLayout [⟨1, 0, uuidAllZero⟩] ++ [])), (⟨257, 229, 0⟩, [])],
   exLeaf 5 9 [(⟨258, 1, 0⟩, (exInode 6).layout)],
   exLeaf 5 10 [(⟨256, 84, (NameHash [115]).toUInt64⟩, exEntry ⟨258, 1, 0⟩ 2 [115])],
   exLeaf 5 12 [(⟨256, 84, (NameHash [97]).toUInt64⟩, exEntry ⟨257, 1, 0⟩ 1 [97])],
   exLeaf 5 13 [(⟨258, 84, (NameHash [99]).toUInt64⟩, exEntry ⟨257, 1, 0⟩ 1 [99])],
   exLeaf 5 10 [(⟨258, 132, 0⟩, [])]]

theorem exNoFile_leaves : exNoFile = (leafItems exNoFileLeaves).map (fun e => (e.1, mkItem e.1.key e.2)) ++ [(metadataVersionKey, [])] := by
  decide +kernel

theorem exNoFileLeaves_ok : LeavesOK exNoFileLeaves := by
  unfold LeavesOK
  decide +kernel

theorem exNoFile_short : ∀ e ∈ leafItems exNoFileLeaves, e.2.length + 25 < 2 ^ 32 ∧ e.1 ≠ metadataVersionKey := by decide +kernel

theorem exNoFile_indexOf : exNoFile.enc.IndexOf (leavesDevice exNoFileLeaves) (4096 : UInt64).toNat uuidAllFs where
  wf := AStore.enc_wf (sorted_of_before (by decide +kernel))
  metadata := ⟨[], enc_stores.mpr (by simp [exNoFile])⟩
  spared d hd := (exNoFile_short _ ((leaves_item exNoFileLeaves_ok).mp hd)).2 rfl
  sound v x hx hv := by
    have h1 := enc_stores.mp hx
    rw [exNoFile_leaves] at h1
    rcases List.mem_append.mp h1 with h1 | h1
    · obtain ⟨e, he, heq⟩ := List.mem_map.mp h1
      simp only [Prod.mk.injEq] at heq
      obtain ⟨rfl, rfl⟩ := heq
      exact ⟨e.2, mkItem_holds _ _ (exNoFile_short e he).1, (leaves_item exNoFileLeaves_ok).mpr he⟩
    · simp only [List.mem_singleton, Prod.mk.injEq] at h1
      exact absurd h1.1 hv
  complete v d hd := by
    have he := (leaves_item exNoFileLeaves_ok).mp hd
    refine ⟨mkItem v.key d, enc_stores.mpr ?_, mkItem_holds _ _ (exNoFile_short _ he).1⟩
    rw [exNoFile_leaves]
    exact List.mem_append_left _ (List.mem_map.mpr ⟨_, he, rfl⟩)

/-- The hypotheses are met by the image of `exSeen` and the same image without the items of the file with two names. -/
example : ReconArgs (leavesDevice exNoFileLeaves) 4096 uuidAllFs ∧ ReconArgs exSeenImage 4096 uuidAllFs ∧
    wellFormedDevice (leavesDevice exNoFileLeaves) 4096 uuidAllFs ∧ wellFormedDevice exSeenImage 4096 uuidAllFs ∧
    imageAgrees (leavesDevice exNoFileLeaves) (4096 : UInt64).toNat uuidAllFs ∧ imageAgrees exSeenImage (4096 : UInt64).toNat uuidAllFs ∧
    exNoFile.enc.IndexOf (leavesDevice exNoFileLeaves) (4096 : UInt64).toNat uuidAllFs ∧
    exSeen.enc.IndexOf exSeenImage (4096 : UInt64).toNat uuidAllFs ∧ exNoFile.enc.RangeOK 3 (KL2 228 256) ∧
    exSeen.enc.RangeOK 3 (KL2 228 256) ∧ exSeen.enc.SeenIntact ∧ exNoFile.enc.RecoverOK ∧ exSeen.enc.RecoverOK ∧
    exNoFile.enc.MoreObjects exSeen.enc ∧ Quiet (imageEnv exSeenImage) exSeenImage ∧ EmptyDest exEmptyDir (ascii "/d") 1 ∧
    exSeen.enc.TreeReadable (ascii "/d") ∧ exNoFile.enc.SeenRecoverable exSeenImage (ascii "/d") ∧
    exSeen.enc.SeenRecoverable exSeenImage (ascii "/d") ∧ exSeen.enc.OneParent (ascii "/d") := by
  refine ⟨leaves_args exNoFileLeaves_ok (by decide), leaves_args exSeenLeaves_ok (by decide), leaves_wellFormed exNoFileLeaves_ok,
    leaves_wellFormed exSeenLeaves_ok, fun v d d' h h' => ?_, exSeen_agrees, exNoFile_indexOf, exSeen_indexOf,
    exNoFile_range _ _ (by decide) (by decide +kernel), exSeen_range3, exSeen_chunks, exNoFile_ends, exSeen_ends, exNoFile_more,
    ⟨fun _ _ => rfl, fun _ => rfl⟩, exEmptyDir_ok, exSeen_readable, exNoFile_recoverable,
    exSeen_recoverable (by rw [exSeenImage, leavesDevice, blocksDevice_length (leafBlock_length exSeenLeaves_ok)]; omega),
    fun o d p p' h h' => ?_⟩
  · have key : ∀ e ∈ leafItems exNoFileLeaves, ∀ e' ∈ leafItems exNoFileLeaves, e.1 = e'.1 → e.2 = e'.2 := by decide +kernel
    exact key _ ((leaves_item exNoFileLeaves_ok).mp h) _ ((leaves_item exNoFileLeaves_ok).mp h') rfl
  · rcases (exSeen_places h).2 with ⟨rfl, rfl⟩ | ⟨rfl, rfl⟩ <;> rcases (exSeen_places h').2 with ⟨hd, rfl⟩ | ⟨hd, rfl⟩
    · rfl
    · exact absurd hd (by decide)
    · exact absurd hd (by decide)
    · rfl

end Btrfscue
