import Verif.Props.EndToEndEx
import Verif.Props.RecoverSeenEx
import Verif.Proof.SameSeen
/-!
# C84: from the image to the recovered files, whatever the generations
-/

namespace Btrfscue

/-- C84, for images that need not be undamaged: what recon followed by recover brings back of an image
is what iterating over the items of the image gets to. `b` is the index of the items of the image, see
`Bucket.IndexOf.same`. Every directory got to is there; in it every regular file got to, with the
contents the image gives it, and every symbolic link got to, with its target; and there is nothing
else. -/
theorem C84_image_seen (dev : Bytes) (bs : UInt64) (id : UUID) (ha : ReconArgs dev bs id)
    (hw : wellFormedDevice dev bs id) (hg : imageAgrees dev bs.toNat id) (b : Bucket) (hb : b.IndexOf dev bs.toNat id)
    (hcr : b.RangeOK 3 (KL2 228 256)) (hci : b.SeenIntact) (hok : b.RecoverOK) :
    ∃ N, ∀ rf fuel, N ≤ rf → N ≤ fuel → ∀ env, Quiet env dev → ∀ fs dest r, EmptyDest fs dest r → b.TreeReadable dest →
      b.SeenRecoverable dev dest →
      ∃ f s', recon fuel dev bs id .absent = (f, .done) ∧
        recoverCommand env rf fuel (some f) true false dest (RecState.start fs) = .ok () s' ∧ s'.silent ∧
        (∀ o d p0, b.SeenAt dest o d p0 → ∃ p, b.SeenAt dest o d p ∧ s'.fs.stat true p = some true ∧
          ∀ name e, b.entrySeen o d name e → e.location.typ ≠ 132 → usable name → 92 ∉ name →
            (e.typ = 1 → ∃ x size, s'.fs.readFile (goJoin p name) = some x ∧ b.knownSize o e.location.objectID size ∧
              b.fileSeen o e.location.objectID size dev x) ∧
            (e.typ = 7 → ∃ x, s'.fs.readLink (goJoin p name) = some x ∧ b.targetSeen o e.location.objectID x)) ∧
        ∀ A i, s'.fs.down r A = some i →
          (s'.fs.isDirAt i = true ∧ ∃ o d, b.SeenAt dest o d (pathOf dest A)) ∨
          (∃ x o n size, s'.fs.inodes[i]? = some (.file x) ∧ b.ObjectAt dest 1 o n (pathOf dest A) ∧ b.knownSize o n size ∧
            b.fileSeen o n size dev x) ∨
          ∃ x o n, s'.fs.inodes[i]? = some (.link x) ∧ b.ObjectAt dest 7 o n (pathOf dest A) ∧ b.targetSeen o n x := by
  obtain ⟨c, hc, h1, ix, h2, h3⟩ := recon_indexOf ha hw hg hb.spared
  have hs := hb.same hc
  obtain ⟨m, hm⟩ := hc.metadata
  obtain ⟨N, hN⟩ := C83_recovers_seen c hc.wf m hm (hs.rangeOK hcr) (hs.seenIntact hci) (hs.recoverOK hok)
  refine ⟨N + dev.length + 1, fun rf fuel hrf hfuel env hq fs dest r he ht hr => ?_⟩
  obtain ⟨s', k1, k2, k3, k4⟩ := hN rf (by omega) fuel (by omega) env dev hq fs dest r he (hs.treeReadable ht) (hs.seenRecoverable hr)
  refine ⟨_, s', h1 .absent (Or.inl rfl) fuel (by omega), ?_, k2, fun o d p0 hp0 => ?_, fun A i hi => ?_⟩
  · have hopen : (openView (some (.db (some c))) : Rec Ix) (RecState.start fs) = .ok ⟨c, ~~~0⟩ (RecState.start fs) := by
      simp only [openView, h2, h3, Cmd.lift_ok]
    simp only [recoverCommand, Cmd.bind_def, hopen, if_true]
    exact k1
  · obtain ⟨p, l1, l2, l3⟩ := k3 o d p0 (hs.seenAt hp0)
    refine ⟨p, hs.symm.seenAt l1, l2, fun name e hen ht hun hbs => ?_⟩
    obtain ⟨l4, l5⟩ := l3 name e (hs.entrySeen hen) ht hun hbs
    refine ⟨fun h => ?_, fun h => ?_⟩
    · obtain ⟨x, size, l6, l7, l8⟩ := l4 h
      exact ⟨x, size, l6, hs.symm.knownSize l7, hs.symm.fileSeen l8⟩
    · obtain ⟨x, l6, l7⟩ := l5 h
      exact ⟨x, l6, hs.symm.targetSeen l7⟩
  · rcases k4 A i hi with ⟨l1, o, d, l2⟩ | ⟨x, o, n, size, l1, l2, l3, l4⟩ | ⟨x, o, n, l1, l2, l3⟩
    · exact Or.inl ⟨l1, o, d, hs.symm.seenAt l2⟩
    · exact Or.inr (Or.inl ⟨x, o, n, size, l1, hs.symm.objectAt l2, hs.symm.knownSize l3, hs.symm.fileSeen l4⟩)
    · exact Or.inr (Or.inr ⟨x, o, n, l1, hs.symm.objectAt l2, hs.symm.targetSeen l3⟩)

/-! ## The image of `exSeen` -/

/-- The payloads of `exSeen`, leaf by leaf. -/
def exSeenLeaves : List (HeaderRec × List (Key × Bytes)) :=
  [exLeaf 3 7 [(⟨1, 216, 1⟩, []), (⟨256, 228, 16⟩, (ChunkRec.mk 64 2 65536 1 4096 4096 4096 1 0).layout ++
     (stripesLayout [⟨1, 0, uuidAllZero⟩] ++ [])), (⟨257, 229, 0⟩, [])],
   exLeaf 5 9 [(⟨257, 1, 0⟩, (exInode 6).layout), (⟨258, 1, 0⟩, (exInode 6).layout)],
   exLeaf 5 10 [(⟨256, 84, (NameHash [115]).toUInt64⟩, exEntry ⟨258, 1, 0⟩ 2 [115])],
   exLeaf 5 12 [(⟨256, 84, (NameHash [97]).toUInt64⟩, exEntry ⟨257, 1, 0⟩ 1 [97])],
   exLeaf 5 13 [(⟨258, 84, (NameHash [99]).toUInt64⟩, exEntry ⟨257, 1, 0⟩ 1 [99])],
   exLeaf 5 10 [(⟨257, 108, 0⟩, exInline 3 [1, 2, 3]), (⟨257, 108, 2⟩, (FileExtentItemRec.mk 9 4 0 0 0 1 16 4 0 4).layout), (⟨258, 132, 0⟩, [])]]

theorem exSeen_leaves : exSeen = (leafItems exSeenLeaves).map (fun e => (e.1, mkItem e.1.key e.2)) ++ [(metadataVersionKey, [])] := by
  decide +kernel

theorem exSeenLeaves_ok : LeavesOK exSeenLeaves := by
  unfold LeavesOK
  decide +kernel

/-- The image. -/
def exSeenImage : Bytes := leavesDevice exSeenLeaves

theorem exSeen_short : ∀ e ∈ leafItems exSeenLeaves, e.2.length + 25 < 2 ^ 32 ∧ e.1 ≠ metadataVersionKey := by decide +kernel

theorem exSeen_indexOf : exSeen.enc.IndexOf exSeenImage (4096 : UInt64).toNat uuidAllFs where
  wf := AStore.enc_wf exSeen_sorted
  metadata := ⟨[], exSeen_meta⟩
  spared d hd := (exSeen_short _ ((leaves_item exSeenLeaves_ok).mp hd)).2 rfl
  sound v x hx hv := by
    have h1 := enc_stores.mp hx
    rw [exSeen_leaves] at h1
    rcases List.mem_append.mp h1 with h1 | h1
    · obtain ⟨e, he, heq⟩ := List.mem_map.mp h1
      simp only [Prod.mk.injEq] at heq
      obtain ⟨rfl, rfl⟩ := heq
      exact ⟨e.2, mkItem_holds _ _ (exSeen_short e he).1, (leaves_item exSeenLeaves_ok).mpr he⟩
    · simp only [List.mem_singleton, Prod.mk.injEq] at h1
      exact absurd h1.1 hv
  complete v d hd := by
    have he := (leaves_item exSeenLeaves_ok).mp hd
    refine ⟨mkItem v.key d, enc_stores.mpr ?_, mkItem_holds _ _ (exSeen_short _ he).1⟩
    rw [exSeen_leaves]
    exact List.mem_append_left _ (List.mem_map.mpr ⟨_, he, rfl⟩)

theorem exSeen_agrees : imageAgrees exSeenImage (4096 : UInt64).toNat uuidAllFs := by
  intro v d d' h h'
  have h1 := (leaves_item exSeenLeaves_ok).mp h
  have h2 := (leaves_item exSeenLeaves_ok).mp h'
  have key : ∀ e ∈ leafItems exSeenLeaves, ∀ e' ∈ leafItems exSeenLeaves, e.1 = e'.1 → e.2 = e'.2 := by decide +kernel
  exact key _ h1 _ h2 rfl

/-- C84 is false of the code when the leaves of a directory were written in different transactions:
`exSeenImage` has six leaves, all intact, each item in one version only. After scanning it and
recovering from it — no system call failing, no warning — the file "c" in the directory "s" is there,
the file "a" next to "s" is not. (Also shows that the hypotheses of `C84_image_seen` can be met.) -/
theorem C84_mixed_generations_lost :
    ReconArgs exSeenImage 4096 uuidAllFs ∧ wellFormedDevice exSeenImage 4096 uuidAllFs ∧
    imageAgrees exSeenImage (4096 : UInt64).toNat uuidAllFs ∧
    imageItem exSeenImage 4096 uuidAllFs ⟨5, ⟨256, 84, (NameHash [97]).toUInt64⟩, 12⟩ (exEntry ⟨257, 1, 0⟩ 1 [97]) ∧
    ∃ N, ∀ rf fuel, N ≤ rf → N ≤ fuel → ∃ f s', recon fuel exSeenImage 4096 uuidAllFs .absent = (f, .done) ∧
      recoverCommand (imageEnv exSeenImage) rf fuel (some f) true false (ascii "/d") (RecState.start exEmptyDir) = .ok () s' ∧
      s'.silent ∧ (∃ x, s'.fs.readFile (ascii "/d/s/c") = some x ∧ x.length = 6) ∧ s'.fs.down 1 [[97]] = none := by
  have ha := leaves_args exSeenLeaves_ok (by decide)
  refine ⟨ha, leaves_wellFormed exSeenLeaves_ok, exSeen_agrees,
    (leaves_item exSeenLeaves_ok).mpr (by decide +kernel), ?_⟩
  obtain ⟨N, hN⟩ := C84_image_seen exSeenImage 4096 uuidAllFs ha (leaves_wellFormed exSeenLeaves_ok) exSeen_agrees exSeen.enc exSeen_indexOf
    exSeen_range3 exSeen_chunks exSeen_ends
  refine ⟨N, fun rf fuel hrf hfuel => ?_⟩
  have hlen : 4 ≤ exSeenImage.length := by
    rw [exSeenImage, leavesDevice, blocksDevice_length (leafBlock_length exSeenLeaves_ok)]; omega
  obtain ⟨f, s', h1, h2, h3, h4, h5⟩ := hN rf fuel hrf hfuel (imageEnv exSeenImage) ⟨fun _ _ => rfl, fun _ => rfl⟩ exEmptyDir (ascii "/d") 1
    exEmptyDir_ok exSeen_readable (exSeen_recoverable hlen)
  refine ⟨f, s', h1, h2, h3, ?_, ?_⟩
  · have hs : exSeen.enc.SeenAt (ascii "/d") 5 258 (goJoin (ascii "/d") [115]) :=
      .dir .main exSeen_s rfl (by decide) (by refine ⟨?_, ?_, ?_⟩ <;> decide) (by decide)
    obtain ⟨p, k1, -, k3⟩ := h4 5 258 _ hs
    obtain ⟨x, size, l1, l2, l3⟩ := (k3 [99] _ exSeen_c (by decide) (by refine ⟨?_, ?_, ?_⟩ <;> decide) (by decide)).1 rfl
    obtain ⟨-, h | h⟩ := exSeen_places k1
    · exact absurd h.1 (by decide)
    · obtain ⟨-, rfl⟩ := h
      have hj : goJoin (ascii "/d/s") [99] = ascii "/d/s/c" := by decide +kernel
      rw [hj] at l1
      refine ⟨x, l1, ?_⟩
      have hk := exSeen_file.size
      cases size with
      | none => exact absurd (enc_hasKey.mpr ⟨9, mkItem ⟨257, 1, 0⟩ (exInode 6).layout, by decide +kernel⟩) l2
      | some sz =>
        have h6 := (inodeSize_known exSeen_wf exSeen_meta (by decide) l2).symm.trans
          (inodeSize_known exSeen_wf exSeen_meta (by decide) (size := some 6) hk)
        simp only [Go.ok.injEq, Option.some.injEq] at h6
        rw [l3.1 _ rfl, h6]
        rfl
  · cases hd : s'.fs.down 1 [[97]] with
    | none => rfl
    | some i =>
      have hp : pathOf (ascii "/d") [[97]] = ascii "/d/a" := by decide +kernel
      exfalso
      have hobj : ∀ t o n, ¬ exSeen.enc.ObjectAt (ascii "/d") t o n (ascii "/d/a") := by
        rintro t o n ⟨d, p, name, e, g1, g2, -, -, -, -, -, g3⟩
        rcases exSeen_entries g2 with ⟨rfl, rfl, rfl, rfl⟩ | ⟨rfl, rfl, rfl, rfl⟩ <;> rcases (exSeen_places g1).2 with ⟨h, rfl⟩ | ⟨h, rfl⟩
        · exact absurd g3 (by decide +kernel)
        · exact absurd h (by decide)
        · exact absurd h (by decide)
        · exact absurd g3 (by decide +kernel)
      rcases h5 _ _ hd with ⟨-, o, d, g⟩ | ⟨x, o, n, size, -, g, -⟩ | ⟨x, o, n, -, g, -⟩
      · rw [hp] at g
        rcases (exSeen_places g).2 with ⟨-, h⟩ | ⟨-, h⟩
        · exact absurd h (by decide +kernel)
        · exact absurd h (by decide +kernel)
      · rw [hp] at g
        exact hobj _ _ _ g
      · rw [hp] at g
        exact hobj _ _ _ g

end Btrfscue
