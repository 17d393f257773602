import Verif.Props.SameBytes
/-!
# C109, contents: the hypotheses can be met

`exTwoExtents 11` has a top directory with one file, "a", of two extents; the mount gets to the first.
-/

namespace Btrfscue

theorem exTwo_sorted : (exTwoExtents 11).Sorted := sorted_of_before (by decide +kernel)

theorem exTwo_range5 {t : UInt8} (i : UInt64) (ht : t.toNat < 132) : (exTwoExtents 11).enc.RangeOK 5 (KL2 t i) := by
  refine exTwo_range _ _ (by decide) ⟨(⟨5, ⟨258, 132, 0⟩, 10⟩, mkItem ⟨258, 132, 0⟩ []), by decide +kernel, rfl, ?_⟩
  simp only [Key.before, Key.fields, KL2, lexLt]
  exact Or.inl ht

theorem exTwo_tree {o i off : UInt64} {t : UInt8} (hk : (exTwoExtents 11).enc.hasKey o ⟨i, t, off⟩) (ht : t = 84 ∨ t = 108) : o = 5 := by
  obtain ⟨g, x, hx⟩ := enc_hasKey.mp hk
  have : ∀ e ∈ exTwoExtents 11, e.1.key.typ = 84 ∨ e.1.key.typ = 108 → e.1.owner = 5 := by decide +kernel
  exact this _ hx ht

theorem exTwo_entry {o d off g : UInt64} {x : Bytes} (hx : (exTwoExtents 11).enc.stores ⟨o, ⟨d, 84, off⟩, g⟩ x) :
    o = 5 ∧ d = 256 ∧ x = mkItem ⟨256, 84, (NameHash [97]).toUInt64⟩ (exEntry ⟨257, 1, 0⟩ 1 [97]) := by
  have : ∀ e ∈ exTwoExtents 11, e.1.key.typ = 84 →
      e.1.owner = 5 ∧ e.1.key.objectID = 256 ∧ e.2 = mkItem ⟨256, 84, (NameHash [97]).toUInt64⟩ (exEntry ⟨257, 1, 0⟩ 1 [97]) := by
    decide +kernel
  exact this _ (exTwo_mem hx) rfl

theorem exTwo_entries {o d : UInt64} {name : Bytes} {e : DirItemRec} (h : (exTwoExtents 11).enc.entrySeen o d name e) :
    o = 5 ∧ d = 256 ∧ name = [97] ∧ e = ⟨⟨257, 1, 0⟩, 7, 0, 1, 1⟩ := by
  obtain ⟨off, g, x, p, h1, h2, h3, h4⟩ := h
  obtain ⟨rfl, rfl, rfl⟩ := exTwo_entry h2
  obtain rfl := h3.unique (mkItem_holds _ _ (by decide +kernel))
  obtain ⟨rfl, rfl⟩ := startsEntry_unique h4 (name' := [97]) (e' := ⟨⟨257, 1, 0⟩, 7, 0, 1, 1⟩) ⟨[], rfl, by decide⟩
  exact ⟨rfl, rfl, rfl, rfl⟩

theorem exTwo_subvolume {o : UInt64} : ¬ (exTwoExtents 11).enc.subvolumeSeen o := by
  rintro ⟨-, -, g, off, off0, ⟨⟨x, h⟩, -⟩, -⟩
  have : ∀ e ∈ exTwoExtents 11, e.1.owner ≠ 1 := by decide +kernel
  exact absurd rfl (this _ (exTwo_mem h))

theorem exTwo_readable : (exTwoExtents 11).enc.TreeReadable (ascii "/d") where
  ends := {
    dirs := fun o d off hk => by
      obtain rfl := exTwo_tree hk (Or.inl rfl)
      exact exTwo_range5 d (by decide)
    extents := fun o d off hk => by
      obtain rfl := exTwo_tree hk (Or.inr rfl)
      exact exTwo_range5 d (by decide)
    chunks := fun _ _ => exTwo_ok.2.2.2.1
    subvolumes := fun off hk => by
      obtain ⟨g, x, hx⟩ := enc_hasKey.mp hk
      have : ∀ e ∈ exTwoExtents 11, e.1.owner ≠ 1 := by decide +kernel
      exact absurd rfl (this _ hx) }
  noKL o ho hk := by
    obtain ⟨g, x, hx⟩ := enc_hasKey.mp hk
    have : ∀ e ∈ exTwoExtents 11, e.1.owner ≠ ~~~0 → e.1.key ≠ KL0 := by decide +kernel
    exact this _ hx ho rfl
  chunkRange := exTwo_ok.2.2.2.1
  chunks := exTwo_ok.2.2.2.2.1
  dirs o d p off g x _ h1 h2 := by
    obtain ⟨-, -, rfl⟩ := exTwo_entry h2
    exact ⟨_, mkItem_holds _ _ (by decide +kernel), ⟨⟨257, 1, 0⟩, 7, 0, 1, 1⟩, [97], [], rfl, by decide, by decide⟩
  trees o d p name e _ he _ := by
    obtain ⟨-, -, -, rfl⟩ := exTwo_entries he
    decide
  nonempty o d p e _ he := by
    obtain ⟨-, -, h, -⟩ := exTwo_entries he
    cases h
  once o d p name e e' _ he he' := by
    obtain ⟨-, -, rfl, rfl⟩ := exTwo_entries he
    obtain ⟨-, -, h, rfl⟩ := exTwo_entries he'
    exact ⟨rfl, rfl⟩
  reserved o e h _ := exTwo_subvolume h

theorem exTwo_same : SameOK (exTwoExtents 11).enc (ascii "/d") where
  dirs := by
    refine dirsOK_of (by decide +kernel) exTwo_intact (by decide +kernel) ?_
    intro e he ho ht
    simp only [exTwoExtents, List.mem_cons, List.not_mem_nil, or_false] at he
    rcases he with rfl | rfl | rfl | rfl | rfl | rfl | rfl | rfl | rfl
    all_goals first
      | exact absurd ht (by decide)
      | exact ⟨_, item_data_mk _ _ (by decide), _, entry_location _ _ _, fun h => absurd h (by decide)⟩
  full := by
    refine dirItem_of ?_
    intro e he ho ht
    simp only [exTwoExtents, List.mem_cons, List.not_mem_nil, or_false] at he
    rcases he with rfl | rfl | rfl | rfl | rfl | rfl | rfl | rfl | rfl
    all_goals first
      | exact absurd ht (by decide)
      | exact ⟨_, item_data_mk _ _ (by decide), entry_whole _ _ _ (by decide)⟩
  inodes o _ ino hk := by
    obtain ⟨g', x, hx⟩ := enc_hasKey.mp hk
    have key : ∀ e ∈ exTwoExtents 11, e.1.key.typ = 1 → e.1.owner = 5 ∧ e.1.gen = 10 ∧ e.2 = mkItem e.1.key (exInode 8).layout ∧
        ∀ e' ∈ exTwoExtents 11, e'.1.owner = e.1.owner → e'.1.key = e.1.key → e'.1.gen = 10 := by decide +kernel
    obtain ⟨h1, h2, h3, h4⟩ := key _ hx rfl
    simp only at h1 h2 h3 h4
    subst h1 h2
    refine ⟨10, x, exInode 8, [], ⟨enc_hasVersion.mpr ⟨x, hx⟩, fun g hg => ?_⟩, enc_stores.mpr hx, ?_⟩
    · obtain ⟨y, hy⟩ := enc_hasVersion.mp hg
      have := h4 _ hy rfl rfl
      simp only at this
      rw [this]; exact UInt64.le_refl _
    · rw [h3, List.append_nil]
      exact mkItem_holds _ _ (by simp [InodeItemRec.layout, exInode])
  trees o d name e he ht := by
    obtain ⟨-, -, -, rfl⟩ := exTwo_entries he
    exact absurd ht (by decide)
  present o d name e he := by
    obtain ⟨rfl, -, -, rfl⟩ := exTwo_entries he
    exact enc_hasKey.mpr ⟨10, mkItem ⟨257, 1, 0⟩ (exInode 8).layout, by decide +kernel⟩
  readable := exTwo_readable

theorem exTwo_disjoint : (exTwoExtents 11).enc.SeenDisjoint 5 257 where
  disjoint off f off' f' h h' hlt := by
    obtain ⟨rfl, rfl⟩ := exTwo_extent h
    obtain ⟨rfl, rfl⟩ := exTwo_extent h'
    exact absurd hlt (by decide)
  filled off f h := by obtain ⟨rfl, rfl⟩ := exTwo_extent h; decide

/-- The hypotheses of `C109_bytes_partial` are met: recovering `exTwoExtents 11` from a device of 4
bytes ends, without a warning, with a file "a", which is in no subvolume; all of what is asked of the
file holds of it. -/
example : let b := (exTwoExtents 11).enc
    b.WF ∧ b.stores metadataVersionKey [] ∧ b.RangeOK 3 (KL2 228 256) ∧ b.SeenIntact ∧ SameOK b (ascii "/d") ∧
    EmptyDest exEmptyDir (ascii "/d") 1 ∧ Honest (imageEnv [4, 5, 6, 7]) [4, 5, 6, 7] ∧ ¬ b.inSubvolume [[97]] ∧
    b.FileReadable 5 257 (some 8) ∧ sized b (imageEnv [4, 5, 6, 7]) 5 257 ∧
    (∃ off, b.hasKey 5 ⟨257, 108, off⟩) ∧ b.ExtentsIntact 5 257 ∧ b.SeenDisjoint 5 257 ∧ b.SeenOnDevice 5 257 [4, 5, 6, 7] ∧
    ∃ s', doRecoverFiles (imageEnv [4, 5, 6, 7]) 30 9 ⟨b, ~~~0⟩ false (ascii "/d") (RecState.start exEmptyDir) = .ok () s' ∧
      s'.silent ∧ s'.fs.readFile (ascii "/d/a") = some [4, 5, 6, 7, 0, 0, 0, 0] := by
  have hfr : (exTwoExtents 11).enc.FileReadable 5 257 (some 8) :=
    .of_extents exTwo_ok.1 exTwo_ok.2.2.1 exTwo_ok.2.2.2.2.2.1 exTwo_fit exTwo_size
  refine ⟨exTwo_ok.1, exTwo_ok.2.1, exTwo_ok.2.2.2.1, exTwo_ok.2.2.2.2.1, exTwo_same, exEmptyDir_ok, ?_, ?_, hfr, ?_,
    exTwo_ok.2.2.2.2.2.2, exTwo_ok.2.2.2.2.2.1, exTwo_disjoint, ?_, ?_⟩
  · exact Quiet.honest ⟨fun _ _ => rfl, fun _ => rfl⟩
  · rintro ⟨o, h, -⟩
    exact exTwo_subvolume h
  · exact Or.inr fun _ => rfl
  · intro off f dev phys h _ _ hp
    obtain ⟨rfl, rfl⟩ := exTwo_extent h
    rw [exTwo_placed hp]; decide
  obtain ⟨s, h1, h2⟩ := silent_of (o := doRecoverFiles (imageEnv [4, 5, 6, 7]) 30 9 ⟨(exTwoExtents 11).enc, ~~~0⟩ false (ascii "/d")
    (RecState.start exEmptyDir)) (by decide +kernel)
  have h3 : (doRecoverFiles (imageEnv [4, 5, 6, 7]) 30 9 ⟨(exTwoExtents 11).enc, ~~~0⟩ false (ascii "/d") (RecState.start exEmptyDir)).state.fs.readFile
      (ascii "/d/a") = some [4, 5, 6, 7, 0, 0, 0, 0] := by decide +kernel
  rw [h1] at h3
  exact ⟨s, h1, h2, h3⟩

end Btrfscue
