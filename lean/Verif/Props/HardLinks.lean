import Verif.Proof.HardLinks
import Verif.Props.RecoverSeenEx
/-!
# C112: hard links
-/

namespace Btrfscue

open Cmd

/-- C112 (the code makes separate files): whatever the index, and at every point of the run, what recover has created has one name, and
what was there before has got no further name. -/
theorem C112_separate_files (env : Env) (rf fuel : Nat) (ix : Ix) (clobber : Bool) (dest : Bytes) (fs : HostFS) (hs : fs.Sound) :
    ∀ f, (doRecoverFiles env rf fuel ix clobber dest (RecState.start fs)).state.reached f → NoHardLinks fs f := by
  have h := ((Singles.inv (fs0 := fs) (env := env) rf ix clobber).all fuel (dest := dest) trivial fun _ => trivial).state
    (s := RecState.start fs) ⟨OneName.start hs, fun f hf => by cases hf⟩
  intro f hf
  rcases hf with rfl | hf
  · exact h.1.toNoHardLinks
  · exact (h.2 f hf).toNoHardLinks

/-- C112: names that lead to one file have the same contents after a run without warnings, in whatever directories they are. -/
theorem C112_equal_contents_partial (b : Bucket) (hb : b.WF) (m : Bytes) (hm : b.stores metadataVersionKey m)
    (hcr : b.RangeOK 3 (KL2 228 256)) (hci : b.SeenIntact) :
    ∃ N, ∀ rf, N ≤ rf → ∀ env D, Honest env D → (∀ n, env.fails .stat n = false) → ∀ fuel fs dest r,
      EmptyDest fs dest r → b.TreeReadable dest →
      ∀ s', doRecoverFiles env rf fuel ⟨b, ~~~0⟩ false dest (RecState.start fs) = .ok () s' → s'.silent →
      ∀ o i size, b.FileReadable o i size → size = none ∨ sized b env o i →
      ∃ x : Bytes, ∀ d p0, b.SeenAt dest o d p0 → ∃ p, b.SeenAt dest o d p ∧
        ∀ name e, b.entrySeen o d name e → e.location.typ ≠ 132 → usable name → 92 ∉ name → e.typ = 1 → e.location.objectID = i →
          s'.fs.readFile (goJoin p name) = some x := by
  obtain ⟨N, h⟩ := C81_everything_seen b hb m hm hcr hci
  obtain ⟨N0, map, hM⟩ := placeOK hb hm hcr hci
  refine ⟨N, fun rf hrf env D hh hst fuel fs dest r he hu s' hrun hsil o i size hf hsz => ?_⟩
  have h := h rf hrf env D hh hst fuel fs dest r he hu s' hrun hsil o
  by_cases hx : ∃ d, b.fileSeen o i size D d
  · obtain ⟨x, hx⟩ := hx
    refine ⟨x, fun d p0 hp0 => ?_⟩
    obtain ⟨p, h1, -, h2⟩ := h d p0 hp0
    refine ⟨p, h1, fun name e he hty hus hbs ht hi => ?_⟩
    subst hi
    obtain ⟨y, h3, h4⟩ := (h2 name e he hty hus hbs).1 ht size hf hsz
    rw [h3, fileSeen_unique hb hM h4 hx]
  · refine ⟨[], fun d p0 hp0 => ?_⟩
    obtain ⟨p, h1, -, h2⟩ := h d p0 hp0
    refine ⟨p, h1, fun name e he hty hus hbs ht hi => ?_⟩
    subst hi
    obtain ⟨y, h3, h4⟩ := (h2 name e he hty hus hbs).1 ht size hf hsz
    exact absurd ⟨y, h4⟩ hx

/-! ## Example -/

/-- A file with two names, "s" and "a", in the top directory. -/
def exLinks : AStore :=
  [(⟨3, ⟨1, 216, 1⟩, 7⟩, mkItem ⟨1, 216, 1⟩ []),
   (⟨3, ⟨256, 228, 16⟩, 7⟩, exChunk 16 64 1 0),
   (⟨3, ⟨257, 229, 0⟩, 7⟩, mkItem ⟨257, 229, 0⟩ []),
   (⟨5, ⟨257, 1, 0⟩, 9⟩, mkItem ⟨257, 1, 0⟩ (exInode 3).layout),
   (⟨5, ⟨256, 84, (NameHash [115]).toUInt64⟩, 10⟩, mkItem ⟨256, 84, (NameHash [115]).toUInt64⟩ (exEntry ⟨257, 1, 0⟩ 1 [115])),
   (⟨5, ⟨256, 84, (NameHash [97]).toUInt64⟩, 10⟩, mkItem ⟨256, 84, (NameHash [97]).toUInt64⟩ (exEntry ⟨257, 1, 0⟩ 1 [97])),
   (⟨5, ⟨257, 108, 0⟩, 10⟩, mkItem ⟨257, 108, 0⟩ (exInline 3 [1, 2, 3])),
   (⟨5, ⟨258, 132, 0⟩, 10⟩, mkItem ⟨258, 132, 0⟩ []),
   (metadataVersionKey, [])]

theorem exLinks_sorted : exLinks.Sorted := sorted_of_before (by decide +kernel)

theorem exLinks_wf : exLinks.enc.WF := AStore.enc_wf exLinks_sorted

theorem exLinks_meta : exLinks.enc.stores metadataVersionKey [] := enc_stores.mpr (by simp [exLinks])

theorem exLinks_intact (e : VKey × Bytes) (he : e ∈ exLinks) (ho : e.1.owner ≠ ~~~0) : ∃ d, holdsItem e.2 d := by
  simp only [exLinks, List.mem_cons, List.not_mem_nil, or_false] at he
  rcases he with rfl | rfl | rfl | rfl | rfl | rfl | rfl | rfl | rfl
  all_goals first
    | exact ⟨_, mkItem_holds _ _ (by decide +kernel)⟩
    | exact exChunk_holds _ _ _ _
    | exact absurd rfl ho

theorem exLinks_range (o : UInt64) (last : Key) (ho : o ≠ ~~~0) (hc : ∃ e ∈ exLinks, e.1.owner = o ∧ last.before e.1.key) :
    exLinks.enc.RangeOK o last :=
  rangeOK_of ho (fun e he h => exLinks_intact e he (h ▸ ho))
    (fun e he h => (by decide +kernel : ∀ e ∈ exLinks, e.1.owner ≠ ~~~0 → e.1.gen ≠ ~~~0 ∧ e.1.key ≠ KL0) e he (h ▸ ho)) hc

theorem exLinks_range5 {t : UInt8} (i : UInt64) (ht : t.toNat < 132) : exLinks.enc.RangeOK 5 (KL2 t i) := by
  refine exLinks_range _ _ (by decide) ⟨(⟨5, ⟨258, 132, 0⟩, 10⟩, mkItem ⟨258, 132, 0⟩ []), by decide +kernel, rfl, ?_⟩
  simp only [Key.before, Key.fields, KL2, lexLt]
  exact Or.inl ht

theorem exLinks_range3 : exLinks.enc.RangeOK 3 (KL2 228 256) := exLinks_range _ _ (by decide) (by decide +kernel)

theorem exLinks_chunk : exLinks.enc.chunkSeen 16 ⟨1, 0, uuidAllZero⟩ := by
  obtain ⟨off, g, h1, ⟨x, h2⟩⟩ := run_first (b := exLinks.enc) (o := 3) (t := 228) (id := 256)
    ⟨16, enc_hasKey.mpr ⟨7, exChunk 16 64 1 0, by simp only [exLinks, List.mem_cons, true_or, or_true]⟩⟩
  have h3 : off = 16 ∧ g = 7 := by
    have : ∀ e ∈ exLinks, e.1.owner = 3 → e.1.key.typ = 228 → e.1.key.offset = 16 ∧ e.1.gen = 7 := by decide +kernel
    exact this _ (enc_stores.mp h2) rfl rfl
  obtain ⟨rfl, rfl⟩ := h3
  exact ⟨7, _, _, h1, exChunk_at (len := 64) (dev := 1) (off := 0) (by simp only [exLinks, List.mem_cons, true_or, or_true])⟩

theorem exLinks_chunks : exLinks.enc.SeenIntact := by
  rintro start g - ⟨x, hx⟩
  have : ∀ e ∈ exLinks, e.1.owner = 3 → e.1.key.typ = 228 → e = (⟨3, ⟨256, 228, 16⟩, 7⟩, exChunk 16 64 1 0) := by decide +kernel
  have h := this _ (enc_stores.mp hx) rfl rfl
  simp only [Prod.mk.injEq, VKey.mk.injEq, Key.mk.injEq] at h
  obtain ⟨⟨-, ⟨-, -, rfl⟩, rfl⟩, rfl⟩ := h
  exact ⟨_, _, exChunk_at (enc_stores.mp hx)⟩

theorem exLinks_tree {o i off : UInt64} {t : UInt8} (hk : exLinks.enc.hasKey o ⟨i, t, off⟩) (ht : t = 84 ∨ t = 108) : o = 5 := by
  obtain ⟨g, x, hx⟩ := enc_hasKey.mp hk
  have : ∀ e ∈ exLinks, e.1.key.typ = 84 ∨ e.1.key.typ = 108 → e.1.owner = 5 := by decide +kernel
  exact this _ hx ht

theorem exLinks_ends : exLinks.enc.RecoverOK where
  dirs o d off hk := by
    obtain rfl := exLinks_tree hk (Or.inl rfl)
    exact exLinks_range5 d (by decide)
  extents o d off hk := by
    obtain rfl := exLinks_tree hk (Or.inr rfl)
    exact exLinks_range5 d (by decide)
  chunks _ _ := exLinks_range3
  subvolumes off hk := by
    obtain ⟨g, x, hx⟩ := enc_hasKey.mp hk
    have : ∀ e ∈ exLinks, e.1.owner ≠ 1 := by decide +kernel
    exact absurd rfl (this _ hx)

theorem exLinks_entry {o d off g : UInt64} {x : Bytes} (hx : exLinks.enc.stores ⟨o, ⟨d, 84, off⟩, g⟩ x) :
    o = 5 ∧ d = 256 ∧ (x = mkItem ⟨256, 84, (NameHash [115]).toUInt64⟩ (exEntry ⟨257, 1, 0⟩ 1 [115]) ∨
      x = mkItem ⟨256, 84, (NameHash [97]).toUInt64⟩ (exEntry ⟨257, 1, 0⟩ 1 [97])) := by
  have : ∀ e ∈ exLinks, e.1.key.typ = 84 → e.1.owner = 5 ∧ e.1.key.objectID = 256 ∧
      (e.2 = mkItem ⟨256, 84, (NameHash [115]).toUInt64⟩ (exEntry ⟨257, 1, 0⟩ 1 [115]) ∨
       e.2 = mkItem ⟨256, 84, (NameHash [97]).toUInt64⟩ (exEntry ⟨257, 1, 0⟩ 1 [97])) := by decide +kernel
  exact this _ (enc_stores.mp hx) rfl

theorem exLinks_entries {o d : UInt64} {name : Bytes} {e : DirItemRec} (h : exLinks.enc.entrySeen o d name e) :
    o = 5 ∧ d = 256 ∧ (name = [115] ∨ name = [97]) ∧ e = ⟨⟨257, 1, 0⟩, 7, 0, 1, 1⟩ := by
  obtain ⟨off, g, x, p, -, h2, h3, h4⟩ := h
  obtain ⟨rfl, rfl, rfl | rfl⟩ := exLinks_entry h2
  · obtain rfl := h3.unique (mkItem_holds _ _ (by decide +kernel))
    obtain ⟨rfl, rfl⟩ := startsEntry_unique h4 (name' := [115]) (e' := ⟨⟨257, 1, 0⟩, 7, 0, 1, 1⟩) ⟨[], rfl, by decide⟩
    exact ⟨rfl, rfl, Or.inl rfl, rfl⟩
  · obtain rfl := h3.unique (mkItem_holds _ _ (by decide +kernel))
    obtain ⟨rfl, rfl⟩ := startsEntry_unique h4 (name' := [97]) (e' := ⟨⟨257, 1, 0⟩, 7, 0, 1, 1⟩) ⟨[], rfl, by decide⟩
    exact ⟨rfl, rfl, Or.inr rfl, rfl⟩

/-- The keys of the entries. -/
theorem exLinks_keys {off : UInt64} (h : exLinks.enc.hasKey 5 ⟨256, 84, off⟩) :
    (off = (NameHash [115]).toUInt64 ∨ off = (NameHash [97]).toUInt64) ∧ exLinks.enc.hasVersion 5 ⟨256, 84, off⟩ 10 := by
  obtain ⟨g, x, hx⟩ := enc_hasKey.mp h
  have : ∀ e ∈ exLinks, e.1.key.typ = 84 → (e.1.key.offset = (NameHash [115]).toUInt64 ∨ e.1.key.offset = (NameHash [97]).toUInt64) ∧
      e.1.gen = 10 := by decide +kernel
  obtain ⟨h1, h2⟩ := this _ hx rfl
  simp only at h1 h2
  subst h2
  exact ⟨h1, x, enc_stores.mpr hx⟩

theorem exLinks_run (off : UInt64) : exLinks.enc.runVersion 5 84 256 off 10 := by
  refine ⟨⟨(NameHash [115]).toUInt64, newest_of (x := mkItem ⟨256, 84, (NameHash [115]).toUInt64⟩ (exEntry ⟨257, 1, 0⟩ 1 [115]))
    (by decide +kernel) (by decide +kernel), fun off' h => ?_⟩, fun off' h _ => (exLinks_keys h).2⟩
  rcases (exLinks_keys h).1 with rfl | rfl
  · exact UInt64.le_refl _
  · decide +kernel

theorem exLinks_s : exLinks.enc.entrySeen 5 256 [115] ⟨⟨257, 1, 0⟩, 7, 0, 1, 1⟩ :=
  ⟨(NameHash [115]).toUInt64, 10, mkItem ⟨256, 84, (NameHash [115]).toUInt64⟩ (exEntry ⟨257, 1, 0⟩ 1 [115]), _, exLinks_run _,
    enc_stores.mpr (by decide +kernel), mkItem_holds _ _ (by decide +kernel), [], rfl, by decide⟩

theorem exLinks_a : exLinks.enc.entrySeen 5 256 [97] ⟨⟨257, 1, 0⟩, 7, 0, 1, 1⟩ :=
  ⟨(NameHash [97]).toUInt64, 10, mkItem ⟨256, 84, (NameHash [97]).toUInt64⟩ (exEntry ⟨257, 1, 0⟩ 1 [97]), _, exLinks_run _,
    enc_stores.mpr (by decide +kernel), mkItem_holds _ _ (by decide +kernel), [], rfl, by decide⟩

theorem exLinks_subvolume {o : UInt64} : ¬ exLinks.enc.subvolumeSeen o := by
  rintro ⟨-, -, g, off, off0, ⟨⟨x, h⟩, -⟩, -⟩
  have : ∀ e ∈ exLinks, e.1.owner ≠ 1 := by decide +kernel
  exact absurd rfl (this _ (enc_stores.mp h))

theorem exLinks_readable : exLinks.enc.TreeReadable (ascii "/d") where
  ends := exLinks_ends
  noKL o ho hk := by
    obtain ⟨g, x, hx⟩ := enc_hasKey.mp hk
    have : ∀ e ∈ exLinks, e.1.owner ≠ ~~~0 → e.1.key ≠ KL0 := by decide +kernel
    exact this _ hx ho rfl
  chunkRange := exLinks_range3
  chunks := exLinks_chunks
  dirs o d p off g x _ h1 h2 := by
    obtain ⟨-, -, rfl | rfl⟩ := exLinks_entry h2
    · exact ⟨_, mkItem_holds _ _ (by decide +kernel), ⟨⟨257, 1, 0⟩, 7, 0, 1, 1⟩, [115], [], rfl, by decide, by decide⟩
    · exact ⟨_, mkItem_holds _ _ (by decide +kernel), ⟨⟨257, 1, 0⟩, 7, 0, 1, 1⟩, [97], [], rfl, by decide, by decide⟩
  trees o d p name e _ he _ := by
    obtain ⟨-, -, -, rfl⟩ := exLinks_entries he
    decide
  nonempty o d p e _ he := by
    obtain ⟨-, -, h | h, -⟩ := exLinks_entries he <;> cases h
  once o d p name e e' _ he he' := by
    obtain ⟨-, -, -, rfl⟩ := exLinks_entries he
    obtain ⟨-, -, -, rfl⟩ := exLinks_entries he'
    exact ⟨rfl, rfl⟩
  reserved o e h _ := exLinks_subvolume h

theorem exLinks_pieces {off g : UInt64} (hr : exLinks.enc.runVersion 5 108 257 off g) (hv : exLinks.enc.hasVersion 5 ⟨257, 108, off⟩ g) :
    off = 0 ∧ exLinks.enc.pieceSeen 5 257 off (.inline [1, 2, 3]) := by
  obtain ⟨x, hx⟩ := hv
  have : ∀ e ∈ exLinks, e.1.owner = 5 → e.1.key.typ = 108 →
      e = (⟨5, ⟨257, 108, 0⟩, 10⟩, mkItem ⟨257, 108, 0⟩ (exInline 3 [1, 2, 3])) := by decide +kernel
  have h := this _ (enc_stores.mp hx) rfl rfl
  simp only [Prod.mk.injEq, VKey.mk.injEq, Key.mk.injEq] at h
  obtain ⟨⟨-, ⟨-, -, rfl⟩, rfl⟩, rfl⟩ := h
  exact ⟨rfl, 10, _, _, hr, hx, mkItem_holds _ _ (by decide +kernel), ⟨9, 3, 0, 0, 0⟩, [], rfl, by decide, by decide⟩

theorem exLinks_cases {off : UInt64} {p : Piece} (h : exLinks.enc.pieceSeen 5 257 off p) : off = 0 ∧ p = .inline [1, 2, 3] := by
  obtain ⟨g, x, d, h1, h2, -⟩ := id h
  have k := exLinks_pieces h1 ⟨x, h2⟩
  exact ⟨k.1, pieceSeen_unique exLinks_sorted h k.2⟩

theorem exLinks_file : exLinks.enc.FileReadable 5 257 (some 3) := by
  refine ⟨exLinks_range5 257 (by decide), fun off g h1 h2 => ?_,
    ⟨fun off p h => ?_, fun off f h => ?_, fun off f dev phys h hz hp => ?_⟩, ?_⟩
  · exact ⟨_, (exLinks_pieces h1 h2).2, fun _ _ _ => ⟨_, _, exLinks_chunk⟩⟩
  · obtain ⟨rfl, rfl⟩ := exLinks_cases h; decide
  · obtain ⟨-, h'⟩ := exLinks_cases h; cases h'
  · obtain ⟨-, h'⟩ := exLinks_cases h; cases h'
  · exact ⟨⟨9, mkItem ⟨257, 1, 0⟩ (exInode 3).layout, exInode 3, [], newest_of (x := mkItem ⟨257, 1, 0⟩ (exInode 3).layout)
      (by decide +kernel) (by decide +kernel), enc_stores.mpr (by decide +kernel),
      by rw [List.append_nil]; exact mkItem_holds _ _ (by simp [InodeItemRec.layout, exInode]), rfl⟩, by decide⟩

-- The hypotheses of `C112_equal_contents_partial`, with two names of one file; and a run without warnings.
example : exLinks.enc.WF ∧ exLinks.enc.stores metadataVersionKey [] ∧ exLinks.enc.RangeOK 3 (KL2 228 256) ∧ exLinks.enc.SeenIntact ∧
    Honest (imageEnv [4, 5, 6, 7]) [4, 5, 6, 7] ∧ EmptyDest exEmptyDir (ascii "/d") 1 ∧ exLinks.enc.TreeReadable (ascii "/d") ∧
    (∃ s', doRecoverFiles (imageEnv [4, 5, 6, 7]) 30 9 ⟨exLinks.enc, ~~~0⟩ false (ascii "/d") (RecState.start exEmptyDir) = .ok () s' ∧ s'.silent) ∧
    exLinks.enc.FileReadable 5 257 (some 3) ∧ sized exLinks.enc (imageEnv [4, 5, 6, 7]) 5 257 ∧ exLinks.enc.SeenAt (ascii "/d") 5 256 (ascii "/d") ∧
    exLinks.enc.entrySeen 5 256 [115] ⟨⟨257, 1, 0⟩, 7, 0, 1, 1⟩ ∧ exLinks.enc.entrySeen 5 256 [97] ⟨⟨257, 1, 0⟩, 7, 0, 1, 1⟩ :=
  ⟨exLinks_wf, exLinks_meta, exLinks_range3, exLinks_chunks, Quiet.honest ⟨fun _ _ => rfl, fun _ => rfl⟩, exEmptyDir_ok, exLinks_readable,
    silent_of (by decide +kernel), exLinks_file, .inr fun _ => rfl, .main, exLinks_s, exLinks_a⟩

-- The host of the examples, for `C112_separate_files`.
example : exEmptyDir.Sound := by
  rintro k d n ⟨es, par, h1, h2⟩
  have : ∀ nd ∈ exEmptyDir.inodes, ∀ es par, nd = .dir es par → ∀ e ∈ es, e.2 < exEmptyDir.inodes.length := by
    intro nd hnd es par he e hm
    simp only [exEmptyDir, List.mem_cons, List.not_mem_nil, or_false] at hnd
    rcases hnd with rfl | rfl
    all_goals
      injection he with he _
      subst he
      revert e
      decide
  exact this _ (List.mem_of_getElem? h1) es par rfl _ h2

/-- C112 is false of the code: the two names of one file become two files. Changing one of them afterwards leaves the other as it is. -/
theorem C112_hard_link_refuted :
    exLinks.enc.entrySeen 5 256 [115] ⟨⟨257, 1, 0⟩, 7, 0, 1, 1⟩ ∧ exLinks.enc.entrySeen 5 256 [97] ⟨⟨257, 1, 0⟩, 7, 0, 1, 1⟩ ∧
    ∃ s', doRecoverFiles (imageEnv [4, 5, 6, 7]) 30 9 ⟨exLinks.enc, ~~~0⟩ false (ascii "/d") (RecState.start exEmptyDir) = .ok () s' ∧ s'.silent ∧
      s'.fs.readFile (ascii "/d/s") = some [1, 2, 3] ∧ s'.fs.readFile (ascii "/d/a") = some [1, 2, 3] ∧
      ((s'.fs.openTrunc (ascii "/d/s")).bind fun x => x.1.readFile (ascii "/d/a")) = some [1, 2, 3] ∧
      ((s'.fs.openTrunc (ascii "/d/s")).bind fun x => x.1.readFile (ascii "/d/s")) = some [] := by
  refine ⟨exLinks_s, exLinks_a, ?_⟩
  obtain ⟨s, h1, h2⟩ := silent_of (o := doRecoverFiles (imageEnv [4, 5, 6, 7]) 30 9 ⟨exLinks.enc, ~~~0⟩ false (ascii "/d")
    (RecState.start exEmptyDir)) (by decide +kernel)
  have h3 : let f := (doRecoverFiles (imageEnv [4, 5, 6, 7]) 30 9 ⟨exLinks.enc, ~~~0⟩ false (ascii "/d") (RecState.start exEmptyDir)).state.fs
      f.readFile (ascii "/d/s") = some [1, 2, 3] ∧ f.readFile (ascii "/d/a") = some [1, 2, 3] ∧
      ((f.openTrunc (ascii "/d/s")).bind fun x => x.1.readFile (ascii "/d/a")) = some [1, 2, 3] ∧
      ((f.openTrunc (ascii "/d/s")).bind fun x => x.1.readFile (ascii "/d/s")) = some [] := by
    decide +kernel
  rw [h1] at h3
  exact ⟨s, h1, h2, h3⟩

end Btrfscue
