import Verif.Props.RecoverSeen
import Verif.Props.RecoverAllEx
import Verif.Props.PieceEx
/-!
# C81, C82, C83, whatever the generations: an example
-/

namespace Btrfscue

/-- A top directory with a directory "s", of generation 10, and a file "a", of generation 12; in
"s" a file "c", of generation 13, which has the extents of `exMixedPieces`. -/
def exSeen : AStore :=
  [(⟨3, ⟨1, 216, 1⟩, 7⟩, mkItem ⟨1, 216, 1⟩ []),
   (⟨3, ⟨256, 228, 16⟩, 7⟩, exChunk 16 64 1 0),
   (⟨3, ⟨257, 229, 0⟩, 7⟩, mkItem ⟨257, 229, 0⟩ []),
   (⟨5, ⟨257, 1, 0⟩, 9⟩, mkItem ⟨257, 1, 0⟩ (exInode 6).layout),
   (⟨5, ⟨258, 1, 0⟩, 9⟩, mkItem ⟨258, 1, 0⟩ (exInode 6).layout),
   (⟨5, ⟨256, 84, (NameHash [115]).toUInt64⟩, 10⟩, mkItem ⟨256, 84, (NameHash [115]).toUInt64⟩ (exEntry ⟨258, 1, 0⟩ 2 [115])),
   (⟨5, ⟨256, 84, (NameHash [97]).toUInt64⟩, 12⟩, mkItem ⟨256, 84, (NameHash [97]).toUInt64⟩ (exEntry ⟨257, 1, 0⟩ 1 [97])),
   (⟨5, ⟨258, 84, (NameHash [99]).toUInt64⟩, 13⟩, mkItem ⟨258, 84, (NameHash [99]).toUInt64⟩ (exEntry ⟨257, 1, 0⟩ 1 [99])),
   (⟨5, ⟨257, 108, 0⟩, 10⟩, mkItem ⟨257, 108, 0⟩ (exInline 3 [1, 2, 3])),
   (⟨5, ⟨257, 108, 2⟩, 10⟩, mkItem ⟨257, 108, 2⟩ (FileExtentItemRec.mk 9 4 0 0 0 1 16 4 0 4).layout),
   (⟨5, ⟨258, 132, 0⟩, 10⟩, mkItem ⟨258, 132, 0⟩ []),
   (metadataVersionKey, [])]

theorem exSeen_sorted : exSeen.Sorted := sorted_of_before (by decide +kernel)

theorem exSeen_wf : exSeen.enc.WF := AStore.enc_wf exSeen_sorted

theorem exSeen_meta : exSeen.enc.stores metadataVersionKey [] := enc_stores.mpr (by simp [exSeen])

theorem exSeen_intact (e : VKey × Bytes) (he : e ∈ exSeen) (ho : e.1.owner ≠ ~~~0) : ∃ d, holdsItem e.2 d := by
  simp only [exSeen, List.mem_cons, List.not_mem_nil, or_false] at he
  rcases he with rfl | rfl | rfl | rfl | rfl | rfl | rfl | rfl | rfl | rfl | rfl | rfl
  all_goals first
    | exact ⟨_, mkItem_holds _ _ (by decide +kernel)⟩
    | exact exChunk_holds _ _ _ _
    | exact absurd rfl ho

theorem exSeen_range (o : UInt64) (last : Key) (ho : o ≠ ~~~0) (hc : ∃ e ∈ exSeen, e.1.owner = o ∧ last.before e.1.key) :
    exSeen.enc.RangeOK o last :=
  rangeOK_of ho (fun e he h => exSeen_intact e he (h ▸ ho))
    (fun e he h => (by decide +kernel : ∀ e ∈ exSeen, e.1.owner ≠ ~~~0 → e.1.gen ≠ ~~~0 ∧ e.1.key ≠ KL0) e he (h ▸ ho)) hc

theorem exSeen_range5 {t : UInt8} (i : UInt64) (ht : t.toNat < 132) : exSeen.enc.RangeOK 5 (KL2 t i) := by
  refine exSeen_range _ _ (by decide) ⟨(⟨5, ⟨258, 132, 0⟩, 10⟩, mkItem ⟨258, 132, 0⟩ []), by decide +kernel, rfl, ?_⟩
  simp only [Key.before, Key.fields, KL2, lexLt]
  exact Or.inl ht

theorem exSeen_range3 : exSeen.enc.RangeOK 3 (KL2 228 256) := exSeen_range _ _ (by decide) (by decide +kernel)

theorem exSeen_chunk : exSeen.enc.chunkSeen 16 ⟨1, 0, uuidAllZero⟩ := by
  obtain ⟨off, g, h1, ⟨x, h2⟩⟩ := run_first (b := exSeen.enc) (o := 3) (t := 228) (id := 256)
    ⟨16, enc_hasKey.mpr ⟨7, exChunk 16 64 1 0, by simp only [exSeen, List.mem_cons, true_or, or_true]⟩⟩
  have h3 : off = 16 ∧ g = 7 := by
    have : ∀ e ∈ exSeen, e.1.owner = 3 → e.1.key.typ = 228 → e.1.key.offset = 16 ∧ e.1.gen = 7 := by decide +kernel
    exact this _ (enc_stores.mp h2) rfl rfl
  obtain ⟨rfl, rfl⟩ := h3
  exact ⟨7, _, _, h1, exChunk_at (len := 64) (dev := 1) (off := 0) (by simp only [exSeen, List.mem_cons, true_or, or_true])⟩

theorem exSeen_chunks : exSeen.enc.SeenIntact := by
  rintro start g - ⟨x, hx⟩
  have : ∀ e ∈ exSeen, e.1.owner = 3 → e.1.key.typ = 228 → e = (⟨3, ⟨256, 228, 16⟩, 7⟩, exChunk 16 64 1 0) := by decide +kernel
  have h := this _ (enc_stores.mp hx) rfl rfl
  simp only [Prod.mk.injEq, VKey.mk.injEq, Key.mk.injEq] at h
  obtain ⟨⟨-, ⟨-, -, rfl⟩, rfl⟩, rfl⟩ := h
  exact ⟨_, _, exChunk_at (enc_stores.mp hx)⟩

/-- Directory items are in tree 5. -/
theorem exSeen_tree {o i off : UInt64} {t : UInt8} (hk : exSeen.enc.hasKey o ⟨i, t, off⟩) (ht : t = 84 ∨ t = 108) : o = 5 := by
  obtain ⟨g, x, hx⟩ := enc_hasKey.mp hk
  have : ∀ e ∈ exSeen, e.1.key.typ = 84 ∨ e.1.key.typ = 108 → e.1.owner = 5 := by decide +kernel
  exact this _ hx ht

theorem exSeen_ends : exSeen.enc.RecoverOK where
  dirs o d off hk := by
    obtain rfl := exSeen_tree hk (Or.inl rfl)
    exact exSeen_range5 d (by decide)
  extents o d off hk := by
    obtain rfl := exSeen_tree hk (Or.inr rfl)
    exact exSeen_range5 d (by decide)
  chunks _ _ := exSeen_range3
  subvolumes off hk := by
    obtain ⟨g, x, hx⟩ := enc_hasKey.mp hk
    have : ∀ e ∈ exSeen, e.1.owner ≠ 1 := by decide +kernel
    exact absurd rfl (this _ hx)

/-- The run over the top directory is of generation 10, ... -/
theorem exSeen_run {off g : UInt64} (h : exSeen.enc.runVersion 5 84 256 off g) : g = 10 := by
  obtain ⟨⟨off0, ⟨⟨x, h1⟩, -⟩, h2⟩, -⟩ := h
  have hk : exSeen.enc.hasKey 5 ⟨256, 84, (NameHash [115]).toUInt64⟩ :=
    enc_hasKey.mpr ⟨10, mkItem ⟨256, 84, (NameHash [115]).toUInt64⟩ (exEntry ⟨258, 1, 0⟩ 2 [115]), by decide +kernel⟩
  have h3 := h2 _ hk
  have : ∀ e ∈ exSeen, e.1.owner = 5 → e.1.key.typ = 84 → e.1.key.objectID = 256 → e.1.key.offset ≤ (NameHash [115]).toUInt64 → e.1.gen = 10 := by
    decide +kernel
  exact this _ (enc_stores.mp h1) rfl rfl rfl h3

/-- ... so of the entries, these are seen. -/
theorem exSeen_entry {o d off g : UInt64} {x : Bytes} (h : exSeen.enc.runVersion o 84 d off g) (hx : exSeen.enc.stores ⟨o, ⟨d, 84, off⟩, g⟩ x) :
    (o = 5 ∧ d = 256 ∧ x = mkItem ⟨256, 84, (NameHash [115]).toUInt64⟩ (exEntry ⟨258, 1, 0⟩ 2 [115])) ∨
    (o = 5 ∧ d = 258 ∧ x = mkItem ⟨258, 84, (NameHash [99]).toUInt64⟩ (exEntry ⟨257, 1, 0⟩ 1 [99])) := by
  obtain rfl := exSeen_tree ⟨g, x, hx⟩ (Or.inl rfl)
  have : ∀ e ∈ exSeen, e.1.key.typ = 84 →
      (e.1.key.objectID = 256 ∧ e.1.gen = 12) ∨
      (e.1.key.objectID = 256 ∧ e.2 = mkItem ⟨256, 84, (NameHash [115]).toUInt64⟩ (exEntry ⟨258, 1, 0⟩ 2 [115])) ∨
      (e.1.key.objectID = 258 ∧ e.2 = mkItem ⟨258, 84, (NameHash [99]).toUInt64⟩ (exEntry ⟨257, 1, 0⟩ 1 [99])) := by decide +kernel
  rcases this _ (enc_stores.mp hx) rfl with ⟨h1, h2⟩ | h1 | h1
  · simp only at h1 h2
    subst h1
    subst h2
    exact absurd (exSeen_run h) (by decide)
  · exact Or.inl ⟨rfl, h1⟩
  · exact Or.inr ⟨rfl, h1⟩

theorem exSeen_entries {o d : UInt64} {name : Bytes} {e : DirItemRec} (h : exSeen.enc.entrySeen o d name e) :
    (o = 5 ∧ d = 256 ∧ name = [115] ∧ e = ⟨⟨258, 1, 0⟩, 7, 0, 1, 2⟩) ∨ (o = 5 ∧ d = 258 ∧ name = [99] ∧ e = ⟨⟨257, 1, 0⟩, 7, 0, 1, 1⟩) := by
  obtain ⟨off, g, x, p, h1, h2, h3, h4⟩ := h
  rcases exSeen_entry h1 h2 with ⟨rfl, rfl, rfl⟩ | ⟨rfl, rfl, rfl⟩
  · obtain rfl := h3.unique (mkItem_holds _ _ (by decide +kernel))
    obtain ⟨rfl, rfl⟩ := startsEntry_unique h4 (name' := [115]) (e' := ⟨⟨258, 1, 0⟩, 7, 0, 1, 2⟩) ⟨[], rfl, by decide⟩
    exact Or.inl ⟨rfl, rfl, rfl, rfl⟩
  · obtain rfl := h3.unique (mkItem_holds _ _ (by decide +kernel))
    obtain ⟨rfl, rfl⟩ := startsEntry_unique h4 (name' := [99]) (e' := ⟨⟨257, 1, 0⟩, 7, 0, 1, 1⟩) ⟨[], rfl, by decide⟩
    exact Or.inr ⟨rfl, rfl, rfl, rfl⟩

theorem exSeen_s : exSeen.enc.entrySeen 5 256 [115] ⟨⟨258, 1, 0⟩, 7, 0, 1, 2⟩ := by
  have hk : exSeen.enc.hasKey 5 ⟨256, 84, (NameHash [115]).toUInt64⟩ :=
    enc_hasKey.mpr ⟨10, mkItem ⟨256, 84, (NameHash [115]).toUInt64⟩ (exEntry ⟨258, 1, 0⟩ 2 [115]), by decide +kernel⟩
  obtain ⟨off, g, h1, ⟨x, h2⟩⟩ := run_first ⟨_, hk⟩
  rcases exSeen_entry h1 h2 with ⟨-, -, rfl⟩ | ⟨-, h, -⟩
  · exact ⟨off, g, _, _, h1, h2, mkItem_holds _ _ (by decide +kernel), [], rfl, by decide⟩
  · exact absurd h (by decide)

theorem exSeen_c : exSeen.enc.entrySeen 5 258 [99] ⟨⟨257, 1, 0⟩, 7, 0, 1, 1⟩ := by
  have hk : exSeen.enc.hasKey 5 ⟨258, 84, (NameHash [99]).toUInt64⟩ :=
    enc_hasKey.mpr ⟨13, mkItem ⟨258, 84, (NameHash [99]).toUInt64⟩ (exEntry ⟨257, 1, 0⟩ 1 [99]), by decide +kernel⟩
  obtain ⟨off, g, h1, ⟨x, h2⟩⟩ := run_first ⟨_, hk⟩
  rcases exSeen_entry h1 h2 with ⟨-, h, -⟩ | ⟨-, -, rfl⟩
  · exact absurd h (by decide)
  · exact ⟨off, g, _, _, h1, h2, mkItem_holds _ _ (by decide +kernel), [], rfl, by decide⟩

theorem exSeen_subvolume {o : UInt64} : ¬ exSeen.enc.subvolumeSeen o := by
  rintro ⟨-, -, g, off, off0, ⟨⟨x, h⟩, -⟩, -⟩
  have : ∀ e ∈ exSeen, e.1.owner ≠ 1 := by decide +kernel
  exact absurd rfl (this _ (enc_stores.mp h))

theorem exSeen_places {o d : UInt64} {p : Bytes} (h : exSeen.enc.SeenAt (ascii "/d") o d p) :
    o = 5 ∧ ((d = 256 ∧ p = ascii "/d") ∨ (d = 258 ∧ p = ascii "/d/s")) := by
  induction h with
  | main => exact ⟨rfl, Or.inl ⟨rfl, rfl⟩⟩
  | subvolume h => exact absurd h exSeen_subvolume
  | dir _ he ht _ _ _ ih =>
    rcases exSeen_entries he with ⟨rfl, rfl, rfl, rfl⟩ | ⟨rfl, rfl, rfl, rfl⟩
    · rcases ih.2 with ⟨-, rfl⟩ | ⟨h, -⟩
      · exact ⟨rfl, Or.inr ⟨rfl, by decide +kernel⟩⟩
      · exact absurd h (by decide)
    · exact absurd ht (by decide)
  | tree _ he ht _ _ ih =>
    rcases exSeen_entries he with ⟨rfl, rfl, rfl, rfl⟩ | ⟨rfl, rfl, rfl, rfl⟩
    · exact absurd ht (by decide)
    · exact absurd ht (by decide)

theorem exSeen_readable : exSeen.enc.TreeReadable (ascii "/d") where
  ends := exSeen_ends
  noKL o ho hk := by
    obtain ⟨g, x, hx⟩ := enc_hasKey.mp hk
    have : ∀ e ∈ exSeen, e.1.owner ≠ ~~~0 → e.1.key ≠ KL0 := by decide +kernel
    exact this _ hx ho rfl
  chunkRange := exSeen_range3
  chunks := exSeen_chunks
  dirs o d p off g x _ h1 h2 := by
    rcases exSeen_entry h1 h2 with ⟨-, -, rfl⟩ | ⟨-, -, rfl⟩
    · exact ⟨_, mkItem_holds _ _ (by decide +kernel), ⟨⟨258, 1, 0⟩, 7, 0, 1, 2⟩, [115], [], rfl, by decide, by decide⟩
    · exact ⟨_, mkItem_holds _ _ (by decide +kernel), ⟨⟨257, 1, 0⟩, 7, 0, 1, 1⟩, [99], [], rfl, by decide, by decide⟩
  trees o d p name e _ he _ := by
    rcases exSeen_entries he with ⟨-, -, -, rfl⟩ | ⟨-, -, -, rfl⟩ <;> decide
  nonempty o d p e _ he := by
    rcases exSeen_entries he with ⟨-, -, h, -⟩ | ⟨-, -, h, -⟩ <;> cases h
  once o d p name e e' _ he he' := by
    rcases exSeen_entries he with ⟨-, -, rfl, rfl⟩ | ⟨-, -, rfl, rfl⟩ <;> rcases exSeen_entries he' with ⟨-, -, h, rfl⟩ | ⟨-, -, h, rfl⟩
    · exact ⟨rfl, rfl⟩
    · exact absurd h (by decide)
    · exact absurd h (by decide)
    · exact ⟨rfl, rfl⟩
  reserved o e h _ := exSeen_subvolume h

theorem exSeen_pieces {off g : UInt64} (hr : exSeen.enc.runVersion 5 108 257 off g)
    (hv : exSeen.enc.hasVersion 5 ⟨257, 108, off⟩ g) :
    (off = 0 ∧ exSeen.enc.pieceSeen 5 257 off (.inline [1, 2, 3])) ∨
    (off = 2 ∧ exSeen.enc.pieceSeen 5 257 off (.raw (FileExtentItemRec.mk 9 4 0 0 0 1 16 4 0 4))) := by
  obtain ⟨x, hx⟩ := hv
  have : ∀ e ∈ exSeen, e.1.owner = 5 → e.1.key.typ = 108 →
      e = (⟨5, ⟨257, 108, 0⟩, 10⟩, mkItem ⟨257, 108, 0⟩ (exInline 3 [1, 2, 3])) ∨
      e = (⟨5, ⟨257, 108, 2⟩, 10⟩, mkItem ⟨257, 108, 2⟩ (FileExtentItemRec.mk 9 4 0 0 0 1 16 4 0 4).layout) := by decide +kernel
  rcases this _ (enc_stores.mp hx) rfl rfl with h | h
  · simp only [Prod.mk.injEq, VKey.mk.injEq, Key.mk.injEq] at h
    obtain ⟨⟨-, ⟨-, -, rfl⟩, rfl⟩, rfl⟩ := h
    exact Or.inl ⟨rfl, 10, _, _, hr, hx, mkItem_holds _ _ (by decide +kernel), ⟨9, 3, 0, 0, 0⟩, [], rfl, by decide, by decide⟩
  · simp only [Prod.mk.injEq, VKey.mk.injEq, Key.mk.injEq] at h
    obtain ⟨⟨-, ⟨-, -, rfl⟩, rfl⟩, rfl⟩ := h
    exact Or.inr ⟨rfl, 10, _, _, hr, hx, mkItem_holds _ _ (by decide +kernel), by decide, [], (List.append_nil _).symm⟩

theorem exSeen_cases {off : UInt64} {p : Piece} (h : exSeen.enc.pieceSeen 5 257 off p) : (off = 0 ∧ p = .inline [1, 2, 3]) ∨
    (off = 2 ∧ p = .raw (FileExtentItemRec.mk 9 4 0 0 0 1 16 4 0 4)) := by
  obtain ⟨g, x, d, h1, h2, -⟩ := id h
  exact (exSeen_pieces h1 ⟨x, h2⟩).imp (fun k => ⟨k.1, pieceSeen_unique exSeen_sorted h k.2⟩) fun k => ⟨k.1, pieceSeen_unique exSeen_sorted h k.2⟩

theorem exSeen_phys {dev phys : UInt64} (h : exSeen.enc.placed 16 dev phys) : phys = 0 := by
  obtain ⟨N, map, hM⟩ := placeOK exSeen_wf exSeen_meta exSeen_range3 exSeen_chunks
  have : ∀ start s, exSeen.enc.chunkSeen start s → start = 16 := by
    rintro start s ⟨g, c, ss, h1, x, d, r, h2, -⟩
    have : ∀ e ∈ exSeen, e.1.owner = 3 → e.1.key.typ = 228 → e.1.key.offset = 16 := by decide +kernel
    exact this _ (enc_stores.mp h2) rfl rfl
  exact (hM.unique h (dev' := 1) (phys' := 0) (Or.inr ⟨by decide, 16, _, exSeen_chunk, rfl, by decide, Or.inl ⟨by decide, fun st s hs _ => by
    rw [this st s hs]; exact UInt64.le_refl _⟩⟩)).2

theorem exSeen_file : exSeen.enc.FileReadable 5 257 (some 6) := by
  refine ⟨exSeen_range5 257 (by decide), fun off g h1 h2 => ?_,
    ⟨fun off p h => ?_, fun off f h => ?_, fun off f dev phys h hz hp => ?_⟩, ?_⟩
  · rcases exSeen_pieces h1 h2 with ⟨-, h⟩ | ⟨-, h⟩
    · exact ⟨_, h, fun _ _ _ => ⟨_, _, exSeen_chunk⟩⟩
    · exact ⟨_, h, fun _ _ _ => ⟨_, _, exSeen_chunk⟩⟩
  · rcases exSeen_cases h with ⟨rfl, rfl⟩ | ⟨rfl, rfl⟩ <;> decide
  · rcases exSeen_cases h with ⟨rfl, h'⟩ | ⟨rfl, h'⟩
    · cases h'
    · injection h' with h'; subst h'; decide
  · rcases exSeen_cases h with ⟨rfl, h'⟩ | ⟨rfl, h'⟩
    · cases h'
    · injection h' with h'
      subst h'
      rw [exSeen_phys hp]
      decide
  · exact ⟨⟨9, mkItem ⟨257, 1, 0⟩ (exInode 6).layout, exInode 6, [], newest_of (x := mkItem ⟨257, 1, 0⟩ (exInode 6).layout)
      (by decide +kernel) (by decide +kernel), enc_stores.mpr (by decide +kernel),
      by rw [List.append_nil]; exact mkItem_holds _ _ (by simp [InodeItemRec.layout, exInode]), rfl⟩, by decide⟩

theorem exSeen_object {t : UInt8} {o i : UInt64} {q : Bytes} (h : exSeen.enc.ObjectAt (ascii "/d") t o i q) :
    (t = 2 ∨ t = 1 ∧ o = 5 ∧ i = 257) ∧ (0 ∉ q ∧ q.length < 4096) := by
  obtain ⟨d, p, name, e, h1, h2, rfl, -, rfl, -, -, rfl⟩ := h
  rcases exSeen_entries h2 with ⟨rfl, rfl, rfl, rfl⟩ | ⟨rfl, rfl, rfl, rfl⟩ <;> rcases (exSeen_places h1).2 with ⟨h, rfl⟩ | ⟨h, rfl⟩
  · exact ⟨Or.inl rfl, by decide +kernel⟩
  · exact absurd h (by decide)
  · exact absurd h (by decide)
  · exact ⟨Or.inr ⟨rfl, rfl, rfl⟩, by decide +kernel⟩

theorem exSeen_recoverable {D : Bytes} (hD : 4 ≤ D.length) : exSeen.enc.SeenRecoverable D (ascii "/d") where
  destName := by decide
  dirs o d p hp := by
    rcases (exSeen_places hp).2 with ⟨-, rfl⟩ | ⟨-, rfl⟩ <;> decide +kernel
  files o i q h := by
    obtain ⟨h1, h2⟩ := exSeen_object h
    obtain ⟨-, rfl, rfl⟩ := h1.resolve_left (by decide)
    refine ⟨h2, fun off f dev phys h3 _ _ h4 => ?_, some 6, exSeen_file⟩
    rcases exSeen_cases h3 with ⟨rfl, h'⟩ | ⟨rfl, h'⟩
    · cases h'
    · injection h' with h'
      subst h'
      rw [exSeen_phys h4]
      exact hD
  links o i q h := by
    obtain ⟨h1, h2⟩ := exSeen_object h
    rcases h1 with h1 | ⟨h1, -⟩ <;> exact absurd h1 (by decide)

/-- The hypotheses of `C83_recovers_seen` (and with that of `C81_everything_seen`, `C82_only_seen`,
`C82_contents_seen`) are met; "s" and "c" are seen, "a" is not. -/
example : exSeen.enc.WF ∧ exSeen.enc.stores metadataVersionKey [] ∧ exSeen.enc.RangeOK 3 (KL2 228 256) ∧ exSeen.enc.SeenIntact ∧
    exSeen.enc.RecoverOK ∧ Quiet (imageEnv [4, 5, 6, 7]) [4, 5, 6, 7] ∧ EmptyDest exEmptyDir (ascii "/d") 1 ∧
    exSeen.enc.TreeReadable (ascii "/d") ∧ exSeen.enc.SeenRecoverable [4, 5, 6, 7] (ascii "/d") ∧
    exSeen.enc.SeenAt (ascii "/d") 5 258 (ascii "/d/s") ∧ exSeen.enc.ObjectAt (ascii "/d") 1 5 257 (ascii "/d/s/c") ∧
    ∀ e, ¬ exSeen.enc.entrySeen 5 256 [97] e := by
  have hs : exSeen.enc.SeenAt (ascii "/d") 5 258 (goJoin (ascii "/d") [115]) :=
    .dir .main exSeen_s rfl (by decide) (by refine ⟨?_, ?_, ?_⟩ <;> decide) (by decide)
  have hj : goJoin (ascii "/d") [115] = ascii "/d/s" := by decide +kernel
  rw [hj] at hs
  refine ⟨exSeen_wf, exSeen_meta, exSeen_range3, exSeen_chunks, exSeen_ends, ⟨fun _ _ => rfl, fun _ => rfl⟩, exEmptyDir_ok, exSeen_readable,
    exSeen_recoverable (by decide), hs, ⟨258, _, [99], _, hs, exSeen_c, rfl, by decide, rfl, by refine ⟨?_, ?_, ?_⟩ <;> decide, by decide, by decide +kernel⟩,
    fun e he => ?_⟩
  rcases exSeen_entries he with ⟨-, -, h, -⟩ | ⟨-, -, h, -⟩ <;> exact absurd h (by decide)

/-- C83 is false of the code for directories of more than one generation: the newest version of the
entry "a" of the top directory is there, but recovering, with no system call failing and without a
warning, recovers "s", and in it "c", and not "a". -/
theorem C83_mixed_generations_lost :
    (∃ e, exSeen.enc.entryNow 5 256 [97] e ∧ e.typ = 1 ∧ e.location = ⟨257, 1, 0⟩) ∧
    ∃ s', doRecoverFiles (imageEnv [4, 5, 6, 7]) 30 9 ⟨exSeen.enc, ~~~0⟩ false (ascii "/d") (RecState.start exEmptyDir) = .ok () s' ∧ s'.silent ∧
      s'.fs.readFile (ascii "/d/s/c") = some [1, 2, 4, 5, 6, 7] ∧ s'.fs.stat false (ascii "/d/a") = none := by
  constructor
  · refine ⟨⟨⟨257, 1, 0⟩, 7, 0, 1, 1⟩, ⟨(NameHash [97]).toUInt64, 12, mkItem ⟨256, 84, (NameHash [97]).toUInt64⟩ (exEntry ⟨257, 1, 0⟩ 1 [97]), _,
      [(⟨⟨257, 1, 0⟩, 7, 0, 1, 1⟩, [97])], newest_of (x := mkItem ⟨256, 84, (NameHash [97]).toUInt64⟩ (exEntry ⟨257, 1, 0⟩ 1 [97]))
        (by decide +kernel) (by decide +kernel), enc_stores.mpr (by decide +kernel), mkItem_holds _ _ (by decide +kernel), ?_, by simp⟩, rfl, rfl⟩
    have := packed_single (e := ⟨⟨257, 1, 0⟩, 7, 0, 1, 1⟩) (name := [97]) (data := []) (by decide) (by decide)
    exact this
  · obtain ⟨s, h1, h2⟩ := silent_of (o := doRecoverFiles (imageEnv [4, 5, 6, 7]) 30 9 ⟨exSeen.enc, ~~~0⟩ false (ascii "/d")
      (RecState.start exEmptyDir)) (by decide +kernel)
    have h3 : (doRecoverFiles (imageEnv [4, 5, 6, 7]) 30 9 ⟨exSeen.enc, ~~~0⟩ false (ascii "/d") (RecState.start exEmptyDir)).state.fs.readFile
        (ascii "/d/s/c") = some [1, 2, 4, 5, 6, 7] := by decide +kernel
    have h4 : (doRecoverFiles (imageEnv [4, 5, 6, 7]) 30 9 ⟨exSeen.enc, ~~~0⟩ false (ascii "/d") (RecState.start exEmptyDir)).state.fs.stat false
        (ascii "/d/a") = none := by decide +kernel
    rw [h1] at h3 h4
    exact ⟨s, h1, h2, h3, h4⟩

end Btrfscue
