import Verif.Props.PieceExact
import Verif.Props.ContentTrue
import Verif.Props.RecoverWrong
/-!
# Which files can be read
-/

namespace Btrfscue

open Cmd

theorem extentSeen_piece {b : Bucket} {o ino off : UInt64} {f : FileExtentItemRec} :
    b.pieceSeen o ino off (.raw f) ↔ b.extentSeen o ino off f ∧ f.typ ≠ 0 := by
  constructor
  · rintro ⟨g, x, d, h1, h2, h3, h4, rest, h5⟩
    exact ⟨⟨g, h1, x, d, rest, h2, h3, h5⟩, h4⟩
  · rintro ⟨⟨g, h1, x, d, rest, h2, h3, h5⟩, h4⟩
    exact ⟨g, x, d, h1, h2, h3, h4, rest, h5⟩

/-- Files none of whose extents is inline. -/
theorem Bucket.FileReadable.of_extents {b : Bucket} (hb : b.WF) {o ino : UInt64} (hr : b.RangeOK o (KL2 108 ino))
    (hi : b.ExtentsIntact o ino) (hf : b.ExtentsFit o ino) {size : Option UInt64} (hs : b.knownSize o ino size) :
    b.FileReadable o ino size := by
  obtain ⟨l, hl, rfl⟩ := hb.exists_abs
  have hall : ∀ off p, l.enc.pieceSeen o ino off p → ∃ f, p = .raw f ∧ l.enc.extentSeen o ino off f := by
    intro off p h
    obtain ⟨g, x, d, h1, h2, -, -⟩ := id h
    obtain ⟨f, k1, k2, -⟩ := hi off g h1 ⟨x, h2⟩
    have := pieceSeen_unique hl h (extentSeen_piece.mpr ⟨⟨g, h1, k1⟩, k2⟩)
    exact ⟨f, this, g, h1, k1⟩
  refine ⟨hr, fun off g h1 h2 => ?_, ⟨fun off p h => ?_, fun off f h => ?_, fun off f dev phys h => ?_⟩, hs⟩
  · obtain ⟨f, k1, k2, k3⟩ := hi off g h1 h2
    exact ⟨.raw f, extentSeen_piece.mpr ⟨⟨g, h1, k1⟩, k2⟩, fun f' h => by injection h with h; subst h; exact k3⟩
  · obtain ⟨f, rfl, k⟩ := hall off p h
    exact hf.small off f k
  · exact hf.holes off f (extentSeen_piece.mp h).1
  · exact hf.addr off f dev phys (extentSeen_piece.mp h).1

/-- Files whose contents are in one item. -/
theorem Bucket.FileReadable.of_inline {b : Bucket} (hb : b.WF) {o ino g start : UInt64} {data : Bytes}
    (hi : b.InlineFile o ino g start data) {size : Option UInt64} (hs : b.knownSize o ino size) : b.FileReadable o ino size := by
  obtain ⟨l, hl, rfl⟩ := hb.exists_abs
  obtain ⟨x, f, rest, h1, h2, -, -, -, h3⟩ := hi.intact
  have hrun : l.enc.runVersion o 108 ino start g := by
    refine ⟨⟨start, hi.newest, fun off' h => ?_⟩, fun off' h _ => ?_⟩
    · rw [hi.only off' h]; exact UInt64.le_refl _
    · rw [hi.only off' h]; exact hi.newest.1
  have hs' := hi.short
  have hseen : l.enc.pieceSeen o ino start (.inline data) :=
    ⟨g, x, _, hrun, h1, h2, f, rest, rfl, by rw [h3]; omega, by rw [h3]; omega⟩
  have hall : ∀ off p, l.enc.pieceSeen o ino off p → off = start ∧ p = .inline data := by
    intro off p h
    obtain ⟨g', y, d, k1, k2, -⟩ := id h
    obtain rfl := hi.only off ⟨g', y, k2⟩
    exact ⟨rfl, pieceSeen_unique hl h hseen⟩
  refine ⟨hi.range, fun off g' h1' h2' => ?_, ⟨fun off p h => ?_, fun off f h => ?_, fun off f dev phys h => ?_⟩, hs⟩
  · obtain rfl := hi.only off ⟨g', h2'⟩
    exact ⟨_, hseen, fun f h => by cases h⟩
  · obtain ⟨rfl, rfl⟩ := hall off p h
    exact hi.small
  · have := (hall _ _ h).2; cases this
  · have := (hall _ _ h).2; cases this

/-- C75: recovering any file that can be read — of whatever generations, compressed or not, inline
or not, with its inode item or without — ends without a crash, whatever system calls fail, whatever
parts of the image `D` the device delivers. Missing: files that cannot (`C75_huge_hole_crashes`,
`C75_huge_inline_size_crashes`, `C75_short_item_crashes`, `C75_no_chunks_crashes`). -/
theorem C75_readable_ends_partial (b : Bucket) (hb : b.WF) (m : Bytes) (hm : b.stores metadataVersionKey m)
    (owner ino : UInt64) (size : Option UInt64) (hok : b.FileReadable owner ino size)
    (hchunks : b.RangeOK 3 (KL2 228 256)) (hseen : b.SeenIntact) :
    ∃ N, ∀ (D : Bytes) (rf : Nat), N ≤ rf → ∀ env, Honest env D →
      ∀ (clobber : Bool) (target : Bytes) (s : RecState), s.cache = none →
      ∃ r s', recoverFile env rf ⟨b, ~~~0⟩ clobber owner ino target s = .ok r s' := by
  obtain ⟨N, map, hM⟩ := placeOK hb hm hchunks hseen
  refine ⟨max N (b.length + 1), fun D rf hrf env hh clobber target s hc => ?_⟩
  have := file_pieces hb hm hok hM D rf (by omega) (by omega) env hh clobber target s (Or.inl hc)
  unfold Cmd.wp at this
  cases hrun : recoverFile env rf ⟨b, ~~~0⟩ clobber owner ino target s with
  | ok r s' => exact ⟨r, s', rfl⟩
  | exit s' => rw [hrun] at this; exact this.elim
  | crash s' => rw [hrun] at this; exact this.elim
  | hang s' => rw [hrun] at this; exact this.elim

/-! ### The hypotheses can be met -/

example : (exTwoExtents 11).enc.FileReadable 5 257 (some 8) :=
  .of_extents exTwo_ok.1 exTwo_ok.2.2.1 exTwo_ok.2.2.2.2.2.1 exTwo_fit exTwo_size

/-- A file whose first extent is inline, the second is not. -/
def exMixedPieces : AStore :=
  [(⟨3, ⟨1, 216, 1⟩, 7⟩, mkItem ⟨1, 216, 1⟩ []),
   (⟨3, ⟨256, 228, 16⟩, 7⟩, exChunk 16 64 1 0),
   (⟨3, ⟨257, 229, 0⟩, 7⟩, mkItem ⟨257, 229, 0⟩ []),
   (⟨5, ⟨257, 108, 0⟩, 10⟩, mkItem ⟨257, 108, 0⟩ (exInline 3 [1, 2, 3])),
   (⟨5, ⟨257, 108, 2⟩, 10⟩, mkItem ⟨257, 108, 2⟩ (FileExtentItemRec.mk 9 4 0 0 0 1 16 4 0 4).layout),
   (⟨5, ⟨258, 132, 0⟩, 10⟩, mkItem ⟨258, 132, 0⟩ []),
   (metadataVersionKey, [])]

theorem exMixedPieces_wf : exMixedPieces.enc.WF := AStore.enc_wf (sorted_of_before (by decide +kernel))

theorem exMixedPieces_meta : exMixedPieces.enc.stores metadataVersionKey [] := enc_stores.mpr (by simp [exMixedPieces])

theorem exMixedPieces_intact (e : VKey × Bytes) (he : e ∈ exMixedPieces) (ho : e.1.owner ≠ ~~~0) : ∃ d, holdsItem e.2 d := by
  simp only [exMixedPieces, List.mem_cons, List.not_mem_nil, or_false] at he
  rcases he with rfl | rfl | rfl | rfl | rfl | rfl | rfl
  · exact ⟨_, mkItem_holds _ _ (by decide)⟩
  · exact exChunk_holds _ _ _ _
  · exact ⟨_, mkItem_holds _ _ (by decide)⟩
  · exact ⟨_, mkItem_holds _ _ (by decide +kernel)⟩
  · exact ⟨_, mkItem_holds _ _ (by decide +kernel)⟩
  · exact ⟨_, mkItem_holds _ _ (by decide)⟩
  · exact absurd rfl ho

theorem exMixedPieces_range (o : UInt64) (last : Key) (ho : o ≠ ~~~0) (hc : ∃ e ∈ exMixedPieces, e.1.owner = o ∧ last.before e.1.key) :
    exMixedPieces.enc.RangeOK o last :=
  rangeOK_of ho (fun e he h => exMixedPieces_intact e he (h ▸ ho))
    (fun e he h => (by decide +kernel : ∀ e ∈ exMixedPieces, e.1.owner ≠ ~~~0 → e.1.gen ≠ ~~~0 ∧ e.1.key ≠ KL0) e he (h ▸ ho)) hc

theorem exMixedPieces_chunk : exMixedPieces.enc.chunkSeen 16 ⟨1, 0, uuidAllZero⟩ := by
  obtain ⟨off, g, h1, ⟨x, h2⟩⟩ := run_first (b := exMixedPieces.enc) (o := 3) (t := 228) (id := 256)
    ⟨16, enc_hasKey.mpr ⟨7, exChunk 16 64 1 0, by simp only [exMixedPieces, List.mem_cons, true_or, or_true]⟩⟩
  have h3 : off = 16 ∧ g = 7 := by
    have : ∀ e ∈ exMixedPieces, e.1.owner = 3 → e.1.key.typ = 228 → e.1.key.offset = 16 ∧ e.1.gen = 7 := by decide +kernel
    exact this _ (enc_stores.mp h2) rfl rfl
  obtain ⟨rfl, rfl⟩ := h3
  exact ⟨7, _, _, h1, exChunk_at (len := 64) (dev := 1) (off := 0) (by simp only [exMixedPieces, List.mem_cons, true_or, or_true])⟩

theorem exMixedPieces_seen : exMixedPieces.enc.SeenIntact := by
  rintro start g - ⟨x, hx⟩
  have : ∀ e ∈ exMixedPieces, e.1.owner = 3 → e.1.key.typ = 228 → e = (⟨3, ⟨256, 228, 16⟩, 7⟩, exChunk 16 64 1 0) := by decide +kernel
  have h := this _ (enc_stores.mp hx) rfl rfl
  simp only [Prod.mk.injEq, VKey.mk.injEq, Key.mk.injEq] at h
  obtain ⟨⟨-, ⟨-, -, rfl⟩, rfl⟩, rfl⟩ := h
  exact ⟨_, _, exChunk_at (enc_stores.mp hx)⟩

/-- Its pieces. -/
theorem exMixedPieces_pieces {off g : UInt64} (hr : exMixedPieces.enc.runVersion 5 108 257 off g)
    (hv : exMixedPieces.enc.hasVersion 5 ⟨257, 108, off⟩ g) :
    (off = 0 ∧ exMixedPieces.enc.pieceSeen 5 257 off (.inline [1, 2, 3])) ∨
    (off = 2 ∧ exMixedPieces.enc.pieceSeen 5 257 off (.raw (FileExtentItemRec.mk 9 4 0 0 0 1 16 4 0 4))) := by
  obtain ⟨x, hx⟩ := hv
  have : ∀ e ∈ exMixedPieces, e.1.owner = 5 → e.1.key.typ = 108 →
      e = (⟨5, ⟨257, 108, 0⟩, 10⟩, mkItem ⟨257, 108, 0⟩ (exInline 3 [1, 2, 3])) ∨
      e = (⟨5, ⟨257, 108, 2⟩, 10⟩, mkItem ⟨257, 108, 2⟩ (FileExtentItemRec.mk 9 4 0 0 0 1 16 4 0 4).layout) := by decide +kernel
  rcases this _ (enc_stores.mp hx) rfl rfl with h | h
  · simp only [Prod.mk.injEq, VKey.mk.injEq, Key.mk.injEq] at h
    obtain ⟨⟨-, ⟨-, -, rfl⟩, rfl⟩, rfl⟩ := h
    exact Or.inl ⟨rfl, 10, _, _, hr, hx, mkItem_holds _ _ (by decide +kernel), ⟨9, 3, 0, 0, 0⟩, [], rfl, by decide, by decide⟩
  · simp only [Prod.mk.injEq, VKey.mk.injEq, Key.mk.injEq] at h
    obtain ⟨⟨-, ⟨-, -, rfl⟩, rfl⟩, rfl⟩ := h
    exact Or.inr ⟨rfl, 10, _, _, hr, hx, mkItem_holds _ _ (by decide +kernel), by decide, [], (List.append_nil _).symm⟩

theorem exMixedPieces_readable : exMixedPieces.enc.FileReadable 5 257 none := by
  have hsort : exMixedPieces.Sorted := sorted_of_before (by decide +kernel)
  have hcases : ∀ off p, exMixedPieces.enc.pieceSeen 5 257 off p → (off = 0 ∧ p = .inline [1, 2, 3]) ∨
      (off = 2 ∧ p = .raw (FileExtentItemRec.mk 9 4 0 0 0 1 16 4 0 4)) := by
    intro off p h
    obtain ⟨g, x, d, h1, h2, -⟩ := id h
    exact (exMixedPieces_pieces h1 ⟨x, h2⟩).imp (fun k => ⟨k.1, pieceSeen_unique hsort h k.2⟩) fun k => ⟨k.1, pieceSeen_unique hsort h k.2⟩
  refine ⟨exMixedPieces_range _ _ (by decide) (by decide +kernel), fun off g h1 h2 => ?_,
    ⟨fun off p h => ?_, fun off f h => ?_, fun off f dev phys h hz hp => ?_⟩, ?_⟩
  · rcases exMixedPieces_pieces h1 h2 with ⟨-, h⟩ | ⟨-, h⟩
    · exact ⟨_, h, fun _ _ _ => ⟨_, _, exMixedPieces_chunk⟩⟩
    · exact ⟨_, h, fun _ _ _ => ⟨_, _, exMixedPieces_chunk⟩⟩
  · rcases hcases off p h with ⟨rfl, rfl⟩ | ⟨rfl, rfl⟩ <;> decide
  · rcases hcases off _ h with ⟨rfl, h'⟩ | ⟨rfl, h'⟩
    · cases h'
    · injection h' with h'; subst h'; decide
  · rcases hcases off _ h with ⟨rfl, h'⟩ | ⟨rfl, h'⟩
    · cases h'
    · injection h' with h'
      subst h'
      obtain ⟨N, map, hM⟩ := placeOK exMixedPieces_wf exMixedPieces_meta (exMixedPieces_range _ _ (by decide) (by decide +kernel)) exMixedPieces_seen
      have : ∀ start s, exMixedPieces.enc.chunkSeen start s → start = 16 := by
        rintro start s ⟨g, c, ss, h1, x, d, r, h2, -⟩
        have : ∀ e ∈ exMixedPieces, e.1.owner = 3 → e.1.key.typ = 228 → e.1.key.offset = 16 := by decide +kernel
        exact this _ (enc_stores.mp h2) rfl rfl
      rw [(hM.unique hp (dev' := 1) (phys' := 0) (Or.inr ⟨by decide, 16, _, exMixedPieces_chunk, rfl, by decide, Or.inl ⟨by decide, fun st s hs _ => by
        rw [this st s hs]; exact UInt64.le_refl _⟩⟩)).2]
      decide
  · rintro ⟨g, hv⟩
    obtain ⟨x, hx⟩ := enc_hasVersion.mp hv
    have : ∀ e ∈ exMixedPieces, e.1.key ≠ ⟨257, 1, 0⟩ := by decide +kernel
    exact this _ hx rfl

/-- The second piece covers the last byte of the first; the file, without an inode item, ends where
it ends. -/
example : (recoverFile (imageEnv [4, 5, 6, 7]) 9 ⟨exMixedPieces.enc, ~~~0⟩ false 5 257 (ascii "/a")
    (RecState.start exEmptyHost)).seen = some (none, some [1, 2, 4, 5, 6, 7]) := by decide +kernel

/-- `C58_pieces_exact` and `C75_readable_ends_partial` apply to it. -/
example : ∃ N, ∀ rf, N ≤ rf → ∃ r s', recoverFile (imageEnv [4, 5, 6, 7]) rf ⟨exMixedPieces.enc, ~~~0⟩ false 5 257 (ascii "/a")
    (RecState.start exEmptyHost) = .ok r s' := by
  obtain ⟨N, h⟩ := C75_readable_ends_partial exMixedPieces.enc exMixedPieces_wf [] exMixedPieces_meta 5 257 none exMixedPieces_readable
    (exMixedPieces_range _ _ (by decide) (by decide +kernel)) exMixedPieces_seen
  have hq : Quiet (imageEnv [4, 5, 6, 7]) [4, 5, 6, 7] := ⟨fun _ _ => rfl, fun _ => rfl⟩
  exact ⟨N, fun rf hrf => h [4, 5, 6, 7] rf hrf (imageEnv [4, 5, 6, 7]) hq.honest false (ascii "/a") (RecState.start exEmptyHost) rfl⟩

end Btrfscue
