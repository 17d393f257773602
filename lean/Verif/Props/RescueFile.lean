import Verif.Proof.ExtentFile
/-!
# C50, C51, C54, C67: reading files in the mounted file system

`extentFileRead dev m buf off` is a read of `buf.length` bytes at `off` of a file with
extents `m`; `buf` is the buffer FUSE hands in, with arbitrary old contents.
-/

namespace Btrfscue

theorem read_eq (dev : Option ReaderAt) (m : List ExtentMapEntry) (buf : Bytes) (off : Nat) {c : Nat} {buf' : Bytes}
    (h : readLoop dev off m 0 buf = .ok (some ((c : Nat), buf'))) (hc : c ≤ buf'.length) :
    extentFileRead dev m buf off = .ok (.ok (buf'.take c)) := by
  unfold extentFileRead
  rw [if_neg (by omega), h]
  simp only [Go.ok_bind]
  by_cases h1 : (c : Int) < (buf'.length : Int)
  · rw [if_pos h1, if_neg (by omega)]; rfl
  · rw [if_neg h1, List.take_of_length_le (by omega)]; rfl

/-! ## C67 -/

/-- C67: whatever extents an index contains (overlapping, out of order, wrapping around
2^64) and whatever the device does, a read does not crash; it reports an error or at
most as many bytes as were asked for. -/
theorem C67_read_never_crashes (dev : Option ReaderAt) (m : List ExtentMapEntry) (buf : Bytes) (off : Int)
    (h1 : off < 2 ^ 63) (hb : buf.length < 2 ^ 63) :
    ∃ r, extentFileRead dev m buf off = .ok r ∧ ∀ d, r = .ok d → d.length ≤ buf.length := by
  by_cases h0 : off < 0
  · exact ⟨.error .EINVAL, by unfold extentFileRead; rw [if_pos h0]; rfl, by simp⟩
  · rcases readLoop_total dev off (by omega) h1 m 0 buf hb (by omega) (by omega) with h | ⟨c, b, h, h2, h3, h4⟩
    · refine ⟨.error .EIO, ?_, by simp⟩
      unfold extentFileRead
      rw [if_neg h0, h]; rfl
    · obtain ⟨c, rfl⟩ : ∃ n : Nat, c = n := ⟨c.toNat, by omega⟩
      obtain ⟨o, rfl⟩ : ∃ n : Nat, off = n := ⟨off.toNat, by omega⟩
      refine ⟨_, read_eq dev m buf o h (by omega), ?_⟩
      intro d hd
      cases hd
      rw [List.length_take]; omega

/-- C67: negative offsets are refused. -/
theorem C67_negative_offset (dev : Option ReaderAt) (m : List ExtentMapEntry) (buf : Bytes) (off : Int) (h : off < 0) :
    extentFileRead dev m buf off = .ok (.error .EINVAL) := by
  unfold extentFileRead; rw [if_pos h]; rfl

/-! ## C50 -/

/-- C50, the part that holds: if the extents are those of an undamaged file without gaps
in the range read, the bytes returned are bytes of the file from `off` on, and include
at least everything up to the end of the extent that holds `off`. -/
theorem C50_read_prefix_partial (D : Bytes) (m : List ExtentMapEntry) (buf : Bytes) (off : Nat)
    (hok : ExtentsOK D m) (hgap : Gapless m off buf.length) (hb : off + buf.length < 2 ^ 63) (hne : buf ≠ []) :
    ∃ d, extentFileRead (some (imageReader D)) m buf off = .ok (.ok d) ∧ d.length ≤ buf.length ∧
      (∀ i v, d[i]? = some v → fileByte D m (off + i) v) ∧
      ∀ e ∈ m, e.covers off → min buf.length (e.fileEnd - off) ≤ d.length := by
  have hpos : 0 < buf.length := List.length_pos_iff.mpr hne
  obtain ⟨c, b, h1, h2, -, h4, h5, h6⟩ := readLoop_spec (D := D) (off := off) (L := buf.length) hb hpos
    (fun i v => fileByte D m (off + i) v) m 0 0 buf hok (fun _ _ => Nat.zero_le _)
    (fun p p1 _ p3 => hgap p p1 p3) rfl (Nat.zero_le _) (by omega)
    (by
      intro e he p v hc ho hv
      left
      rw [show off + (p - off) = p by omega]
      exact ⟨e, he, hc, hv⟩)
    (Or.inl ⟨rfl, Nat.zero_le _⟩)
  refine ⟨b.take c, read_eq _ m buf off h1 (by omega), ?_, ?_, ?_⟩
  · rw [List.length_take]; omega
  · intro i v hv
    rw [List.getElem?_take] at hv
    split at hv
    · rename_i hi; exact h5 i hi v hv
    · cases hv
  · intro e he hc
    have := h6 rfl (Nat.zero_le _) e he hc
    rw [List.length_take]; omega

/-- C50: a read inside one extent is complete and right. -/
theorem C50_read_in_extent (D : Bytes) (m : List ExtentMapEntry) (buf : Bytes) (off : Nat)
    (hok : ExtentsOK D m) (e : ExtentMapEntry) (he : e ∈ m) (h1 : e.fileOffset.toNat ≤ off)
    (h2 : off + buf.length ≤ e.fileEnd) (hne : buf ≠ []) :
    ∃ d, extentFileRead (some (imageReader D)) m buf off = .ok (.ok d) ∧ d.length = buf.length ∧
      ∀ i v, d[i]? = some v → fileByte D m (off + i) v := by
  have hpos : 0 < buf.length := List.length_pos_iff.mpr hne
  have hbd := hok.bounded e he
  obtain ⟨d, hd, hl, hv, hc⟩ := C50_read_prefix_partial D m buf off hok
    (fun p p1 p2 => Or.inl ⟨e, he, by omega, by omega⟩) (by omega) hne
  refine ⟨d, hd, ?_, hv⟩
  have := hc e he ⟨h1, by omega⟩
  omega

/-- C50: a read that starts in the last extent is complete up to the end of the file
and right, so a file with a single extent is always read correctly. -/
theorem C50_read_last_extent (D : Bytes) (m : List ExtentMapEntry) (buf : Bytes) (off : Nat)
    (hok : ExtentsOK D m) (e : ExtentMapEntry) (he : e ∈ m) (h1 : e.covers off)
    (hlast : ∀ x ∈ m, x.fileEnd ≤ e.fileEnd) (hb : off + buf.length < 2 ^ 63) (hne : buf ≠ []) :
    ∃ d, extentFileRead (some (imageReader D)) m buf off = .ok (.ok d) ∧ min buf.length (e.fileEnd - off) ≤ d.length ∧
      d.length ≤ buf.length ∧ ∀ i v, d[i]? = some v → fileByte D m (off + i) v := by
  obtain ⟨d, hd, hl, hv, hc⟩ := C50_read_prefix_partial D m buf off hok
    (fun p p1 _ => by
      by_cases hp : p < e.fileEnd
      · exact Or.inl ⟨e, he, by have := h1.1; omega, hp⟩
      · exact Or.inr fun x hx => by have := hlast x hx; omega) hb hne
  exact ⟨d, hd, hc e he h1, hl, hv⟩

/-- A device of six bytes and a file of two extents, `[0,4)` on device bytes 2..5 and a
hole `[4,6)`. -/
def exExtents : List ExtentMapEntry := [⟨0, 4, 2, 1, 1⟩, ⟨4, 2, 0, 0, 0⟩]

/-- The hypotheses of the theorems above are met by `exExtents`. -/
theorem exExtents_ok : ExtentsOK [9, 9, 1, 2, 3, 4] exExtents ∧ Gapless exExtents 0 5 := by
  refine ⟨⟨by decide, ?_, by simp [exExtents, ExtentMapEntry.fileEnd], ?_⟩, ?_⟩
  · simp [exExtents, ExtentMapEntry.fileEnd]
  · simp [exExtents]
  · intro p _ hp
    left
    by_cases h : p < 4
    · exact ⟨⟨0, 4, 2, 1, 1⟩, by simp [exExtents], by simp [ExtentMapEntry.covers, ExtentMapEntry.fileEnd]; omega⟩
    · exact ⟨⟨4, 2, 0, 0, 0⟩, by simp [exExtents], by simp [ExtentMapEntry.covers, ExtentMapEntry.fileEnd]; omega⟩

example : extentFileRead (some (imageReader [9, 9, 1, 2, 3, 4])) exExtents [7, 7, 7] 1 = .ok (.ok [2, 3, 4]) := by
  decide

/-- C50 is false of the code: a read that crosses from one extent into the next stops
short of the end of what was asked for, although the file goes on. For any two adjacent
extents of lengths `a` and `b`, a read of `L` bytes, `a < L ≤ a + b`, at the start of the
first returns only `max a (L - a)` bytes. -/
theorem C50_crossing_read_short (D : Bytes) (e1 e2 : ExtentMapEntry) (buf : Bytes)
    (hok : ExtentsOK D [e1, e2]) (hadj : e2.fileOffset.toNat = e1.fileEnd) (ha : 0 < e1.length.toNat)
    (h1 : e1.length.toNat < buf.length) (h2 : buf.length ≤ e1.length.toNat + e2.length.toNat) :
    ∃ d, extentFileRead (some (imageReader D)) [e1, e2] buf e1.fileOffset.toNat = .ok (.ok d) ∧
      d.length = max e1.length.toNat (buf.length - e1.length.toNat) ∧ d.length < buf.length := by
  have b1 := hok.bounded e1 (by simp)
  have b2 := hok.bounded e2 (by simp)
  have hf1 : e1.fileEnd = e1.fileOffset.toNat + e1.length.toNat := rfl
  have hf2 : e2.fileEnd = e2.fileOffset.toNat + e2.length.toNat := rfl
  obtain ⟨w, hw, hwl, -⟩ := fillChunk_image (D := D) (e := e1) (buf := buf) (dest := 0) (chunk := e1.length.toNat)
    (skip := 0) (by omega) hok.device (fun hz => by have := hok.onDevice e1 (by simp) hz; omega)
  have step1 := readLoop_step (dev := some (imageReader D)) (off := e1.fileOffset.toNat) (c := 0) (e := e1) (rest := [e2])
    (buf := buf) b1 (by omega) (by omega) (rs := e1.fileOffset.toNat) (re := e1.fileEnd) (by omega) (by omega) (by omega)
  rw [Nat.sub_self, show e1.fileEnd - e1.fileOffset.toNat = e1.length.toNat by omega, hw, Go.ok_bind] at step1
  simp only [Nat.zero_add] at step1
  generalize hb' : buf.take 0 ++ (w ++ buf.drop e1.length.toNat) = buf1 at step1
  have hl1 : buf1.length = buf.length := by
    rw [← hb']; simp only [List.length_append, List.length_take, hwl, List.length_drop]; omega
  by_cases hh : buf.length - e1.length.toNat ≤ e1.length.toNat
  · have step2 : readLoop (some (imageReader D)) e1.fileOffset.toNat [e2] (e1.length.toNat : Nat) buf1 =
        .ok (some ((e1.length.toNat : Nat), buf1)) :=
      readLoop_break b2 (by omega) (by omega) (by omega) (by omega)
    rw [step2] at step1
    refine ⟨_, read_eq _ _ buf _ step1 (by omega), ?_⟩
    rw [List.length_take]; omega
  · obtain ⟨w2, hw2, hwl2, -⟩ := fillChunk_image (D := D) (e := e2) (buf := buf1) (dest := e1.length.toNat)
      (chunk := buf.length - e1.length.toNat - e1.length.toNat)
      (skip := 0) (by omega) hok.device (fun hz => by have := hok.onDevice e2 (by simp) hz; omega)
    have step2 := readLoop_step (dev := some (imageReader D)) (off := e1.fileOffset.toNat) (c := e1.length.toNat) (e := e2)
      (rest := []) (buf := buf1) b2 (by omega) (by omega) (rs := e2.fileOffset.toNat)
      (re := e1.fileOffset.toNat + buf.length - e1.length.toNat) (by omega) (by omega) (by omega)
    rw [Nat.sub_self, show e2.fileOffset.toNat - e1.fileOffset.toNat = e1.length.toNat by omega,
      show e1.fileOffset.toNat + buf.length - e1.length.toNat - e2.fileOffset.toNat =
        buf.length - e1.length.toNat - e1.length.toNat by omega, hw2, Go.ok_bind] at step2
    simp only [readLoop.eq_1] at step2
    rw [step2] at step1
    refine ⟨_, read_eq _ _ buf _ step1 ?_, ?_⟩
    · simp only [List.length_append, List.length_take, hwl2, List.length_drop]; omega
    · simp only [List.length_append, List.length_take, hwl2, List.length_drop]; omega

/-- A read of six bytes of the six byte file `exExtents` yields four. -/
example : extentFileRead (some (imageReader [9, 9, 1, 2, 3, 4])) exExtents [7, 7, 7, 7, 7, 7] 0 =
    .ok (.ok [1, 2, 3, 4]) := by decide

/-- C50 is false of the code: before the first extent of a file (or in a gap between
extents, as the NO_HOLES format leaves them for holes) the bytes returned are whatever
was in the buffer before, not zeroes. -/
theorem C50_gap_returns_old_bytes (v : UInt8) :
    ∃ D m buf d, ExtentsOK D m ∧ extentFileRead (some (imageReader D)) m buf 0 = .ok (.ok d) ∧
      d[0]? = some v ∧ fileByte D m 0 0 := by
  refine ⟨[5, 6], [⟨2, 2, 0, 1, 1⟩], [v, v, v, v], [v, v], ?_, ?_, rfl, ?_⟩
  · refine ⟨by decide, ?_, by simp, ?_⟩ <;> simp [ExtentMapEntry.fileEnd]
  · have step := readLoop_step (dev := some (imageReader [5, 6])) (off := 0) (c := 0) (e := ⟨2, 2, 0, 1, 1⟩) (rest := [])
      (buf := [v, v, v, v]) (by decide) (show 0 + 4 < 2 ^ 63 by decide) (Nat.zero_le _) (rs := 2) (re := 4) (by decide) rfl (by decide)
    exact read_eq (c := 2) (buf' := [v, v, 5, 6]) _ _ _ 0 (step.trans rfl) (show 2 ≤ 4 by decide)
  · right; simp [ExtentMapEntry.covers]

/-- C50 is false of the code: where the device ends early the rest of the chunk is
returned with the old contents of the buffer, without an error. -/
theorem C50_truncated_device_returns_old_bytes (v : UInt8) :
    ∃ D m buf d, extentFileRead (some (imageReader D)) m buf 0 = .ok (.ok d) ∧ d[3]? = some v ∧
      (∀ e ∈ m, e.diskByteNr ≠ 0 ∧ e.covers 3 ∧ D.length ≤ e.physOffset.toNat + (3 - e.fileOffset.toNat)) ∧ m ≠ [] := by
  refine ⟨[5, 6], [⟨0, 4, 0, 1, 1⟩], [v, v, v, v], [5, 6, v, v], ?_, rfl, ?_, by simp⟩
  · have step := readLoop_step (dev := some (imageReader [5, 6])) (off := 0) (c := 0) (e := ⟨0, 4, 0, 1, 1⟩) (rest := [])
      (buf := [v, v, v, v]) (by decide) (show 0 + 4 < 2 ^ 63 by decide) (Nat.zero_le _) (rs := 0) (re := 4) (by decide) rfl (by decide)
    exact read_eq (c := 4) (buf' := [5, 6, v, v]) _ _ _ 0 (step.trans rfl) (show 4 ≤ 4 by decide)
  simp [ExtentMapEntry.covers, ExtentMapEntry.fileEnd]

/-! ## C51 -/

/-- C51: without an inode item the size reported is the end of the last extent, and if
the extents are those of an undamaged file no byte of any extent lies beyond it. -/
theorem C51_fallback_size_partial (ix : Ix) (owner inode : UInt64) (D : Bytes) (m : List ExtentMapEntry)
    (hno : ix.findInodeItem owner inode = .ok none) (hok : ExtentsOK D m) :
    ∃ a, extentFileGetAttr ix owner inode m = .ok a ∧ a.mode = 0o100644 ∧
      (∀ e ∈ m, e.fileEnd ≤ a.size.toNat) ∧ (m = [] → a.size = 0) ∧
      (m ≠ [] → ∃ e ∈ m, a.size.toNat = e.fileEnd) := by
  refine ⟨{ mode := 0o100644, size := fallbackSize m }, ?_, rfl, ?_, ?_, ?_⟩
  · unfold extentFileGetAttr; rw [hno]; rfl
  all_goals unfold fallbackSize
  · intro e he
    cases hl : m.getLast? with
    | none => rw [List.getLast?_eq_none_iff] at hl; subst hl; cases he
    | some last =>
      simp only
      have hlm := List.mem_of_getLast? hl
      have hb := hok.bounded last hlm
      have hfe : last.fileEnd = last.fileOffset.toNat + last.length.toNat := rfl
      rw [UInt64.toNat_add, Nat.mod_eq_of_lt (by omega)]
      obtain ⟨l, hl⟩ : ∃ l, m = l ++ [last] := by
        rw [List.getLast?_eq_some_iff] at hl; exact hl
      have hord := hok.ordered
      rw [hl, List.pairwise_append] at hord
      rw [hl, List.mem_append] at he
      rcases he with he | he
      · have := hord.2.2 e he last (by simp)
        omega
      · rw [List.mem_singleton] at he; subst he; omega
  · intro h; subst h; rfl
  · intro h
    cases hl : m.getLast? with
    | none => rw [List.getLast?_eq_none_iff] at hl; exact absurd hl h
    | some last =>
      have hlm := List.mem_of_getLast? hl
      have hb := hok.bounded last hlm
      have hfe : last.fileEnd = last.fileOffset.toNat + last.length.toNat := rfl
      refine ⟨last, hlm, ?_⟩
      simp only
      rw [UInt64.toNat_add, Nat.mod_eq_of_lt (by omega)]
      rfl

/-- C51 is false of the code for extents that overlap (left over from different versions
of the file): here 100 bytes at 0 and 4 bytes at 8 give a size of 12. -/
theorem C51_overlapping_extents_too_small :
    ∃ (m : List ExtentMapEntry) (e : ExtentMapEntry), e ∈ m ∧ m.Pairwise (fun a b => a.fileOffset < b.fileOffset) ∧
      (fallbackSize m).toNat < e.fileEnd :=
  ⟨[⟨0, 100, 0, 1, 1⟩, ⟨8, 4, 0, 1, 1⟩], ⟨0, 100, 0, 1, 1⟩, by decide, by decide, by decide⟩

/-! ## C54 -/

/-- C54, the part that holds: holes read as zeroes without a device: a read inside a hole
succeeds with zeroes only, whatever the device. -/
theorem C54_holes_read_zero_partial (dev : Option ReaderAt) (e : ExtentMapEntry) (buf : Bytes) (off : Nat)
    (hhole : e.diskByteNr = 0) (hb : e.fileEnd < 2 ^ 63) (h1 : e.fileOffset.toNat ≤ off)
    (h2 : off + buf.length ≤ e.fileEnd) (hne : buf ≠ []) :
    extentFileRead dev [e] buf off = .ok (.ok (List.replicate buf.length 0)) := by
  have hpos : 0 < buf.length := List.length_pos_iff.mpr hne
  have hf1 : e.fileEnd = e.fileOffset.toNat + e.length.toNat := rfl
  have step := readLoop_step (dev := dev) (off := off) (c := 0) (e := e) (rest := []) (buf := buf) hb (by omega) (by omega)
    (rs := off) (re := off + buf.length) (by omega) (by omega) (by omega)
  rw [Nat.sub_self, show off + buf.length - off = buf.length by omega] at step
  unfold fillChunk at step
  rw [if_pos hhole] at step
  unfold zeroAt at step
  rw [if_pos (by omega)] at step
  rw [show ((0 : Nat) : Int) + (buf.length : Int) = (buf.length : Int) by omega, Int.toNat_natCast, Int.toNat_natCast,
    List.drop_length] at step
  simp only [Go.ok_bind, pure, readLoop, List.take_zero, List.nil_append, List.append_nil, Nat.zero_add] at step
  have := read_eq dev [e] buf off step (by simp)
  rw [this, List.take_of_length_le (by simp)]

/-- C54: `Read` itself does return zeroes when its device interface is nil. -/
theorem C54_nil_interface_reads_zero (e : ExtentMapEntry) (buf : Bytes) (off : Nat)
    (hb : e.fileEnd < 2 ^ 63) (h1 : e.fileOffset.toNat ≤ off)
    (h2 : off + buf.length ≤ e.fileEnd) (hne : buf ≠ []) :
    extentFileRead none [e] buf off = .ok (.ok (List.replicate buf.length 0)) := by
  have key : extentFileRead none [e] buf off = extentFileRead none [{ e with diskByteNr := 0 }] buf off := by
    unfold extentFileRead readLoop
    have : ∀ b x y z, fillChunk none e b x y z = fillChunk none { e with diskByteNr := 0 } b x y z := by
      intro b x y z
      unfold fillChunk
      by_cases h : e.diskByteNr = 0
      · rw [if_pos h, if_pos rfl]
      · rw [if_neg h, if_pos rfl]
    simp only [this, readLoop]
  rw [key]
  exact C54_holes_read_zero_partial none _ buf off rfl hb h1 h2 hne

/-- C54 is false of the code: `mount` without a device passes a nil file pointer, which is
not a nil interface, so reading extent data fails with EIO. -/
theorem C54_no_device_io_error (e : ExtentMapEntry) (buf : Bytes) (off : Nat)
    (hdata : e.diskByteNr ≠ 0) (hb : e.fileEnd < 2 ^ 63) (h1 : e.fileOffset.toNat ≤ off)
    (h2 : off + buf.length ≤ e.fileEnd) (hne : buf ≠ []) :
    extentFileRead (mountDev none) [e] buf off = .ok (.error .EIO) := by
  have hpos : 0 < buf.length := List.length_pos_iff.mpr hne
  have hf1 : e.fileEnd = e.fileOffset.toNat + e.length.toNat := rfl
  have step := readLoop_step (dev := mountDev none) (off := off) (c := 0) (e := e) (rest := []) (buf := buf) hb (by omega)
    (by omega) (rs := off) (re := off + buf.length) (by omega) (by omega) (by omega)
  rw [Nat.sub_self, show off + buf.length - off = buf.length by omega] at step
  unfold fillChunk at step
  rw [if_neg hdata] at step
  simp only [mountDev, nilFile, readInto] at step
  rw [if_pos (by omega)] at step
  simp only [Go.ok_bind, if_true, pure] at step
  unfold extentFileRead
  rw [if_neg (by omega)]
  simp only [mountDev, nilFile]
  rw [show (0 : Int) = ((0 : Nat) : Int) from rfl, step]
  rfl

example : extentFileRead (mountDev none) [⟨0, 8, 4096, 1, 1⟩] [0, 0, 0] 2 = .ok (.error .EIO) := by decide
example : extentFileRead (mountDev none) [⟨0, 8, 0, 0, 0⟩] [7, 7, 7] 2 = .ok (.ok [0, 0, 0]) := by decide

end Btrfscue
