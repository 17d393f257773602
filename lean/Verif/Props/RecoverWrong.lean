import Verif.Props.RecoverInline
/-!
# C58, C59: what goes wrong
-/

namespace Btrfscue

/-- An inode with a data extent `f`, and a chunk that maps logical address 16 to the start
of the device. -/
def exSmall (size : UInt64) (f : Bytes) : AStore :=
  [(⟨3, ⟨1, 216, 1⟩, 7⟩, mkItem ⟨1, 216, 1⟩ []),
   (⟨3, ⟨256, 228, 16⟩, 7⟩, exChunk 16 64 1 0),
   (⟨3, ⟨257, 229, 0⟩, 7⟩, mkItem ⟨257, 229, 0⟩ []),
   (⟨5, ⟨257, 1, 0⟩, 10⟩, mkItem ⟨257, 1, 0⟩ (exInode size).layout),
   (⟨5, ⟨257, 108, 0⟩, 10⟩, mkItem ⟨257, 108, 0⟩ f),
   (⟨5, ⟨258, 132, 0⟩, 10⟩, mkItem ⟨258, 132, 0⟩ []),
   (metadataVersionKey, [])]

/-- Recovering that file to `/a` on an empty host. -/
def exRun (env : Env) (l : AStore) : Out RecState (Option RecErr) :=
  recoverFile env 9 ⟨l.enc, ~~~0⟩ false 5 257 (ascii "/a") (RecState.start exEmptyHost)

/-- The result: the error, if any, and the file left. -/
def Out.seen : Out RecState (Option RecErr) → Option (Option RecErr × Option Bytes)
  | .ok r s => some (r, s.fs.readFile (ascii "/a"))
  | _ => none

/-- Does the program crash? -/
def Out.crashes : Out RecState (Option RecErr) → Bool
  | .crash _ => true
  | _ => false

/-- A device holding `D`. -/
def imageEnv (D : Bytes) : Env := { quietEnv with dev := fun _ => imageReader D }

/-- An uncompressed extent of 4 bytes is recovered. -/
example : (exRun (imageEnv [1, 2, 3, 4, 5]) (exSmall 4 (FileExtentItemRec.mk 9 4 0 0 0 1 16 4 0 4).layout)).seen =
    some (none, some [1, 2, 3, 4]) := by decide +kernel

/-- The device ends in the middle of it: an error. -/
example : (exRun (imageEnv [1, 2, 3]) (exSmall 4 (FileExtentItemRec.mk 9 4 0 0 0 1 16 4 0 4).layout)).seen =
    some (some .eof, some [1, 2, 3]) := by decide +kernel

/-- C58 is false of the code for preallocated extents (type 2), which were never written
and read as zeroes: the recovered file holds whatever was on the device there before,
perhaps the data of deleted files. -/
theorem C58_prealloc_shows_old_data :
    (exRun (imageEnv [7, 7, 7, 7]) (exSmall 4 (FileExtentItemRec.mk 9 4 0 0 0 2 16 4 0 4).layout)).seen =
      some (none, some [7, 7, 7, 7]) := by decide +kernel

/-- C58 is false of the code for compressed extents: their bytes are written as they are
on the device. Here eight bytes compressed to four (compression 1 is zlib) become four
compressed bytes and, as `numBytes` is that of the file, what follows on the device. -/
theorem C58_compressed_data_is_copied_raw :
    (exRun (imageEnv [120, 156, 75, 76, 9, 9, 9, 9]) (exSmall 8 (FileExtentItemRec.mk 9 8 1 0 0 1 16 4 0 8).layout)).seen =
      some (none, some [120, 156, 75, 76, 9, 9, 9, 9]) := by decide +kernel

/-- C58 is false of the code for a file without extents if `Truncate` fails: no error is
reported, the file is empty though its size is 4. -/
theorem C58_truncate_error_dropped :
    (exRun { imageEnv [] with fails := fun k _ => k == .truncate } ((exSmall 4 []).eraseIdx 4)).seen =
      some (none, some []) := by decide +kernel

/-- In contrast, with extents it is reported. -/
example : (exRun { imageEnv [1, 2, 3, 4] with fails := fun k _ => k == .truncate }
    (exSmall 4 (FileExtentItemRec.mk 9 4 0 0 0 1 16 4 0 4).layout)).seen = some (some .truncate, some [1, 2, 3, 4]) := by
  decide +kernel

/-- An inline file. -/
def exInline (ram : UInt64) (d : Bytes) : Bytes := (InlineExtentRec.mk 9 ram 0 0 0).layout ++ (d ++ [])

/-- Inline data shorter and longer than the file. -/
example : (exRun (imageEnv []) (exSmall 5 (exInline 3 [1, 2, 3]))).seen = some (none, some [1, 2, 3, 0, 0]) ∧
    (exRun (imageEnv []) (exSmall 2 (exInline 3 [1, 2, 3]))).seen = some (none, some [1, 2]) := by decide +kernel

/-- C59 is false of the code: a read error other than the end of the device ends the
copying of the extent without an error; the missing bytes are zeroes in a file that
recover reports as recovered. -/
theorem C59_read_error_is_silent :
    (exRun { quietEnv with dev := fun _ _ _ => ([], some .other) }
      (exSmall 4 (FileExtentItemRec.mk 9 4 0 0 0 1 16 4 0 4).layout)).seen = some (none, some [0, 0, 0, 0]) := by
  decide +kernel

/-! ## C75: crashes -/

/-- C75: recovering a file whose extents are as they should be ends without a crash,
whatever system calls fail, whatever parts of the image `D` the device delivers. Missing:
other files (`C75_huge_hole_crashes`, `C75_huge_inline_size_crashes`,
`C75_short_item_crashes`, `C75_no_chunks_crashes`). -/
theorem C75_file_ends_partial (b : Bucket) (hb : b.WF) (m : Bytes) (hm : b.stores metadataVersionKey m)
    (owner ino g gc : UInt64) (ho : owner ≠ ~~~0) (ha : b.AddrOK gc) (hf : b.FileOK owner ino g gc)
    (hp : b.ExtentsPlain owner ino g gc) (size : UInt64) (hsz : b.inodeSizeIs owner ino size) (hlt : size.toNat < 2 ^ 63) :
    ∃ N, ∀ (D : Bytes) (rf : Nat), N ≤ rf → ∀ env, Honest env D →
      ∀ (clobber : Bool) (target : Bytes) (s : RecState), s.cache = none →
      ∃ r s', recoverFile env rf ⟨b, ~~~0⟩ clobber owner ino target s = .ok r s' := by
  obtain ⟨N, map, h⟩ := file_core hb hm ho ha hf hp hsz hlt
  refine ⟨N, fun D rf hrf env hh clobber target s hc => ?_⟩
  have := h D rf hrf env hh clobber target s (Or.inl hc)
  unfold Cmd.wp at this
  cases hrun : recoverFile env rf ⟨b, ~~~0⟩ clobber owner ino target s with
  | ok r s' => exact ⟨r, s', rfl⟩
  | exit s' => rw [hrun] at this; exact this.elim
  | crash s' => rw [hrun] at this; exact this.elim
  | hang s' => rw [hrun] at this; exact this.elim

/-- C75 is false of the code: a damaged (or crafted) hole of 2^63 bytes crashes the
program, and with it the recovery of all files that would follow. -/
theorem C75_huge_hole_crashes :
    (exRun (imageEnv []) (exSmall 4 (FileExtentItemRec.mk 9 4 0 0 0 1 0 0 0 0x8000000000000000).layout)).crashes = true := by
  decide +kernel

/-- C75 is false of the code: so does an inline extent whose size field is damaged. -/
theorem C75_huge_inline_size_crashes :
    (exRun (imageEnv []) (exSmall 4 (exInline 0x8000000000000000 [1, 2, 3]))).crashes = true := by
  decide +kernel

/-- C75 is false of the code: so does an extent item that was cut short. -/
theorem C75_short_item_crashes :
    (exRun (imageEnv []) (exSmall 4 [1, 2, 3])).crashes = true := by
  decide +kernel

/-- C75 is false of the code: so does any extent if no chunk was found. -/
theorem C75_no_chunks_crashes :
    (exRun (imageEnv [1, 2, 3, 4]) ((exSmall 4 (FileExtentItemRec.mk 9 4 0 0 0 1 16 4 0 4).layout).eraseIdx 1)).crashes = true := by
  decide +kernel

/-! ### The hypotheses of `C58_inline_partial` can be met -/

/-- The index of the examples above. -/
def exInlineStore : AStore := exSmall 5 (exInline 3 [1, 2, 3])

theorem exInlineStore_sorted : exInlineStore.Sorted := sorted_of_before (by decide +kernel)

theorem exInlineStore_owner5 : ∀ e ∈ exInlineStore, e.1.owner = 5 → (e.1.gen ≠ ~~~0 ∧ e.1.key ≠ KL0) ∧ e.1.gen = 10 ∧
    (e.1.key.typ = 108 → e.1.key.offset = 0) := by decide +kernel

theorem exInlineStore_newest {k : Key} (hk : exInlineStore.enc.hasKey 5 k) : exInlineStore.enc.newest 5 k 10 := by
  obtain ⟨g', x, hx⟩ := enc_hasKey.mp hk
  have := (exInlineStore_owner5 _ hx rfl).2.1
  simp only at this
  subst this
  refine ⟨enc_hasVersion.mpr ⟨x, hx⟩, fun g'' hv => ?_⟩
  obtain ⟨y, hy⟩ := enc_hasVersion.mp hv
  have := (exInlineStore_owner5 _ hy rfl).2.1
  simp only at this
  rw [this]
  exact UInt64.le_refl _

theorem exInlineStore_ok : exInlineStore.enc.InlineFile 5 257 10 0 [1, 2, 3] where
  range := rangeOK_of (by decide) (by
      intro e he ho
      simp only [exInlineStore, exSmall, List.mem_cons, List.not_mem_nil, or_false] at he
      rcases he with rfl | rfl | rfl | rfl | rfl | rfl | rfl
      · exact ⟨_, mkItem_holds _ _ (by decide)⟩
      · exact exChunk_holds _ _ _ _
      · exact ⟨_, mkItem_holds _ _ (by decide)⟩
      · exact ⟨_, mkItem_holds _ _ (by decide +kernel)⟩
      · exact ⟨_, mkItem_holds _ _ (by decide +kernel)⟩
      · exact ⟨_, mkItem_holds _ _ (by decide)⟩
      · exact absurd ho (by decide))
    (fun e he ho => (exInlineStore_owner5 e he ho).1) (by decide +kernel)
  newest := exInlineStore_newest (enc_hasKey.mpr ⟨10, _, by simp only [exInlineStore, exSmall, List.mem_cons]; right; right; right; right; left; rfl⟩)
  only off hk := by
    obtain ⟨g, x, hx⟩ := enc_hasKey.mp hk
    exact (exInlineStore_owner5 _ hx rfl).2.2 rfl
  intact := ⟨_, ⟨9, 3, 0, 0, 0⟩, [], enc_stores.mpr (by simp only [exInlineStore, exSmall, List.mem_cons]; right; right; right; right; left; rfl),
    mkItem_holds _ _ (by decide +kernel), rfl, rfl, rfl, by decide⟩
  short := by decide
  small := by decide

example : exInlineStore.enc.inodeSizeIs 5 257 5 :=
  ⟨10, _, exInode 5, [], exInlineStore_newest (enc_hasKey.mpr ⟨10, _, by simp only [exInlineStore, exSmall, List.mem_cons]; right; right; right; left; rfl⟩),
    enc_stores.mpr (by simp only [exInlineStore, exSmall, List.mem_cons]; right; right; right; left; rfl),
    by rw [List.append_nil]; exact mkItem_holds _ _ (by decide +kernel), rfl⟩

end Btrfscue
