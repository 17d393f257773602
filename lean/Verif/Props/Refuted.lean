import Verif.Props.RescueOpen
import Verif.Props.RecoverAllEx
import Verif.Props.MountImage
import Verif.Props.LsOut
/-!
# Where C64, C70, C71, C81, C82, C84, C85 and C86 fail

Concrete indexes on which the code does not do what the property says; they are outside the
hypotheses of the `_partial` theorems.
-/

namespace Btrfscue

/-! ## C64, C85: directories with entries of different generations -/

/-- A directory with the files "a" and "b"; the leaf with the entry of "b" was rewritten in
generation 11. -/
def exMixedList : AStore :=
  [(⟨5, ⟨256, 84, 1⟩, 10⟩, mkItem ⟨256, 84, 1⟩ (exEntry ⟨257, 1, 0⟩ 1 [97])),
   (⟨5, ⟨256, 84, 2⟩, 11⟩, mkItem ⟨256, 84, 2⟩ (exEntry ⟨258, 1, 0⟩ 1 [98])),
   (⟨5, ⟨256, 96, 2⟩, 11⟩, mkItem ⟨256, 96, 2⟩ []),
   (metadataVersionKey, [])]

/-- C64 is false of the code for directories whose items were written at different times, as
those of every directory that does not fit into a single leaf may be: "b" is an entry of the
directory, and is not listed. -/
theorem C64_mixed_generations_incomplete : exMixedList.Sorted ∧ exMixedList.enc.newest 5 ⟨256, 84, 2⟩ 11 ∧
    exMixedList.enc.stores ⟨5, ⟨256, 84, 2⟩, 11⟩ (mkItem ⟨256, 84, 2⟩ (exEntry ⟨258, 1, 0⟩ 1 [98])) ∧
    listDirectory 5 lsInsertSort (fun _ => [84]) ⟨exMixedList.enc, ~~~0⟩ 5 false 1 256 false =
      .ok (tabLine [ascii "-?????????", ascii "?", ascii "?", ascii "?", ascii "?", ascii "?", ascii "a"]) ∧
    lsPrinted List.length 5 1 lsInsertSort (fun _ => [84]) ⟨exMixedList.enc, ~~~0⟩ ⟨false, false⟩ [] =
      .ok (ascii "-????????? ? ? ? ? ? a\n", []) :=
  ⟨sorted_of_before (by decide +kernel), newest_of (x := mkItem ⟨256, 84, 2⟩ (exEntry ⟨258, 1, 0⟩ 1 [98])) (by decide +kernel) (by decide +kernel),
    enc_stores.mpr (by decide +kernel), by decide +kernel, by decide +kernel⟩

/-- `exMixedList`, with the inode items of "a" and "b". -/
def exMixedInodes : AStore :=
  (⟨5, ⟨257, 1, 0⟩, 10⟩, mkItem ⟨257, 1, 0⟩ (exInode 5).layout) :: (⟨5, ⟨258, 1, 0⟩, 10⟩, mkItem ⟨258, 1, 0⟩ (exInode 5).layout) :: exMixedList

/-- `exCollision`, with the inode items of the files. -/
def exCollisionInodes : AStore :=
  (⟨5, ⟨257, 1, 0⟩, 10⟩, mkItem ⟨257, 1, 0⟩ (exInode 5).layout) :: (⟨5, ⟨258, 1, 0⟩, 10⟩, mkItem ⟨258, 1, 0⟩ (exInode 5).layout) :: exCollision

/-- C85 is false of the code for such directories: "b" is neither found nor listed in the mount. -/
theorem C85_mixed_generations_incomplete :
    (mountWalk 5 ⟨exMixedInodes.enc, ~~~0⟩ [ascii "rescue", [97]] >>= fun r => pure (r.map fun c => (c.owner, c.ixInode))) = .ok (some (5, 257)) ∧
    mountWalk 5 ⟨exMixedInodes.enc, ~~~0⟩ [ascii "rescue", [98]] = .ok none ∧
    ((newRescueNode 5 256).openDir 5 id ⟨exMixedInodes.enc, ~~~0⟩ >>= fun r => pure r.2) = .ok [([97], false)] := by
  decide +kernel

/-- C85 is false of the code for the second of two entries with equal name hashes. -/
theorem C85_collision_missing :
    (mountWalk 5 ⟨exCollisionInodes.enc, ~~~0⟩ [ascii "rescue", ascii "ebblgkjwh"] >>= fun r => pure (r.map fun c => (c.owner, c.ixInode))) =
      .ok (some (5, 257)) ∧
    mountWalk 5 ⟨exCollisionInodes.enc, ~~~0⟩ [ascii "rescue", ascii "gjunzdtpb"] = .ok none := by
  decide +kernel

/-! ## C70: inode items as directory entries -/

/-- Two subvolumes. The first has a top directory with an entry "f", and the inode items of the
directory and the file, that of the file in an older leaf. -/
def exWrapDir (nbytes : UInt64) : AStore :=
  [(⟨256, ⟨256, 1, 0⟩, 10⟩, mkItem ⟨256, 1, 0⟩ { exInode 0 with nbytes := nbytes }.layout),
   (⟨256, ⟨257, 1, 0⟩, 9⟩, mkItem ⟨257, 1, 0⟩ (exInode 5).layout),
   (⟨256, ⟨256, 84, 7⟩, 10⟩, mkItem ⟨256, 84, 7⟩ (exEntry ⟨257, 1, 0⟩ 1 [102])),
   (⟨257, ⟨256, 1, 0⟩, 11⟩, mkItem ⟨256, 1, 0⟩ (exInode 0).layout),
   (metadataVersionKey, [])]

/-- C70 is false of the code if the range over a directory runs past the end of its tree: here
the inode item of the directory is taken for an entry. Listing the directory shows an entry
without a name next to "f"; with a damaged (or crafted) inode item, looking up "x" finds
something although there is no such entry. -/
theorem C70_inode_item_as_entry : (∀ n, (exWrapDir n).Sorted) ∧
    (∀ n v x, (exWrapDir n).enc.stores v x → v.owner = 256 → v.key.typ = 84 →
      v = ⟨256, ⟨256, 84, 7⟩, 10⟩ ∧ x = mkItem ⟨256, 84, 7⟩ (exEntry ⟨257, 1, 0⟩ 1 [102])) ∧
    ((newRescueNode 256 256).openDir 9 id ⟨(exWrapDir 0).enc, ~~~0⟩ >>= fun r => pure r.2) = .ok [([102], false), ([], false)] ∧
    ((newRescueNode 256 256).lookup 9 ⟨(exWrapDir 0x0078000001000000).enc, ~~~0⟩ [120] >>= fun r => pure (match r.2 with
      | .ok (c, _, _) => some (c.owner, c.ixInode)
      | .error _ => none)) = .ok (some (256, 7)) := by
  refine ⟨fun n => ?_, fun n v x h ho ht => ?_, ?_, ?_⟩
  · refine sorted_of_before (List.pairwise_map (f := Prod.fst) (R := VKey.before).mp ?_)
    show List.Pairwise _ [VKey.mk 256 ⟨256, 1, 0⟩ 10, ⟨256, ⟨257, 1, 0⟩, 9⟩, ⟨256, ⟨256, 84, 7⟩, 10⟩, ⟨257, ⟨256, 1, 0⟩, 11⟩, metadataVersionKey]
    decide +kernel
  · have hm := enc_stores.mp h
    simp only [exWrapDir, List.mem_cons, List.not_mem_nil, or_false, Prod.mk.injEq] at hm
    rcases hm with ⟨rfl, -⟩ | ⟨rfl, -⟩ | hm | ⟨rfl, -⟩ | ⟨rfl, -⟩
    · exact absurd ht (by decide)
    · exact absurd ht (by decide)
    · exact hm
    · exact absurd ho (by decide)
    · exact absurd ho (by decide)
  · decide +kernel
  · decide +kernel

/-! ## C71, C86: files with several extents -/

/-- A file with two extents; the second was appended in generation `g`. -/
def exTwoExtents (g : UInt64) : AStore :=
  [(⟨3, ⟨1, 216, 1⟩, 7⟩, mkItem ⟨1, 216, 1⟩ []),
   (⟨3, ⟨256, 228, 16⟩, 7⟩, exChunk 16 64 1 0),
   (⟨3, ⟨257, 229, 0⟩, 7⟩, mkItem ⟨257, 229, 0⟩ []),
   (⟨5, ⟨257, 1, 0⟩, 10⟩, mkItem ⟨257, 1, 0⟩ (exInode 8).layout),
   (⟨5, ⟨256, 84, (NameHash [97]).toUInt64⟩, 10⟩, mkItem ⟨256, 84, (NameHash [97]).toUInt64⟩ (exEntry ⟨257, 1, 0⟩ 1 [97])),
   (⟨5, ⟨257, 108, 0⟩, 10⟩, mkItem ⟨257, 108, 0⟩ (FileExtentItemRec.mk 9 4 0 0 0 1 16 4 0 4).layout),
   (⟨5, ⟨257, 108, 4⟩, g⟩, mkItem ⟨257, 108, 4⟩ (FileExtentItemRec.mk 9 4 0 0 0 1 20 4 0 4).layout),
   (⟨5, ⟨258, 132, 0⟩, 10⟩, mkItem ⟨258, 132, 0⟩ []),
   (metadataVersionKey, [])]

/-- C71 is false of the code for a file whose extent items have different generations: the
opened file ends after the first extent. -/
theorem C71_mixed_generations_cut :
    ((newRescueNode 5 257).open 9 ⟨(exTwoExtents 10).enc, ~~~0⟩ none >>= fun r => pure r.2) =
      .ok (.ok (.extents [⟨0, 4, 0, 16, 1⟩, ⟨4, 4, 4, 20, 1⟩])) ∧
    ((newRescueNode 5 257).open 9 ⟨(exTwoExtents 11).enc, ~~~0⟩ none >>= fun r => pure r.2) =
      .ok (.ok (.extents [⟨0, 4, 0, 16, 1⟩])) := by
  decide +kernel

/-- C86 is false of the code for reads that cross extents: recover writes all eight bytes, a read
of eight bytes from the mounted file gets four. -/
theorem C86_crossing_read_short :
    (recoverFile (imageEnv [1, 2, 3, 4, 5, 6, 7, 8]) 9 ⟨(exTwoExtents 10).enc, ~~~0⟩ false 5 257 (ascii "/a")
      (RecState.start exEmptyHost)).seen = some (none, some [1, 2, 3, 4, 5, 6, 7, 8]) ∧
    ((newRescueNode 5 257).open 9 ⟨(exTwoExtents 10).enc, ~~~0⟩ none >>= fun r => match r.2 with
      | .ok (.extents ext) => (extentFileRead (some (imageReader [1, 2, 3, 4, 5, 6, 7, 8])) ext (List.replicate 8 0) 0 >>= fun d =>
          pure (match d with | .ok x => some x.length | .error _ => none))
      | _ => pure none) = .ok (some 4) := by
  decide +kernel

/-! ## C81, C82, C84: files -/

/-- A top directory with a file "a" that has the data extent `f`. -/
def exOneExtent (size : UInt64) (f : FileExtentItemRec) : AStore :=
  [(⟨3, ⟨1, 216, 1⟩, 7⟩, mkItem ⟨1, 216, 1⟩ []),
   (⟨3, ⟨256, 228, 16⟩, 7⟩, exChunk 16 64 1 0),
   (⟨3, ⟨257, 229, 0⟩, 7⟩, mkItem ⟨257, 229, 0⟩ []),
   (⟨5, ⟨257, 1, 0⟩, 10⟩, mkItem ⟨257, 1, 0⟩ (exInode size).layout),
   (⟨5, ⟨256, 84, (NameHash [97]).toUInt64⟩, 10⟩, mkItem ⟨256, 84, (NameHash [97]).toUInt64⟩ (exEntry ⟨257, 1, 0⟩ 1 [97])),
   (⟨5, ⟨257, 108, 0⟩, 10⟩, mkItem ⟨257, 108, 0⟩ f.layout),
   (⟨5, ⟨258, 132, 0⟩, 10⟩, mkItem ⟨258, 132, 0⟩ []),
   (metadataVersionKey, [])]

/-- A whole run of recover, with the index `l`. -/
def exWholeRun (env : Env) (l : AStore) : Out RecState Unit :=
  doRecoverFiles env 9 9 ⟨l.enc, ~~~0⟩ false (ascii "/d") (RecState.start exEmptyDir)

/-- C81 is false of the code if the device cannot be read: recover prints no warning, and the
file is full of zeroes. With a device that can be read it has the right contents. -/
theorem C81_read_error_is_silent :
    (∃ s, exWholeRun (imageEnv [1, 2, 3, 4]) (exOneExtent 4 ⟨9, 4, 0, 0, 0, 1, 16, 4, 0, 4⟩) = .ok () s ∧ s.silent ∧
      s.fs.readFile (ascii "/d/a") = some [1, 2, 3, 4]) ∧
    ∃ s, exWholeRun { quietEnv with dev := fun _ _ _ => ([], some .other) } (exOneExtent 4 ⟨9, 4, 0, 0, 0, 1, 16, 4, 0, 4⟩) = .ok () s ∧
      s.silent ∧ s.fs.readFile (ascii "/d/a") = some [0, 0, 0, 0] := by
  constructor
  · obtain ⟨s, h1, h2⟩ := silent_of (o := exWholeRun (imageEnv [1, 2, 3, 4]) (exOneExtent 4 ⟨9, 4, 0, 0, 0, 1, 16, 4, 0, 4⟩)) (by decide +kernel)
    have h3 : (exWholeRun (imageEnv [1, 2, 3, 4]) (exOneExtent 4 ⟨9, 4, 0, 0, 0, 1, 16, 4, 0, 4⟩)).state.fs.readFile (ascii "/d/a") = some [1, 2, 3, 4] := by
      decide +kernel
    rw [h1] at h3
    exact ⟨s, h1, h2, h3⟩
  · obtain ⟨s, h1, h2⟩ := silent_of (o := exWholeRun { quietEnv with dev := fun _ _ _ => ([], some .other) }
      (exOneExtent 4 ⟨9, 4, 0, 0, 0, 1, 16, 4, 0, 4⟩)) (by decide +kernel)
    have h3 : (exWholeRun { quietEnv with dev := fun _ _ _ => ([], some .other) }
      (exOneExtent 4 ⟨9, 4, 0, 0, 0, 1, 16, 4, 0, 4⟩)).state.fs.readFile (ascii "/d/a") = some [0, 0, 0, 0] := by decide +kernel
    rw [h1] at h3
    exact ⟨s, h1, h2, h3⟩

/-- C82 and C84 are false of the code for preallocated extents (type 2), which read as zeroes:
without a warning, recover fills the file with what was on the device before. -/
theorem C82_prealloc_shows_old_data :
    ∃ s, exWholeRun (imageEnv [7, 7, 7, 7]) (exOneExtent 4 ⟨9, 4, 0, 0, 0, 2, 16, 4, 0, 4⟩) = .ok () s ∧ s.silent ∧
      s.fs.readFile (ascii "/d/a") = some [7, 7, 7, 7] := by
  obtain ⟨s, h1, h2⟩ := silent_of (o := exWholeRun (imageEnv [7, 7, 7, 7]) (exOneExtent 4 ⟨9, 4, 0, 0, 0, 2, 16, 4, 0, 4⟩)) (by decide +kernel)
  have h3 : (exWholeRun (imageEnv [7, 7, 7, 7]) (exOneExtent 4 ⟨9, 4, 0, 0, 0, 2, 16, 4, 0, 4⟩)).state.fs.readFile (ascii "/d/a") = some [7, 7, 7, 7] := by
    decide +kernel
  rw [h1] at h3
  exact ⟨s, h1, h2, h3⟩

/-- C82 is false of the code for compressed extents (compression 1 is zlib). -/
theorem C82_compressed_copied_raw :
    ∃ s, exWholeRun (imageEnv [120, 156, 75, 76, 9, 9, 9, 9]) (exOneExtent 8 ⟨9, 8, 1, 0, 0, 1, 16, 4, 0, 8⟩) = .ok () s ∧ s.silent ∧
      s.fs.readFile (ascii "/d/a") = some [120, 156, 75, 76, 9, 9, 9, 9] := by
  obtain ⟨s, h1, h2⟩ := silent_of (o := exWholeRun (imageEnv [120, 156, 75, 76, 9, 9, 9, 9]) (exOneExtent 8 ⟨9, 8, 1, 0, 0, 1, 16, 4, 0, 8⟩))
    (by decide +kernel)
  have h3 : (exWholeRun (imageEnv [120, 156, 75, 76, 9, 9, 9, 9]) (exOneExtent 8 ⟨9, 8, 1, 0, 0, 1, 16, 4, 0, 8⟩)).state.fs.readFile
      (ascii "/d/a") = some [120, 156, 75, 76, 9, 9, 9, 9] := by decide +kernel
  rw [h1] at h3
  exact ⟨s, h1, h2, h3⟩

end Btrfscue
