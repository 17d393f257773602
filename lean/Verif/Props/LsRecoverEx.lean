import Verif.Props.LsRecover
import Verif.Props.SameTree
import Verif.Props.More
/-!
# C114: cases, and where it fails
-/

namespace Btrfscue

theorem exSeen_lsSame : LsSameOK exSeen.enc (ascii "/d") where
  dirs := exSeen_same.dirs
  full := exSeen_same.full
  inodes ino hk := by
    obtain ⟨g, x, f, rest, h1, h2, h3⟩ := exSeen_same.inodes 5 (by decide) ino hk
    exact ⟨f, g, x, rest, h1, h2, h3⟩
  plain d name e he := by
    rcases exSeen_entries he with ⟨-, -, -, rfl⟩ | ⟨-, -, -, rfl⟩ <;> decide
  ends := by
    rintro ⟨s, h0, hs⟩
    obtain ⟨n, e, h1, h2, h3⟩ := hs 0
    obtain ⟨n', e', h1', h2', -⟩ := hs 1
    have hd : s 1 = 258 := by
      rcases exSeen_entries h1 with ⟨-, -, -, rfl⟩ | ⟨-, hd, -, rfl⟩
      · exact h3.symm
      · exact absurd h2 (by decide)
    rcases exSeen_entries h1' with ⟨-, hd', -, rfl⟩ | ⟨-, -, -, rfl⟩
    · rw [hd] at hd'; exact absurd hd' (by decide)
    · exact absurd h2' (by decide)
  readable := exSeen_readable

theorem exSeen_oneParent : exSeen.enc.OneParent (ascii "/d") := by
  intro o d p p' h h'
  rcases (exSeen_places h).2 with ⟨rfl, rfl⟩ | ⟨rfl, rfl⟩ <;> rcases (exSeen_places h').2 with ⟨hd, rfl⟩ | ⟨hd, rfl⟩
  · rfl
  · exact absurd hd (by decide)
  · exact absurd hd (by decide)
  · rfl

/-- The listing of `exSeen`: the directory "s", and in it the file "c" of 6 bytes. -/
def exSeenShown : List Shown :=
  [⟨[115], 2, 258, [ascii "drw-r--r--", [49], ascii "1000", ascii "100", [54], [84]],
    [⟨[99], 1, 257, [ascii "-rw-r--r--", [49], ascii "1000", ascii "100", [54], [84]], []⟩]⟩]

/-- The hypotheses of C114 are met by `exSeen`; `ls --recursive` prints the listing above, and recover
makes "/d/s/c" of 6 bytes. -/
example : exSeen.enc.WF ∧ exSeen.enc.stores metadataVersionKey [] ∧ exSeen.enc.RangeOK 3 (KL2 228 256) ∧ exSeen.enc.SeenIntact ∧ exSeen.enc.RecoverOK ∧
    SortOK lsInsertSort ∧ LsSameOK exSeen.enc (ascii "/d") ∧ exSeen.enc.SeenRecoverable [4, 5, 6, 7] (ascii "/d") ∧ exSeen.enc.OneParent (ascii "/d") ∧
    Quiet (imageEnv [4, 5, 6, 7]) [4, 5, 6, 7] ∧ EmptyDest exEmptyDir (ascii "/d") 1 ∧
    doListFiles 9 9 lsInsertSort (fun _ => [84]) ⟨exSeen.enc, ~~~0⟩ ⟨true, false⟩ [] = .ok (listingText exSeenShown, []) ∧
    (∃ s, HasPath exSeenShown [[115], [99]] s ∧ s.typ = 1 ∧ s.ino = 257 ∧ s.size = some [54]) ∧
    (doRecoverFiles (imageEnv [4, 5, 6, 7]) 30 9 ⟨exSeen.enc, ~~~0⟩ false (ascii "/d") (RecState.start exEmptyDir)).state.fs.readFile
      (ascii "/d/s/c") = some [1, 2, 4, 5, 6, 7] := by
  refine ⟨exSeen_wf, exSeen_meta, exSeen_range3, exSeen_chunks, exSeen_ends, lsInsertSort_ok, exSeen_lsSame, exSeen_recoverable (by decide),
    exSeen_oneParent, ⟨fun _ _ => rfl, fun _ => rfl⟩, exEmptyDir_ok, by decide +kernel, ?_, by decide +kernel⟩
  exact ⟨_, .step List.mem_cons_self rfl (.last List.mem_cons_self), rfl, rfl, by decide⟩

/-- A file whose name has a backslash in it. -/
def exBackslashLs : AStore :=
  [(⟨5, ⟨256, 84, (NameHash [97, 92]).toUInt64⟩, 10⟩, mkItem ⟨256, 84, (NameHash [97, 92]).toUInt64⟩ (exEntry ⟨257, 1, 0⟩ 1 [97, 92])),
   (⟨5, ⟨257, 108, 0⟩, 10⟩, mkItem ⟨257, 108, 0⟩ (exInline 3 [1, 2, 3])),
   (⟨5, ⟨258, 132, 0⟩, 10⟩, mkItem ⟨258, 132, 0⟩ []),
   (metadataVersionKey, [])]

/-- C114 is false of the code for names with a backslash: `ls` lists the file, recover leaves it out
without a warning. -/
theorem C114_backslash_refuted :
    exBackslashLs.Sorted ∧
    (∃ ts s, HasPath ts [[97, 92]] s ∧ s.typ = 1 ∧
      doListFiles 9 9 lsInsertSort (fun _ => [84]) ⟨exBackslashLs.enc, ~~~0⟩ ⟨true, false⟩ [] = .ok (listingText ts, [])) ∧
    ∃ s', doRecoverFiles (imageEnv [4, 5, 6, 7]) 30 9 ⟨exBackslashLs.enc, ~~~0⟩ false (ascii "/d") (RecState.start exEmptyDir) = .ok () s' ∧
      s'.silent ∧ s'.fs.down 1 [[97, 92]] = none := by
  refine ⟨sorted_of_before (by decide +kernel), ⟨[⟨[97, 92], 1, 257, [ascii "-?????????", [63], [63], [63], [63], [63]], []⟩], _, .last List.mem_cons_self,
    rfl, by decide +kernel⟩, ?_⟩
  obtain ⟨s, h1, h2⟩ := silent_of (o := doRecoverFiles (imageEnv [4, 5, 6, 7]) 30 9 ⟨exBackslashLs.enc, ~~~0⟩ false (ascii "/d")
    (RecState.start exEmptyDir)) (by decide +kernel)
  have h3 : (doRecoverFiles (imageEnv [4, 5, 6, 7]) 30 9 ⟨exBackslashLs.enc, ~~~0⟩ false (ascii "/d") (RecState.start exEmptyDir)).state.fs.down 1 [[97, 92]]
      = none := by decide +kernel
  rw [h1] at h3
  exact ⟨s, h1, h2, h3⟩

/-- C114 is false of the code for a path given to `ls`: it shows the file "/a" of `exSeen`, as the path is
looked up by the hash of the name; but neither the listing of the directory nor recover gets to it,
and recover leaves it out without a warning. -/
theorem C114_path_refuted :
    doListFiles 9 9 lsInsertSort (fun _ => [84]) ⟨exSeen.enc, ~~~0⟩ ⟨true, false⟩ [ascii "/a"] =
      .ok (ascii "-rw-r--r--\t1\t1000\t100\t6\tT\ta\n", []) ∧
    (∀ A s, HasPath exSeenShown A s → s.name ≠ [97]) ∧
    ∃ s', doRecoverFiles (imageEnv [4, 5, 6, 7]) 30 9 ⟨exSeen.enc, ~~~0⟩ false (ascii "/d") (RecState.start exEmptyDir) = .ok () s' ∧
      s'.silent ∧ s'.fs.down 1 [[97]] = none := by
  refine ⟨by decide +kernel, fun A s h => ?_, ?_⟩
  · cases h with
    | last h =>
      obtain rfl := List.mem_singleton.mp h
      decide
    | step h _ h' =>
      obtain rfl := List.mem_singleton.mp h
      cases h' with
      | last h =>
        obtain rfl := List.mem_singleton.mp h
        decide
      | step h _ h' =>
        obtain rfl := List.mem_singleton.mp h
        cases h' with
        | last h => cases h
        | step h _ _ => cases h
  · obtain ⟨s, h1, h2⟩ := silent_of (o := doRecoverFiles (imageEnv [4, 5, 6, 7]) 30 9 ⟨exSeen.enc, ~~~0⟩ false (ascii "/d")
      (RecState.start exEmptyDir)) (by decide +kernel)
    have h3 : (doRecoverFiles (imageEnv [4, 5, 6, 7]) 30 9 ⟨exSeen.enc, ~~~0⟩ false (ascii "/d") (RecState.start exEmptyDir)).state.fs.down 1 [[97]]
        = none := by decide +kernel
    rw [h1] at h3
    exact ⟨s, h1, h2, h3⟩

/-- C114 is false of the code with subvolumes: of `exAll`, which has subvolume 256 in its top
directory, `ls --recursive` never ends, whereas recover recovers all of it. -/
theorem C114_subvolume_refuted :
    (∀ rf fuel, doListFiles rf fuel lsInsertSort (fun _ => [84]) ⟨exAll.enc, ~~~0⟩ ⟨true, false⟩ [] = .hang) ∧
    ∃ s', doRecoverFiles (imageEnv [0, 0, 0, 0, 4, 5, 6, 7]) 30 9 ⟨exAll.enc, ~~~0⟩ false (ascii "/d") (RecState.start exEmptyDir) = .ok () s' ∧
      s'.silent ∧ s'.fs.readFile (ascii "/d/s/f") = some [4, 5, 6] := by
  constructor
  · intro rf fuel
    obtain ⟨e, h1, h2, h3⟩ := entry_of_mem (o := 5) (d := 256) (n := [115]) (t := 2) (loc := ⟨256, 132, ~~~0⟩) (by decide)
    exact C88_subvolume_hangs exAll.enc (AStore.enc_wf exAll_sorted) [] (enc_stores.mpr (by decide +kernel)) 7 exAll_undamaged exAll_mountable [115] e h1 h2
      (by rw [h3]) _ lsInsertSort_ok _ _ rf fuel
  · obtain ⟨s, h1, h2⟩ := silent_of (o := doRecoverFiles (imageEnv [0, 0, 0, 0, 4, 5, 6, 7]) 30 9 ⟨exAll.enc, ~~~0⟩ false (ascii "/d")
      (RecState.start exEmptyDir)) (by decide +kernel)
    have h3 : (doRecoverFiles (imageEnv [0, 0, 0, 0, 4, 5, 6, 7]) 30 9 ⟨exAll.enc, ~~~0⟩ false (ascii "/d") (RecState.start exEmptyDir)).state.fs.readFile
        (ascii "/d/s/f") = some [4, 5, 6] := by decide +kernel
    rw [h1] at h3
    exact ⟨s, h1, h2, h3⟩

end Btrfscue
