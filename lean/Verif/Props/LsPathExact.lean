import Verif.Props.PathExact
import Verif.Props.LsPath
import Verif.Proof.GoPath
/-!
# C74: what `ls PATH` lists, exactly
-/

namespace Btrfscue

theorem joinPath_eq : ∀ l : List Bytes, joinPath l = joinSlash l
  | [] => rfl
  | [n] => by simp [joinPath, joinSlash]
  | n :: m :: r => by
    rw [joinPath_cons n (by simp), joinSlash_cons n (by simp), joinPath_eq (m :: r)]

/-- A cleaned path other than `/` consists of names. -/
theorem clean_names (arg : Bytes) (h : goClean arg ≠ [47]) :
    ∃ k n rest, goClean arg = List.replicate k 47 ++ joinPath (n :: rest) ∧ n ≠ [] ∧ ∀ x ∈ n :: rest, 47 ∉ x := by
  have hcl := pathParts_clean arg
  rw [goClean_eq] at h ⊢
  cases hp : pathParts arg with
  | nil =>
    rw [hp] at h
    cases hr : isRooted arg with
    | true => rw [hr] at h; simp [joinSlash] at h
    | false => exact ⟨0, dot, [], by simp [joinSlash, joinPath], by decide, by decide⟩
  | cons n rest =>
    rw [hp] at hcl
    have hne := hcl.ne_nil
    have hns := hcl.noslash
    cases hr : isRooted arg with
    | true => exact ⟨1, n, rest, by rw [joinPath_eq]; simp, hne n List.mem_cons_self, hns⟩
    | false =>
      refine ⟨0, n, rest, ?_, hne n List.mem_cons_self, hns⟩
      have : joinSlash (n :: rest) ≠ [] := fun hc => by
        have := (joinSlash_eq_nil hne).mp hc
        cases this
      rw [joinPath_eq]
      simp [this]

/-- C74, exactly: for every argument other than the root, on an index whose directories can be
iterated over, with whole entries of whatever generations and intact inode items of the file system
tree: if looking up the path finds nothing (`PathFinds`), `ls` warns about the path; if it finds
something that is not a directory, `ls` prints its line; if it finds a directory, `ls` prints the
listing of the object its location names — always as an object of the file system tree (5), whatever
tree the path leads to. -/
theorem C74_ls_exact (b : Bucket) (hb : b.WF) (m : Bytes) (hm : b.stores metadataVersionKey m) (hok : b.DirsOK)
    (hfull : ∀ o dir d, o ≠ ~~~0 → b.dirItem o dir d → wholeEntry (Slice.data d)) (hin : b.InodesOK 5)
    (arg : Bytes) (hroot : goClean arg ≠ [47]) :
    ∃ k n rest q N, goClean arg = List.replicate k 47 ++ joinPath (n :: rest) ∧ (∀ x ∈ n :: rest, 47 ∉ x) ∧
      b.PathFinds 5 256 (n :: rest) q ∧
      ∀ (rf fuel : Nat) (srt : Sorter) (ft : Time → Bytes) (o : LsOptions), N ≤ rf →
        match q with
        | none => doListFiles rf fuel srt ft ⟨b, ~~~0⟩ o [arg] = .ok ([], [goClean arg])
        | some p => ∃ e name, startsEntry p name e ∧
          if e.typ = 2 then ∀ text, doListFiles rf fuel srt ft ⟨b, ~~~0⟩ o [arg] = .ok (text, []) ↔
            listDirectory rf srt ft ⟨b, ~~~0⟩ 5 o.inode fuel e.location.objectID o.recursive = .ok text
          else ∃ d line, Slice.data d = p ∧ b.lineShows ft 5 o.inode d line ∧
            doListFiles rf fuel srt ft ⟨b, ~~~0⟩ o [arg] = .ok (line, []) := by
  obtain ⟨k, n, rest, hc, hne, hs⟩ := clean_names arg hroot
  obtain ⟨N, r, h1, h2⟩ := C39_lookup_exact b hb m hm hok hfull 5 (by decide) k n rest hne hs
  have hpf := (h2 _).mpr rfl
  refine ⟨k, n, rest, r.map Slice.data, N, hc, hs, hpf, fun rf fuel srt ft o hrf => ?_⟩
  have hfd := h1 rf hrf
  rw [← hc] at hfd
  cases r with
  | none =>
    simp only [Option.map_none]
    simp only [doListFiles, List.isEmpty_cons, Bool.false_eq_true, if_false, lsArgsLoop, lsArg, hroot,
      show FSTreeObjectID = (5 : UInt64) from rfl, hfd, Go.ok_bind, Go.pure_eq, List.nil_append, lsTodoLoop, List.append_nil]
  | some d =>
    simp only [Option.map_some]
    have hwhole : wholeEntry (Slice.data d) := by
      obtain ⟨l, hl, rfl⟩ := hb.exists_abs
      have hsound := findPathLoop_sound hl ⟨m, hm⟩ hok (pathComps (goClean arg)) 5 256 none d (by decide) (splitSlash_ne _) hfd
      have key : ∀ {o dir : UInt64} {names : List Bytes} {d : DirItem}, o ≠ ~~~0 → l.enc.PathTo o dir names d →
          wholeEntry (Slice.data d) := by
        intro o dir names d ho hp
        induction hp with
        | last h1 _ => exact hfull _ _ _ ho h1
        | @step o dir d n loc rest d' h1 h2 h3 _ ih =>
          refine ih ?_
          unfold target
          by_cases ht : loc.typ = 132
          · rw [if_pos ht]; exact hok.noMetaTree _ _ _ _ ho h1 h3 ht
          · rw [if_neg ht]; exact ho
      exact key (by decide) hsound
    obtain ⟨nm, e, w1, w2, w3, w4⟩ := hwhole.named
    have hisd : DirItem.isDir d = .ok (e.typ == 2) := isDir_eq.mpr ⟨_, w3, rfl⟩
    refine ⟨e, nm, w1, ?_⟩
    by_cases ht : e.typ = 2
    · rw [if_pos ht]
      have hb2 : (e.typ == 2) = true := beq_iff_eq.mpr ht
      intro text
      simp only [doListFiles, List.isEmpty_cons, Bool.false_eq_true, if_false, lsArgsLoop, lsArg, hroot,
        show FSTreeObjectID = (5 : UInt64) from rfl, hfd, Go.ok_bind, Go.pure_eq, hisd, hb2, Bool.not_true, w4, List.nil_append,
        lsTodoLoop]
      cases listDirectory rf srt ft ⟨b, ~~~0⟩ 5 o.inode fuel e.location.objectID o.recursive <;>
        simp [Go.ok_bind, Go.hang_bind, Go.panic_bind]
    · rw [if_neg ht]
      have hb2 : (e.typ == 2) = false := beq_eq_false_iff_ne.mpr ht
      obtain ⟨line, l1, l2⟩ := C64_line b hb m hm 5 (by decide) hin ft o.inode d hwhole
      refine ⟨d, line, rfl, l2, ?_⟩
      simp only [doListFiles, List.isEmpty_cons, Bool.false_eq_true, if_false, lsArgsLoop, lsArg, hroot,
        show FSTreeObjectID = (5 : UInt64) from rfl, hfd, Go.ok_bind, Go.pure_eq, hisd, hb2, Bool.not_false, if_true, l1,
        List.nil_append, lsTodoLoop, List.append_nil]

/-- The hypotheses are met by `exPathStore`, where `/a/b` is subvolume 300 and `/x` does not exist. -/
example : exPathStore.enc.WF ∧ exPathStore.enc.stores metadataVersionKey [] ∧ exPathStore.enc.DirsOK ∧
    (∀ o dir d, o ≠ ~~~0 → exPathStore.enc.dirItem o dir d → wholeEntry (Slice.data d)) ∧ exPathStore.enc.InodesOK 5 ∧
    goClean [47, 97, 47, 47, 98] ≠ [47] ∧
    (∃ e d, exPathStore.enc.stepFinds 5 256 [97] false e d ∧ target 5 e.location = (5, 257)) ∧
    doListFiles 5 2 lsInsertSort (fun _ => [84]) ⟨exPathStore.enc, ~~~0⟩ ⟨false, true⟩ [[47, 120]] = .ok ([], [[47, 120]]) := by
  refine ⟨AStore.enc_wf exPathStore_sorted, enc_stores.mpr (by simp [exPathStore]), exPathStore_ok, fun o dir d ho hd => ?_, ?_,
    by decide, ?_, by decide +kernel⟩
  · refine dirItem_of (P := fun d => wholeEntry (Slice.data d)) ?_ o dir d ho hd
    intro e he
    simp only [exPathStore, List.mem_cons, List.not_mem_nil, or_false] at he
    rcases he with rfl | rfl | rfl | rfl | rfl | rfl
    all_goals first
      | (intro _ h; exact absurd h (by show ¬ (_ : UInt8) = 84; decide))
      | (intro _ _; exact ⟨_, item_data_mk _ _ (by decide), entry_whole _ _ _ (by decide)⟩)
      | (intro h; exact absurd rfl h)
  · intro ino hk
    obtain ⟨g', x, hx⟩ := enc_hasKey.mp hk
    have : ∀ e ∈ exPathStore, e.1.owner = 5 → e.1.key.typ ≠ 1 := by decide +kernel
    exact absurd rfl (this _ hx rfl)
  · have hmem : (⟨5, ⟨256, 84, (NameHash [97]).toUInt64⟩, 10⟩,
        mkItem ⟨256, 84, (NameHash [97]).toUInt64⟩ (exEntry ⟨257, 1, 0⟩ 2 [97])) ∈ exPathStore := by simp [exPathStore]
    refine ⟨⟨⟨257, 1, 0⟩, 7, 0, 1, 2⟩, ⟨exEntry ⟨257, 1, 0⟩ 2 [97], []⟩, Or.inl ⟨10, _, newest_of hmem (by decide +kernel),
      enc_stores.mpr hmem, item_data_mk _ _ (by decide), [], rfl, rfl⟩, by decide⟩

end Btrfscue
