import Verif.Props.PathStuck
import Verif.Props.LsHang
/-!
# C65: exactly which listings of one path do not end
-/

namespace Btrfscue

theorem findPathLoop_PathEnds {fuel : Nat} {ix : Ix} {e : DirItem} : ∀ (names : List Bytes) (o d : UInt64) (res : Option DirItem),
    names ≠ [] → findPathLoop fuel ix o d res names = .ok (some e) → ix.PathEnds o d names e := by
  intro names
  induction names with
  | nil => intro o d res h; exact absurd rfl h
  | cons n rest ih =>
    intro o d res _ h
    have h0 := h
    unfold findPathLoop at h0
    obtain ⟨r, h1, h0⟩ := Go.bind_eq_ok.mp h0
    cases r with
    | none => cases h0
    | some x =>
      rw [findPathLoop_step h1] at h
      obtain ⟨k, h2, h⟩ := Go.bind_eq_ok.mp h
      cases rest with
      | nil => cases h; exact .last (findComp_picks h1) h2
      | cons n' rest => exact .step (findComp_picks h1) h2 (ih _ _ _ (by simp) h)

theorem PathEnds_findPathLoop {ix : Ix} {o d : UInt64} {names : List Bytes} {e : DirItem} (h : ix.PathEnds o d names e) :
    ∀ res, ∃ N, ∀ fuel, N ≤ fuel → findPathLoop fuel ix o d res names = .ok (some e) := by
  induction h with
  | @last o d n e k h1 h2 =>
    intro res
    obtain ⟨N, hN⟩ := picks_findComp h1
    exact ⟨N, fun fuel hf => by rw [findPathLoop_step (rest := []) (hN fuel hf), h2]; rfl⟩
  | @step o d n n' rest e e' k h1 h2 _ ih =>
    intro res
    obtain ⟨N, hN⟩ := picks_findComp h1
    obtain ⟨M, hM⟩ := ih (some e)
    exact ⟨max N M, fun fuel hf => by
      rw [findPathLoop_step (rest := n' :: rest) (hN fuel (by omega)), h2, Go.ok_bind]; exact hM fuel (by omega)⟩

theorem flat_hang_iff (ix : Ix) (o : UInt64) (srt : Sorter) (ft : Time → Bytes) (si : Bool) : ∃ N, ∀ rf ≥ N, ∀ fuel ≥ N, ∀ d,
    listDirectory rf srt ft ix o si fuel d false = .hang ↔ ∃ rd, ix.dirItems o d = .ok rd ∧ Range.Endless rd := by
  obtain ⟨N0, hN0⟩ := ix.bounded
  refine ⟨N0 + 1, fun rf hrf fuel hf d => ⟨fun hh => ?_, fun ⟨rd, h1, h2⟩ => C65_endless_directory _ _ _ _ _ _ _ rd h1 h2 _ _⟩⟩
  obtain ⟨f, rfl⟩ : ∃ f, fuel = f + 1 := ⟨fuel - 1, by omega⟩
  refine Classical.byContradiction fun hno => ?_
  unfold listDirectory at hh
  rcases Go.bind_eq_hang.mp hh with h1 | ⟨rd, hrd, hh⟩
  · exact NH.out h1
  have hdir : Range.EndsIn rf rd := ((hN0.dirs o d rd hrd).resolve_left fun he => hno ⟨rd, hrd, he⟩).mono (by omega)
  rcases Go.bind_eq_hang.mp hh with h1 | ⟨⟨dis, bk⟩, hdis, hh⟩
  · exact rangeLoop_nh (fun s r d => by unfold collectBody; infer_instance) hdir _ h1
  rcases Go.bind_eq_hang.mp hh with h1 | ⟨es, hes, hh⟩
  · exact NH.out h1
  rcases Go.bind_eq_hang.mp hh with h1 | ⟨⟨out, todo⟩, htodo, hh⟩
  · exact (listLoop_nh ft ix o false si es).out h1
  have ht : todo = [] := by
    cases todo with
    | nil => rfl
    | cons e r => exact absurd htodo (listLoop_flat _ _ (by simp))
  subst ht
  cases hh

/-- Listing one directory, as the rest of the command does. -/
theorem lsTodo_one {rf fuel : Nat} {srt : Sorter} {ft : Time → Bytes} {ix : Ix} {o : LsOptions} {t : UInt64 × UInt64} :
    lsTodoLoop rf fuel srt ft ix o [t] = .hang ↔ listDirectory rf srt ft ix t.1 o.inode fuel t.2 o.recursive = .hang := by
  unfold lsTodoLoop
  cases listDirectory rf srt ft ix t.1 o.inode fuel t.2 o.recursive <;> simp [lsTodoLoop]

/-- C65, exactly, for `ls PATH` without `--recursive`, on every index: however many iterations are allowed it does not end, if and only
if the lookup of the path gets stuck in a directory whose iteration is endless, or the path leads to such a directory. -/
theorem C65_path_hang_iff (ix : Ix) (srt : Sorter) (ft : Time → Bytes) (si : Bool) (p : Bytes) : ∃ N, ∀ rf ≥ N, ∀ fuel ≥ N,
    doListFiles rf fuel srt ft ix ⟨false, si⟩ [p] = .hang ↔
      (goClean p ≠ [47] ∧ ix.PathStuck 5 256 (pathComps (goClean p))) ∨
      ∃ d rd, ix.lsLeads p d ∧ ix.dirItems 5 d = .ok rd ∧ Range.Endless rd := by
  obtain ⟨N1, h1⟩ := flat_hang_iff ix 5 srt ft si
  obtain ⟨N2, r, h2, h3⟩ := C38_hang_iff ix 5 (goClean p)
  have hends : ∀ e, r = .ok (some e) ↔ ix.PathEnds 5 256 (pathComps (goClean p)) e := by
    intro e
    constructor
    · intro hr
      have := h2 N2 (le_refl _)
      rw [hr] at this
      exact findPathLoop_PathEnds _ _ _ _ (splitSlash_ne _) this
    · intro he
      obtain ⟨M, hM⟩ := PathEnds_findPathLoop he none
      rw [← h2 (max M N2) (by omega)]
      exact hM _ (by omega)
  refine ⟨max N1 N2, fun rf hrf fuel hf => ?_⟩
  have hl := h1 rf (by omega) fuel (by omega)
  have hr := h2 rf (by omega)
  unfold doListFiles
  rw [show (if List.isEmpty [p] then [[47]] else [p]) = [p] from rfl]
  unfold lsArgsLoop lsArg Ix.lsLeads
  rw [show FSTreeObjectID = 5 from rfl, show FirstFreeObjectID = 256 from rfl]
  by_cases hp : goClean p = [47]
  · simp only [hp, if_true, ne_eq, not_true_eq_false, false_and, or_false, false_or, true_and, Go.pure_eq, Go.ok_bind,
      lsArgsLoop, List.nil_append]
    constructor
    · intro hh
      rcases Go.bind_eq_hang.mp hh with h4 | ⟨t, -, h4⟩
      · obtain ⟨rd, h5, h6⟩ := (hl 256).mp (lsTodo_one.mp h4)
        exact ⟨256, rd, rfl, h5, h6⟩
      · cases h4
    · rintro ⟨d, rd, rfl, h5, h6⟩
      exact Go.bind_eq_hang.mpr (Or.inl (lsTodo_one.mpr ((hl 256).mpr ⟨rd, h5, h6⟩)))
  · simp only [hp, if_false, ne_eq, not_false_eq_true, false_and, true_and, false_or, hr]
    rw [← h3]
    simp only [← hends]
    cases r with
    | hang => simp
    | panic => simp
    | ok x =>
      cases x with
      | none => simp [lsArgsLoop, lsTodoLoop]
      | some di =>
        simp only [Go.ok_bind, reduceCtorEq, false_or, Go.ok.injEq, Option.some.injEq]
        cases hd : DirItem.isDir di with
        | hang => exact absurd hd NH.out
        | panic =>
          refine iff_of_false (by simp) ?_
          rintro ⟨d, rd, ⟨e, k, rfl, h4, -⟩, -⟩
          rw [hd] at h4; cases h4
        | ok b =>
          cases b with
          | false =>
            have hli : listDirItem ft ix 5 di si ≠ .hang := NH.out
            refine iff_of_false ?_ ?_
            · intro hh
              simp only [Go.ok_bind, Bool.not_false, if_true] at hh
              rcases Go.bind_eq_hang.mp hh with h4 | ⟨s, h4, hh⟩
              · rcases Go.bind_eq_hang.mp h4 with h4 | ⟨s, h4, hh⟩
                · rcases Go.bind_eq_hang.mp h4 with h4 | ⟨s, h4, hh⟩
                  · exact hli h4
                  · cases hh
                · cases hh
              · obtain ⟨s1, h5, h4⟩ := Go.bind_eq_ok.mp h4
                obtain ⟨s2, h6, h5⟩ := Go.bind_eq_ok.mp h5
                cases h5
                cases h4
                cases hh
            · rintro ⟨d, rd, ⟨e, k, rfl, h4, -⟩, -⟩
              rw [hd] at h4; cases h4
          | true =>
            simp only [Go.ok_bind, Bool.not_true, Bool.false_eq_true, if_false]
            cases hk : DirItem.location di with
            | hang => exact absurd hk NH.out
            | panic =>
              refine iff_of_false (by simp) ?_
              rintro ⟨d, rd, ⟨e, k, rfl, -, h4, -⟩, -⟩
              rw [hk] at h4; cases h4
            | ok k =>
              simp only [Go.ok_bind, Go.pure_eq, lsArgsLoop, List.nil_append]
              constructor
              · intro hh
                rcases Go.bind_eq_hang.mp hh with h4 | ⟨t, -, h4⟩
                · obtain ⟨rd, h5, h6⟩ := (hl _).mp (lsTodo_one.mp h4)
                  exact ⟨k.objectID, rd, ⟨di, k, rfl, hd, hk, rfl⟩, h5, h6⟩
                · cases h4
              · rintro ⟨d, rd, ⟨e, k', rfl, -, h7, rfl⟩, h5, h6⟩
                rw [hk] at h7
                cases h7
                exact Go.bind_eq_hang.mpr (Or.inl (lsTodo_one.mpr ((hl _).mpr ⟨rd, h5, h6⟩)))

/-- `ls` without arguments and without `--recursive` does not end if and only if iterating over the top directory does not. -/
theorem C65_top_hang_iff (ix : Ix) (srt : Sorter) (ft : Time → Bytes) (si : Bool) : ∃ N, ∀ rf ≥ N, ∀ fuel ≥ N,
    doListFiles rf fuel srt ft ix ⟨false, si⟩ [] = .hang ↔ ∃ rd, ix.dirItems 5 256 = .ok rd ∧ Range.Endless rd := by
  obtain ⟨N, h⟩ := C65_path_hang_iff ix srt ft si [47]
  refine ⟨N, fun rf hrf fuel hf => ?_⟩
  have h1 := h rf hrf fuel hf
  have hc : goClean [47] = [47] := by decide
  unfold Ix.lsLeads at h1
  simp only [hc, ne_eq, not_true_eq_false, false_and, or_false, false_or, true_and] at h1
  refine Iff.trans (Iff.trans (iff_of_eq rfl) h1) ⟨fun ⟨d, rd, hd, h2⟩ => ⟨rd, hd ▸ h2⟩, fun ⟨rd, h2⟩ => ⟨256, rd, rfl, h2⟩⟩

/-- On the index of `exLostMain`, `ls /` does not end. -/
example (srt : Sorter) : ∃ rf fuel, doListFiles rf fuel srt (fun _ => []) ⟨exLostMain.enc, ~~~0⟩ ⟨false, false⟩ [[47]] = .hang := by
  obtain ⟨rd, h1, h2⟩ := exLostMain_endless
  obtain ⟨N, h⟩ := C65_path_hang_iff ⟨exLostMain.enc, ~~~0⟩ srt (fun _ => []) false [47]
  exact ⟨N, N, (h N (le_refl _) N (le_refl _)).mpr (Or.inr ⟨256, rd, Or.inl ⟨by decide, rfl⟩, h1, h2⟩)⟩

end Btrfscue
