import Verif.Props.Repair
import Verif.Props.RecoverWholeEx
/-!
# C61: the names recover passes over
-/

namespace Btrfscue

theorem subvol_backslash (n : Nat) : (92 : UInt8) ∉ ascii "subvol_" ++ decimal n := by
  have hs := subvol_name n
  simp only [skipName, Bool.or_eq_false_iff, beq_eq_false_iff_ne, List.contains_eq_mem, decide_eq_false_iff_not] at hs
  exact hs.2

theorem Ix.Placed.names {ix : Ix} {dest : Bytes} (hD : ix.Distinct dest) (hd : goClean dest = dest) (hne : dest ≠ []) {o d : UInt64}
    {p : Bytes} (h : ix.Placed dest o d p) : ∃ A, Named dest A p ∧ ∀ n ∈ A, 92 ∉ n := by
  induction h with
  | main => exact ⟨[], .refl hd hne, by simp⟩
  | subvolume => exact ⟨_, (Named.refl hd hne).join (subvol_plain _), fun n hn => by
      rw [List.mem_singleton.mp hn]; exact subvol_backslash _⟩
  | dir hp hl hs _ hu hb ih =>
    obtain ⟨A, hA, hn⟩ := ih
    refine ⟨_, hA.join (usable_plain hu (hD.nonempty _ _ _ _ _ _ _ hp hl hs)), fun n h => ?_⟩
    rcases List.mem_append.mp h with h | h
    · exact hn n h
    · rw [List.mem_singleton.mp h]; exact hb
  | tree hp hl hs _ hu hb ih =>
    obtain ⟨A, hA, hn⟩ := ih
    refine ⟨_, hA.join (usable_plain hu (hD.nonempty _ _ _ _ _ _ _ hp hl hs)), fun n h => ?_⟩
    rcases List.mem_append.mp h with h | h
    · exact hn n h
    · rw [List.mem_singleton.mp h]; exact hb

theorem EntryAt.names {ix : Ix} {dest : Bytes} (hD : ix.Distinct dest) (hd : goClean dest = dest) (hne : dest ≠ []) {t : UInt8} {o i : UInt64}
    {A : List Bytes} (h : EntryAt ix dest t o i A) : ∀ n ∈ A, 92 ∉ n := by
  obtain ⟨q, ⟨d, p, di, n, loc, h1, h2, h3, h4, h5, h6, h7, rfl⟩, hA⟩ := h
  obtain ⟨X, hX, hn⟩ := h1.names hD hd hne
  rw [hA.names (hX.join (usable_plain h6 (hD.nonempty _ _ _ _ _ _ _ h1 h2 h3)))]
  intro m hm
  rcases List.mem_append.mp hm with hm | hm
  · exact hn m hm
  · rw [List.mem_singleton.mp hm]; exact h7

/-- C61, the other way round: whatever runs of recover, with or without `--clobber`, to a directory that was empty before the first, broken off
at any point: no name of anything below the destination, at any depth, has a backslash. So an entry whose name has one, and everything
below it, is never recovered (`C61_entries_partial` says that all others are). -/
theorem C61_backslash_never (ix : Ix) (dest : Bytes) (fs f : HostFS) (r : Nat) (he : EmptyDest fs dest r) (hD : ix.Distinct dest)
    (h : LeftBy ix dest fs f) (A : List Bytes) (i : Nat) (hi : f.down r A = some i) : ∀ n ∈ A, (92 : UInt8) ∉ n := by
  rcases (h.base he hD).shape.kind A i hi with ⟨⟨o, d, p, h1, h2⟩, -⟩ | ⟨o, n, x, h1, -⟩ | ⟨o, n, x, h1, -⟩
  · obtain ⟨B, hB, hn⟩ := h1.names hD he.clean he.ok.ne
    rw [h2.names hB]
    exact hn
  · exact h1.names hD he.clean he.ok.ne
  · exact h1.names hD he.clean he.ok.ne

/-- The hypotheses are met, and there is something below the destination: the link "b/c" after a run on `exWhole`. -/
example : EmptyDest exEmptyDir (ascii "/d") 1 ∧ (Ix.mk exWhole.enc (~~~0)).Distinct (ascii "/d") ∧
    ∃ f, LeftBy ⟨exWhole.enc, ~~~0⟩ (ascii "/d") exEmptyDir f ∧ ∃ i, f.down 1 [[98], [99]] = some i := by
  refine ⟨exEmptyDir_ok, exWhole_distinct _,
    (doRecoverFiles quietEnv 30 9 ⟨exWhole.enc, ~~~0⟩ false (ascii "/d") (RecState.start exEmptyDir)).state.fs,
    .run .none (fun _ => rfl) (Or.inl rfl), ?_⟩
  have : ((doRecoverFiles quietEnv 30 9 ⟨exWhole.enc, ~~~0⟩ false (ascii "/d") (RecState.start exEmptyDir)).state.fs.down 1 [[98], [99]]).isSome = true := by
    decide +kernel
  exact Option.isSome_iff_exists.mp this

end Btrfscue
