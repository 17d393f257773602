import Verif.Spec.PathHang
import Verif.Props.RecoverHang
import Verif.Props.Path
/-!
# C38: what keeps a path lookup from ending
-/

namespace Btrfscue

theorem fastDir_nh (ix : Ix) (o d : UInt64) (n : Bytes) : NH (fastDir ix o d n) := by
  unfold fastDir
  refine nh_bind inferInstance fun r => ?_
  cases r <;> infer_instance

instance (comp : Bytes) (last : Bool) (s : Option DirItem) (r : Range) (d : DirItem) : NH (slowBody comp last s r d) := by
  unfold slowBody; infer_instance

theorem fastDir_some {ix : Ix} {o d : UInt64} {n : Bytes} {e : DirItem} (h : fastDir ix o d n = .ok (some e)) :
    DirItem.name e = .ok n ∧ ∃ v, ix.findItem o (KF3 84 d (NameHash n).toUInt64) = .ok (some v) ∧ Item.data v = .ok e := by
  unfold fastDir at h
  obtain ⟨r, h1, h⟩ := Go.bind_eq_ok.mp h
  cases r with
  | none => cases h
  | some v =>
    obtain ⟨d', h2, h⟩ := Go.bind_eq_ok.mp h
    obtain ⟨nm, h3, h⟩ := Go.bind_eq_ok.mp h
    split at h
    · rename_i hn
      cases h
      exact ⟨hn ▸ h3, v, h1, h2⟩
    · cases h

theorem slow_gets {comp : Bytes} {last : Bool} {e : DirItem} {bk : Bool} : ∀ (fuel : Nat) (s : Option DirItem) (rd : Range × Slice),
    rangeLoop (slowBody comp last) fuel s rd = .ok (some e, bk) → s = some e ∨
      (DirItem.name e = .ok comp ∧ ∃ rd', Range.Gets rd rd' ∧ rd'.2 = e) := by
  intro fuel
  induction fuel with
  | zero => intro s rd h; cases h
  | succ fuel ih =>
    rintro s ⟨r0, d0⟩ h
    simp only [rangeLoop] at h
    by_cases hn : r0.hasNext = true
    · rw [if_pos hn] at h
      obtain ⟨⟨s', b⟩, h1, h⟩ := Go.bind_eq_ok.mp h
      have hb : (s' = s) ∨ (s' = some d0 ∧ DirItem.name d0 = .ok comp) := by
        unfold slowBody at h1
        obtain ⟨nm, h2, h1⟩ := Go.bind_eq_ok.mp h1
        split at h1
        · rename_i hnm
          obtain ⟨dd, -, h1⟩ := Go.bind_eq_ok.mp h1
          split at h1
          · cases h1; exact Or.inr ⟨rfl, hnm ▸ h2⟩
          · cases h1; exact Or.inl rfl
        · cases h1; exact Or.inl rfl
      cases b with
      | true =>
        simp only [if_true] at h
        cases h
        rcases hb with hb | ⟨hb, hc⟩
        · exact Or.inl hb.symm
        · cases hb
          exact Or.inr ⟨hc, _, .here hn, rfl⟩
      | false =>
        simp only [Bool.false_eq_true, if_false] at h
        obtain ⟨rd', h2, h⟩ := Go.bind_eq_ok.mp h
        rcases ih _ _ h with h3 | ⟨h3, rd'', h4, h5⟩
        · rcases hb with hb | ⟨hb, hc⟩
          · exact Or.inl (hb ▸ h3)
          · rw [h3] at hb
            cases hb
            exact Or.inr ⟨hc, _, .here hn, rfl⟩
        · exact Or.inr ⟨h3, rd'', .next hn h2 h4, h5⟩
    · rw [if_neg hn] at h
      cases h
      exact Or.inl rfl

theorem findComp_finds {fuel : Nat} {ix : Ix} {o d : UInt64} {n : Bytes} {last : Bool} {e : DirItem}
    (h : findComp fuel ix o d n last = .ok (some e)) : ix.findsEntry o d n e := by
  unfold findComp at h
  obtain ⟨r, h1, h⟩ := Go.bind_eq_ok.mp h
  cases r with
  | some x =>
    cases h
    obtain ⟨h2, h3⟩ := fastDir_some h1
    exact ⟨h2, Or.inl h3⟩
  | none =>
    obtain ⟨rd, h2, h⟩ := Go.bind_eq_ok.mp h
    obtain ⟨⟨s, bk⟩, h3, h⟩ := Go.bind_eq_ok.mp h
    cases h
    rcases slow_gets _ _ _ h3 with h4 | ⟨h4, rd', h5, h6⟩
    · cases h4
    · exact ⟨h4, Or.inr ⟨rd, rd', h2, h5, h6⟩⟩

/-- C38, for every index: there is a number of iterations such that, however many more are allowed, only looking up a path leading
to or through a directory where iterating over the entries does not end, does not end. -/
theorem C38_hang_cause (ix : Ix) : ∃ N, ∀ fuel ≥ N, ∀ owner path, ix.findDirItemForPath fuel owner path = .hang →
    ∃ front name rest o d rd, pathComps path = front ++ name :: rest ∧ ix.Leads owner 256 front o d ∧
      ix.dirItems o d = .ok rd ∧ Range.Endless rd := by
  obtain ⟨N, hN⟩ := ix.bounded
  refine ⟨N, fun fuel hf owner path => ?_⟩
  replace hN := hN.mono hf
  unfold Ix.findDirItemForPath
  rw [show FirstFreeObjectID = 256 from rfl]
  generalize (256 : UInt64) = dir
  generalize (none : Option DirItem) = res
  generalize pathComps path = names
  induction names generalizing owner dir res with
  | nil => intro h; cases h
  | cons n rest ih =>
    intro h
    unfold findPathLoop at h
    rcases Go.bind_eq_hang.mp h with h1 | ⟨r, h1, h⟩
    · unfold findComp at h1
      rcases Go.bind_eq_hang.mp h1 with h2 | ⟨r, -, h1⟩
      · exact absurd h2 (fastDir_nh _ _ _ _).out
      cases r with
      | some d => cases h1
      | none =>
        rcases Go.bind_eq_hang.mp h1 with h2 | ⟨rd, hrd, h1⟩
        · exact absurd h2 NH.out
        refine ⟨[], n, rest, owner, dir, rd, rfl, .nil, hrd, (hN.dirs _ _ rd hrd).resolve_right fun he => ?_⟩
        rcases Go.bind_eq_hang.mp h1 with h2 | ⟨x, -, h2⟩
        · exact rangeLoop_nh (fun s r d => inferInstance) he _ h2
        · cases h2
    · cases r with
      | none => cases h
      | some e =>
        have hfe := findComp_finds h1
        rcases Go.bind_eq_hang.mp h with h2 | ⟨sub, hsub, h⟩
        · exact absurd h2 NH.out
        have hgo : ∀ o' d' k, DirItem.location e = .ok k → target owner k = (o', d') →
            findPathLoop fuel ix o' d' (some e) rest = .hang → ∃ front name rest' o d rd, n :: rest = front ++ name :: rest' ∧
              ix.Leads owner dir front o d ∧ ix.dirItems o d = .ok rd ∧ Range.Endless rd := by
          intro o' d' k hk ht hh
          obtain ⟨front, name, rest', o2, d2, rd, h3, h4, h5, h6⟩ := ih _ _ _ hh
          refine ⟨n :: front, name, rest', o2, d2, rd, by rw [h3]; rfl, .cons hfe hk ?_, h5, h6⟩
          rw [ht]
          exact h4
        unfold DirItem.isSubvolume at hsub
        obtain ⟨k, hk, hsub⟩ := Go.bind_eq_ok.mp hsub
        cases sub with
        | false =>
          simp only [Bool.not_false, if_true, hk, Go.ok_bind] at h
          refine hgo _ _ k hk ?_ h
          have ht : (k.typ == RootItemKey) = false := by injection hsub
          unfold target
          rw [if_neg (by simpa [RootItemKey] using ht)]
        | true =>
          simp only [Bool.not_true, Bool.false_eq_true, if_false, hk, Go.ok_bind] at h
          refine hgo _ _ k hk ?_ h
          have ht : (k.typ == RootItemKey) = true := by injection hsub
          unfold target
          rw [if_pos (by simpa [RootItemKey] using ht)]
          rfl

/-- The lookup of `C38_lookup_hangs` is one of these. -/
example : ∃ o d rd, (Ix.mk exLostIndex.enc (~~~0)).Leads 256 256 [] o d ∧
    (Ix.mk exLostIndex.enc (~~~0)).dirItems o d = .ok rd ∧ Range.Endless rd := by
  obtain ⟨N, hN⟩ := C38_hang_cause ⟨exLostIndex.enc, ~~~0⟩
  obtain ⟨front, name, rest, o, d, rd, h1, h2, h3, h4⟩ := hN N (le_refl _) 256 [98] (C38_lookup_hangs N)
  rw [show pathComps [98] = [[98]] by decide] at h1
  obtain rfl : front = [] := by
    cases front with
    | nil => rfl
    | cons x r =>
      injection h1 with _ h1
      exact absurd (congrArg List.length h1) (by simp)
  exact ⟨o, d, rd, h2, h3, h4⟩

end Btrfscue
