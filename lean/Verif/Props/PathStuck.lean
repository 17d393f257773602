import Verif.Props.PathHang
/-!
# C38: exactly which path lookups do not end
-/

namespace Btrfscue

/-- The answer does not depend on the number of iterations allowed, if it is enough. -/
theorem rangeLoop_more {σ : Type} {body : σ → Range → Slice → Go (σ × Bool)} : ∀ (fuel : Nat) (s : σ) (rd : Range × Slice),
    rangeLoop body fuel s rd ≠ .hang → ∀ m, fuel ≤ m → rangeLoop body m s rd = rangeLoop body fuel s rd := by
  intro fuel
  induction fuel with
  | zero => intro s rd h; exact absurd rfl h
  | succ fuel ih =>
    rintro s ⟨r, d⟩ h m hm
    obtain ⟨m, rfl⟩ : ∃ k, m = k + 1 := ⟨m - 1, by omega⟩
    simp only [rangeLoop] at h ⊢
    by_cases hn : r.hasNext = true
    · rw [if_pos hn] at h ⊢
      rw [if_pos hn]
      cases hb : body s r d with
      | panic => rfl
      | hang => rfl
      | ok x =>
        obtain ⟨s', bk⟩ := x
        rw [hb] at h
        simp only [Go.ok_bind] at h ⊢
        cases bk with
        | true => rfl
        | false =>
          simp only [Bool.false_eq_true, if_false] at h ⊢
          cases hx : r.next with
          | panic => rfl
          | hang => rfl
          | ok rd' =>
            rw [hx] at h
            simp only [Go.ok_bind] at h ⊢
            exact ih s' rd' h m (by omega)
    · rw [if_neg hn, if_neg hn]

theorem slow_passes {name : Bytes} {last : Bool} {r : Range} {d : DirItem} (h : passedOver name last d) :
    slowBody name last none r d = .ok (none, false) := by
  obtain ⟨n, h1, h2⟩ := h
  unfold slowBody
  simp only [h1, Go.ok_bind]
  by_cases hn : n = name
  · obtain ⟨h3, h4⟩ := h2 hn
    simp [if_pos hn, h3, h4]
  · rw [if_neg hn]; rfl

theorem slow_inv {name : Bytes} {last : Bool} {r : Range} {d : DirItem} {s : Option DirItem} {bk : Bool}
    (h : slowBody name last none r d = .ok (s, bk)) :
    (bk = false ∧ s = none ∧ passedOver name last d) ∨
    (bk = true ∧ s = some d ∧ DirItem.name d = .ok name ∧ ∃ t, DirItem.isDir d = .ok t ∧ (t = true ∨ last = true)) := by
  unfold slowBody at h
  obtain ⟨n, h1, h⟩ := Go.bind_eq_ok.mp h
  by_cases hn : n = name
  · rw [if_pos hn] at h
    obtain ⟨t, h2, h⟩ := Go.bind_eq_ok.mp h
    rw [hn] at h1
    by_cases hc : (t || last) = true
    · rw [if_pos hc] at h
      cases h
      exact Or.inr ⟨rfl, rfl, h1, t, h2, by simpa using hc⟩
    · rw [if_neg hc] at h
      cases h
      have : t = false ∧ last = false := by simpa using hc
      exact Or.inl ⟨rfl, rfl, name, h1, fun _ => ⟨this.2, this.1 ▸ h2⟩⟩
  · rw [if_neg hn] at h
    cases h
    exact Or.inl ⟨rfl, rfl, n, h1, fun hc => absurd hc hn⟩

theorem slow_stuck {name : Bytes} {last : Bool} : ∀ (fuel : Nat) (rd : Range × Slice), Range.Endless rd →
    (∀ rd', Range.Gets rd rd' → passedOver name last rd'.2) → rangeLoop (slowBody name last) fuel none rd = .hang := by
  intro fuel
  induction fuel with
  | zero => intro _ _ _; rfl
  | succ fuel ih =>
    rintro ⟨r, d⟩ he hp
    simp only [rangeLoop]
    have hn : r.hasNext = true := by
      by_contra hn
      exact he 1 (.done (by simpa using hn))
    have hb := slow_passes (r := r) (hp _ (.here (rd := (r, d)) hn))
    rw [if_pos hn, hb]
    simp only [Go.ok_bind, Bool.false_eq_true, if_false]
    cases hx : r.next with
    | panic => exact absurd (.crash hx) (he 1)
    | hang => rfl
    | ok rd' =>
      simp only [Go.ok_bind]
      exact ih rd' (fun n hn' => he (n + 1) (.step hx hn')) fun rd'' h => hp rd'' (.next hn hx h)

theorem slow_always {name : Bytes} {last : Bool} {rd : Range × Slice}
    (h : ∀ fuel, rangeLoop (slowBody name last) fuel none rd = .hang) :
    Range.Endless rd ∧ ∀ rd', Range.Gets rd rd' → passedOver name last rd'.2 := by
  refine ⟨fun n he => rangeLoop_nh (fun s r d => inferInstance) he none (h n), fun rd' hg => ?_⟩
  have hstep : ∀ rd : Range × Slice, rd.1.hasNext = true → (∀ fuel, rangeLoop (slowBody name last) fuel none rd = .hang) →
      passedOver name last rd.2 ∧ ∀ rd', rd.1.next = .ok rd' → ∀ fuel, rangeLoop (slowBody name last) fuel none rd' = .hang := by
    rintro ⟨r, d⟩ hn h
    have h1 := h 1
    simp only [rangeLoop, if_pos hn] at h1
    rcases Go.bind_eq_hang.mp h1 with h2 | ⟨⟨s, bk⟩, h2, h3⟩
    · exact absurd h2 (inferInstance : NH (slowBody name last none r d)).out
    rcases slow_inv h2 with ⟨rfl, rfl, h4⟩ | ⟨rfl, rfl, -⟩
    · refine ⟨h4, fun rd' hx fuel => ?_⟩
      have h5 := h (fuel + 1)
      simp only [rangeLoop, if_pos hn, h2, Go.ok_bind, Bool.false_eq_true, if_false] at h5
      simp only at hx
      rw [hx] at h5
      exact h5
    · simp at h3
  induction hg with
  | here hn => exact (hstep _ hn h).1
  | next hn hx _ ih => exact ih ((hstep _ hn h).2 _ hx)

theorem slow_picks {name : Bytes} {last : Bool} {e : DirItem} {bk : Bool} : ∀ (fuel : Nat) (rd : Range × Slice),
    rangeLoop (slowBody name last) fuel none rd = .ok (some e, bk) →
      DirItem.name e = .ok name ∧ ∃ t, DirItem.isDir e = .ok t ∧ (t = true ∨ last = true) ∧
        ∃ rd', Range.Passes name last rd rd' ∧ rd'.2 = e := by
  intro fuel
  induction fuel with
  | zero => intro rd h; cases h
  | succ fuel ih =>
    rintro ⟨r, d⟩ h
    simp only [rangeLoop] at h
    by_cases hn : r.hasNext = true
    · rw [if_pos hn] at h
      obtain ⟨⟨s, b⟩, h1, h⟩ := Go.bind_eq_ok.mp h
      rcases slow_inv h1 with ⟨rfl, rfl, h4⟩ | ⟨rfl, rfl, h4, t, h5, h6⟩
      · simp only [Bool.false_eq_true, if_false] at h
        obtain ⟨rd', h2, h⟩ := Go.bind_eq_ok.mp h
        obtain ⟨k1, t, k2, k3, rd'', k4, k5⟩ := ih _ h
        exact ⟨k1, t, k2, k3, rd'', .next hn h4 h2 k4, k5⟩
      · simp only [if_true] at h
        cases h
        exact ⟨h4, t, h5, h6, _, .here hn, rfl⟩
    · rw [if_neg hn] at h
      cases h

theorem picks_slow {name : Bytes} {last : Bool} {rd rd' : Range × Slice} (h : Range.Passes name last rd rd') {t : Bool}
    (h1 : DirItem.name rd'.2 = .ok name) (h2 : DirItem.isDir rd'.2 = .ok t) (h3 : t = true ∨ last = true) :
    ∃ N, ∀ fuel, N ≤ fuel → rangeLoop (slowBody name last) fuel none rd = .ok (some rd'.2, true) := by
  induction h with
  | @here rd hn =>
    refine ⟨1, fun fuel hf => ?_⟩
    obtain ⟨fuel, rfl⟩ : ∃ k, fuel = k + 1 := ⟨fuel - 1, by omega⟩
    obtain ⟨r, d⟩ := rd
    have hb : slowBody name last none r d = .ok (some d, true) := by
      unfold slowBody
      simp only at h1 h2
      simp only [h1, h2, Go.ok_bind, if_true]
      rw [if_pos (by rcases h3 with h | h <;> simp [h])]
      rfl
    simp only [rangeLoop]
    rw [if_pos hn, hb]; rfl
  | @next rd rd1 rd2 hn hp hx _ ih =>
    obtain ⟨N, hN⟩ := ih h1 h2
    refine ⟨N + 1, fun fuel hf => ?_⟩
    obtain ⟨fuel, rfl⟩ : ∃ k, fuel = k + 1 := ⟨fuel - 1, by omega⟩
    obtain ⟨r, d⟩ := rd
    simp only [rangeLoop]
    rw [if_pos hn, slow_passes hp]
    simp only at hx
    simp only [Go.ok_bind, Bool.false_eq_true, if_false, hx]
    exact hN fuel (by omega)

theorem fastDir_none {ix : Ix} {o d : UInt64} {n : Bytes} : fastDir ix o d n = .ok none ↔ ix.missesHash o d n := by
  unfold fastDir Ix.missesHash
  rw [show KF3 DirItemKey d (NameHash n).toUInt64 = ⟨d, 84, (NameHash n).toUInt64⟩ from rfl]
  constructor
  · intro h
    obtain ⟨r, h1, h⟩ := Go.bind_eq_ok.mp h
    cases r with
    | none => exact Or.inl h1
    | some v =>
      obtain ⟨e, h2, h⟩ := Go.bind_eq_ok.mp h
      obtain ⟨nm, h3, h⟩ := Go.bind_eq_ok.mp h
      by_cases hn : nm = n
      · rw [if_pos hn] at h; cases h
      · exact Or.inr ⟨v, e, nm, h1, h2, h3, hn⟩
  · rintro (h | ⟨v, e, nm, h1, h2, h3, h4⟩)
    · rw [h]; rfl
    · simp only [h1, h2, h3, Go.ok_bind, if_neg h4]; rfl

theorem stuck_findComp {ix : Ix} {o d : UInt64} {n : Bytes} {last : Bool} (h : ix.stuck o d n last) (fuel : Nat) :
    findComp fuel ix o d n last = .hang := by
  obtain ⟨h1, rd, h2, h3, h4⟩ := h
  unfold findComp
  rw [fastDir_none.mpr h1]
  simp only [Go.ok_bind, h2, slow_stuck fuel rd h3 h4]
  rfl

theorem findComp_always {ix : Ix} {o d : UInt64} {n : Bytes} {last : Bool}
    (h : ∀ fuel, findComp fuel ix o d n last = .hang) : ix.stuck o d n last := by
  have hf : fastDir ix o d n = .ok none ∧ ∃ rd, ix.dirItems o d = .ok rd := by
    have h0 := h 0
    unfold findComp at h0
    rcases Go.bind_eq_hang.mp h0 with h1 | ⟨r, h1, h2⟩
    · exact absurd h1 (fastDir_nh _ _ _ _).out
    · cases r with
      | some e => cases h2
      | none =>
        refine ⟨h1, ?_⟩
        rcases Go.bind_eq_hang.mp h2 with h2 | ⟨rd, h2, -⟩
        · exact absurd h2 NH.out
        · exact ⟨rd, h2⟩
  obtain ⟨hf, rd, hrd⟩ := hf
  obtain ⟨k1, k2⟩ := slow_always (name := n) (last := last) (rd := rd) fun fuel => by
    have h1 := h fuel
    unfold findComp at h1
    rw [hf] at h1
    simp only [Go.ok_bind, hrd] at h1
    rcases Go.bind_eq_hang.mp h1 with h1 | ⟨r, -, h2⟩
    · exact h1
    · cases h2
  exact ⟨fastDir_none.mp hf, rd, hrd, k1, k2⟩

theorem findComp_more {ix : Ix} {o d : UInt64} {n : Bytes} {last : Bool} {fuel : Nat}
    (h : findComp fuel ix o d n last ≠ .hang) {m : Nat} (hm : fuel ≤ m) : findComp m ix o d n last = findComp fuel ix o d n last := by
  unfold findComp at h ⊢
  cases hf : fastDir ix o d n with
  | panic => exact Eq.refl Go.panic
  | hang => exact Eq.refl Go.hang
  | ok r =>
    cases r with
    | some e => exact Eq.refl (Go.ok (some e))
    | none =>
      rw [hf] at h
      simp only [Go.ok_bind] at h ⊢
      cases hd : ix.dirItems o d with
      | panic => exact Eq.refl Go.panic
      | hang => exact Eq.refl Go.hang
      | ok rd =>
        rw [hd] at h
        simp only [Go.ok_bind] at h ⊢
        rw [rangeLoop_more fuel none rd (fun hh => h (by rw [hh]; rfl)) m hm]

theorem findComp_picks {fuel : Nat} {ix : Ix} {o d : UInt64} {n : Bytes} {last : Bool} {e : DirItem}
    (h : findComp fuel ix o d n last = .ok (some e)) : ix.picks o d n last e := by
  unfold findComp at h
  obtain ⟨r, h1, h⟩ := Go.bind_eq_ok.mp h
  cases r with
  | some x =>
    cases h
    obtain ⟨h2, h3⟩ := fastDir_some h1
    exact ⟨h2, Or.inl h3⟩
  | none =>
    obtain ⟨rd, h2, h⟩ := Go.bind_eq_ok.mp h
    obtain ⟨⟨s, bk⟩, h3, h⟩ := Go.bind_eq_ok.mp h
    cases h
    obtain ⟨k1, t, k2, k3, rd', k4, k5⟩ := slow_picks _ _ h3
    exact ⟨k1, Or.inr ⟨fastDir_none.mp h1, t, k2, k3, rd, rd', h2, k4, k5⟩⟩

theorem picks_findComp {ix : Ix} {o d : UInt64} {n : Bytes} {last : Bool} {e : DirItem} (h : ix.picks o d n last e) :
    ∃ N, ∀ fuel, N ≤ fuel → findComp fuel ix o d n last = .ok (some e) := by
  obtain ⟨h1, ⟨v, h2, h3⟩ | ⟨h2, t, h3, h4, rd, rd', h5, h6, rfl⟩⟩ := h
  · refine ⟨0, fun fuel _ => ?_⟩
    unfold findComp fastDir
    rw [show KF3 DirItemKey d (NameHash n).toUInt64 = ⟨d, 84, (NameHash n).toUInt64⟩ from rfl, h2]
    simp only [Go.ok_bind, h3, h1, if_true]
    rfl
  · obtain ⟨N, hN⟩ := picks_slow h6 h1 h3 h4
    refine ⟨N, fun fuel hf => ?_⟩
    unfold findComp
    rw [fastDir_none.mpr h2]
    simp only [Go.ok_bind, h5, hN fuel hf]
    rfl

theorem findPathLoop_step {fuel : Nat} {ix : Ix} {o d : UInt64} {res : Option DirItem} {n : Bytes} {rest : List Bytes} {e : DirItem}
    (h : findComp fuel ix o d n rest.isEmpty = .ok (some e)) : findPathLoop fuel ix o d res (n :: rest) =
      (DirItem.location e >>= fun k => findPathLoop fuel ix (target o k).1 (target o k).2 (some e) rest) := by
  conv_lhs => unfold findPathLoop
  rw [h]
  simp only [Go.ok_bind]
  unfold DirItem.isSubvolume
  cases hk : DirItem.location e with
  | panic => rfl
  | hang => rfl
  | ok k =>
    simp only [Go.ok_bind, Go.pure_eq]
    unfold target
    by_cases ht : k.typ = 132
    · have : (k.typ == RootItemKey) = true := beq_iff_eq.mpr ht
      simp only [this, Bool.not_true, Bool.false_eq_true, if_false, if_pos ht, FirstFreeObjectID]
    · have : (k.typ == RootItemKey) = false := beq_eq_false_iff_ne.mpr ht
      simp only [this, Bool.not_false, if_true, if_neg ht]

/-- A lookup that gets stuck does so however many iterations are allowed; any other has one answer, if enough are. -/
theorem findPathLoop_stuck (ix : Ix) : ∀ (names : List Bytes) (o d : UInt64) (res : Option DirItem), ∃ N,
    (ix.PathStuck o d names ∧ ∀ fuel, N ≤ fuel → findPathLoop fuel ix o d res names = .hang) ∨
    (¬ ix.PathStuck o d names ∧ ∃ r, r ≠ Go.hang ∧ ∀ fuel, N ≤ fuel → findPathLoop fuel ix o d res names = r) := by
  intro names
  induction names with
  | nil => intro o d res; exact ⟨0, Or.inr ⟨fun h => (by cases h), .ok res, fun h => (by cases h), fun _ _ => rfl⟩⟩
  | cons n rest ih =>
    intro o d res
    by_cases hst : ∀ fuel, findComp fuel ix o d n rest.isEmpty = .hang
    · refine ⟨0, Or.inl ⟨.here (findComp_always hst), fun fuel _ => ?_⟩⟩
      unfold findPathLoop
      rw [hst fuel]; rfl
    · obtain ⟨f0, hf0⟩ : ∃ f, findComp f ix o d n rest.isEmpty ≠ .hang := by
        by_contra hc
        exact hst fun f => by
          by_contra hh
          exact hc ⟨f, hh⟩
      have hmore : ∀ m, f0 ≤ m → findComp m ix o d n rest.isEmpty = findComp f0 ix o d n rest.isEmpty :=
        fun m hm => findComp_more hf0 hm
      have hns : ¬ ix.stuck o d n rest.isEmpty := fun h => hst (stuck_findComp h)
      have hnp : ∀ e, ix.picks o d n rest.isEmpty e → findComp f0 ix o d n rest.isEmpty = .ok (some e) := by
        intro e he
        obtain ⟨N, hN⟩ := picks_findComp he
        rw [← hmore (max N f0) (by omega)]
        exact hN _ (by omega)
      cases hr : findComp f0 ix o d n rest.isEmpty with
      | hang => exact absurd hr hf0
      | panic =>
        refine ⟨f0, Or.inr ⟨?_, .panic, fun h => (by cases h), fun fuel hf => ?_⟩⟩
        · intro h
          cases h with
          | here h => exact hns h
          | later h _ _ => rw [hnp _ h] at hr; cases hr
        · unfold findPathLoop
          rw [hmore fuel hf, hr]; rfl
      | ok x =>
        cases x with
        | none =>
          refine ⟨f0, Or.inr ⟨?_, .ok none, fun h => (by cases h), fun fuel hf => ?_⟩⟩
          · intro h
            cases h with
            | here h => exact hns h
            | later h _ _ => rw [hnp _ h] at hr; cases hr
          · unfold findPathLoop
            rw [hmore fuel hf, hr]; rfl
        | some e =>
          have hstep : ∀ fuel, f0 ≤ fuel → findPathLoop fuel ix o d res (n :: rest) =
              (DirItem.location e >>= fun k => findPathLoop fuel ix (target o k).1 (target o k).2 (some e) rest) :=
            fun fuel hf => findPathLoop_step (by rw [hmore fuel hf, hr])
          have hinv : ∀ k, DirItem.location e = .ok k → ix.PathStuck o d (n :: rest) →
              ix.PathStuck (target o k).1 (target o k).2 rest := by
            intro k hk h
            cases h with
            | here h => exact absurd h hns
            | later h h' h'' =>
              rw [hnp _ h] at hr
              cases hr
              rw [hk] at h'
              cases h'
              exact h''
          cases hk : DirItem.location e with
          | hang => exact absurd hk NH.out
          | panic =>
            refine ⟨f0, Or.inr ⟨?_, .panic, fun h => (by cases h), fun fuel hf => by rw [hstep fuel hf, hk]; rfl⟩⟩
            intro h
            cases h with
            | here h => exact hns h
            | later h h' _ =>
              rw [hnp _ h] at hr
              cases hr
              rw [hk] at h'
              cases h'
          | ok k =>
            obtain ⟨N, ⟨k1, k2⟩ | ⟨k1, r, k2, k3⟩⟩ := ih (target o k).1 (target o k).2 (some e)
            · exact ⟨max N f0, Or.inl ⟨.later (findComp_picks hr) hk k1, fun fuel hf => by
                rw [hstep fuel (by omega), hk, Go.ok_bind]; exact k2 fuel (by omega)⟩⟩
            · exact ⟨max N f0, Or.inr ⟨fun h => k1 (hinv k hk h), r, k2, fun fuel hf => by
                rw [hstep fuel (by omega), hk, Go.ok_bind]; exact k3 fuel (by omega)⟩⟩

/-- C38, exactly, for every index, tree and path: a lookup does not end if and only if, name by name, it gets to one that is not found by
its hash, in a directory whose iteration is endless and passes over all it gets to. Otherwise there is one answer (or a crash). -/
theorem C38_hang_iff (ix : Ix) (owner : UInt64) (path : Bytes) :
    ∃ N r, (∀ fuel, N ≤ fuel → ix.findDirItemForPath fuel owner path = r) ∧
      (r = .hang ↔ ix.PathStuck owner 256 (pathComps path)) := by
  unfold Ix.findDirItemForPath
  rw [show FirstFreeObjectID = 256 from rfl]
  obtain ⟨N, ⟨h1, h2⟩ | ⟨h1, r, h2, h3⟩⟩ := findPathLoop_stuck ix (pathComps path) owner 256 none
  · exact ⟨N, .hang, h2, ⟨fun _ => h1, fun _ => rfl⟩⟩
  · exact ⟨N, r, h3, ⟨fun h => absurd h h2, fun h => absurd h h1⟩⟩

/-- The lookup of `C38_lookup_hangs` is stuck. -/
example : (Ix.mk exLostIndex.enc (~~~0)).PathStuck 256 256 [[98]] := by
  obtain ⟨N, r, h1, h2⟩ := C38_hang_iff ⟨exLostIndex.enc, ~~~0⟩ 256 [98]
  have := h1 N (le_refl _)
  rw [C38_lookup_hangs N] at this
  have := h2.mp this.symm
  rwa [show pathComps [98] = [[98]] by decide] at this

end Btrfscue
