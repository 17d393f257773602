import Verif.Proof.Session
import Verif.Proof.Leaf
import Verif.Spec.Range
/-! # Ranges over an index -/

namespace Btrfscue

/-! ## Items -/

theorem holdsItem.data {x d : Bytes} (h : holdsItem x d) :
    ∃ s, Item.data ⟨x, []⟩ = .ok s ∧ s.data = d := by
  obtain ⟨r, rest, rfl, h2, h3⟩ := h
  have hs : Item.size ⟨r.layout ++ (d ++ rest), []⟩ = .ok r.size := (C07_Item_decodes r _ _).2.2.2
  have hI : ItemLen = 25 := by decide
  have hsz : (UInt32.ofNat 25 + r.size).toNat = 25 + d.length := by
    rw [UInt32.toNat_add, h2]
    have : (UInt32.ofNat 25).toNat = 25 := by decide
    rw [this]; omega
  simp only [Item.data, hs, Go.ok_bind, hI, hsz]
  exact ⟨_, sub_mid r.layout d rest [] 25 (25 + d.length) (itemRec_length r) (by
    rw [itemRec_length]), rfl⟩

theorem holdsItem.unique {x d d' : Bytes} (h : holdsItem x d) (h' : holdsItem x d') : d = d' := by
  obtain ⟨s, h1, h2⟩ := h.data
  obtain ⟨s', h1', h2'⟩ := h'.data
  rw [h1] at h1'
  cases h1'
  rw [← h2, ← h2']

/-! ## Comparing keys of one owner -/

theorem p25_gen {o : UInt64} {k : Key} (g g' : UInt64) :
    (VKey.mk o k g).p25 = (VKey.mk o k g').p25 := VKey.p25_inj.mpr ⟨rfl, rfl⟩

theorem key_before_iff {o : UInt64} {k k' : Key} {g g' : UInt64} :
    k.before k' ↔ (VKey.mk o k g).p25 < (VKey.mk o k' g').p25 := by
  have h1 : (VKey.mk o k 0).num < (VKey.mk o k' 0).num ↔ k.before k' := by
    rw [VKey.num_lt_iff]
    simp [VKey.before, VKey.fields, Key.before, Key.fields, lexLt]
  rw [← h1, VKey.num_eq, VKey.num_eq,
    p25_gen g 0, p25_gen g' 0]
  simp only
  omega

/-- Order by owner first. -/
theorem num_lt_of_owner {v w : VKey} (h : v.owner < w.owner) : v.num < w.num := by
  rw [VKey.num_lt_iff]
  left
  rw [UInt64.lt_iff_toNat_lt] at h
  exact h

theorem owner_le_of_num {v w : VKey} (h : v.num ≤ w.num) : v.owner ≤ w.owner := by
  rw [UInt64.le_iff_toNat_le]
  rcases Nat.lt_or_ge w.owner.toNat v.owner.toNat with h1 | h1
  · have := num_lt_of_owner (UInt64.lt_iff_toNat_lt.mpr h1)
    omega
  · exact h1

theorem max64_toNat : (~~~0 : UInt64).toNat = 2 ^ 64 - 1 := by decide

theorem ne_max_lt {o : UInt64} (h : o ≠ ~~~0) : o < ~~~0 := by
  rw [UInt64.lt_iff_toNat_lt, max64_toNat]
  have := o.toNat_lt
  have h2 : o.toNat ≠ (~~~0 : UInt64).toNat := fun he => h (UInt64.toNat_inj.mp he)
  rw [max64_toNat] at h2
  omega

/-! ## findNext -/

/-- The candidate of `findNext`: the first entry from `(owner, key, max)` on. -/
def AStore.cand (l : AStore) (v : VKey) : Option (VKey × Bytes) :=
  (l.hi (VKey.mk v.owner v.key (~~~0)).num).head?

theorem hi_head_eq {l : AStore} (h : l.Sorted) (w : VKey) (x : Bytes) (hm : (w, x) ∈ l) :
    (l.hi w.num).head? = some (w, x) := by
  obtain ⟨e, he⟩ := head?_isSome_of_mem ((AStore.mem_hi h).mpr ⟨hm, Nat.le_refl _⟩)
  obtain ⟨h1, h2⟩ := (AStore.hi_sorted h _).head_min he
  obtain ⟨h3, h4⟩ := (AStore.mem_hi h).mp h1
  have h5 := h2 _ ((AStore.mem_hi h).mpr ⟨hm, Nat.le_refl _⟩)
  have h6 : e.1 = w := VKey.num_inj.mp (Nat.le_antisymm h5 h4)
  obtain ⟨e1, e2⟩ := e
  simp only at h6
  subst h6
  rw [he, h.unique hm h3]

theorem findNext_hit {l : AStore} (h : l.Sorted) {v f : VKey} {y x : Bytes}
    (hf : l.cand v = some (f, y)) (hm : (⟨v.owner, f.key, v.gen⟩, x) ∈ l) :
    findNext l.enc v.encode = .ok (some ((VKey.mk v.owner f.key v.gen).encode, x)) := by
  have e1 : newIndexKey v.owner v.key (~~~0) = (VKey.mk v.owner v.key (~~~0)).encode := rfl
  have e2 : newIndexKey v.owner f.key v.gen = (VKey.mk v.owner f.key v.gen).encode := rfl
  have hf' : (l.hi (VKey.mk v.owner v.key (~~~0)).num).head? = some (f, y) := hf
  simp only [findNext, VKey.encode, KeyV2_owner_new, KeyV2_key_new, KeyV2_generation_new,
    Go.ok_bind]
  rw [e1, seek_cur, hf']
  simp only [Option.map_some, VKey.encode, KeyV2_key_new, Go.ok_bind]
  rw [e2, seek_cur, hi_head_eq h _ _ hm]
  simp only [Option.map_some]
  rw [if_pos ((VKey.bytesCompare_le _ _).mpr (Nat.le_refl _))]
  rfl

theorem findNext_miss {l : AStore} (h : l.Sorted) {v f : VKey} {y : Bytes}
    (hf : l.cand v = some (f, y)) (hm : ∀ x, (⟨v.owner, f.key, v.gen⟩, x) ∉ l) :
    findNext l.enc v.encode = .ok none := by
  have e1 : newIndexKey v.owner v.key (~~~0) = (VKey.mk v.owner v.key (~~~0)).encode := rfl
  have e2 : newIndexKey v.owner f.key v.gen = (VKey.mk v.owner f.key v.gen).encode := rfl
  have hf' : (l.hi (VKey.mk v.owner v.key (~~~0)).num).head? = some (f, y) := hf
  simp only [findNext, VKey.encode, KeyV2_owner_new, KeyV2_key_new, KeyV2_generation_new,
    Go.ok_bind]
  rw [e1, seek_cur, hf']
  simp only [Option.map_some, VKey.encode, KeyV2_key_new, Go.ok_bind]
  rw [e2, seek_cur]
  cases hh : (l.hi (VKey.mk v.owner f.key v.gen).num).head? with
  | none => simp
  | some e =>
    obtain ⟨h1, -⟩ := (AStore.hi_sorted h _).head_min hh
    obtain ⟨h3, h4⟩ := (AStore.mem_hi h).mp h1
    simp only [Option.map_some]
    rw [if_neg]
    · rfl
    · rw [VKey.bytesCompare_le]
      intro h5
      have h6 : e.1 = ⟨v.owner, f.key, v.gen⟩ := VKey.num_inj.mp (Nat.le_antisymm h5 h4)
      obtain ⟨e1, e2⟩ := e
      simp only at h6
      subst h6
      exact hm _ h3

theorem findNext_end {l : AStore} {v : VKey} (hf : l.cand v = none) :
    findNext l.enc v.encode = .ok none := by
  have e1 : newIndexKey v.owner v.key (~~~0) = (VKey.mk v.owner v.key (~~~0)).encode := rfl
  have hf' : (l.hi (VKey.mk v.owner v.key (~~~0)).num).head? = none := hf
  simp only [findNext, VKey.encode, KeyV2_owner_new, KeyV2_key_new, Go.ok_bind]
  rw [e1, seek_cur, hf']
  rfl

/-! ## Runs of a range -/

/-- A range positioned at an entry. -/
def Range.at (b : Bucket) (E : Bytes) (e : VKey × Bytes) : Range :=
  ⟨b, some e.1.encode, E, ⟨e.2, []⟩⟩

/-- The states a `HasNext`/`Next` loop goes through. -/
inductive Range.Yields : Range × Slice → List (Range × Slice) → Prop
  | done {r d} : r.hasNext = false → Yields (r, d) []
  | step {r d r' d' rest} : r.hasNext = true → r.next = .ok (r', d') → Yields (r', d') rest →
      Yields (r, d) ((r, d) :: rest)

/-- Running a loop body over given states. -/
def foldRange {σ : Type} (body : σ → Range → Slice → Go (σ × Bool)) :
    σ → List (Range × Slice) → Go (σ × Bool)
  | s, [] => .ok (s, false)
  | s, (r, d) :: rest => do
    let (s', brk) ← body s r d
    if brk then return (s', true) else foldRange body s' rest

theorem rangeLoop_eq {σ : Type} (body : σ → Range → Slice → Go (σ × Bool)) {rd : Range × Slice}
    {items : List (Range × Slice)} (h : Range.Yields rd items) :
    ∀ (fuel : Nat) (s : σ), items.length < fuel → rangeLoop body fuel s rd = foldRange body s items := by
  induction h with
  | @done r d h =>
    intro fuel s hf
    cases fuel with
    | zero => omega
    | succ n => simp [rangeLoop, h, foldRange]
  | @step r d r' d' rest h1 h2 _ ih =>
    intro fuel s hf
    cases fuel with
    | zero => omega
    | succ n =>
      simp only [rangeLoop, h1, if_true, foldRange]
      cases hb : body s r d with
      | panic => rfl
      | hang => rfl
      | ok x =>
        obtain ⟨s', brk⟩ := x
        simp only [Go.ok_bind]
        cases brk with
        | true => rfl
        | false =>
          simp only [Bool.false_eq_true, if_false, h2, Go.ok_bind]
          exact ih n s' (by simp only [List.length_cons] at hf; omega)

/-- What a plain loop collects. -/
def entriesOf (items : List (Range × Slice)) : List (Bytes × Bytes) :=
  items.map fun e => (e.1.key.getD [], e.2.data)

theorem foldRange_collect (items : List (Range × Slice)) (s : List (Bytes × Bytes)) :
    foldRange (fun (s : List (Bytes × Bytes)) r d => .ok (s ++ [(r.key.getD [], d.data)], false)) s
      items = .ok (s ++ entriesOf items, false) := by
  induction items generalizing s with
  | nil => simp [foldRange, entriesOf]
  | cons e r ih =>
    obtain ⟨r1, d1⟩ := e
    simp only [foldRange, Go.ok_bind, Bool.false_eq_true, if_false, ih, entriesOf, List.map_cons,
      List.append_assoc, List.singleton_append]

theorem collect_eq {rd : Range × Slice} {items : List (Range × Slice)} (h : Range.Yields rd items)
    (fuel : Nat) (hf : items.length < fuel) : Range.collect fuel rd = .ok (entriesOf items) := by
  simp only [Range.collect, rangeLoop_eq _ h fuel _ hf, foldRange_collect, Go.ok_bind,
    List.nil_append, Go.pure_eq]

/-! ## The run of a well-behaved range -/

/-- Decoded form of `Bucket.RangeOK`. -/
structure AStore.ROK (l : AStore) (o : UInt64) (last : Key) : Prop where
  ordinary : o ≠ ~~~0
  intact : ∀ v x, (v, x) ∈ l → v.owner = o → ∃ d, holdsItem x d
  noMaxGen : ∀ k x, (⟨o, k, ~~~0⟩, x) ∉ l
  noKL : ∀ g x, (⟨o, KL0, g⟩, x) ∉ l
  sentinel : ∃ m, (metadataVersionKey, m) ∈ l
  closed : (∃ k g x, (⟨o, k, g⟩, x) ∈ l ∧ last.before k) ∨
    ∀ f y, (f, y) ∈ l → o < f.owner → (∀ w z, (w, z) ∈ l → o < w.owner → f.num ≤ w.num) →
      ∀ g x, (⟨o, f.key, g⟩, x) ∉ l

/-- The candidate in a well-behaved range. -/
theorem cand_spec {l : AStore} (h : l.Sorted) {o : UInt64} (ho : o ≠ ~~~0)
    (hs : ∃ m, (metadataVersionKey, m) ∈ l) (hg : ∀ k x, (⟨o, k, ~~~0⟩, x) ∉ l)
    {v : VKey} (hv : v.owner = o) :
    ∃ f y, l.cand v = some (f, y) ∧ (f, y) ∈ l ∧ v.p25 < f.p25 ∧
      (∀ w z, (w, z) ∈ l → v.p25 < w.p25 → f.num ≤ w.num) := by
  obtain ⟨m, hm⟩ := hs
  have hlt : (VKey.mk v.owner v.key (~~~0)).num < metadataVersionKey.num := by
    apply num_lt_of_owner
    rw [hv]
    exact ne_max_lt ho
  obtain ⟨⟨f, y⟩, he⟩ := head?_isSome_of_mem ((AStore.mem_hi h).mpr ⟨hm, Nat.le_of_lt hlt⟩)
  obtain ⟨h1, h2⟩ := (AStore.hi_sorted h _).head_min he
  obtain ⟨h3, h4⟩ := (AStore.mem_hi h).mp h1
  simp only at h4
  refine ⟨f, y, he, h3, ?_, ?_⟩
  · have hle := p25_le_of_num_le h4
    rw [p25_gen (~~~0) v.gen] at hle
    rcases Nat.lt_or_eq_of_le hle with h5 | h5
    · exact h5
    · exfalso
      obtain ⟨ho', hk⟩ := VKey.p25_inj.mp h5
      simp only at ho' hk
      have : f = ⟨o, f.key, ~~~0⟩ := by
        obtain ⟨fo, fk, fg⟩ := f
        simp only at ho' hk h4 ⊢
        subst ho'; subst hk
        have hgg := num_same.mp h4
        rw [UInt64.le_iff_toNat_le, max64_toNat] at hgg
        have := fg.toNat_lt
        have hg2 : fg = ~~~0 := by rw [← UInt64.toNat_inj, max64_toNat]; omega
        rw [hg2, hv]
      rw [this] at h3
      exact hg _ _ h3
  · intro w z hw hvw
    refine h2 (w, z) ((AStore.mem_hi h).mpr ⟨hw, ?_⟩)
    rw [VKey.num_eq, VKey.num_eq, p25_gen (~~~0) v.gen]
    have : (VKey.mk v.owner v.key v.gen).p25 = v.p25 := rfl
    rw [this]
    simp only [max64_toNat]
    omega

/-- What one range visits from an entry on. -/
def YieldsSpec (l : AStore) (o : UInt64) (last : Key) (G : UInt64) (v : VKey) (x : Bytes)
    (d : Slice) : Prop :=
    ∃ items : List ((VKey × Bytes) × Slice),
      Range.Yields (Range.at l.enc (VKey.mk o last G).encode (v, x), d)
        (items.map fun e => (Range.at l.enc (VKey.mk o last G).encode e.1, e.2)) ∧
      items.Pairwise (fun a b => a.1.1.num < b.1.1.num) ∧
      ∀ w y s, ((w, y), s) ∈ items ↔ (w, y) ∈ l ∧ Item.data ⟨y, []⟩ = .ok s ∧ w.owner = o ∧
        w.gen = v.gen ∧ v.p25 ≤ w.p25 ∧ w.num ≤ (VKey.mk o last G).num ∧
        ∀ u z, (u, z) ∈ l → u.owner = o → v.p25 ≤ u.p25 → u.p25 ≤ w.p25 →
          ∃ z', (⟨o, u.key, v.gen⟩, z') ∈ l

/-- What one range visits from an entry on. -/
theorem yields_from {l : AStore} (h : l.Sorted) {o : UInt64} {last : Key} (hok : l.ROK o last)
    (G : UInt64) : ∀ (n : Nat) (v : VKey) (x : Bytes), (l.filter fun e => v.num < e.1.num).length = n →
    (v, x) ∈ l → v.owner = o → ∀ d, Item.data ⟨x, []⟩ = .ok d → YieldsSpec l o last G v x d := by
  intro n
  induction n using Nat.strongRecOn with
  | _ n ih =>
    intro v x hn hvx hvo d hd
    by_cases hend : v.num ≤ (VKey.mk o last G).num
    rotate_left
    · refine ⟨[], ?_, List.Pairwise.nil, ?_⟩
      · apply Range.Yields.done
        exact decide_eq_false (mt (VKey.bytesCompare_le _ _).mp hend)
      · intro w y s
        simp only [List.not_mem_nil, false_iff]
        rintro ⟨-, -, -, h4, h5, h6, -⟩
        refine hend (Nat.le_trans ?_ h6)
        rw [VKey.num_eq v, VKey.num_eq w, h4]
        omega
    obtain ⟨f, y, hc, hfl, hvf, hmin⟩ := cand_spec h hok.ordinary hok.sentinel hok.noMaxGen hvo
    have hhas : (Range.at l.enc (VKey.mk o last G).encode (v, x)).hasNext = true := by
      exact decide_eq_true ((VKey.bytesCompare_le _ _).mpr hend)
    have hvlast : v.p25 ≤ (VKey.mk o last G).p25 := p25_le_of_num_le hend
    -- owner of the candidate
    have hfo : f.owner = o ∨ (o < f.owner ∧ ∀ w z, (w, z) ∈ l → w.owner = o → w.p25 ≤ v.p25) := by
      by_cases hfo : f.owner = o
      · exact Or.inl hfo
      · right
        have hnum : v.num < f.num := by
          rw [VKey.num_eq, VKey.num_eq]
          have := v.gen.toNat_lt
          omega
        have h1 := owner_le_of_num (Nat.le_of_lt hnum)
        have hlt : o < f.owner := by
          rw [hvo, UInt64.le_iff_toNat_le] at h1
          rw [UInt64.lt_iff_toNat_lt]
          have : o.toNat ≠ f.owner.toNat := fun he => hfo (UInt64.toNat_inj.mp he.symm)
          omega
        refine ⟨hlt, fun w z hw hwo => ?_⟩
        rcases Nat.lt_or_ge v.p25 w.p25 with h3 | h3
        · exfalso
          have h4 := hmin w z hw h3
          have h5 := num_lt_of_owner (v := w) (w := f) (by rw [hwo]; exact hlt)
          omega
        · exact h3
    -- the step misses
    have miss : (∀ z, (⟨v.owner, f.key, v.gen⟩, z) ∉ l) → (∀ w z, (w, z) ∈ l → w.owner = o →
        w.gen = v.gen → v.p25 < w.p25 → (∀ u z, (u, z) ∈ l → u.owner = o → v.p25 ≤ u.p25 →
          u.p25 ≤ w.p25 → ∃ z', (⟨o, u.key, v.gen⟩, z') ∈ l) → False) → YieldsSpec l o last G v x d := fun hm hx => by
      refine ⟨[((v, x), d)], ?_, List.pairwise_singleton _ _, ?_⟩
      · refine .step hhas (r' := ⟨l.enc, none, (VKey.mk o last G).encode, ⟨[], []⟩⟩)
          (d' := ⟨[], []⟩) ?_ (.done rfl)
        simp only [Range.next, Range.at, findNext_miss h hc hm, Go.ok_bind, Range.setTo,
          Range.current, Go.pure_eq]
      · intro w y' s
        simp only [List.mem_singleton, Prod.mk.injEq]
        constructor
        · rintro ⟨⟨rfl, rfl⟩, rfl⟩
          refine ⟨hvx, hd, hvo, rfl, Nat.le_refl _, hend, ?_⟩
          intro u z hu huo h1 h2
          obtain ⟨h3, h4⟩ := VKey.p25_inj.mp (Nat.le_antisymm h1 h2)
          refine ⟨y', ?_⟩
          rw [← h4, ← hvo]; exact hvx
        · rintro ⟨h1, h2, h3, h4, h5, h6, h7⟩
          rcases Nat.lt_or_eq_of_le h5 with h8 | h8
          · exact absurd (hx w y' h1 h3 h4 h8 h7) id
          · obtain ⟨h9, h10⟩ := VKey.p25_inj.mp h8
            have hwv : w = v := by
              obtain ⟨a, b, c⟩ := w; obtain ⟨a', b', c'⟩ := v
              simp only at h9 h10 h4
              rw [h9, h10, h4]
            subst hwv
            have := h.unique hvx h1
            subst this
            rw [hd] at h2
            cases h2
            exact ⟨⟨rfl, rfl⟩, rfl⟩
    rcases hfo with hfo | ⟨hfo, hlast⟩
    · -- same owner
      by_cases hm : ∃ z, (⟨v.owner, f.key, v.gen⟩, z) ∈ l
      · obtain ⟨z, hz⟩ := hm
        have hfk : (VKey.mk v.owner f.key v.gen).p25 = f.p25 := by
          apply VKey.p25_inj.mpr; exact ⟨by rw [hfo, hvo], rfl⟩
        have hnum : v.num < (VKey.mk v.owner f.key v.gen).num := by
          rw [VKey.num_eq v, VKey.num_eq (VKey.mk v.owner f.key v.gen), hfk]
          simp only
          omega
        obtain ⟨d0, hd0⟩ := hok.intact _ _ hz hvo
        obtain ⟨s0, hs0, -⟩ := hd0.data
        have hmeas : (l.filter fun e => (VKey.mk v.owner f.key v.gen).num < e.1.num).length < n := by
          rw [← hn]
          have hsub : (l.filter fun e => (VKey.mk v.owner f.key v.gen).num < e.1.num) =
              ((l.filter fun e => v.num < e.1.num).filter
                fun e => (VKey.mk v.owner f.key v.gen).num < e.1.num) := by
            rw [List.filter_filter]
            apply List.filter_congr
            intro e _
            rw [Bool.eq_iff_iff]
            simp only [decide_eq_true_eq, Bool.and_eq_true]
            constructor
            · intro h1; exact ⟨h1, Nat.lt_trans hnum h1⟩
            · intro h1; exact h1.1
          rw [hsub]
          apply List.length_filter_lt_length_iff_exists.mpr
          refine ⟨(⟨v.owner, f.key, v.gen⟩, z), ?_, by simp⟩
          rw [List.mem_filter]
          exact ⟨hz, by simpa using hnum⟩
        obtain ⟨items, hy, hp, hmem⟩ := ih _ hmeas ⟨v.owner, f.key, v.gen⟩ z rfl hz hvo s0 hs0
        have hge : ∀ w y s, ((w, y), s) ∈ items → v.num < w.num := by
          intro w y' s hw
          obtain ⟨h1, h2, h3, h4, h5, h6, h7⟩ := (hmem w y' s).mp hw
          rw [hfk] at h5
          rw [VKey.num_eq v, VKey.num_eq w]
          have := v.gen.toNat_lt
          omega
        refine ⟨((v, x), d) :: items, ?_, ?_, ?_⟩
        · rw [List.map_cons]
          refine .step hhas ?_ hy
          simp only [Range.next, Range.at, findNext_hit h hc hz, Go.ok_bind, Range.setTo,
            Range.current, hs0, Go.pure_eq]
        · refine .cons ?_ hp
          rintro ⟨⟨w, y'⟩, s⟩ hw
          exact hge w y' s hw
        · intro w y' s
          rw [List.mem_cons]
          constructor
          · rintro (heq | hw)
            · simp only [Prod.mk.injEq] at heq
              obtain ⟨⟨rfl, rfl⟩, rfl⟩ := heq
              refine ⟨hvx, hd, hvo, rfl, Nat.le_refl _, hend, ?_⟩
              intro u z hu huo h1 h2
              obtain ⟨h3, h4⟩ := VKey.p25_inj.mp (Nat.le_antisymm h1 h2)
              refine ⟨y', ?_⟩
              rw [← h4, ← hvo]; exact hvx
            · obtain ⟨h1, h2, h3, h4, h5, h6, h7⟩ := (hmem w y' s).mp hw
              rw [hfk] at h5
              refine ⟨h1, h2, h3, h4, by omega, h6, ?_⟩
              intro u z' hu huo h8 h9
              rcases Nat.lt_or_eq_of_le h8 with h10 | h10
              · have h11 := p25_le_of_num_le (hmin u z' hu h10)
                exact h7 u z' hu huo (by rw [hfk]; exact h11) h9
              · obtain ⟨-, h12⟩ := VKey.p25_inj.mp h10
                refine ⟨x, ?_⟩
                rw [← h12, ← hvo]; exact hvx
          · rintro ⟨h1, h2, h3, h4, h5, h6, h7⟩
            rcases Nat.lt_or_eq_of_le h5 with h8 | h8
            · right
              rw [hmem]
              refine ⟨h1, h2, h3, h4, ?_, h6, ?_⟩
              · rw [hfk]; exact p25_le_of_num_le (hmin w y' h1 h8)
              · intro u z' hu huo h9 h10
                rw [hfk] at h9
                exact h7 u z' hu huo (by omega) h10
            · left
              obtain ⟨h9, h10⟩ := VKey.p25_inj.mp h8
              have hwv : w = v := by
                obtain ⟨a, b, c⟩ := w; obtain ⟨a', b', c'⟩ := v
                simp only at h9 h10 h4
                rw [h9, h10, h4]
              subst hwv
              have := h.unique hvx h1
              subst this
              rw [hd] at h2
              cases h2
              rfl
      · apply miss
        · intro z hz; exact hm ⟨z, hz⟩
        · intro w z hw hwo hwg hvw hall
          have h1 := p25_le_of_num_le (hmin w z hw hvw)
          obtain ⟨z', hz'⟩ := hall f y hfl hfo (Nat.le_of_lt hvf) h1
          rw [← hvo] at hz'
          exact hm ⟨z', hz'⟩
    · apply miss
      · rcases hok.closed with ⟨k, g, z, hk, hlk⟩ | hcl
        · exfalso
          have h1 := hlast _ _ hk rfl
          have h2 := (key_before_iff (o := o) (g := G) (g' := g)).mp hlk
          omega
        · intro z hz
          rw [hvo] at hz
          refine hcl f y hfl hfo ?_ _ z hz
          intro w z' hw hwo
          apply hmin w z' hw
          rcases Nat.lt_or_ge v.p25 w.p25 with h1 | h1
          · exact h1
          · exfalso
            have h2 : (VKey.mk w.owner w.key 0).num ≤ (VKey.mk v.owner v.key (~~~0)).num := by
              rw [VKey.num_eq, VKey.num_eq, p25_gen 0 w.gen, p25_gen (~~~0) v.gen]
              have h3 : (VKey.mk w.owner w.key w.gen).p25 = w.p25 := rfl
              have h4 : (VKey.mk v.owner v.key v.gen).p25 = v.p25 := rfl
              rw [h3, h4]
              simp only [max64_toNat]
              have : (0 : UInt64).toNat = 0 := rfl
              omega
            have h5 := owner_le_of_num h2
            simp only at h5
            rw [hvo, UInt64.le_iff_toNat_le] at h5
            rw [UInt64.lt_iff_toNat_lt] at hwo
            omega
      · intro w z hw hwo hwg hvw hall
        have := hlast w z hw hwo
        omega

end Btrfscue
