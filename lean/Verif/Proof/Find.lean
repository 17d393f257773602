import Verif.Proof.Store
import Verif.Spec.Store
/-! # What `find`, `lowerBound` and `findNext` compute -/

namespace Btrfscue

theorem enc_stores {l : AStore} {v : VKey} {x : Bytes} : l.enc.stores v x ↔ (v, x) ∈ l := mem_enc

theorem enc_hasVersion {l : AStore} {o : UInt64} {k : Key} {g : UInt64} :
    l.enc.hasVersion o k g ↔ ∃ x, (⟨o, k, g⟩, x) ∈ l := by
  simp only [Bucket.hasVersion, enc_stores]

theorem p25_le_of_num_le {a b : VKey} (h : a.num ≤ b.num) : a.p25 ≤ b.p25 := by
  rw [a.num_eq, b.num_eq] at h
  have := a.gen.toNat_lt
  have := b.gen.toNat_lt
  omega

/-- Decoded version of `find`. -/
theorem find_enc (l : AStore) (o : UInt64) (k : Key) (G : UInt64) :
    find l.enc o k G =
      match (l.hi (VKey.mk o k G).num).head? with
      | none => .panic
      | some e =>
        if e.1.p25 ≤ (VKey.mk o k G).p25 then .ok (some (e.1.encode, e.2))
        else
          match (l.lo (VKey.mk o k G).num).getLast? with
          | none => .ok none
          | some e' => if e'.1.p25 = (VKey.mk o k G).p25 then .ok (some (e'.1.encode, e'.2))
            else .ok none := by
  have hs : newIndexKey o k G = (VKey.mk o k G).encode := by unfold VKey.encode; rfl
  have h25 : keyV2Generation = 25 := by decide
  simp only [find, hs, h25, seek_cur, seek_prev]
  cases hh : (l.hi (VKey.mk o k G).num).head? with
  | none => simp [keyTo]
  | some e =>
    simp only [Option.map_some, keyTo_encode _ 25 (by omega), Go.ok_bind]
    by_cases h1 : e.1.p25 ≤ (VKey.mk o k G).p25
    · rw [if_pos ((VKey.bytesCompare_take25 _ _).mpr h1), if_pos h1]; rfl
    · rw [if_neg (mt (VKey.bytesCompare_take25 _ _).mp h1), if_neg h1]
      cases hl : (l.lo (VKey.mk o k G).num).getLast? with
      | none => rfl
      | some e' =>
        simp only [Option.map_some]
        rw [if_pos (by simp)]
        simp only [keyTo_encode _ 25 (Nat.le_of_ble_eq_true rfl), Go.ok_bind, Go.pure_eq]
        by_cases h2 : e'.1.p25 = (VKey.mk o k G).p25
        · rw [if_pos (take25_p25.mpr h2), if_pos h2]
        · rw [if_neg (mt take25_p25.mp h2), if_neg h2]

/-- `find` crashes exactly when nothing sorts at or after the searched key. -/
theorem find_panic_iff {l : AStore} (h : l.Sorted) (o : UInt64) (k : Key) (G : UInt64) :
    find l.enc o k G = .panic ↔ ∀ e ∈ l, e.1.num < (VKey.mk o k G).num := by
  rw [find_enc]
  constructor
  · intro hp e he
    rcases Nat.lt_or_ge e.1.num (VKey.mk o k G).num with h1 | h1
    · exact h1
    · obtain ⟨b, hb⟩ := head?_isSome_of_mem ((AStore.mem_hi h).mpr ⟨he, h1⟩)
      rw [hb] at hp
      simp only at hp
      split at hp
      · cases hp
      · split at hp
        · cases hp
        · split at hp <;> cases hp
  · intro hall
    cases hh : (l.hi (VKey.mk o k G).num).head? with
    | none => rfl
    | some e =>
      have := (AStore.mem_hi h).mp ((AStore.hi_sorted h _).head_min hh).1
      have := hall e this.1
      omega

/-- `find` never hangs. -/
theorem find_ne_hang (l : AStore) (o : UInt64) (k : Key) (G : UInt64) :
    find l.enc o k G ≠ .hang := by
  rw [find_enc]
  split
  · simp
  · split
    · simp
    · split
      · simp
      · split <;> simp

/-- `find` returning nil: nothing is stored under that key. -/
theorem find_none_iff {l : AStore} (h : l.Sorted) (o : UInt64) (k : Key) (G : UInt64)
    (hc : ∃ e ∈ l, (VKey.mk o k G).num ≤ e.1.num) :
    find l.enc o k G = .ok none ↔ ∀ g x, (⟨o, k, g⟩, x) ∉ l := by
  obtain ⟨c, hcm, hcn⟩ := hc
  obtain ⟨e, he⟩ := head?_isSome_of_mem ((AStore.mem_hi h).mpr ⟨hcm, hcn⟩)
  obtain ⟨hm, hmin⟩ := (AStore.hi_sorted h _).head_min he
  obtain ⟨hel, hen⟩ := (AStore.mem_hi h).mp hm
  have hple := p25_le_of_num_le hen
  rw [find_enc, he]
  simp only
  by_cases h1 : e.1.p25 ≤ (VKey.mk o k G).p25
  · rw [if_pos h1]
    simp only [Go.ok.injEq, reduceCtorEq, false_iff]
    intro hno
    obtain ⟨ho, hk⟩ := VKey.p25_inj.mp (Nat.le_antisymm h1 hple)
    obtain ⟨⟨eo, ek, eg⟩, ex⟩ := e
    simp only at ho hk
    subst ho; subst hk
    exact hno eg ex hel
  · rw [if_neg h1]
    have key : ∀ g x, (⟨o, k, g⟩, x) ∈ l → (⟨o, k, g⟩, x) ∈ l.lo (VKey.mk o k G).num := by
      intro g x hx
      rw [AStore.mem_lo h]
      refine ⟨hx, ?_⟩
      rcases Nat.lt_or_ge (VKey.mk o k g).num (VKey.mk o k G).num with h2 | h2
      · exact h2
      · have := hmin _ ((AStore.mem_hi h).mpr ⟨hx, h2⟩)
        have hp := p25_le_of_num_le this
        have : (VKey.mk o k g).p25 = (VKey.mk o k G).p25 := VKey.p25_inj.mpr ⟨rfl, rfl⟩
        simp only [this] at hp
        exact absurd hp h1
    cases hl : (l.lo (VKey.mk o k G).num).getLast? with
    | none =>
      simp only [true_iff]
      intro g x hx
      obtain ⟨b, hb⟩ := getLast?_isSome_of_mem (key g x hx)
      rw [hb] at hl; cases hl
    | some e' =>
      obtain ⟨hm', hmax⟩ := (AStore.lo_sorted h _).last_max hl
      obtain ⟨hel', hen'⟩ := (AStore.mem_lo h).mp hm'
      simp only
      by_cases h2 : e'.1.p25 = (VKey.mk o k G).p25
      · rw [if_pos h2]
        simp only [Go.ok.injEq, reduceCtorEq, false_iff]
        intro hno
        obtain ⟨ho, hk⟩ := VKey.p25_inj.mp h2
        obtain ⟨⟨eo, ek, eg⟩, ex⟩ := e'
        simp only at ho hk
        subst ho; subst hk
        exact hno eg ex hel'
      · rw [if_neg h2]
        simp only [true_iff]
        intro g x hx
        have h3 := hmax _ (key g x hx)
        have h4 := p25_le_of_num_le h3
        have h5 := p25_le_of_num_le (Nat.le_of_lt hen')
        have : (VKey.mk o k g).p25 = (VKey.mk o k G).p25 := VKey.p25_inj.mpr ⟨rfl, rfl⟩
        simp only [this] at h4
        omega

theorem num_same {o : UInt64} {k : Key} {g g' : UInt64} :
    (VKey.mk o k g).num ≤ (VKey.mk o k g').num ↔ g ≤ g' := by
  have : (VKey.mk o k g).p25 = (VKey.mk o k g').p25 := VKey.p25_inj.mpr ⟨rfl, rfl⟩
  rw [VKey.num_eq, VKey.num_eq, this, UInt64.le_iff_toNat_le]
  simp only
  omega

theorem num_same_lt {o : UInt64} {k : Key} {g g' : UInt64} :
    (VKey.mk o k g).num < (VKey.mk o k g').num ↔ g < g' := by
  have := num_same (o := o) (k := k) (g := g') (g' := g)
  rw [UInt64.le_iff_toNat_le] at this
  rw [UInt64.lt_iff_toNat_lt]
  omega

/-- What a successful `find` returns. -/
theorem find_some {l : AStore} (h : l.Sorted) {o : UInt64} {k : Key} {G : UInt64}
    {ik v : Bytes} (hf : find l.enc o k G = .ok (some (ik, v))) :
    ∃ g, ik = (VKey.mk o k g).encode ∧ (⟨o, k, g⟩, v) ∈ l ∧ l.enc.actualChoice o k G g := by
  rw [find_enc] at hf
  cases hh : (l.hi (VKey.mk o k G).num).head? with
  | none => rw [hh] at hf; cases hf
  | some e =>
    rw [hh] at hf
    simp only at hf
    obtain ⟨hm, hmin⟩ := (AStore.hi_sorted h _).head_min hh
    obtain ⟨hel, hen⟩ := (AStore.mem_hi h).mp hm
    have hple := p25_le_of_num_le hen
    by_cases h1 : e.1.p25 ≤ (VKey.mk o k G).p25
    · rw [if_pos h1] at hf
      simp only [Go.ok.injEq, Option.some.injEq, Prod.mk.injEq] at hf
      obtain ⟨rfl, rfl⟩ := hf
      obtain ⟨ho, hk⟩ := VKey.p25_inj.mp (Nat.le_antisymm h1 hple)
      obtain ⟨⟨eo, ek, eg⟩, ex⟩ := e
      simp only at ho hk hel hen
      subst ho; subst hk
      refine ⟨eg, rfl, hel, enc_hasVersion.mpr ⟨ex, hel⟩, Or.inl ⟨num_same.mp hen, ?_⟩⟩
      intro g' hg' hGg'
      obtain ⟨y, hy⟩ := enc_hasVersion.mp hg'
      exact num_same.mp (hmin _ ((AStore.mem_hi h).mpr ⟨hy, num_same.mpr hGg'⟩))
    · rw [if_neg h1] at hf
      cases hl : (l.lo (VKey.mk o k G).num).getLast? with
      | none => rw [hl] at hf; simp at hf
      | some e' =>
        rw [hl] at hf
        simp only at hf
        obtain ⟨hm', hmax⟩ := (AStore.lo_sorted h _).last_max hl
        obtain ⟨hel', hen'⟩ := (AStore.mem_lo h).mp hm'
        by_cases h2 : e'.1.p25 = (VKey.mk o k G).p25
        · rw [if_pos h2] at hf
          simp only [Go.ok.injEq, Option.some.injEq, Prod.mk.injEq] at hf
          obtain ⟨rfl, rfl⟩ := hf
          obtain ⟨ho, hk⟩ := VKey.p25_inj.mp h2
          obtain ⟨⟨eo, ek, eg⟩, ex⟩ := e'
          simp only at ho hk hel' hen'
          subst ho; subst hk
          have hlt : ∀ g', l.enc.hasVersion eo ek g' → g' < G := by
            intro g' hg'
            obtain ⟨y, hy⟩ := enc_hasVersion.mp hg'
            rcases Nat.lt_or_ge (VKey.mk eo ek g').num (VKey.mk eo ek G).num with h3 | h3
            · rw [UInt64.lt_iff_toNat_lt]
              have h4 := mt num_same.mpr (by omega : ¬ (VKey.mk eo ek G).num ≤ (VKey.mk eo ek g').num)
              rw [UInt64.le_iff_toNat_le] at h4
              omega
            · have h4 := p25_le_of_num_le (hmin _ ((AStore.mem_hi h).mpr ⟨hy, h3⟩))
              have : (VKey.mk eo ek g').p25 = (VKey.mk eo ek G).p25 := VKey.p25_inj.mpr ⟨rfl, rfl⟩
              simp only [this] at h4
              exact absurd h4 h1
          refine ⟨eg, rfl, hel', enc_hasVersion.mpr ⟨ex, hel'⟩, Or.inr ⟨hlt, ?_⟩⟩
          intro g' hg'
          obtain ⟨y, hy⟩ := enc_hasVersion.mp hg'
          have h5 := hlt g' hg'
          have h6 : (VKey.mk eo ek g').num < (VKey.mk eo ek G).num := num_same_lt.mpr h5
          exact num_same.mp (hmax _ ((AStore.mem_lo h).mpr ⟨hy, h6⟩))
        · rw [if_neg h2] at hf; simp at hf

end Btrfscue
