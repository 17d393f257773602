import Verif.Proof.Concrete
import Verif.Props.IndexLookup
/-! # Ranges over one type and object id -/

namespace Btrfscue

theorem between_same_prefix {o : UInt64} {t : UInt8} {id : UInt64} {k k0 : Key} {G g0 : UInt64}
    (ht : k0.typ = t) (hi : k0.objectID = id) (h1 : ¬ k.before k0)
    (h2 : ¬ (VKey.mk o (KL2 t id) G).before ⟨o, k, g0⟩) : k.typ = t ∧ k.objectID = id := by
  rw [key_before_iff (o := o) (g := g0) (g' := g0)] at h1
  rw [← VKey.num_lt_iff] at h2
  have h3 : (VKey.mk o k0 g0).num ≤ (VKey.mk o k g0).num := by
    rw [VKey.num_eq, VKey.num_eq]; simp only; omega
  have h4 := p17_le_of_num_le h3
  have h5 := p17_le_of_num_le (Nat.not_lt.mp h2)
  have h6 : (VKey.mk o k0 g0).p17 = (VKey.mk o (KL2 t id) G).p17 := VKey.p17_inj.mpr ⟨rfl, ht, hi⟩
  have h7 : (VKey.mk o k g0).p17 = (VKey.mk o k0 g0).p17 := by omega
  obtain ⟨-, h8, h9⟩ := VKey.p17_inj.mp h7
  exact ⟨h8.trans ht, h9.trans hi⟩

theorem actualChoice_max {b : Bucket} {o : UInt64} {k : Key} {g g0 : UInt64}
    (h : b.actualChoice o k (~~~0) g0) (hn : b.newest o k g) : g0 = g := by
  obtain ⟨h9, h10⟩ := hn
  obtain ⟨h11, h12⟩ := h
  have h13 := h10 g0 h11
  have h14 := le_max64 g
  rw [UInt64.le_iff_toNat_le] at h13 h14
  rw [← UInt64.toNat_inj]
  rcases h12 with ⟨h15, -⟩ | ⟨-, h15⟩
  · rw [UInt64.le_iff_toNat_le] at h15; omega
  · have := h15 g h9
    rw [UInt64.le_iff_toNat_le] at this; omega

theorem not_after_last (o : UInt64) (t : UInt8) (id off g : UInt64) :
    ¬ (VKey.mk o (KL2 t id) (~~~0)).before ⟨o, ⟨id, t, off⟩, g⟩ := by
  have h17 : (VKey.mk o ⟨id, t, off⟩ g).p17 = (VKey.mk o (KL2 t id) (~~~0)).p17 :=
    VKey.p17_inj.mpr ⟨rfl, rfl, rfl⟩
  rw [← VKey.num_lt_iff, VKey.num_eq, VKey.num_eq, VKey.p25_eq, VKey.p25_eq, h17]
  have := off.toNat_lt
  have := g.toNat_lt
  have h8 : (KL2 t id).offset.toNat = 2 ^ 64 - 1 := max64_toNat
  simp only [max64_toNat, h8]
  omega

theorem mono_aux {P Q R M G : Nat} (h : Q ≤ R) (h2 : ¬ P * 2 ^ 64 + M < R * 2 ^ 64 + G) :
    ¬ P * 2 ^ 64 + M < Q * 2 ^ 64 + G := by
  intro h3
  exact h2 (Nat.lt_of_lt_of_le h3 (Nat.add_le_add_right (Nat.mul_le_mul_right _ h) _))

theorem offset_before {o id : UInt64} {t : UInt8} {off off' : UInt64} :
    ¬ (Key.mk id t off).before ⟨id, t, off'⟩ ↔ off' ≤ off := by
  rw [key_before_iff (o := o) (g := 0) (g' := 0), VKey.p25_eq, VKey.p25_eq,
    show (VKey.mk o ⟨id, t, off⟩ 0).p17 = (VKey.mk o ⟨id, t, off'⟩ 0).p17 from VKey.p17_inj.mpr ⟨rfl, rfl, rfl⟩, UInt64.le_iff_toNat_le]
  simp only
  omega

/-- The run over a directory (or other object). -/
theorem rangeAll_run {l : AStore} (h : l.Sorted) {o : UInt64} {t : UInt8} {id : UInt64}
    (hm : ∃ m, l.enc.stores metadataVersionKey m) (hok : l.enc.RangeOK o (KL2 t id)) :
    ∃ rd, ∃ items : List ((VKey × Bytes) × Slice),
      (Ix.mk l.enc (~~~0)).rangeAll o t id = .ok rd ∧
      Range.Yields rd
        (items.map fun e => (Range.at l.enc (VKey.mk o (KL2 t id) (~~~0)).encode e.1, e.2)) ∧
      items.Pairwise (fun a b => a.1.1.num < b.1.1.num) ∧
      ∀ w y s, ((w, y), s) ∈ items ↔ ∃ off g, l.enc.runVersion o t id off g ∧ w = ⟨o, ⟨id, t, off⟩, g⟩ ∧ l.enc.stores w y ∧
        Item.data ⟨y, []⟩ = .ok s := by
  obtain ⟨rd, items, hr, hy, hp, hs⟩ := range_yields h (first := KF t id) hm hok (~~~0)
  refine ⟨rd, items, hr, hy, hp, fun w y s => ?_⟩
  rcases hs with ⟨h1, rfl⟩ | ⟨k0, g0, h4, h5, h6⟩
  · constructor
    · intro hc; cases hc
    · rintro ⟨off, g, -, rfl, h2, -⟩
      exact absurd ⟨rfl, rfl⟩ (h1 ⟨id, t, off⟩ ⟨g, y, h2⟩)
  · obtain ⟨ko, kt, kf⟩ := k0
    obtain ⟨h7, h8, h9, h10⟩ := h4
    simp only [KF] at h8 h9 h10
    subst h8; subst h9
    have hnew : l.enc.newest o ⟨ko, kt, kf⟩ g0 := by
      obtain ⟨h11, h12⟩ := h5
      refine ⟨h11, fun g' hg' => ?_⟩
      rcases h12 with ⟨h15, -⟩ | ⟨-, h15⟩
      · exact UInt64.le_trans (le_max64 g') h15
      · exact h15 g' hg'
    have hmin : ∀ off', l.enc.hasKey o ⟨ko, kt, off'⟩ → kf ≤ off' := fun off' hk =>
      (offset_before (o := o)).mp (h10 _ hk rfl rfl)
    rw [h6]
    constructor
    · rintro ⟨k, rfl, h11, h12, h13, h14, h15⟩
      obtain ⟨hkt, hki⟩ := between_same_prefix (k0 := ⟨ko, kt, kf⟩) rfl rfl h13 h14
      obtain ⟨k1, k2, k3⟩ := k
      simp only at hkt hki
      subst hkt; subst hki
      exact ⟨k3, g0, ⟨⟨kf, hnew, hmin⟩, fun off' hk hle => h15 _ hk ((offset_before (o := o)).mpr (hmin _ hk))
        ((offset_before (o := o)).mpr hle)⟩, rfl, h11, h12⟩
    · rintro ⟨off, g, ⟨⟨off0, h16, h17⟩, h18⟩, rfl, h11, h12⟩
      have hof : off0 = kf := by
        have a := h17 kf h7
        have c := hmin off0 (by obtain ⟨⟨x, hx⟩, -⟩ := h16; exact ⟨g, x, hx⟩)
        rw [UInt64.le_iff_toNat_le] at a c
        rw [← UInt64.toNat_inj]
        omega
      subst hof
      have hgg : g0 = g := actualChoice_max h5 h16
      subst hgg
      refine ⟨_, rfl, h11, h12, h10 _ ⟨g0, y, h11⟩ rfl rfl, not_after_last _ _ _ _ _, ?_⟩
      intro k' hk' hb1 hb2
      have h13 : ¬ (VKey.mk o (KL2 kt ko) (~~~0)).before ⟨o, k', g0⟩ := by
        have := not_after_last o kt ko off g0
        rw [← VKey.num_lt_iff] at this ⊢
        rw [key_before_iff (o := o) (g := g0) (g' := g0)] at hb2
        rw [VKey.num_eq, VKey.num_eq] at this ⊢
        simp only [max64_toNat] at this ⊢
        exact mono_aux (Nat.not_lt.mp hb2) this
      obtain ⟨hkt, hki⟩ := between_same_prefix (k0 := ⟨ko, kt, off0⟩) rfl rfl hb1 h13
      obtain ⟨k1, k2, k3⟩ := k'
      simp only at hkt hki
      subst hkt; subst hki
      exact h18 k3 hk' ((offset_before (o := o)).mp hb2)

theorem runVersion_single {b : Bucket} {o : UInt64} {t : UInt8} {id g : UInt64}
    (hg : ∀ off, b.hasKey o ⟨id, t, off⟩ → b.newest o ⟨id, t, off⟩ g) {off : UInt64} {g' : UInt64} (h : b.runVersion o t id off g') : g' = g := by
  obtain ⟨⟨off0, ⟨h1, h2⟩, -⟩, -⟩ := h
  obtain ⟨h3, h4⟩ := hg off0 (by obtain ⟨x, hx⟩ := h1; exact ⟨g', x, hx⟩)
  have a := h2 _ h3
  have c := h4 _ h1
  rw [UInt64.le_iff_toNat_le] at a c
  rw [← UInt64.toNat_inj]
  omega

/-- The run over a directory (or other object) all of whose keys have the same newest
generation. -/
theorem rangeAll_single {l : AStore} (h : l.Sorted) {o : UInt64} {t : UInt8} {id : UInt64}
    (hm : ∃ m, l.enc.stores metadataVersionKey m) (hok : l.enc.RangeOK o (KL2 t id)) {g : UInt64}
    (hg : ∀ off, l.enc.hasKey o ⟨id, t, off⟩ → l.enc.newest o ⟨id, t, off⟩ g) :
    ∃ rd, ∃ items : List ((VKey × Bytes) × Slice),
      (Ix.mk l.enc (~~~0)).rangeAll o t id = .ok rd ∧
      Range.Yields rd
        (items.map fun e => (Range.at l.enc (VKey.mk o (KL2 t id) (~~~0)).encode e.1, e.2)) ∧
      items.Pairwise (fun a b => a.1.1.num < b.1.1.num) ∧
      ∀ w y s, ((w, y), s) ∈ items ↔ ∃ off, w = ⟨o, ⟨id, t, off⟩, g⟩ ∧ l.enc.stores w y ∧
        Item.data ⟨y, []⟩ = .ok s := by
  obtain ⟨rd, items, hr, hy, hp, hs⟩ := range_yields h (first := KF t id) hm hok (~~~0)
  refine ⟨rd, items, hr, hy, hp, fun w y s => ?_⟩
  rcases hs with ⟨h1, rfl⟩ | ⟨k0, g0, h4, h5, h6⟩
  · constructor
    · intro hc; cases hc
    · rintro ⟨off, rfl, h2, -⟩
      exact absurd ⟨rfl, rfl⟩ (h1 ⟨id, t, off⟩ ⟨g, y, h2⟩)
  · obtain ⟨ko, kt, kf⟩ := k0
    obtain ⟨h7, h8, h9, h10⟩ := h4
    simp only [KF] at h8 h9 h10
    subst h8; subst h9
    have hg0 := actualChoice_max h5 (hg kf h7)
    subst hg0
    rw [h6]
    constructor
    · rintro ⟨k, rfl, h11, h12, h13, h14, -⟩
      obtain ⟨hkt, hki⟩ := between_same_prefix (k0 := ⟨ko, kt, kf⟩) rfl rfl h13 h14
      obtain ⟨k1, k2, k3⟩ := k
      simp only at hkt hki
      subst hkt; subst hki
      exact ⟨k3, rfl, h11, h12⟩
    · rintro ⟨off, rfl, h11, h12⟩
      have hk : l.enc.hasKey o ⟨ko, kt, off⟩ := ⟨g0, y, h11⟩
      refine ⟨_, rfl, h11, h12, h10 _ hk rfl rfl, not_after_last _ _ _ _ _, ?_⟩
      intro k' hk' hb1 hb2
      have h13 : ¬ (VKey.mk o (KL2 kt ko) (~~~0)).before ⟨o, k', g0⟩ := by
        have := not_after_last o kt ko off g0
        rw [← VKey.num_lt_iff] at this ⊢
        rw [key_before_iff (o := o) (g := g0) (g' := g0)] at hb2
        rw [VKey.num_eq, VKey.num_eq] at this ⊢
        simp only [max64_toNat] at this ⊢
        exact mono_aux (Nat.not_lt.mp hb2) this
      obtain ⟨hkt, hki⟩ := between_same_prefix (k0 := ⟨ko, kt, kf⟩) rfl rfl hb1 h13
      obtain ⟨k1, k2, k3⟩ := k'
      simp only at hkt hki
      subst hkt; subst hki
      exact (hg k3 hk').1

end Btrfscue
