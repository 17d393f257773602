import Verif.Props.Ranges
/-!
# C32, C33: exact conditions
-/

namespace Btrfscue

/-- C32, exactly: on a well-behaved index, opened for reading, iterating `RangeAll(owner, t, id)`
yields every stored key `(t id ?)` at its newest generation if and only if all of them have
the same newest generation. -/
theorem C32_complete_iff (b : Bucket) (hb : b.WF) (m : Bytes) (hm : b.stores metadataVersionKey m) (o : UInt64) (t : UInt8) (id : UInt64)
    (hok : b.RangeOK o (KL2 t id)) :
    ∃ N items, (∀ fuel, N ≤ fuel → rangeAllItems fuel ⟨b, ~~~0⟩ o t id = .ok items) ∧
      ((∀ off, b.hasKey o ⟨id, t, off⟩ → ∃ g d, b.newest o ⟨id, t, off⟩ g ∧ ((VKey.mk o ⟨id, t, off⟩ g).encode, d) ∈ items) ↔
        ∃ g, ∀ off, b.hasKey o ⟨id, t, off⟩ → b.newest o ⟨id, t, off⟩ g) := by
  obtain ⟨N, items, h1, -, h3⟩ := rangeItems_spec hb (first := KF t id) ⟨m, hm⟩ hok (~~~0)
  refine ⟨N, items, h1, fun hall => ?_, fun ⟨g, hg⟩ off hk => ?_⟩
  · rcases h3 with ⟨h4, -⟩ | ⟨k0, g0, -, -, h6⟩
    · exact ⟨0, fun off hk => absurd ⟨rfl, rfl⟩ (h4 _ hk)⟩
    · refine ⟨g0, fun off hk => ?_⟩
      obtain ⟨g, d, hn, hmem⟩ := hall off hk
      obtain ⟨k, x, he, -⟩ := (h6 _ _).mp hmem
      have := VKey.encode_inj.mp he
      simp only [VKey.mk.injEq] at this
      rw [← this.2.2]
      exact hn
  · obtain ⟨N', items', k1, k2⟩ := C32_range_complete_single_generation b hb m hm o t id hok g hg
    have heq : items' = items := by
      have a := h1 (max N N') (by omega)
      have c := k1 (max N N') (by omega)
      have : rangeAllItems (max N N') ⟨b, ~~~0⟩ o t id = rangeItems (max N N') ⟨b, ~~~0⟩ o (KF t id) (KL2 t id) := rfl
      rw [this, a] at c
      simp only [Go.ok.injEq] at c
      exact c.symm
    obtain ⟨x, d, -, -, h⟩ := k2 off hk
    exact ⟨g, d, hg off hk, heq ▸ h⟩

/-! ## C33 -/

/-- The iteration over `(owner, first, last)` at generation `G` never ends: the next owner's first
key `f` occurs for this owner too, in the generation `g0` chosen for the first key `k0`; and from
`k0` on, and from `f` on, every key has that generation and lies before the end. -/
def Bucket.endless (b : Bucket) (o : UInt64) (first last : Key) (G : UInt64) : Prop :=
  ∃ k0 g0 f, b.firstOf o first.typ first.objectID k0 ∧ b.actualChoice o k0 G g0 ∧ b.firstAfter o f ∧ b.hasVersion o f.key g0 ∧
    ∀ k, b.hasKey o k → (¬ k.before k0 ∨ ¬ k.before f.key) → b.hasVersion o k g0 ∧ ¬ (VKey.mk o last G).before ⟨o, k, g0⟩

/-- A step of an iteration from key `k`: to the next key of the owner, or after the last one to the
first of the next owner. -/
theorem next_key {l : AStore} (h : l.Sorted) {o : UInt64} (ho : o ≠ ~~~0) (hs : ∃ m, (metadataVersionKey, m) ∈ l)
    (hg : ∀ k x, (⟨o, k, ~~~0⟩, x) ∉ l) (v : VKey) (hv : v.owner = o) :
    ∃ f y, l.cand v = some (f, y) ∧ (f, y) ∈ l ∧
      ((f.owner = o ∧ v.p25 < f.p25 ∧ ∀ w z, (w, z) ∈ l → w.owner = o → v.p25 < w.p25 → f.p25 ≤ w.p25) ∨
       (l.enc.firstAfter o f ∧ ∀ w z, (w, z) ∈ l → w.owner = o → w.p25 ≤ v.p25)) := by
  obtain ⟨f, y, hc, hfl, hvf, hmin⟩ := cand_spec h ho hs hg hv
  refine ⟨f, y, hc, hfl, ?_⟩
  by_cases hfo : f.owner = o
  · exact Or.inl ⟨hfo, hvf, fun w z hw _ hlt => p25_le_of_num_le (hmin w z hw hlt)⟩
  · right
    have hnum : v.num < f.num := by
      rw [VKey.num_eq, VKey.num_eq]
      have := v.gen.toNat_lt
      omega
    have h1 := owner_le_of_num (Nat.le_of_lt hnum)
    have hlt : o < f.owner := by
      rw [hv, UInt64.le_iff_toNat_le] at h1
      rw [UInt64.lt_iff_toNat_lt]
      have : o.toNat ≠ f.owner.toNat := fun he => hfo (UInt64.toNat_inj.mp he.symm)
      omega
    refine ⟨⟨⟨y, enc_stores.mpr hfl⟩, hlt, fun w x hw hwo hb => ?_⟩, fun w z hw hwo => ?_⟩
    · have hw' := enc_stores.mp hw
      rw [← VKey.num_lt_iff] at hb
      have h2 : v.p25 < w.p25 := by
        have h3 := num_lt_of_owner (v := VKey.mk v.owner v.key (~~~0)) (w := w) (by rw [hv]; exact hwo)
        rw [VKey.num_eq, VKey.num_eq, p25_gen (~~~0) v.gen] at h3
        simp only [max64_toNat] at h3
        have e : (VKey.mk v.owner v.key v.gen).p25 = v.p25 := rfl
        rw [e] at h3
        have := w.gen.toNat_lt
        omega
      have := hmin w x hw' h2
      omega
    · rcases Nat.lt_or_ge v.p25 w.p25 with h3 | h3
      · exfalso
        have h4 := hmin w z hw h3
        have h5 := num_lt_of_owner (v := w) (w := f) (by rw [hwo]; exact hlt)
        omega
      · exact h3

/-- A range positioned at a stored item ends, whatever was read last. -/
def EndsAt (l : AStore) (o : UInt64) (last : Key) (G : UInt64) (v : VKey) (x : Bytes) : Prop :=
  ∀ d, ∃ items, Range.Yields (Range.at l.enc (VKey.mk o last G).encode (v, x), d) items

theorem actualChoice_unique {b : Bucket} {o : UInt64} {k : Key} {G g g' : UInt64} (h : b.actualChoice o k G g) (h' : b.actualChoice o k G g') :
    g = g' := by
  obtain ⟨h1, h2⟩ := h
  obtain ⟨h1', h2'⟩ := h'
  rw [← UInt64.toNat_inj]
  rcases h2 with ⟨a, c⟩ | ⟨a, c⟩ <;> rcases h2' with ⟨a', c'⟩ | ⟨a', c'⟩
  · have e1 := c _ h1' a'
    have e2 := c' _ h1 a
    rw [UInt64.le_iff_toNat_le] at e1 e2
    omega
  · have e1 := a' _ h1
    rw [UInt64.lt_iff_toNat_lt] at e1
    rw [UInt64.le_iff_toNat_le] at a
    omega
  · have e1 := a _ h1'
    rw [UInt64.lt_iff_toNat_lt] at e1
    rw [UInt64.le_iff_toNat_le] at a'
    omega
  · have e1 := c _ h1'
    have e2 := c' _ h1
    rw [UInt64.le_iff_toNat_le] at e1 e2
    omega

theorem firstAfter_unique {b : Bucket} {o : UInt64} {f f' : VKey} (h : b.firstAfter o f) (h' : b.firstAfter o f') : f = f' := by
  obtain ⟨⟨x, hx⟩, ho, hm⟩ := h
  obtain ⟨⟨x', hx'⟩, ho', hm'⟩ := h'
  have h1 := hm f' x' hx' ho'
  have h2 := hm' f x hx ho
  rw [← VKey.num_lt_iff] at h1 h2
  exact VKey.num_inj.mp (by omega)

/-- What ends a range above key `v`. -/
theorem ends_from {l : AStore} (h : l.Sorted) {o : UInt64} (ho : o ≠ ~~~0) (hs : ∃ m, (metadataVersionKey, m) ∈ l)
    (hg : ∀ k x, (⟨o, k, ~~~0⟩, x) ∉ l) (hin : ∀ v x, (v, x) ∈ l → v.owner = o → ∃ d, holdsItem x d) (last : Key) (G g0 : UInt64) :
    ∀ (n : Nat) (v : VKey) (x : Bytes), (l.filter fun e => v.num < e.1.num).length = n → (v, x) ∈ l → v.owner = o → v.gen = g0 →
      ((∃ w z, (w, z) ∈ l ∧ w.owner = o ∧ v.p25 ≤ w.p25 ∧ ((∀ z', (⟨o, w.key, g0⟩, z') ∉ l) ∨ (VKey.mk o last G).num < (VKey.mk o w.key g0).num)) ∨
        ∀ f, l.enc.firstAfter o f → ∀ z, (⟨o, f.key, g0⟩, z) ∈ l → EndsAt l o last G ⟨o, f.key, g0⟩ z) →
      EndsAt l o last G v x := by
  intro n
  induction n using Nat.strongRecOn with
  | _ n ih =>
    intro v x hn hvx hvo hvg hor d
    by_cases hend : v.num ≤ (VKey.mk o last G).num
    rotate_left
    · exact ⟨[], .done (decide_eq_false (mt (VKey.bytesCompare_le _ _).mp hend))⟩
    have hhas : (Range.at l.enc (VKey.mk o last G).encode (v, x)).hasNext = true :=
      decide_eq_true ((VKey.bytesCompare_le _ _).mpr hend)
    obtain ⟨f, y, hc, hfl, hcase⟩ := next_key h ho hs hg v hvo
    by_cases hm : ∃ z, (⟨v.owner, f.key, v.gen⟩, z) ∈ l
    rotate_left
    · refine ⟨_, .step hhas (r' := ⟨l.enc, none, (VKey.mk o last G).encode, ⟨[], []⟩⟩) (d' := ⟨[], []⟩) ?_ (.done rfl)⟩
      simp only [Range.next, Range.at, findNext_miss h hc (fun z hz => hm ⟨z, hz⟩), Go.ok_bind, Range.setTo, Range.current, Go.pure_eq]
    obtain ⟨z, hz⟩ := hm
    obtain ⟨d0, hd0⟩ := hin _ _ hz hvo
    obtain ⟨s0, hs0, -⟩ := hd0.data
    have hgo : EndsAt l o last G ⟨v.owner, f.key, v.gen⟩ z := by
      rcases hcase with ⟨hfo, hvf, hmin⟩ | ⟨hfa, hlast⟩
      · have hfk : (VKey.mk v.owner f.key v.gen).p25 = f.p25 := VKey.p25_inj.mpr ⟨by rw [hfo, hvo], rfl⟩
        have hnum : v.num < (VKey.mk v.owner f.key v.gen).num := by
          rw [VKey.num_eq v, VKey.num_eq (VKey.mk v.owner f.key v.gen), hfk]
          simp only
          omega
        have hmeas : (l.filter fun e => (VKey.mk v.owner f.key v.gen).num < e.1.num).length < n := by
          rw [← hn]
          have hsub : (l.filter fun e => (VKey.mk v.owner f.key v.gen).num < e.1.num) =
              ((l.filter fun e => v.num < e.1.num).filter
                fun e => (VKey.mk v.owner f.key v.gen).num < e.1.num) := by
            rw [List.filter_filter]
            apply List.filter_congr
            intro e _
            rw [Bool.eq_iff_iff]
            simp only [decide_eq_true_eq, Bool.and_eq_true]
            constructor
            · intro h1; exact ⟨h1, Nat.lt_trans hnum h1⟩
            · intro h1; exact h1.1
          rw [hsub]
          apply List.length_filter_lt_length_iff_exists.mpr
          refine ⟨(⟨v.owner, f.key, v.gen⟩, z), ?_, by simp⟩
          rw [List.mem_filter]
          exact ⟨hz, by simpa using hnum⟩
        refine ih _ hmeas _ z rfl hz hvo hvg ?_
        rcases hor with ⟨w, zw, hw, hwo, hvw, hbad⟩ | hor
        · left
          refine ⟨w, zw, hw, hwo, ?_, hbad⟩
          rw [hfk]
          rcases Nat.lt_or_eq_of_le hvw with hlt | heq
          · exact hmin w zw hw hwo hlt
          · exfalso
            obtain ⟨e1, e2⟩ := VKey.p25_inj.mp heq
            have hv' : (VKey.mk o w.key g0) = v := by
              obtain ⟨a, b, c⟩ := v
              simp only at e2 hvo hvg
              rw [← e2, hvo, hvg]
            rcases hbad with hbad | hbad
            · exact hbad x (by rw [hv']; exact hvx)
            · rw [hv'] at hbad; omega
        · exact Or.inr hor
      · rw [hvo, hvg]
        rw [hvo, hvg] at hz
        rcases hor with ⟨w, zw, hw, hwo, hvw, hbad⟩ | hor
        · exfalso
          obtain ⟨e1, e2⟩ := VKey.p25_inj.mp (Nat.le_antisymm hvw (hlast w zw hw hwo))
          have hv' : (VKey.mk o w.key g0) = v := by
            obtain ⟨a, b, c⟩ := v
            simp only at e2 hvo hvg
            rw [← e2, hvo, hvg]
          rcases hbad with hbad | hbad
          · exact hbad x (by rw [hv']; exact hvx)
          · rw [hv'] at hbad; omega
        · exact hor f hfa z hz
    obtain ⟨items, hy⟩ := hgo s0
    refine ⟨_, .step hhas ?_ hy⟩
    simp only [Range.next, Range.at, findNext_hit h hc hz, Go.ok_bind, Range.setTo, Range.current, hs0, Go.pure_eq]

/-- C33, exactly: an owner with intact items, none of generation `2^64-1` or with the key of the
index metadata. Iterating a range of it ends, with one result for any large enough number of
steps, unless it is endless, and then it never ends. -/
theorem C33_ends_iff (b : Bucket) (hb : b.WF) (m : Bytes) (hm : b.stores metadataVersionKey m) (o : UInt64) (ho : o ≠ ~~~0)
    (hin : ∀ v x, b.stores v x → v.owner = o → ∃ d, holdsItem x d) (hg : ∀ k, ¬ b.hasVersion o k (~~~0)) (hkl : ¬ b.hasKey o KL0)
    (first last : Key) (G : UInt64) :
    (¬ b.endless o first last G → ∃ N items, ∀ fuel, N ≤ fuel → rangeItems fuel ⟨b, G⟩ o first last = .ok items) ∧
    (b.endless o first last G → ∀ fuel, rangeItems fuel ⟨b, G⟩ o first last = .hang) := by
  obtain ⟨l, hl, rfl⟩ := hb.exists_abs
  have hs : ∃ m, (metadataVersionKey, m) ∈ l := ⟨m, enc_stores.mp hm⟩
  have hin' : ∀ v x, (v, x) ∈ l → v.owner = o → ∃ d, holdsItem x d := fun v x hv => hin v x (enc_stores.mpr hv)
  have hg' : ∀ k x, (⟨o, k, ~~~0⟩, x) ∉ l := fun k x hx => hg k (enc_hasVersion.mpr ⟨x, hx⟩)
  have hkey : ∀ {k g x}, (VKey.mk o k g, x) ∈ l → l.enc.hasKey o k := fun {k g x} hx => ⟨g, enc_hasVersion.mpr ⟨x, hx⟩⟩
  have hbe : ∀ {k k' : Key} {g g'}, ¬ k.before k' ↔ (VKey.mk o k' g').p25 ≤ (VKey.mk o k g).p25 := fun {k k' g g'} => by
    rw [key_before_iff (o := o) (g := g) (g' := g')]; omega
  constructor
  · intro hne
    by_cases hyes : ∃ k g x, (⟨o, k, g⟩, x) ∈ l ∧ k.typ = first.typ ∧ k.objectID = first.objectID
    rotate_left
    · have hno : ∀ k g x, (⟨o, k, g⟩, x) ∈ l → ¬ (k.typ = first.typ ∧ k.objectID = first.objectID) :=
        fun k g x hx hc => hyes ⟨k, g, x, hx, hc⟩
      obtain ⟨m', hm'⟩ := hs
      have hr := range_none hl (first := first) (last := last) (o := o) G
        ⟨_, hm', Nat.le_of_lt (num_lt_of_owner (ne_max_lt ho))⟩ (fun g x hx => hkl (hkey hx)) hno
      refine ⟨1, entriesOf [], fun fuel hf => ?_⟩
      simp only [rangeItems, hr, Go.ok_bind]
      exact collect_eq (Range.Yields.done rfl) fuel (by simp only [List.length_nil]; omega)
    · obtain ⟨k0, g0, x0, d0, hr, hm0, hd0, hch, hfo⟩ := range_start hl (last := last) ho hs hin' G hyes
      have hends : EndsAt l o last G ⟨o, k0, g0⟩ x0 := by
        refine ends_from hl ho hs hg' hin' last G g0 _ ⟨o, k0, g0⟩ x0 rfl hm0 rfl rfl ?_
        refine Classical.byContradiction fun hno => hne ?_
        simp only [not_or] at hno
        obtain ⟨n1, n2⟩ := hno
        have hall : ∀ k, l.enc.hasKey o k → ¬ k.before k0 → l.enc.hasVersion o k g0 ∧ ¬ (VKey.mk o last G).before ⟨o, k, g0⟩ := by
          rintro k ⟨g, hv⟩ hb
          obtain ⟨x, hx⟩ := enc_hasVersion.mp hv
          refine Classical.byContradiction fun hc => n1 ⟨_, x, hx, rfl, hbe.mp hb, ?_⟩
          by_cases hvv : l.enc.hasVersion o k g0
          · right
            rw [VKey.num_lt_iff]
            exact Classical.byContradiction fun hbb => hc ⟨hvv, hbb⟩
          · left
            intro z hz
            exact hvv (enc_hasVersion.mpr ⟨z, hz⟩)
        have : ∃ f, l.enc.firstAfter o f ∧ ∃ z, (⟨o, f.key, g0⟩, z) ∈ l ∧ ¬ EndsAt l o last G ⟨o, f.key, g0⟩ z := by
          refine Classical.byContradiction fun hc => n2 fun f hf z hz => ?_
          exact Classical.byContradiction fun hz' => hc ⟨f, hf, z, hz, hz'⟩
        obtain ⟨f, hf, z, hz, hnz⟩ := this
        refine ⟨k0, g0, f, hfo, hch, hf, enc_hasVersion.mpr ⟨z, hz⟩, fun k hk hor => ?_⟩
        rcases hor with hor | hor
        · exact hall k hk hor
        · obtain ⟨g, hv⟩ := hk
          obtain ⟨x, hx⟩ := enc_hasVersion.mp hv
          refine Classical.byContradiction fun hc => hnz ?_
          refine ends_from hl ho hs hg' hin' last G g0 _ ⟨o, f.key, g0⟩ z rfl hz rfl rfl (Or.inl ⟨_, x, hx, rfl, hbe.mp hor, ?_⟩)
          by_cases hvv : l.enc.hasVersion o k g0
          · right
            rw [VKey.num_lt_iff]
            exact Classical.byContradiction fun hbb => hc ⟨hvv, hbb⟩
          · left
            intro z' hz'
            exact hvv (enc_hasVersion.mpr ⟨z', hz'⟩)
      obtain ⟨items, hy⟩ := hends d0
      refine ⟨items.length + 1, entriesOf items, fun fuel hf => ?_⟩
      simp only [rangeItems, hr, Go.ok_bind]
      exact collect_eq hy fuel (by omega)
  · rintro ⟨k0, g0, f, hfo, hch, hfa, hfv, hall⟩ fuel
    obtain ⟨⟨g1, hv1⟩, ht1, hi1, hmin1⟩ := hfo
    obtain ⟨x1, hx1⟩ := enc_hasVersion.mp hv1
    obtain ⟨k0', g0', x0, d0, hr, hm0, hd0, hch', hfo'⟩ := range_start hl (last := last) ho hs hin' G ⟨k0, g1, x1, hx1, ht1, hi1⟩
    have hk : k0' = k0 := by
      have h1 := hfo'.2.2.2 k0 ⟨g1, hv1⟩ ht1 hi1
      have h2 := hmin1 k0' hfo'.1 hfo'.2.1 hfo'.2.2.1
      have e1 := (hbe (g := g1) (g' := g1)).mp h1
      have e2 := (hbe (g := g1) (g' := g1)).mp h2
      exact (VKey.p25_inj.mp (Nat.le_antisymm e1 e2)).2
    subst hk
    have hgg : g0' = g0 := actualChoice_unique hch' hch
    subst hgg
    simp only [rangeItems, hr, Go.ok_bind]
    refine collect_hang (fun rd => ∃ k x d, (VKey.mk o k g0', x) ∈ l ∧ (¬ k.before k0' ∨ ¬ k.before f.key) ∧
      rd = (Range.at l.enc (VKey.mk o last G).encode (⟨o, k, g0'⟩, x), d)) ?_ fuel _ ⟨k0', x0, d0, hm0, Or.inl (hbe (g := 0) (g' := 0) |>.mpr (Nat.le_refl _)), rfl⟩
    rintro rd ⟨k, x, d, hx, hor, rfl⟩
    constructor
    · obtain ⟨-, h2⟩ := hall k (hkey hx) hor
      rw [← VKey.num_lt_iff] at h2
      exact decide_eq_true ((VKey.bytesCompare_le _ _).mpr (by show (VKey.mk o k g0').num ≤ _; omega))
    · obtain ⟨f', y, hc, hfl, hcase⟩ := next_key hl ho hs hg' ⟨o, k, g0'⟩ rfl
      have hin2 : (¬ f'.key.before k0' ∨ ¬ f'.key.before f.key) ∧ l.enc.hasVersion o f'.key g0' := by
        rcases hcase with ⟨h1, h2, -⟩ | ⟨h1, -⟩
        · obtain ⟨fo, fk, fg⟩ := f'
          simp only at h1
          subst h1
          have hor' : ¬ fk.before k0' ∨ ¬ fk.before f.key := by
            rcases hor with hor | hor
            · left
              rw [hbe (g := fg) (g' := g0')]
              rw [hbe (g := g0') (g' := g0')] at hor
              omega
            · right
              rw [hbe (g := fg) (g' := g0')]
              rw [hbe (g := g0') (g' := g0')] at hor
              omega
          exact ⟨hor', (hall fk (hkey hfl) hor').1⟩
        · rw [firstAfter_unique h1 hfa]
          exact ⟨Or.inr (hbe (g := 0) (g' := 0) |>.mpr (Nat.le_refl _)), hfv⟩
      obtain ⟨z, hz⟩ := enc_hasVersion.mp hin2.2
      obtain ⟨d', hd'⟩ := hin' _ _ hz rfl
      obtain ⟨s, hsd, -⟩ := hd'.data
      refine ⟨_, ?_, f'.key, z, s, hz, hin2.1, rfl⟩
      simp only [Range.at, Range.next, findNext_hit hl hc hz, Go.ok_bind, Range.setTo, Range.current, hsd, Go.pure_eq]

/-- Both cases occur in `exTwoSubvols`: for the extents of file 257 of subvolume 256, and for the
inode of its directory 256. -/
example : exTwoSubvols.Sorted ∧ exTwoSubvols.enc.endless 256 (KF 108 257) (KL2 108 257) (~~~0) ∧
    ¬ exTwoSubvols.enc.endless 256 (KF 1 256) (KL2 1 256) (~~~0) ∧
    (∀ v x, exTwoSubvols.enc.stores v x → v.owner = 256 → ∃ d, holdsItem x d) ∧
    (∀ k, ¬ exTwoSubvols.enc.hasVersion 256 k (~~~0)) ∧ ¬ exTwoSubvols.enc.hasKey 256 KL0 := by
  have hall : ∀ e ∈ exTwoSubvols, e.1.owner = 256 → e.1.gen = 10 ∧ e.1.key ≠ KL0 ∧ (e.1.key = ⟨256, 1, 0⟩ ∨ e.1.key = ⟨257, 108, 0⟩) := by
    decide +kernel
  have h1 : exTwoSubvols.enc.hasVersion 256 ⟨256, 1, 0⟩ 10 :=
    enc_hasVersion.mpr ⟨mkItem ⟨256, 1, 0⟩ [7], by decide +kernel⟩
  have h2 : exTwoSubvols.enc.hasVersion 256 ⟨257, 108, 0⟩ 10 :=
    enc_hasVersion.mpr ⟨mkItem ⟨257, 108, 0⟩ [8], by decide +kernel⟩
  have hgen : ∀ k g, exTwoSubvols.enc.hasVersion 256 k g → g = 10 := fun k g hv => by
    obtain ⟨x, hx⟩ := enc_hasVersion.mp hv
    exact (hall _ hx rfl).1
  have hkeys : ∀ k, exTwoSubvols.enc.hasKey 256 k → k = ⟨256, 1, 0⟩ ∨ k = ⟨257, 108, 0⟩ := fun k ⟨g, hv⟩ => by
    obtain ⟨x, hx⟩ := enc_hasVersion.mp hv
    exact (hall _ hx rfl).2.2
  refine ⟨sorted_of_before (by decide +kernel), ⟨⟨257, 108, 0⟩, 10, ⟨257, ⟨256, 1, 0⟩, 11⟩, ?_, ?_, ?_, h1, ?_⟩, ?_, ?_, ?_, ?_⟩
  · refine ⟨⟨10, h2⟩, rfl, rfl, fun k hk ht hi => ?_⟩
    rcases hkeys k hk with rfl | rfl
    · exact absurd ht (by decide)
    · decide
  · refine ⟨h2, Or.inr ⟨fun g hv => ?_, fun g hv => ?_⟩⟩
    · rw [hgen _ _ hv]; decide
    · rw [hgen _ _ hv]; exact UInt64.le_refl _
  · refine ⟨⟨mkItem ⟨256, 1, 0⟩ [9], enc_stores.mpr (by decide +kernel)⟩, by decide, fun w x hw hwo => ?_⟩
    have : ∀ e ∈ exTwoSubvols, 256 < e.1.owner → ¬ e.1.before ⟨257, ⟨256, 1, 0⟩, 11⟩ := by decide +kernel
    exact this _ (enc_stores.mp hw) hwo
  · intro k hk _
    rcases hkeys k hk with rfl | rfl
    · exact ⟨h1, by decide⟩
    · exact ⟨h2, by decide⟩
  · rintro ⟨k0, g0, f, a1, a2, a3, a4, a5⟩
    have hk0 : ¬ (Key.mk 257 108 0).before k0 := by
      rcases hkeys k0 a1.1 with rfl | rfl <;> decide
    have := (a5 ⟨257, 108, 0⟩ ⟨10, h2⟩ (Or.inl hk0)).2
    rw [hgen _ _ a2.1] at this
    exact this (by decide)
  · intro v x hv hvo
    have hv := enc_stores.mp hv
    simp only [exTwoSubvols, List.mem_cons, List.not_mem_nil, or_false, Prod.mk.injEq] at hv
    rcases hv with ⟨rfl, rfl⟩ | ⟨rfl, rfl⟩ | ⟨rfl, rfl⟩ | ⟨rfl, rfl⟩
    · exact ⟨_, mkItem_holds _ _ (by decide)⟩
    · exact ⟨_, mkItem_holds _ _ (by decide)⟩
    · exact absurd hvo (by decide)
    · exact absurd hvo (by decide)
  · intro k hv
    exact absurd (hgen _ _ hv) (by decide)
  · intro hk
    rcases hkeys _ hk with h | h <;> exact absurd h (by decide)

end Btrfscue
