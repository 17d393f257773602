import Verif.Proof.Range
/-! # Where a range starts -/

namespace Btrfscue

theorem lowerBoundLoop_enc (gen : UInt64) (rest : AStore) (v : VKey) :
    lowerBoundLoop gen v.encode rest.enc = .ok v.key := by
  have h25 : keyV2Generation = 25 := by decide
  induction rest generalizing v with
  | nil => simp only [AStore.enc, List.map_nil, lowerBoundLoop, VKey.encode, KeyV2_key_new]
  | cons e r ih =>
    have hk : KeyV2.key v.encode = .ok v.key := KeyV2_key_new _ _ _
    have hg : KeyV2.generation e.1.encode = .ok e.1.gen := KeyV2_generation_new _ _ _
    have he : AStore.enc (e :: r) = (e.1.encode, e.2) :: AStore.enc r := rfl
    simp only [he, lowerBoundLoop, h25, keyTo_encode _ 25 (by omega), Go.ok_bind]
    by_cases h1 : e.1.encode.take 25 = v.encode.take 25
    · rw [if_pos h1, hg]
      simp only [Go.ok_bind]
      have h2 := VKey.p25_inj.mp (take25_p25.mp h1)
      by_cases h3 : gen < e.1.gen
      · rw [if_pos h3, hk]
      · rw [if_neg h3, ih, h2.2]
    · rw [if_neg h1, hk]

/-- Entries from a 17 byte prefix on. -/
def AStore.hi17 (l : AStore) (n : Nat) : AStore := l.dropWhile fun e => e.1.p17 < n
/-- Entries before a 17 byte prefix. -/
def AStore.lo17 (l : AStore) (n : Nat) : AStore := l.takeWhile fun e => e.1.p17 < n

theorem p17_le_of_num_le {a b : VKey} (h : a.num ≤ b.num) : a.p17 ≤ b.p17 := by
  have := p25_le_of_num_le h
  rw [a.p25_eq, b.p25_eq] at this
  have := a.key.offset.toNat_lt
  have := b.key.offset.toNat_lt
  omega

theorem AStore.mem_hi17 {l : AStore} (h : l.Sorted) {n : Nat} {e : VKey × Bytes} :
    e ∈ l.hi17 n ↔ e ∈ l ∧ n ≤ e.1.p17 := by
  induction l with
  | nil => simp [AStore.hi17]
  | cons x r ih =>
    obtain ⟨h1, h2⟩ := List.pairwise_cons.mp h
    simp only [AStore.hi17] at ih ⊢
    rw [List.dropWhile_cons]
    by_cases hx : x.1.p17 < n
    · rw [if_pos (by simpa using hx), ih h2, List.mem_cons]
      constructor
      · rintro ⟨h3, h4⟩; exact ⟨Or.inr h3, h4⟩
      · rintro ⟨rfl | h3, h4⟩
        · omega
        · exact ⟨h3, h4⟩
    · rw [if_neg (by simpa using hx), List.mem_cons]
      constructor
      · rintro (rfl | h3)
        · exact ⟨Or.inl rfl, by omega⟩
        · refine ⟨Or.inr h3, ?_⟩
          have := p17_le_of_num_le (Nat.le_of_lt (h1 e h3))
          omega
      · rintro ⟨h3, -⟩; exact h3

theorem AStore.hi17_sorted {l : AStore} (h : l.Sorted) (n : Nat) : (l.hi17 n).Sorted :=
  h.sublist (List.dropWhile_sublist _)

theorem takeWhile17_enc (l : AStore) (v : VKey) :
    (List.takeWhile (fun e : Bytes × Bytes => bytesLt e.1 (v.encode.take 17)) l.enc) =
      (l.lo17 v.p17).enc := by
  induction l with
  | nil => rfl
  | cons e r ih =>
    have he : AStore.enc (e :: r) = (e.1.encode, e.2) :: AStore.enc r := rfl
    rw [he, List.takeWhile_cons, AStore.lo17, List.takeWhile_cons]
    by_cases h : e.1.p17 < v.p17
    · rw [if_pos ((VKey.bytesLt_take17 _ _).mpr h), if_pos (by simpa using h), ih]
      rfl
    · rw [if_neg (mt (VKey.bytesLt_take17 _ _).mp h), if_neg (by simpa using h)]
      rfl

theorem seek17 (l : AStore) (v : VKey) :
    (Bucket.seek l.enc (v.encode.take 17)) = ⟨l.enc, (l.lo17 v.p17).length⟩ := by
  rw [Bucket.seek, takeWhile17_enc]
  simp only [AStore.enc, List.length_map]

theorem seek17_cur (l : AStore) (v : VKey) :
    (Bucket.seek l.enc (v.encode.take 17)).cur =
      ((l.hi17 v.p17).head?).map fun e => (e.1.encode, e.2) := by
  rw [seek17, Cursor.cur, enc_getElem?]
  have : (l.lo17 v.p17 ++ l.hi17 v.p17)[(l.lo17 v.p17).length]? = (l.hi17 v.p17).head? :=
    append_getElem?_length _ _
  rw [AStore.lo17, AStore.hi17, List.takeWhile_append_dropWhile] at this
  rw [AStore.lo17, AStore.hi17, this]

/-- Decoded version of `lowerBound` with the 17 byte prefix. -/
theorem lowerBound_enc (l : AStore) (o : UInt64) (k : Key) (gen : UInt64) :
    lowerBound l.enc o k gen keyV2Offset =
      .ok (match (l.hi17 (VKey.mk o k 0).p17).head? with
        | none => KL0
        | some e => if e.1.p17 = (VKey.mk o k 0).p17 then e.1.key else KL0) := by
  have h17 : keyV2Offset = 17 := by decide
  have e1 : newIndexKey o k 0 = (VKey.mk o k 0).encode := rfl
  simp only [lowerBound, h17, e1, keyTo_encode _ 17 (by omega), Go.ok_bind, seek17_cur]
  cases hh : (l.hi17 (VKey.mk o k 0).p17).head? with
  | none => rfl
  | some e =>
    simp only [Option.map_some, keyTo_encode _ 17 (by omega), Go.ok_bind]
    by_cases h1 : e.1.p17 = (VKey.mk o k 0).p17
    · rw [if_neg (by rw [Ne, Classical.not_not]; exact take17_p17.mpr h1), if_pos h1, seek17]
      have : List.drop ((l.lo17 (VKey.mk o k 0).p17).length + 1) l.enc =
          AStore.enc (l.drop ((l.lo17 (VKey.mk o k 0).p17).length + 1)) := by
        simp only [AStore.enc, List.map_drop]
      simp only [this, lowerBoundLoop_enc]
    · rw [if_pos (by rw [Ne, take17_p17]; exact h1), if_neg h1]
      rfl

/-- `find` finds a stored key. -/
theorem find_isSome {l : AStore} (h : l.Sorted) {o : UInt64} {k : Key} {G g : UInt64} {x : Bytes}
    (hm : (⟨o, k, g⟩, x) ∈ l) (hs : ∃ e ∈ l, (VKey.mk o k G).num ≤ e.1.num) :
    ∃ g' x', find l.enc o k G = .ok (some ((VKey.mk o k g').encode, x')) ∧ (⟨o, k, g'⟩, x') ∈ l ∧
      l.enc.actualChoice o k G g' := by
  cases hf : find l.enc o k G with
  | panic =>
    rw [find_panic_iff h] at hf
    obtain ⟨e, he, h2⟩ := hs
    have := hf e he
    omega
  | hang => exact absurd hf (find_ne_hang _ _ _ _)
  | ok r =>
    cases r with
    | none => exact absurd hm ((find_none_iff h _ _ _ hs).mp hf g x)
    | some e =>
      obtain ⟨ik, y⟩ := e
      obtain ⟨g', h1, h2, h3⟩ := find_some h hf
      subst h1
      exact ⟨g', y, rfl, h2, h3⟩

theorem sentinel_ge {l : AStore} {o : UInt64} {last : Key} (hok : l.ROK o last) (k : Key) (G : UInt64) :
    ∃ e ∈ l, (VKey.mk o k G).num ≤ e.1.num := by
  obtain ⟨m, hm⟩ := hok.sentinel
  exact ⟨_, hm, Nat.le_of_lt (num_lt_of_owner (ne_max_lt hok.ordinary))⟩

/-- A range over nothing. -/
theorem range_none {l : AStore} (h : l.Sorted) {o : UInt64} {first last : Key}
    (G : UInt64) (hs : ∃ e ∈ l, (VKey.mk o KL0 G).num ≤ e.1.num) (hkl : ∀ g x, (⟨o, KL0, g⟩, x) ∉ l)
    (hno : ∀ k g x, (⟨o, k, g⟩, x) ∈ l → ¬ (k.typ = first.typ ∧ k.objectID = first.objectID)) :
    (Ix.mk l.enc G).range o first last =
      .ok (⟨l.enc, none, (VKey.mk o last G).encode, ⟨[], []⟩⟩, ⟨[], []⟩) := by
  have hlb : lowerBound l.enc o first G keyV2Offset = .ok KL0 := by
    rw [lowerBound_enc]
    cases hh : (l.hi17 (VKey.mk o first 0).p17).head? with
    | none => rfl
    | some e =>
      simp only
      rw [if_neg]
      intro h1
      obtain ⟨h2, h3, h4⟩ := VKey.p17_inj.mp h1
      obtain ⟨h5, -⟩ := (AStore.hi17_sorted h _).head_min hh
      obtain ⟨h6, -⟩ := (AStore.mem_hi17 h).mp h5
      obtain ⟨⟨eo, ek, eg⟩, ex⟩ := e
      simp only at h2 h3 h4
      subst h2
      exact hno ek eg ex h6 ⟨h3, h4⟩
  have hf : find l.enc o KL0 G = .ok none :=
    (find_none_iff h _ _ _ hs).mpr fun g x => hkl g x
  have e1 : newIndexKey o last G = (VKey.mk o last G).encode := rfl
  simp only [Ix.range, hlb, Go.ok_bind, hf, Range.setTo, Range.current, Go.pure_eq, e1]

theorem range_empty {l : AStore} (h : l.Sorted) {o : UInt64} {first last : Key} (hok : l.ROK o last)
    (G : UInt64) (hno : ∀ k g x, (⟨o, k, g⟩, x) ∈ l → ¬ (k.typ = first.typ ∧ k.objectID = first.objectID)) :
    (Ix.mk l.enc G).range o first last =
      .ok (⟨l.enc, none, (VKey.mk o last G).encode, ⟨[], []⟩⟩, ⟨[], []⟩) :=
  range_none h G (sentinel_ge hok _ _) hok.noKL hno

/-- A range that starts at a stored item. -/
theorem range_start {l : AStore} (h : l.Sorted) {o : UInt64} {first last : Key} (ho : o ≠ ~~~0)
    (hs : ∃ m, (metadataVersionKey, m) ∈ l) (hin : ∀ v x, (v, x) ∈ l → v.owner = o → ∃ d, holdsItem x d)
    (G : UInt64) (hyes : ∃ k g x, (⟨o, k, g⟩, x) ∈ l ∧ k.typ = first.typ ∧ k.objectID = first.objectID) :
    ∃ k0 g0 x d, (Ix.mk l.enc G).range o first last =
        .ok (Range.at l.enc (VKey.mk o last G).encode (⟨o, k0, g0⟩, x), d) ∧
      (⟨o, k0, g0⟩, x) ∈ l ∧ Item.data ⟨x, []⟩ = .ok d ∧ l.enc.actualChoice o k0 G g0 ∧
      l.enc.firstOf o first.typ first.objectID k0 := by
  obtain ⟨k, g, x, hm, ht, hi⟩ := hyes
  have hp : (VKey.mk o first 0).p17 = (VKey.mk o k g).p17 := VKey.p17_inj.mpr ⟨rfl, ht.symm, hi.symm⟩
  obtain ⟨⟨⟨eo, k0, eg⟩, ex⟩, hh⟩ := head?_isSome_of_mem ((AStore.mem_hi17 h).mpr
    (⟨hm, Nat.le_of_eq hp⟩ : _ ∧ (VKey.mk o first 0).p17 ≤ _))
  obtain ⟨h5, hmin⟩ := (AStore.hi17_sorted h _).head_min hh
  obtain ⟨h6, h7⟩ := (AStore.mem_hi17 h).mp h5
  have h8 : (VKey.mk eo k0 eg).p17 = (VKey.mk o first 0).p17 := by
    apply Nat.le_antisymm _ h7
    rw [hp]
    exact p17_le_of_num_le (hmin _ ((AStore.mem_hi17 h).mpr ⟨hm, Nat.le_of_eq hp⟩))
  obtain ⟨h9, h10, h11⟩ := VKey.p17_inj.mp h8
  simp only at h9 h10 h11
  subst h9
  have hlb : lowerBound l.enc eo first G keyV2Offset = .ok k0 := by
    rw [lowerBound_enc, hh]
    simp only [h8, if_true]
  obtain ⟨g0, x0, hf, hm0, hch⟩ := find_isSome h (G := G) h6 (by
    obtain ⟨m, hm⟩ := hs
    exact ⟨_, hm, Nat.le_of_lt (num_lt_of_owner (ne_max_lt ho))⟩)
  obtain ⟨d0, hd0⟩ := hin _ _ hm0 rfl
  obtain ⟨s0, hs0, -⟩ := hd0.data
  have e1 : newIndexKey eo last G = (VKey.mk eo last G).encode := rfl
  refine ⟨k0, g0, x0, s0, ?_, hm0, hs0, hch, ⟨eg, enc_hasVersion.mpr ⟨ex, h6⟩⟩, h10, h11, ?_⟩
  · simp only [Ix.range, hlb, Go.ok_bind, hf, Range.setTo, Range.current, hs0, Go.pure_eq, e1,
      Range.at]
  · rintro k' ⟨g', hv⟩ ht' hi' hb
    obtain ⟨x', hx'⟩ := enc_hasVersion.mp hv
    have h12 := hmin _ ((AStore.mem_hi17 h).mpr ⟨hx', by
      rw [VKey.p17_inj.mpr (⟨rfl, ht'.symm, hi'.symm⟩ :
        (VKey.mk eo first 0).owner = (VKey.mk eo k' g').owner ∧ _ ∧ _)]
      exact Nat.le_refl _⟩)
    have h13 := p25_le_of_num_le h12
    have h14 := (key_before_iff (o := eo) (g := g') (g' := eg)).mp hb
    simp only at h13
    omega

/-- From the specification's form to the decoded one. -/
theorem rok_of {l : AStore} {o : UInt64} {last : Key} (h : l.enc.RangeOK o last)
    (hm : ∃ m, l.enc.stores metadataVersionKey m) : l.ROK o last where
  ordinary := h.ordinary
  intact v x hv ho := h.intact v x (enc_stores.mpr hv) ho
  noMaxGen k x hx := h.noMaxGen k (enc_hasVersion.mpr ⟨x, hx⟩)
  noKL g x hx := h.noKL ⟨g, enc_hasVersion.mpr ⟨x, hx⟩⟩
  sentinel := by obtain ⟨m, hm⟩ := hm; exact ⟨m, enc_stores.mp hm⟩
  closed := by
    rcases h.closed with ⟨k, ⟨g, hv⟩, hb⟩ | hc
    · obtain ⟨x, hx⟩ := enc_hasVersion.mp hv
      exact Or.inl ⟨k, g, x, hx, hb⟩
    · right
      intro f y hf hfo hmin g x hx
      refine hc f ⟨⟨y, enc_stores.mpr hf⟩, hfo, ?_⟩ ⟨g, enc_hasVersion.mpr ⟨x, hx⟩⟩
      intro w z hw hwo hb
      have := hmin w z (enc_stores.mp hw) hwo
      rw [← VKey.num_lt_iff] at hb
      omega

end Btrfscue
