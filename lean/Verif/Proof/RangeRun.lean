import Verif.Proof.RangeStart
/-! # The complete run of a range -/

namespace Btrfscue

/-- Everything a loop over a well-behaved range sees. -/
theorem range_yields {l : AStore} (h : l.Sorted) {o : UInt64} {first last : Key}
    (hm : ∃ m, l.enc.stores metadataVersionKey m) (hok : l.enc.RangeOK o last) (G : UInt64) :
    ∃ rd, ∃ items : List ((VKey × Bytes) × Slice), (Ix.mk l.enc G).range o first last = .ok rd ∧
      Range.Yields rd
        (items.map fun e => (Range.at l.enc (VKey.mk o last G).encode e.1, e.2)) ∧
      items.Pairwise (fun a b => a.1.1.num < b.1.1.num) ∧
      (((∀ k, l.enc.hasKey o k → ¬ (k.typ = first.typ ∧ k.objectID = first.objectID)) ∧ items = []) ∨
       ∃ k0 g0, l.enc.firstOf o first.typ first.objectID k0 ∧ l.enc.actualChoice o k0 G g0 ∧
        ∀ w y s, ((w, y), s) ∈ items ↔ ∃ k, w = ⟨o, k, g0⟩ ∧ l.enc.stores ⟨o, k, g0⟩ y ∧
          Item.data ⟨y, []⟩ = .ok s ∧ l.enc.inRun o k0 g0 last G k) := by
  have hrok := rok_of hok hm
  by_cases hyes : ∃ k g x, (⟨o, k, g⟩, x) ∈ l ∧ k.typ = first.typ ∧ k.objectID = first.objectID
  · obtain ⟨k0, g0, x0, d0, hr, hm0, hd0, hch, hfo⟩ := range_start h hrok.ordinary hrok.sentinel hrok.intact G hyes
    obtain ⟨items, hy, hp, hmem⟩ := yields_from h hrok G _ ⟨o, k0, g0⟩ x0 rfl hm0 rfl d0 hd0
    refine ⟨_, items, hr, hy, hp, Or.inr ⟨k0, g0, hfo, hch, ?_⟩⟩
    intro w y s
    rw [hmem]
    constructor
    · rintro ⟨h1, h2, h3, h4, h5, h6, h7⟩
      obtain ⟨wo, wk, wg⟩ := w
      simp only at h3 h4
      subst h3; subst h4
      refine ⟨wk, rfl, enc_stores.mpr h1, h2, ?_, ?_, ?_⟩
      · intro hb
        have := (key_before_iff (o := wo) (g := wg) (g' := wg)).mp hb
        omega
      · rw [← VKey.num_lt_iff]; exact Nat.not_lt.mpr h6
      · rintro k' ⟨g', hv⟩ hb1 hb2
        obtain ⟨x', hx'⟩ := enc_hasVersion.mp hv
        refine enc_hasVersion.mpr (h7 _ _ hx' rfl ?_ ?_)
        · rw [key_before_iff (o := wo) (g := g') (g' := wg)] at hb1; omega
        · rw [key_before_iff (o := wo) (g := wg) (g' := g')] at hb2; omega
    · rintro ⟨k, rfl, h1, h2, h3, h4, h5⟩
      refine ⟨enc_stores.mp h1, h2, rfl, rfl, ?_, ?_, ?_⟩
      · rw [key_before_iff (o := o) (g := g0) (g' := g0)] at h3; omega
      · rw [← VKey.num_lt_iff] at h4; exact Nat.not_lt.mp h4
      · rintro ⟨uo, uk, ug⟩ z hu huo hb1 hb2
        simp only at huo
        subst huo
        refine enc_hasVersion.mp (h5 uk ⟨ug, enc_hasVersion.mpr ⟨z, hu⟩⟩ ?_ ?_)
        · rw [key_before_iff (o := uo) (g := ug) (g' := g0)]; omega
        · rw [key_before_iff (o := uo) (g := g0) (g' := ug)]; omega
  · have hno : ∀ k g x, (⟨o, k, g⟩, x) ∈ l → ¬ (k.typ = first.typ ∧ k.objectID = first.objectID) :=
      fun k g x hx hc => hyes ⟨k, g, x, hx, hc⟩
    refine ⟨_, [], range_empty h hrok G hno, .done rfl, .nil, Or.inl ⟨?_, rfl⟩⟩
    rintro k ⟨g, hv⟩
    obtain ⟨x, hx⟩ := enc_hasVersion.mp hv
    exact hno k g x hx

/-- The same for the list of keys and payloads. -/
theorem rangeItems_spec {b : Bucket} (hb : b.WF) {o : UInt64} {first last : Key}
    (hm : ∃ m, b.stores metadataVersionKey m) (hok : b.RangeOK o last) (G : UInt64) :
    ∃ N items, (∀ fuel, N ≤ fuel → rangeItems fuel ⟨b, G⟩ o first last = .ok items) ∧
      items.Pairwise (fun x y => bytesLt x.1 y.1 = true) ∧
      (((∀ k, b.hasKey o k → ¬ (k.typ = first.typ ∧ k.objectID = first.objectID)) ∧ items = []) ∨
       ∃ k0 g0, b.firstOf o first.typ first.objectID k0 ∧ b.actualChoice o k0 G g0 ∧
        ∀ ik d, (ik, d) ∈ items ↔ ∃ k x, ik = (VKey.mk o k g0).encode ∧ b.stores ⟨o, k, g0⟩ x ∧
          holdsItem x d ∧ b.inRun o k0 g0 last G k) := by
  obtain ⟨l, hl, rfl⟩ := hb.exists_abs
  obtain ⟨rd, items, hr, hy, hp, hs⟩ := range_yields hl (first := first) hm hok G
  refine ⟨items.length + 1, entriesOf (items.map fun e =>
    (Range.at l.enc (VKey.mk o last G).encode e.1, e.2)), ?_, ?_, ?_⟩
  · intro fuel hf
    simp only [rangeItems, hr, Go.ok_bind]
    exact collect_eq hy fuel (by simp only [List.length_map]; omega)
  · simp only [entriesOf, List.map_map, List.pairwise_map, Function.comp]
    exact hp.imp fun hlt => VKey.bytesLt_iff.mpr hlt
  · rcases hs with ⟨h1, rfl⟩ | ⟨k0, g0, h1, h2, h3⟩
    · exact Or.inl ⟨h1, rfl⟩
    · right
      refine ⟨k0, g0, h1, h2, ?_⟩
      intro ik d
      simp only [entriesOf, List.map_map, List.mem_map, Function.comp, Range.at, Option.getD_some,
        Prod.mk.injEq]
      constructor
      · rintro ⟨⟨⟨w, y⟩, s⟩, hmem, rfl, rfl⟩
        obtain ⟨k, rfl, h4, h5, h6⟩ := (h3 w y s).mp hmem
        obtain ⟨d', hd'⟩ := hok.intact _ _ h4 rfl
        obtain ⟨s', h7, h8⟩ := hd'.data
        rw [h7] at h5
        cases h5
        exact ⟨k, y, rfl, h4, by rw [h8]; exact hd', h6⟩
      · rintro ⟨k, x, rfl, h4, h5, h6⟩
        obtain ⟨s, h7, rfl⟩ := h5.data
        exact ⟨((⟨o, k, g0⟩, x), s), (h3 _ _ _).mpr ⟨k, rfl, h4, h7, h6⟩, rfl, rfl⟩

theorem rangeLoop_mono {σ : Type} (body : σ → Range → Slice → Go (σ × Bool)) {r : σ × Bool} :
    ∀ {fuel fuel' : Nat} {s : σ} {rd : Range × Slice}, rangeLoop body fuel s rd = .ok r → fuel ≤ fuel' →
      rangeLoop body fuel' s rd = .ok r := by
  intro fuel
  induction fuel with
  | zero => intro _ _ _ h; cases h
  | succ n ih =>
    intro fuel' s rd h hf
    obtain ⟨m, rfl⟩ : ∃ m, fuel' = m + 1 := ⟨fuel' - 1, by omega⟩
    obtain ⟨rg, d⟩ := rd
    simp only [rangeLoop] at h ⊢
    split at h
    · rename_i hn
      rw [if_pos hn]
      simp only [Go.bind_eq_ok] at h ⊢
      obtain ⟨⟨s', bk⟩, h1, h2⟩ := h
      refine ⟨(s', bk), h1, ?_⟩
      cases bk with
      | true => exact h2
      | false =>
        simp only [Bool.false_eq_true, if_false, Go.bind_eq_ok] at h2 ⊢
        obtain ⟨rd', h3, h4⟩ := h2
        exact ⟨rd', h3, ih h4 (by omega)⟩
    · rename_i hn
      rw [if_neg hn]
      exact h

/-- A loop over a range that ends gives what it gives on the complete run. -/
theorem rangeLoop_fold {σ : Type} (body : σ → Range → Slice → Go (σ × Bool)) {rd : Range × Slice}
    {items : List (Range × Slice)} (h : Range.Yields rd items) {fuel : Nat} {s : σ} {r : σ × Bool}
    (hr : rangeLoop body fuel s rd = .ok r) : foldRange body s items = .ok r := by
  have := rangeLoop_mono body hr (Nat.le_max_left fuel (items.length + 1))
  rwa [rangeLoop_eq body h _ s (by omega)] at this

/-! ## Loops that never end -/

theorem rangeLoop_hang {σ : Type} (body : σ → Range → Slice → Go (σ × Bool))
    (P : Range × Slice → Prop)
    (hP : ∀ rd, P rd → rd.1.hasNext = true ∧ ∃ rd', rd.1.next = .ok rd' ∧ P rd')
    (hb : ∀ s rd, P rd → ∃ s', body s rd.1 rd.2 = .ok (s', false)) :
    ∀ fuel s rd, P rd → rangeLoop body fuel s rd = .hang := by
  intro fuel
  induction fuel with
  | zero => intros; rfl
  | succ n ih =>
    intro s rd hp
    obtain ⟨h1, rd', h2, h3⟩ := hP rd hp
    obtain ⟨s', h4⟩ := hb s rd hp
    obtain ⟨r, d⟩ := rd
    simp only at h1 h2 h4
    simp only [rangeLoop, h1, if_true, h4, Go.ok_bind, Bool.false_eq_true, if_false, h2]
    exact ih s' rd' h3

theorem collect_hang (P : Range × Slice → Prop)
    (hP : ∀ rd, P rd → rd.1.hasNext = true ∧ ∃ rd', rd.1.next = .ok rd' ∧ P rd')
    (fuel : Nat) (rd : Range × Slice) (hp : P rd) : Range.collect fuel rd = .hang := by
  simp only [Range.collect]
  rw [rangeLoop_hang _ P hP (fun s rd _ => ⟨_, rfl⟩) fuel [] rd hp]
  rfl

end Btrfscue
