import Verif.Proof.PhysicalRun
import Verif.Props.Physical
/-!
# C36, C37: what Physical does, exactly
-/

namespace Btrfscue

theorem holdsExactly.holds {x d : Bytes} (h : holdsExactly x d) : holdsItem x d := by
  obtain ⟨r, rfl, h2, h3⟩ := h
  exact ⟨r, [], by rw [List.append_nil], h2, h3⟩

theorem holdsExactly.data {x d : Bytes} (h : holdsExactly x d) : Item.data ⟨x, []⟩ = .ok ⟨d, []⟩ := by
  obtain ⟨r, rfl, h2, h3⟩ := h
  have hs : Item.size ⟨r.layout ++ d, []⟩ = .ok r.size := (C07_Item_decodes r _ _).2.2.2
  have hI : ItemLen = 25 := by decide
  have hsz : (UInt32.ofNat 25 + r.size).toNat = 25 + d.length := by
    rw [UInt32.toNat_add, h2]
    have : (UInt32.ofNat 25).toNat = 25 := by decide
    rw [this]; omega
  simp only [Item.data, hs, Go.ok_bind, hI, hsz]
  have := sub_mid r.layout d [] [] 25 (25 + d.length) (itemRec_length r) (by rw [itemRec_length])
  simpa using this

theorem offset_order {s s' g g' : UInt64} (h : (VKey.mk 3 ⟨256, 228, s⟩ g).num < (VKey.mk 3 ⟨256, 228, s'⟩ g').num) (hg : g = g') : s < s' := by
  subst hg
  rw [VKey.num_eq, VKey.num_eq, VKey.p25_eq, VKey.p25_eq] at h
  have h17 : (VKey.mk 3 ⟨256, 228, s⟩ g).p17 = (VKey.mk 3 ⟨256, 228, s'⟩ g).p17 := VKey.p17_inj.mpr ⟨rfl, rfl, rfl⟩
  rw [h17] at h
  rw [UInt64.lt_iff_toNat_lt]
  simp only at h
  omega

theorem runVersion_gen {b : Bucket} {o : UInt64} {t : UInt8} {id off off' g g' : UInt64} (h : b.runVersion o t id off g)
    (h' : b.runVersion o t id off' g') : g = g' := by
  obtain ⟨⟨s, ⟨⟨x, h1⟩, h2⟩, h3⟩, -⟩ := h
  obtain ⟨⟨s', ⟨⟨x', h1'⟩, h2'⟩, h3'⟩, -⟩ := h'
  have e : s = s' := by
    have a := h3 s' ⟨g', x', h1'⟩
    have c := h3' s ⟨g, x, h1⟩
    rw [UInt64.le_iff_toNat_le] at a c
    rw [← UInt64.toNat_inj]; omega
  subst e
  have a := h2 g' ⟨x', h1'⟩
  have c := h2' g ⟨x, h1⟩
  rw [UInt64.le_iff_toNat_le] at a c
  rw [← UInt64.toNat_inj]; omega

/-- Everything about the stripe map: the visited chunks and, if they can be read, the map. -/
theorem seenMap {b : Bucket} (hb : b.WF) {m : Bytes} (hm : b.stores metadataVersionKey m) (hok : b.RangeOK 3 (KL2 228 256)) :
    ∃ rd, ∃ items : List ((VKey × Bytes) × Slice), (Ix.mk b (~~~0)).chunks = .ok rd ∧
      Range.Yields rd (items.map fun e => (Range.at b (VKey.mk 3 (KL2 228 256) (~~~0)).encode e.1, e.2)) ∧
      items.Pairwise (fun a b => a.1.1.key.offset < b.1.1.key.offset) ∧
      ∀ w y s, ((w, y), s) ∈ items ↔ ∃ off g, b.runVersion 3 228 256 off g ∧ w = ⟨3, ⟨256, 228, off⟩, g⟩ ∧ b.stores w y ∧
        Item.data ⟨y, []⟩ = .ok s := by
  obtain ⟨l, hl, rfl⟩ := hb.exists_abs
  obtain ⟨rd, items, hr, hy, hp, hs⟩ := rangeAll_run hl ⟨m, hm⟩ hok
  refine ⟨rd, items, hr, hy, ?_, hs⟩
  refine List.Pairwise.imp_of_mem ?_ hp
  rintro ⟨⟨w, y⟩, s⟩ ⟨⟨w', y'⟩, s'⟩ ha hb' hab
  obtain ⟨off, g, h1, rfl, -⟩ := (hs _ _ _).mp ha
  obtain ⟨off', g', h1', rfl, -⟩ := (hs _ _ _).mp hb'
  exact offset_order hab (runVersion_gen h1 h1')

theorem build_ok {b : Bucket} {rd : Range × Slice} {items : List ((VKey × Bytes) × Slice)} (hr : (Ix.mk b (~~~0)).chunks = .ok rd)
    {E : Bytes} (hy : Range.Yields rd (items.map fun e => (Range.at b E e.1, e.2)))
    (f : (VKey × Bytes) × Slice → Option StripeMapEntry) (hf : ∀ e ∈ items, entryOf e = .ok (f e)) (fuel : Nat) (hfu : items.length + 1 ≤ fuel) :
    (Ix.mk b (~~~0)).buildStripeMap fuel = .ok (items.filterMap f) := by
  simp only [Ix.buildStripeMap, hr, Go.ok_bind]
  rw [rangeLoop_eq _ hy fuel _ (by simp only [List.length_map]; omega), foldRange_stripes _ _ _ f hf]
  rfl

theorem sorted_map {items : List ((VKey × Bytes) × Slice)} (hp : items.Pairwise (fun a b => a.1.1.key.offset < b.1.1.key.offset))
    {f : (VKey × Bytes) × Slice → Option StripeMapEntry} (hfo : ∀ e ∈ items, ∀ x, f e = some x → x.logical = e.1.1.key.offset) :
    (items.filterMap f).Pairwise (fun a b => a.logical < b.logical) := by
  rw [List.pairwise_filterMap]
  refine List.Pairwise.imp_of_mem ?_ hp
  intro a b ha hb' hab x hx y hy'
  rw [hfo a ha x hx, hfo b hb' y hy']
  exact hab

/-- The stripe map, and what `Physical` does with it. -/
theorem physical_core {b : Bucket} (hb : b.WF) {m : Bytes} (hm : b.stores metadataVersionKey m)
    (hok : b.RangeOK 3 (KL2 228 256)) (hin : b.SeenIntact) :
    ∃ N map, (∀ fuel, N ≤ fuel → (Ix.mk b (~~~0)).buildStripeMap fuel = .ok map) ∧
      ∀ fuel, N ≤ fuel → ∀ cache, cache = none ∨ cache = some map → ∀ logical : UInt64,
      (∀ start s, b.chunkSeen start s → start ≤ logical → (∀ start' s', b.chunkSeen start' s' → start' ≤ logical → start' ≤ start) →
        (Ix.mk b (~~~0)).physical fuel cache logical = .ok (some map, s.devID, s.offset + (logical - start))) ∧
      (∀ start s, b.chunkSeen start s → logical < start → (∀ start' s', b.chunkSeen start' s' → start ≤ start') →
        (Ix.mk b (~~~0)).physical fuel cache logical = .ok (some map, s.devID, s.offset + (logical - start))) ∧
      ((∀ start s, ¬ b.chunkSeen start s) → (Ix.mk b (~~~0)).physical fuel cache logical = .panic) := by
  obtain ⟨rd, items, hr, hy, hp, hs⟩ := seenMap hb hm hok
  have hdec : ∀ e ∈ items, ∃ start g c ss, e.1.1 = ⟨3, ⟨256, 228, start⟩, g⟩ ∧ b.runVersion 3 228 256 start g ∧
      b.chunkAt g start c ss ∧ entryOf e = .ok (ss.head?.map fun t => ⟨start, t.devID, t.offset⟩) := by
    rintro ⟨⟨w, y⟩, s⟩ he
    obtain ⟨off, g, h0, rfl, h1, h2⟩ := (hs _ _ _).mp he
    obtain ⟨c, ss, x, d, rest, h3, h4, h5, h6⟩ := hin off g h0 ⟨y, h1⟩
    obtain ⟨l, hl, rfl⟩ := hb.exists_abs
    obtain rfl := hl.unique (enc_stores.mp h1) (enc_stores.mp h3)
    obtain ⟨s', h7, h8⟩ := h4.data
    rw [h7] at h2
    cases h2
    refine ⟨off, g, c, ss, rfl, h0, ⟨y, d, rest, h3, h4, h5, h6⟩, ?_⟩
    rw [entryOf_chunk (h8.trans h5) h6]
  let f : (VKey × Bytes) × Slice → Option StripeMapEntry := fun e =>
    match entryOf e with
    | .ok o => o
    | _ => none
  have hf : ∀ e ∈ items, entryOf e = .ok (f e) := by
    intro e he
    obtain ⟨_, _, _, _, -, -, -, h⟩ := hdec e he
    simp only [f, h]
  have hfo : ∀ e ∈ items, ∀ x, f e = some x → x.logical = e.1.1.key.offset := by
    intro e he x hx
    obtain ⟨start, g, c, ss, h1, -, -, h⟩ := hdec e he
    simp only [f, h] at hx
    cases ss with
    | nil => simp at hx
    | cons t ss =>
      simp only [List.head?_cons, Option.map_some, Option.some.injEq] at hx
      rw [← hx, h1]
  have hsort := sorted_map hp hfo
  have hmem : ∀ e, e ∈ items.filterMap f ↔ ∃ s, b.chunkSeen e.logical s ∧ e.devID = s.devID ∧ e.offset = s.offset := by
    intro e
    rw [List.mem_filterMap]
    constructor
    · rintro ⟨a, ha, hfa⟩
      obtain ⟨start, g, c, ss, h1, h0, h2, h⟩ := hdec a ha
      simp only [f, h] at hfa
      cases ss with
      | nil => simp at hfa
      | cons t ss =>
        simp only [List.head?_cons, Option.map_some, Option.some.injEq] at hfa
        subst hfa
        exact ⟨t, ⟨g, c, ss, h0, h2⟩, rfl, rfl⟩
    · rintro ⟨s, ⟨g, c, ss, h0, ⟨x, d, rest, h3, h4, h5, h6⟩⟩, h7, h8⟩
      obtain ⟨s', h9, h10⟩ := h4.data
      refine ⟨((⟨3, ⟨256, 228, e.logical⟩, g⟩, x), s'), (hs _ _ _).mpr ⟨_, _, h0, rfl, h3, h9⟩, ?_⟩
      simp only [f, entryOf_chunk (h10.trans h5) h6, List.head?_cons, Option.map_some]
      rw [← h7, ← h8]
  have hstep : ∀ fuel, items.length + 1 ≤ fuel → ∀ cache, cache = none ∨ cache = some (items.filterMap f) → ∀ logical,
      (Ix.mk b (~~~0)).physical fuel cache logical = (do
        let p ← lookupStripe (items.filterMap f) logical
        return (some (items.filterMap f), p)) := by
    rintro fuel hfu cache (rfl | rfl) logical
    · simp only [Ix.physical, build_ok hr hy f hf fuel hfu, Go.ok_bind]
    · simp only [Ix.physical, Go.ok_bind]
  refine ⟨items.length + 1, items.filterMap f, fun fuel hfu => build_ok hr hy f hf fuel hfu, fun fuel hfu cache hcache logical => ⟨?_, ?_, ?_⟩⟩
  · intro start s hseen hle hmax
    rw [hstep fuel hfu cache hcache]
    have hm' : (⟨start, s.devID, s.offset⟩ : StripeMapEntry) ∈ items.filterMap f := (hmem _).mpr ⟨s, hseen, rfl, rfl⟩
    rw [lookupStripe_hit hsort hm' hle (fun e' he' hle' => by
      obtain ⟨s', h1, -⟩ := (hmem e').mp he'
      exact hmax _ s' h1 hle')]
    rfl
  · intro start s hseen hlt hmin
    rw [hstep fuel hfu cache hcache]
    have hm' : (⟨start, s.devID, s.offset⟩ : StripeMapEntry) ∈ items.filterMap f := (hmem _).mpr ⟨s, hseen, rfl, rfl⟩
    generalize hM : items.filterMap f = M at hsort hm' hmem
    cases M with
    | nil => cases hm'
    | cons e r =>
      have he : e = ⟨start, s.devID, s.offset⟩ := by
        rcases List.mem_cons.mp hm' with h | h
        · exact h.symm
        · have h1 := List.rel_of_pairwise_cons hsort h
          obtain ⟨s', h2, -⟩ := (hmem e).mp List.mem_cons_self
          have h3 := hmin _ s' h2
          rw [UInt64.lt_iff_toNat_lt] at h1
          rw [UInt64.le_iff_toNat_le] at h3
          simp only at h1
          omega
      subst he
      rw [lookupStripe_below hsort hlt]
      rfl
  · intro hno
    rw [hstep fuel hfu cache hcache]
    have : items.filterMap f = [] := by
      cases hM : items.filterMap f with
      | nil => rfl
      | cons e r =>
        obtain ⟨s, h1, -⟩ := (hmem e).mp (by rw [hM]; exact List.mem_cons_self)
        exact absurd h1 (hno _ s)
    rw [this, lookupStripe_nil]
    rfl

/-- C36, for any chunk tree whose items are intact (chunks may overlap or be of different
generations): `Physical` uses the last of the chunks seen that starts at or before the address,
whatever its length; before all of them, the first; and crashes if none is seen. -/
theorem C36_physical_exact (b : Bucket) (hb : b.WF) (m : Bytes) (hm : b.stores metadataVersionKey m)
    (hok : b.RangeOK 3 (KL2 228 256)) (hin : b.SeenIntact) :
    ∃ N map, ∀ fuel, N ≤ fuel → ∀ cache, cache = none ∨ cache = some map → ∀ logical : UInt64,
      (∀ start s, b.chunkSeen start s → start ≤ logical → (∀ start' s', b.chunkSeen start' s' → start' ≤ logical → start' ≤ start) →
        (Ix.mk b (~~~0)).physical fuel cache logical = .ok (some map, s.devID, s.offset + (logical - start))) ∧
      (∀ start s, b.chunkSeen start s → logical < start → (∀ start' s', b.chunkSeen start' s' → start ≤ start') →
        (Ix.mk b (~~~0)).physical fuel cache logical = .ok (some map, s.devID, s.offset + (logical - start))) ∧
      ((∀ start s, ¬ b.chunkSeen start s) → (Ix.mk b (~~~0)).physical fuel cache logical = .panic) := by
  obtain ⟨N, map, -, h⟩ := physical_core hb hm hok hin
  exact ⟨N, map, h⟩

/-- C37, exactly: with the items stored as recon does, `Physical` returns if and only if every
chunk item seen has a number of stripes and, unless it is zero, a first stripe, and one of them
has stripes; otherwise it crashes, whatever the address. -/
theorem C37_returns_iff (b : Bucket) (hb : b.WF) (m : Bytes) (hm : b.stores metadataVersionKey m)
    (hok : b.RangeOK 3 (KL2 228 256)) (hex : ∀ v x, b.stores v x → v.owner = 3 → ∃ d, holdsExactly x d) :
    ∃ N, ∀ fuel, N ≤ fuel → ∀ logical,
      (((Ix.mk b (~~~0)).physical fuel none logical).isOk = true ↔
        (∀ d, b.chunkData d → firstStripeThere d) ∧ ∃ d, b.chunkData d ∧ ¬ noStripes d) ∧
      ((Ix.mk b (~~~0)).physical fuel none logical ≠ .hang) := by
  obtain ⟨rd, items, hr, hy, hp, hs⟩ := seenMap hb hm hok
  have hdec : ∀ e ∈ items, ∃ d, e.2 = ⟨d, []⟩ ∧ b.chunkData d := by
    rintro ⟨⟨w, y⟩, s⟩ he
    obtain ⟨off, g, h0, rfl, h1, h2⟩ := (hs _ _ _).mp he
    obtain ⟨d, hd⟩ := hex _ _ h1 rfl
    rw [hd.data] at h2
    cases h2
    exact ⟨d, rfl, off, g, y, h0, h1, hd⟩
  have hcd : ∀ d, b.chunkData d → ∃ e ∈ items, e.2 = ⟨d, []⟩ := by
    rintro d ⟨start, g, x, h0, h1, h2⟩
    exact ⟨((⟨3, ⟨256, 228, start⟩, g⟩, x), ⟨d, []⟩), (hs _ _ _).mpr ⟨_, _, h0, rfl, h1, h2.data⟩, rfl⟩
  have hent : ∀ e ∈ items, ∀ d, e.2 = ⟨d, []⟩ →
      ((∃ o, entryOf e = .ok o ∧ (o.isSome ↔ ¬ noStripes d) ∧ ∀ x, o = some x → x.logical = e.1.1.key.offset) ∧ firstStripeThere d) ∨
      (entryOf e = .panic ∧ ¬ firstStripeThere d) := by
    rintro ⟨⟨w, y⟩, s⟩ - d rfl
    exact entryOf_iff w y d
  refine ⟨items.length + 1, fun fuel hfu logical => ?_⟩
  by_cases hall : ∀ d, b.chunkData d → firstStripeThere d
  · let f : (VKey × Bytes) × Slice → Option StripeMapEntry := fun e =>
      match entryOf e with
      | .ok o => o
      | _ => none
    have hf : ∀ e ∈ items, entryOf e = .ok (f e) := by
      intro e he
      obtain ⟨d, h1, h2⟩ := hdec e he
      rcases hent e he d h1 with ⟨⟨o, h3, -⟩, -⟩ | ⟨-, h3⟩
      · simp only [f, h3]
      · exact absurd (hall d h2) h3
    have hfs : ∀ e ∈ items, ∀ d, e.2 = ⟨d, []⟩ → ((f e).isSome ↔ ¬ noStripes d) ∧ ∀ x, f e = some x → x.logical = e.1.1.key.offset := by
      intro e he d hd
      obtain ⟨d', h1, h2⟩ := hdec e he
      rw [hd] at h1
      cases h1
      rcases hent e he d hd with ⟨⟨o, h3, h4⟩, -⟩ | ⟨-, h3⟩
      · simp only [f, h3]; exact h4
      · exact absurd (hall d h2) h3
    have hsort := sorted_map hp (f := f) (fun e he x hx => by
      obtain ⟨d, h1, -⟩ := hdec e he
      exact (hfs e he d h1).2 x hx)
    simp only [Ix.physical, build_ok hr hy f hf fuel hfu, Go.ok_bind]
    by_cases hex2 : ∃ d, b.chunkData d ∧ ¬ noStripes d
    · obtain ⟨d, h1, h2⟩ := hex2
      obtain ⟨e, he, hd⟩ := hcd d h1
      obtain ⟨x, hx⟩ := Option.isSome_iff_exists.mp ((hfs e he d hd).1.mpr h2)
      have hne : items.filterMap f ≠ [] := List.ne_nil_of_mem (List.mem_filterMap.mpr ⟨e, he, hx⟩)
      obtain ⟨e', -, hl⟩ := lookupStripe_total hsort hne logical
      rw [hl]
      simp only [Go.ok_bind, Go.pure_eq]
      exact ⟨⟨fun _ => ⟨hall, d, h1, h2⟩, fun _ => rfl⟩, by simp⟩
    · have hnil : items.filterMap f = [] := by
        cases hM : items.filterMap f with
        | nil => rfl
        | cons x r =>
          obtain ⟨e, he, hx⟩ := List.mem_filterMap.mp (by rw [hM]; exact List.mem_cons_self : x ∈ items.filterMap f)
          obtain ⟨d, h1, h2⟩ := hdec e he
          exact absurd ⟨d, h2, (hfs e he d h1).1.mp (by rw [hx]; rfl)⟩ hex2
      rw [hnil, lookupStripe_nil]
      simp only [Go.panic_bind]
      exact ⟨⟨fun h => by simp at h, fun h => absurd h.2 hex2⟩, by simp⟩
  · have hbad : ∃ e ∈ items, entryOf e = .panic := by
      simp only [Classical.not_forall] at hall
      obtain ⟨d, h1, h2⟩ := hall
      obtain ⟨e, he, hd⟩ := hcd d h1
      rcases hent e he d hd with ⟨-, h3⟩ | ⟨h3, -⟩
      · exact absurd h3 h2
      · exact ⟨e, he, h3⟩
    have hany : ∀ e ∈ items, (∃ o, entryOf e = .ok o) ∨ entryOf e = .panic := by
      intro e he
      obtain ⟨d, h1, -⟩ := hdec e he
      rcases hent e he d h1 with ⟨⟨o, h3, -⟩, -⟩ | ⟨h3, -⟩
      · exact Or.inl ⟨o, h3⟩
      · exact Or.inr h3
    have hp' : (Ix.mk b (~~~0)).buildStripeMap fuel = .panic := by
      simp only [Ix.buildStripeMap, hr, Go.ok_bind]
      rw [rangeLoop_eq _ hy fuel _ (by simp only [List.length_map]; omega), foldRange_panic _ _ _ hany hbad]
      rfl
    simp only [Ix.physical, hp', Go.panic_bind]
    exact ⟨⟨fun h => by simp at h, fun h => absurd h.1 hall⟩, by simp⟩

/-! ## An example: `exMixedChunks`, where the second chunk is of a newer generation -/

theorem mkItem_exactly (k : Key) (d : Bytes) (h : d.length + 25 < 2 ^ 32) : holdsExactly (mkItem k d) d :=
  ⟨⟨k, 0, UInt32.ofNat d.length⟩, rfl, by simp only [UInt32.toNat_ofNat']; omega, h⟩

theorem exMixedChunks_items {v : VKey} {x : Bytes} (h : exMixedChunks.enc.stores v x) (ho : v.owner = 3) :
    (v = ⟨3, ⟨1, 216, 1⟩, 7⟩ ∧ x = mkItem ⟨1, 216, 1⟩ []) ∨
    (v = ⟨3, ⟨256, 228, 0x1000000⟩, 7⟩ ∧ x = exChunk 0x1000000 0x800000 1 0x100000) ∨
    (v = ⟨3, ⟨256, 228, 0x1800000⟩, 9⟩ ∧ x = exChunk 0x1800000 0x800000 2 0x900000) := by
  have hv := enc_stores.mp h
  simp only [exMixedChunks, List.mem_cons, List.not_mem_nil, or_false, Prod.mk.injEq] at hv
  rcases hv with hv | hv | hv | ⟨rfl, -⟩
  · exact Or.inl hv
  · exact Or.inr (Or.inl hv)
  · exact Or.inr (Or.inr hv)
  · exact absurd ho (by decide)

theorem exMixedChunks_rangeOK : exMixedChunks.enc.RangeOK 3 (KL2 228 256) where
  ordinary := by decide
  intact v x hv hvo := by
    rcases exMixedChunks_items hv hvo with ⟨-, rfl⟩ | ⟨-, rfl⟩ | ⟨-, rfl⟩
    · exact ⟨_, mkItem_holds _ _ (by decide)⟩
    · exact exChunk_holds _ _ _ _
    · exact exChunk_holds _ _ _ _
  noMaxGen k hk := by
    obtain ⟨x, hx⟩ := enc_hasVersion.mp hk
    have : ∀ e ∈ exMixedChunks, e.1.owner = 3 → e.1.gen ≠ ~~~0 := by decide +kernel
    exact this _ hx rfl rfl
  noKL hk := by
    obtain ⟨g, x, hx⟩ := enc_hasKey.mp hk
    have : ∀ e ∈ exMixedChunks, e.1.owner = 3 → e.1.key ≠ KL0 := by decide +kernel
    exact this _ hx rfl rfl
  closed := by
    refine Or.inr fun f hf hk => ?_
    obtain ⟨⟨x, hx⟩, hgt, -⟩ := hf
    obtain ⟨g, y, hy⟩ := enc_hasKey.mp hk
    have h1 : ∀ e ∈ exMixedChunks, 3 < e.1.owner → e.1.key = KL0 := by decide +kernel
    have h2 : ∀ e ∈ exMixedChunks, e.1.owner = 3 → e.1.key ≠ KL0 := by decide +kernel
    have h3 : f.key = KL0 := h1 (f, x) (enc_stores.mp hx) hgt
    exact h2 _ hy rfl h3

theorem exMixedChunks_run : exMixedChunks.enc.runVersion 3 228 256 0x1000000 7 := by
  have hv : exMixedChunks.enc.hasVersion 3 ⟨256, 228, 0x1000000⟩ 7 :=
    enc_hasVersion.mpr ⟨exChunk 0x1000000 0x800000 1 0x100000, by simp only [exMixedChunks, List.mem_cons, true_or, or_true]⟩
  refine ⟨⟨0x1000000, ⟨hv, fun g' hg' => ?_⟩, fun off' hk => ?_⟩, fun off' hk hle => ?_⟩
  · obtain ⟨x, hx⟩ := enc_hasVersion.mp hg'
    have : ∀ e ∈ exMixedChunks, e.1.owner = 3 → e.1.key = ⟨256, 228, 0x1000000⟩ → e.1.gen ≤ 7 := by decide +kernel
    exact this _ hx rfl rfl
  · obtain ⟨g, x, hx⟩ := enc_hasKey.mp hk
    have : ∀ e ∈ exMixedChunks, e.1.owner = 3 → e.1.key.typ = 228 → 0x1000000 ≤ e.1.key.offset := by decide +kernel
    exact this _ hx rfl rfl
  · obtain ⟨g, x, hx⟩ := enc_hasKey.mp hk
    have : ∀ e ∈ exMixedChunks, e.1.owner = 3 → e.1.key.typ = 228 → e.1.key.offset ≤ 0x1000000 → e.1.key.offset = 0x1000000 := by decide +kernel
    have h := this _ hx rfl rfl hle
    simp only at h
    rw [h]
    exact hv

/-- The hypotheses of `C36_physical_exact` and of `C37_returns_iff` are met, the first chunk is
seen, the second is not. -/
example : exMixedChunks.enc.WF ∧ exMixedChunks.enc.stores metadataVersionKey [] ∧ exMixedChunks.enc.RangeOK 3 (KL2 228 256) ∧
    exMixedChunks.enc.SeenIntact ∧ (∀ v x, exMixedChunks.enc.stores v x → v.owner = 3 → ∃ d, holdsExactly x d) ∧
    (∃ s, exMixedChunks.enc.chunkSeen 0x1000000 s) ∧ ¬ ∃ s, exMixedChunks.enc.chunkSeen 0x1800000 s := by
  refine ⟨AStore.enc_wf (sorted_of_before (by decide +kernel)), enc_stores.mpr (by simp [exMixedChunks]), exMixedChunks_rangeOK, ?_, ?_,
    ⟨_, 7, _, _, exMixedChunks_run, exChunk_at (by simp only [exMixedChunks, List.mem_cons]; right; left; rfl)⟩, ?_⟩
  · rintro start g - ⟨x, hx⟩
    rcases exMixedChunks_items hx rfl with ⟨h, rfl⟩ | ⟨h, rfl⟩ | ⟨h, rfl⟩
    · simp only [VKey.mk.injEq, Key.mk.injEq] at h; exact absurd h.2.1.1 (by decide)
    · simp only [VKey.mk.injEq, Key.mk.injEq] at h
      obtain ⟨-, ⟨-, -, rfl⟩, rfl⟩ := h
      exact ⟨_, _, exChunk_at (enc_stores.mp hx)⟩
    · simp only [VKey.mk.injEq, Key.mk.injEq] at h
      obtain ⟨-, ⟨-, -, rfl⟩, rfl⟩ := h
      exact ⟨_, _, exChunk_at (enc_stores.mp hx)⟩
  · intro v x hx ho
    rcases exMixedChunks_items hx ho with ⟨-, rfl⟩ | ⟨-, rfl⟩ | ⟨-, rfl⟩
    · exact ⟨_, mkItem_exactly _ _ (by decide)⟩
    · unfold exChunk; exact ⟨_, mkItem_exactly _ _ (by decide +kernel)⟩
    · unfold exChunk; exact ⟨_, mkItem_exactly _ _ (by decide +kernel)⟩
  · rintro ⟨s, g, c, ss, h1, x, d, rest, h2, -⟩
    have hg := runVersion_gen exMixedChunks_run h1
    subst hg
    rcases exMixedChunks_items h2 rfl with ⟨h, -⟩ | ⟨h, -⟩ | ⟨h, -⟩
    · simp only [VKey.mk.injEq, Key.mk.injEq] at h; exact absurd h.2.1.1 (by decide)
    · simp only [VKey.mk.injEq, Key.mk.injEq] at h; exact absurd h.2.1.2.2 (by decide)
    · simp only [VKey.mk.injEq, Key.mk.injEq] at h; exact absurd h.2.2 (by decide)

end Btrfscue
