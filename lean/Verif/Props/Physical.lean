import Verif.Proof.Physical
/-!
# C36, C37: logical to physical addresses
-/

namespace Btrfscue

/-! ## C36 -/

/-- `map` is the stripe map, built by loops of at least `N` rounds, and addresses in the
chunks are translated with it. -/
structure MapOK (b : Bucket) (g : UInt64) (N : Nat) (map : List StripeMapEntry) : Prop where
  built : ∀ fuel, N ≤ fuel → (Ix.mk b (~~~0)).buildStripeMap fuel = .ok map
  phys : ∀ fuel, N ≤ fuel → ∀ cache, cache = none ∨ cache = some map →
      ∀ start c s ss (logical : UInt64), b.chunkAt g start c (s :: ss) → start ≤ logical →
        logical.toNat < start.toNat + c.length.toNat →
        (Ix.mk b (~~~0)).physical fuel cache logical =
          .ok (some map, s.devID, s.offset + (logical - start))

theorem mapOK {b : Bucket} (hb : b.WF) {m : Bytes}
    (hm : b.stores metadataVersionKey m) (hok : b.RangeOK 3 (KL2 228 256)) {g : UInt64}
    (hc : b.ChunksOK g) (hd : b.ChunksDisjoint g) : ∃ N map, MapOK b g N map := by
  obtain ⟨N, map, h1, h2, h3⟩ := buildStripeMap_spec hb ⟨m, hm⟩ hok hc
  refine ⟨N, map, h1, fun fuel hf cache hcache start c s ss logical hat hle hlt => ?_⟩
  have hmem : (⟨start, s.devID, s.offset⟩ : StripeMapEntry) ∈ map := (h3 _).mpr ⟨c, s, ss, hat, rfl, rfl⟩
  have hlook : lookupStripe map logical = .ok (s.devID, s.offset + (logical - start)) := by
    apply lookupStripe_hit h2 hmem hle
    intro e' he' hle'
    obtain ⟨c', s', ss', hat', -, -⟩ := (h3 e').mp he'
    rw [UInt64.le_iff_toNat_le] at hle' ⊢
    simp only
    rcases Nat.lt_or_ge start.toNat e'.logical.toNat with h | h
    · have := hd _ _ _ _ _ _ hat hat' (UInt64.lt_iff_toNat_lt.mpr h)
      omega
    · exact h
  rcases hcache with rfl | rfl
  · simp only [Ix.physical, h1 fuel hf, Go.ok_bind, hlook, Go.pure_eq]
  · simp only [Ix.physical, Go.ok_bind, hlook, Go.pure_eq]

/-- C36 (what is proved): on an index open for reading whose chunk items are intact, do
not overlap and have one generation, `Physical` maps every logical address inside a
chunk that has a stripe to the chunk's first stripe, and the answer does not depend on
whether, or after which calls, the cached map is used. Missing: chunk items of different
generations (`C36_mixed_generations_wrong`). -/
theorem C36_physical_partial (b : Bucket) (hb : b.WF) (m : Bytes)
    (hm : b.stores metadataVersionKey m) (hok : b.RangeOK 3 (KL2 228 256)) (g : UInt64)
    (hc : b.ChunksOK g) (hd : b.ChunksDisjoint g) :
    ∃ N map, ∀ fuel, N ≤ fuel → ∀ cache, cache = none ∨ cache = some map →
      ∀ start c s ss (logical : UInt64), b.chunkAt g start c (s :: ss) → start ≤ logical →
        logical.toNat < start.toNat + c.length.toNat →
        (Ix.mk b (~~~0)).physical fuel cache logical =
          .ok (some map, s.devID, s.offset + (logical - start)) := by
  obtain ⟨N, map, h⟩ := mapOK hb hm hok hc hd
  exact ⟨N, map, h.phys⟩

/-- A chunk item with one stripe. -/
def exChunk (start len dev off : UInt64) : Bytes :=
  mkItem ⟨256, 228, start⟩ ((ChunkRec.mk len 2 65536 1 4096 4096 4096 1 0).layout ++
    (stripesLayout [⟨dev, off, uuidAllZero⟩] ++ []))

theorem exChunk_at {l : AStore} {g start len dev off : UInt64}
    (h : (⟨3, ⟨256, 228, start⟩, g⟩, exChunk start len dev off) ∈ l) :
    l.enc.chunkAt g start ⟨len, 2, 65536, 1, 4096, 4096, 4096, 1, 0⟩ [⟨dev, off, uuidAllZero⟩] :=
  ⟨_, _, [], enc_stores.mpr h, mkItem_holds _ _ (by
    simp [ChunkRec.layout, stripesLayout, StripeRec.layout]), rfl, rfl⟩

theorem exChunk_holds (start len dev off : UInt64) : ∃ d, holdsItem (exChunk start len dev off) d :=
  ⟨_, mkItem_holds _ _ (by simp [ChunkRec.layout, stripesLayout, StripeRec.layout])⟩

attribute [irreducible] exChunk

/-- Two chunks of 8 MiB and a device item (which ends the range). -/
def exChunks : AStore :=
  [(⟨3, ⟨1, 216, 1⟩, 7⟩, mkItem ⟨1, 216, 1⟩ []),
   (⟨3, ⟨256, 228, 0x1000000⟩, 7⟩, exChunk 0x1000000 0x800000 1 0x100000),
   (⟨3, ⟨256, 228, 0x1800000⟩, 7⟩, exChunk 0x1800000 0x800000 2 0x900000),
   (metadataVersionKey, [])]

theorem exChunks_sorted : exChunks.Sorted := sorted_of_before (by decide +kernel)

theorem exChunks_rangeOK : exChunks.enc.RangeOK 3 (KL2 228 256) where
  ordinary := by decide
  intact v x hv hvo := by
    have hv := enc_stores.mp hv
    simp only [exChunks, List.mem_cons, List.not_mem_nil, or_false, Prod.mk.injEq] at hv
    rcases hv with ⟨rfl, rfl⟩ | ⟨rfl, rfl⟩ | ⟨rfl, rfl⟩ | ⟨rfl, rfl⟩
    · exact ⟨_, mkItem_holds _ _ (by decide)⟩
    · exact exChunk_holds _ _ _ _
    · exact exChunk_holds _ _ _ _
    · exact absurd hvo (by decide)
  noMaxGen k hk := by
    obtain ⟨x, hx⟩ := enc_hasVersion.mp hk
    have : ∀ e ∈ exChunks, e.1.owner = 3 → e.1.gen ≠ ~~~0 := by decide +kernel
    exact this _ hx rfl rfl
  noKL hk := by
    obtain ⟨g, x, hx⟩ := enc_hasKey.mp hk
    have : ∀ e ∈ exChunks, e.1.owner = 3 → e.1.key ≠ KL0 := by decide +kernel
    exact this _ hx rfl rfl
  closed := by
    refine Or.inr fun f hf hk => ?_
    obtain ⟨⟨x, hx⟩, hgt, -⟩ := hf
    obtain ⟨g, y, hy⟩ := enc_hasKey.mp hk
    have h1 : ∀ e ∈ exChunks, 3 < e.1.owner → e.1.key = KL0 := by decide +kernel
    have h2 : ∀ e ∈ exChunks, e.1.owner = 3 → e.1.key ≠ KL0 := by decide +kernel
    have h3 : f.key = KL0 := h1 (f, x) (enc_stores.mp hx) hgt
    exact h2 _ hy rfl h3

theorem le64_len8 (x : UInt64) : (le64 x).length = 8 := by simp [le64]

theorem exChunks_ok : exChunks.enc.ChunksOK 7 := by
  intro start hk
  obtain ⟨g, x, hx⟩ := enc_hasKey.mp hk
  have hall : ∀ e ∈ exChunks, e.1.owner = 3 → e.1.gen = 7 := by decide +kernel
  have hg := hall _ hx rfl
  simp only at hg
  subst hg
  refine ⟨⟨enc_hasVersion.mpr ⟨x, hx⟩, fun g' hg' => ?_⟩, ?_⟩
  · obtain ⟨y, hy⟩ := enc_hasVersion.mp hg'
    have := hall _ hy rfl
    simp only at this
    subst this
    exact (by decide : (7 : UInt64) ≤ 7)
  · have hx' := hx
    simp only [exChunks, List.mem_cons, List.not_mem_nil, or_false, Prod.mk.injEq, VKey.mk.injEq,
      Key.mk.injEq] at hx'
    rcases hx' with ⟨⟨-, ⟨-, h, -⟩, -⟩, -⟩ | ⟨⟨-, ⟨-, -, rfl⟩, -⟩, rfl⟩ | ⟨⟨-, ⟨-, -, rfl⟩, -⟩, rfl⟩ | ⟨h, -⟩
    · exact absurd h (by decide)
    · exact ⟨_, _, exChunk_at hx⟩
    · exact ⟨_, _, exChunk_at hx⟩
    · exact absurd (congrArg VKey.owner h) (by show ¬ (3 : UInt64) = ~~~0; decide)

/-- A chunk's length is determined by the stored item. -/
theorem chunkAt_length {l : AStore} (hl : l.Sorted) {g start : UInt64} {c c' : ChunkRec} {ss ss' : List StripeRec}
    (h : l.enc.chunkAt g start c ss) (h' : l.enc.chunkAt g start c' ss') : c.length = c'.length := by
  obtain ⟨x, d, rest, h1, h2, h3, -⟩ := h
  obtain ⟨x', d', rest', h1', h2', h3', -⟩ := h'
  obtain rfl := hl.unique (enc_stores.mp h1) (enc_stores.mp h1')
  obtain rfl := h2.unique h2'
  have e1 := (C07_Chunk_decodes c (stripesLayout ss ++ rest) []).2.1
  have e2 := (C07_Chunk_decodes c' (stripesLayout ss' ++ rest') []).2.1
  rw [← h3] at e1
  rw [← h3', e1] at e2
  exact Go.ok.inj e2

/-- The hypotheses of C36 hold for `exChunks`; a logical address in the second chunk. -/
example : exChunks.enc.WF ∧ exChunks.enc.stores metadataVersionKey [] ∧
    exChunks.enc.RangeOK 3 (KL2 228 256) ∧ exChunks.enc.ChunksOK 7 ∧ exChunks.enc.ChunksDisjoint 7 ∧
    ∃ c s ss, exChunks.enc.chunkAt 7 0x1800000 c (s :: ss) ∧ (0x1800000 : UInt64) ≤ 0x1812345 ∧
      (0x1812345 : UInt64).toNat < (0x1800000 : UInt64).toNat + c.length.toNat := by
  refine ⟨AStore.enc_wf exChunks_sorted, enc_stores.mpr (by simp [exChunks]), exChunks_rangeOK,
    exChunks_ok, ?_, _, _, _, exChunk_at (by simp only [exChunks, List.mem_cons]; right; right; left; rfl),
    by decide, by decide⟩
  intro a c ss a' c' ss' h h' hlt
  have key : ∀ a c ss, exChunks.enc.chunkAt 7 a c ss →
      (a = 0x1000000 ∨ a = 0x1800000) ∧ c.length = 0x800000 := by
    intro a c ss hat
    obtain ⟨x, d, rest, h1, -⟩ := id hat
    have hx := enc_stores.mp h1
    have hx' := hx
    simp only [exChunks, List.mem_cons, List.not_mem_nil, or_false, Prod.mk.injEq, VKey.mk.injEq,
      Key.mk.injEq] at hx'
    rcases hx' with ⟨⟨-, ⟨-, h2, -⟩, -⟩, -⟩ | ⟨⟨-, ⟨-, -, rfl⟩, -⟩, rfl⟩ | ⟨⟨-, ⟨-, -, rfl⟩, -⟩, rfl⟩ | ⟨h2, -⟩
    · exact absurd h2 (by decide)
    · have h3 := chunkAt_length exChunks_sorted hat (exChunk_at hx)
      exact ⟨Or.inl rfl, h3⟩
    · have h3 := chunkAt_length exChunks_sorted hat (exChunk_at hx)
      exact ⟨Or.inr rfl, h3⟩
    · exact absurd (congrArg VKey.owner h2) (by show ¬ (3 : UInt64) = ~~~0; decide)
  obtain ⟨ha, hcl⟩ := key _ _ _ h
  obtain ⟨ha', hcl'⟩ := key _ _ _ h'
  rw [hcl]
  rcases ha with rfl | rfl <;> rcases ha' with rfl | rfl
  · exact absurd hlt (by decide)
  · decide
  · exact absurd hlt (by decide)
  · exact absurd hlt (by decide)

/-- The same two chunks; the second was allocated (its leaf written) in generation 9. -/
def exMixedChunks : AStore :=
  [(⟨3, ⟨1, 216, 1⟩, 7⟩, mkItem ⟨1, 216, 1⟩ []),
   (⟨3, ⟨256, 228, 0x1000000⟩, 7⟩, exChunk 0x1000000 0x800000 1 0x100000),
   (⟨3, ⟨256, 228, 0x1800000⟩, 9⟩, exChunk 0x1800000 0x800000 2 0x900000),
   (metadataVersionKey, [])]

/-- C36 refuted in general: if chunk items have different generations, addresses in a
later chunk are silently mapped through the first one, here to device 1 instead of 2. -/
theorem C36_mixed_generations_wrong :
    exMixedChunks.Sorted ∧
    exMixedChunks.enc.chunkAt 9 0x1800000 ⟨0x800000, 2, 65536, 1, 4096, 4096, 4096, 1, 0⟩
      [⟨2, 0x900000, uuidAllZero⟩] ∧
    ∀ fuel, 2 ≤ fuel → ((Ix.mk exMixedChunks.enc (~~~0)).physical fuel none 0x1800000 >>= fun r =>
      pure r.2) = .ok (1, 0x900000) := by
  refine ⟨sorted_of_before (by decide +kernel), exChunk_at (by
    simp only [exMixedChunks, List.mem_cons, true_or, or_true]), fun fuel hf => ?_⟩
  have h1 : (Ix.mk exMixedChunks.enc (~~~0)).chunks.isOk = true := by decide +kernel
  obtain ⟨⟨r, d⟩, hr⟩ := Go.isOk_iff.mp h1
  have h2 : (do
      let (r, d) ← (Ix.mk exMixedChunks.enc (~~~0)).chunks
      let (s, _) ← stripeMapBody [] r d
      let (r', _) ← r.next
      return (r.hasNext, r'.hasNext, s)) = .ok (true, false, [⟨0x1000000, 1, 0x100000⟩]) := by
    decide +kernel
  obtain ⟨f, rfl⟩ : ∃ f, fuel = f + 2 := ⟨fuel - 2, by omega⟩
  simp only [hr, Go.ok_bind, Go.bind_eq_ok, Go.pure_eq, Go.ok.injEq, Prod.mk.injEq] at h2
  obtain ⟨⟨s, bk⟩, h3, ⟨r', d'⟩, h4, h5, h6, h7⟩ := h2
  simp only at h5 h6 h7
  have hbk : bk = false := by
    rw [stripeMapBody] at h3
    simp only [Go.bind_eq_ok, Go.pure_eq] at h3
    obtain ⟨n, -, h3⟩ := h3
    by_cases hn : n = 0
    · rw [if_pos hn] at h3; cases h3; rfl
    · rw [if_neg hn] at h3
      simp only [Go.bind_eq_ok] at h3
      obtain ⟨_, -, _, -, _, -, _, -, h3⟩ := h3
      cases h3; rfl
  subst hbk; subst h7
  simp only [Ix.physical, Ix.buildStripeMap, hr, Go.ok_bind, rangeLoop, h5, if_true, h3,
    Bool.false_eq_true, if_false, h4, h6, Go.pure_eq]
  decide +kernel

/-! ## C37 -/

/-- C37 (what is proved): with at least one stored chunk that has a stripe, intact chunk
items and one generation, `Physical` returns for every address. Missing: the crashes
below. -/
theorem C37_physical_returns_partial (b : Bucket) (hb : b.WF) (m : Bytes)
    (hm : b.stores metadataVersionKey m) (hok : b.RangeOK 3 (KL2 228 256)) (g : UInt64)
    (hc : b.ChunksOK g) (hne : ∃ start c s ss, b.chunkAt g start c (s :: ss)) :
    ∃ N, ∀ fuel, N ≤ fuel → ∀ logical,
      ((Ix.mk b (~~~0)).physical fuel none logical).isOk = true := by
  obtain ⟨N, map, h1, h2, h3⟩ := buildStripeMap_spec hb ⟨m, hm⟩ hok hc
  refine ⟨N, fun fuel hf logical => ?_⟩
  obtain ⟨start, c, s, ss, hat⟩ := hne
  have hmem : (⟨start, s.devID, s.offset⟩ : StripeMapEntry) ∈ map := (h3 _).mpr ⟨c, s, ss, hat, rfl, rfl⟩
  have hlook : (lookupStripe map logical).isOk = true := by
    have hpos : 0 < map.length := List.length_pos_of_mem hmem
    obtain ⟨hq, -, -⟩ := goSearch_spec (fun i => map[i]?.any fun e => decide (logical ≤ e.logical))
      map.length (by
        intro i j hij hj hfi
        have hpair := List.pairwise_iff_getElem.mp h2
        simp only [List.getElem?_eq_getElem hj, List.getElem?_eq_getElem (show i < map.length by omega),
          Option.any_some, decide_eq_true_eq, UInt64.le_iff_toNat_le] at hfi ⊢
        rcases Nat.lt_or_eq_of_le hij with h | h
        · have := UInt64.lt_iff_toNat_lt.mp (hpair i j (by omega) hj h); omega
        · subst h; exact hfi) 0 map.length (Nat.zero_le _) (Nat.le_refl _) (by intro k hk; omega)
      (by intro k hk hkn; omega)
    simp only [lookupStripe]
    generalize goSearch _ 0 map.length = q at hq
    have hget : ∀ i (h : i < map.length), map[i]? = some map[i] := fun i h => List.getElem?_eq_getElem h
    by_cases hcond : q = map.length ∨ (0 < q ∧ (map[q]?.all fun e => decide (e.logical ≠ logical)) = true)
    · rw [if_pos hcond]
      have hq0 : 0 < q := by rcases hcond with h | h <;> omega
      rw [if_neg (by omega), show ((q : Int) - 1).toNat = q - 1 by omega, hget (q - 1) (by omega)]
      rfl
    · rw [if_neg hcond]
      have : q < map.length := by
        rcases Nat.lt_or_eq_of_le hq with h | h
        · exact h
        · exact absurd (Or.inl h) hcond
      rw [if_neg (by omega), Int.toNat_natCast, hget q this]
      rfl
  obtain ⟨r, hr⟩ := Go.isOk_iff.mp hlook
  simp only [Ix.physical, h1 fuel hf, Go.ok_bind, hr, Go.pure_eq]
  rfl

example : ∃ start c s ss, exChunks.enc.chunkAt 7 start c (s :: ss) :=
  ⟨_, _, _, _, exChunk_at (by simp only [exChunks, List.mem_cons]; right; left; rfl)⟩

/-- C37 refuted: on an index without chunk items (for example of a metadata dump, or
when the chunk tree was lost) `Physical` crashes for every address. -/
theorem C37_no_chunks_crashes (b : Bucket) (hb : b.WF) (m : Bytes)
    (hm : b.stores metadataVersionKey m) (hok : b.RangeOK 3 (KL2 228 256))
    (hno : ∀ start, ¬ b.hasKey 3 ⟨256, 228, start⟩) :
    ∃ N, ∀ fuel, N ≤ fuel → ∀ logical,
      (Ix.mk b (~~~0)).physical fuel none logical = .panic := by
  obtain ⟨N, map, h1, -, h3⟩ := buildStripeMap_spec (g := 0) hb ⟨m, hm⟩ hok
    (fun start hk => absurd hk (hno start))
  have : map = [] := by
    rcases map with _ | ⟨e, r⟩
    · rfl
    · obtain ⟨c, s, ss, ⟨x, d, rest, h4, -⟩, -⟩ := (h3 e).mp List.mem_cons_self
      exact absurd ⟨0, x, h4⟩ (hno _)
  subst this
  refine ⟨N, fun fuel hf logical => ?_⟩
  have hl : lookupStripe [] logical = .panic := by
    have : goSearch (fun i => ([] : List StripeMapEntry)[i]?.any fun e => decide (logical ≤ e.logical)) 0 0 = 0 := by
      unfold goSearch; rfl
    simp only [lookupStripe, List.length_nil, this]
    rfl
  simp only [Ix.physical, h1 fuel hf, Go.ok_bind, hl, Go.panic_bind]

/-- An index holding only the metadata of a fresh scan meets these hypotheses. -/
example : Bucket.WF (AStore.enc [(metadataVersionKey, [])]) ∧
    (AStore.enc [(metadataVersionKey, [])]).stores metadataVersionKey [] ∧
    (AStore.enc [(metadataVersionKey, [])]).RangeOK 3 (KL2 228 256) ∧
    ∀ start, ¬ (AStore.enc [(metadataVersionKey, [])]).hasKey 3 ⟨256, 228, start⟩ := by
  have hno : ∀ k, ¬ (AStore.enc [(metadataVersionKey, [])]).hasKey 3 k := by
    intro k hk
    obtain ⟨g, x, hx⟩ := enc_hasKey.mp hk
    have hx := (Prod.mk.inj (List.mem_singleton.mp hx)).1
    exact absurd (congrArg VKey.owner hx) (by show ¬ (3 : UInt64) = ~~~0; decide)
  refine ⟨AStore.enc_wf (List.pairwise_singleton _ _), enc_stores.mpr (by simp), ?_, fun _ => hno _⟩
  refine ⟨by decide, ?_, fun k h => hno k ⟨_, h⟩, hno _, Or.inr fun f _ => hno _⟩
  intro v x hv hvo
  obtain ⟨rfl, rfl⟩ := Prod.mk.inj (List.mem_singleton.mp (enc_stores.mp hv))
  exact absurd hvo (by decide)

/-- C37 refuted: a chunk item that says it has a stripe but was stored without one
crashes `Physical`. -/
theorem C37_truncated_chunk_crashes (s : List StripeMapEntry) (r : Range) (c : ChunkRec)
    (hn : c.numStripes ≠ 0) : stripeMapBody s r ⟨c.layout, []⟩ = .panic ∨ (r.rKey).isOk = false := by
  have h1 : Chunk.numStripes ⟨c.layout, []⟩ = .ok c.numStripes := by
    have := (C07_Chunk_decodes c [] []).2.2.2.2.2.2.2.2.1
    rwa [List.append_nil] at this
  have hL : c.layout.length = 48 := (C07_Chunk_decodes c [] []).1
  have h2 : Chunk.stripe ⟨c.layout, []⟩ 0 = .ok ⟨[], []⟩ := by
    have e : (UInt16.ofNat chunkStripes + 0 * UInt16.ofNat stripeEnd).toNat = 48 := by decide
    rw [Chunk.stripe, e, from_eq, if_pos (by omega), List.drop_eq_nil_of_le (by omega)]
  have h3 : Stripe.devID ⟨[], []⟩ = .panic := by decide
  simp only [stripeMapBody, h1, Go.ok_bind, if_neg hn, h2]
  cases r.rKey with
  | ok k => left; simp only [Go.ok_bind, h3, Go.panic_bind]
  | panic => right; rfl
  | hang => right; rfl

end Btrfscue
