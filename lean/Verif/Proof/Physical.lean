import Verif.Spec.Physical
import Verif.Proof.RangeAll
/-! # The stripe map -/

namespace Btrfscue

theorem goSearch_spec (f : Nat → Bool) (n : Nat) (hmono : ∀ a b, a ≤ b → b < n → f a = true → f b = true) :
    ∀ i j, i ≤ j → j ≤ n → (∀ k, k < i → f k = false) → (∀ k, j ≤ k → k < n → f k = true) →
      goSearch f i j ≤ n ∧ (∀ k, k < goSearch f i j → f k = false) ∧
      ∀ k, goSearch f i j ≤ k → k < n → f k = true := by
  intro i j
  induction hm : j - i using Nat.strongRecOn generalizing i j with
  | _ m ih =>
    intro hij hjn hlo hhi
    unfold goSearch
    by_cases h : i < j
    · rw [dif_pos h]
      by_cases hf : f ((i + j) / 2) = true
      · rw [if_pos hf]
        refine ih _ (by omega) i _ rfl (by omega) (by omega) hlo ?_
        intro k hk hkn
        exact hmono _ _ hk hkn hf
      · rw [if_neg hf]
        refine ih _ (by omega) _ j rfl (by omega) hjn ?_ hhi
        intro k hk
        by_cases hfk : f k = true
        · exact absurd (hmono k _ (by omega) (by omega) hfk) hf
        · simpa using hfk
    · rw [dif_neg h]
      refine ⟨by omega, hlo, fun k hk hkn => hhi k (by omega) hkn⟩

theorem lookupStripe_hit {m : List StripeMapEntry}
    (hs : m.Pairwise fun a b => a.logical < b.logical) {e : StripeMapEntry} (he : e ∈ m)
    {a : UInt64} (hle : e.logical ≤ a)
    (hmax : ∀ e' ∈ m, e'.logical ≤ a → e'.logical ≤ e.logical) :
    lookupStripe m a = .ok (e.devID, e.offset + (a - e.logical)) := by
  obtain ⟨p, hp, rfl⟩ := List.mem_iff_getElem.mp he
  have hpair := List.pairwise_iff_getElem.mp hs
  have hlt : ∀ i j (hi : i < m.length) (hj : j < m.length), i < j → m[i].logical.toNat < m[j].logical.toNat := by
    intro i j hi hj hij
    exact UInt64.lt_iff_toNat_lt.mp (hpair i j hi hj hij)
  have hadd : ∀ x y z : UInt64, x + y - z = x + (y - z) := by
    intro x y z
    rw [UInt64.sub_eq_add_neg, UInt64.sub_eq_add_neg, UInt64.add_assoc]
  obtain ⟨h1, h2, h3⟩ := goSearch_spec (fun i => m[i]?.any fun e => decide (a ≤ e.logical)) m.length (by
      intro i j hij hj hfi
      simp only [List.getElem?_eq_getElem hj, List.getElem?_eq_getElem (show i < m.length by omega), Option.any_some,
        decide_eq_true_eq, UInt64.le_iff_toNat_le] at hfi ⊢
      rcases Nat.lt_or_eq_of_le hij with h | h
      · have := hlt i j (by omega) hj h; omega
      · subst h; exact hfi) 0 m.length (Nat.zero_le _) (Nat.le_refl _) (by intro k hk; omega)
      (by intro k hk hkn; omega)
  generalize hq : goSearch _ 0 m.length = q at h1 h2 h3
  have hfk : ∀ k (hk : k < m.length), (m[k]?.any fun e => decide (a ≤ e.logical)) = decide (a ≤ m[k].logical) := by
    intro k hk; simp only [List.getElem?_eq_getElem hk, Option.any_some]
  rw [UInt64.le_iff_toNat_le] at hle
  -- position of the search result
  have hcase : (q = p ∧ m[p].logical = a) ∨ (q = p + 1 ∧ m[p].logical ≠ a ∧
      ∀ h : p + 1 < m.length, m[p + 1].logical ≠ a) := by
    by_cases hex : m[p].logical = a
    · left
      refine ⟨?_, hex⟩
      rcases Nat.lt_trichotomy q p with h | h | h
      · have := h3 q (Nat.le_refl _) (by omega)
        rw [hfk q (by omega), decide_eq_true_eq, UInt64.le_iff_toNat_le] at this
        have := hlt q p (by omega) hp h
        rw [hex] at this
        omega
      · exact h
      · have := h2 p h
        rw [hfk p hp, decide_eq_false_iff_not, UInt64.le_iff_toNat_le, hex] at this
        omega
    · right
      have hne : m[p].logical.toNat ≠ a.toNat := fun h => hex (UInt64.toNat_inj.mp h)
      refine ⟨?_, hex, ?_⟩
      · rcases Nat.lt_trichotomy q (p + 1) with h | h | h
        · have := h3 p (by omega) hp
          rw [hfk p hp, decide_eq_true_eq, UInt64.le_iff_toNat_le] at this
          omega
        · exact h
        · have hp1 : p + 1 < m.length := by omega
          have := h2 (p + 1) h
          rw [hfk _ hp1, decide_eq_false_iff_not, UInt64.le_iff_toNat_le] at this
          have h5 := hmax m[p + 1] (List.getElem_mem hp1) (by rw [UInt64.le_iff_toNat_le]; omega)
          rw [UInt64.le_iff_toNat_le] at h5
          have := hlt p (p + 1) hp hp1 (by omega)
          omega
      · intro hp1 heq
        have h5 := hmax m[p + 1] (List.getElem_mem hp1) (by rw [UInt64.le_iff_toNat_le, heq]; omega)
        rw [UInt64.le_iff_toNat_le] at h5
        have := hlt p (p + 1) hp hp1 (by omega)
        omega
  have hget : m[p]? = some m[p] := List.getElem?_eq_getElem hp
  rcases hcase with ⟨rfl, hex⟩ | ⟨rfl, hex, hnx⟩
  · simp only [lookupStripe, hq, hget, Option.all_some, hex, ne_eq, not_true, decide_false, Bool.false_eq_true, and_false,
      or_false]
    rw [if_neg (by omega), if_neg (by omega), Int.toNat_natCast, hget]
    simp only [hadd, hex]
  · have hcond : (p + 1 = m.length) ∨ (0 < p + 1 ∧ (m[p + 1]?.all fun e => decide (e.logical ≠ a)) = true) := by
      by_cases h : p + 1 < m.length
      · right
        refine ⟨by omega, ?_⟩
        simp only [List.getElem?_eq_getElem h, Option.all_some, hnx h, ne_eq, not_false_iff, decide_true]
      · left; omega
    have hi : ((p + 1 : Nat) : Int) - 1 = (p : Int) := by omega
    simp only [lookupStripe, hq]
    rw [if_pos hcond, hi, if_neg (by omega), Int.toNat_natCast, hget]
    simp only [hadd]

/-! ## Building the map -/

/-- What one chunk item contributes. -/
def entryOf (e : (VKey × Bytes) × Slice) : Go (Option StripeMapEntry) := do
  if (← Chunk.numStripes e.2) = 0 then return none
  else
    let st ← Chunk.stripe e.2 0
    return some ⟨e.1.1.key.offset, ← Stripe.devID st, ← Stripe.offset st⟩

theorem key_encode (v : VKey) : KeyV2.key v.encode = .ok v.key := by
  exact KeyV2_key_new _ _ _

theorem stripeMapBody_eq (s : List StripeMapEntry) (b : Bucket) (E : Bytes) (e : (VKey × Bytes) × Slice) :
    stripeMapBody s (Range.at b E e.1) e.2 = (do
      let o ← entryOf e
      return (s ++ o.toList, false)) := by
  have hk : (Range.at b E e.1).rKey = .ok e.1.1.key := key_encode _
  simp only [stripeMapBody, entryOf, hk, Go.ok_bind]
  cases Chunk.numStripes e.2 with
  | panic => rfl
  | hang => rfl
  | ok n =>
    simp only [Go.ok_bind]
    by_cases h : n = 0
    · simp [h]
    · simp only [if_neg h]
      cases Chunk.stripe e.2 0 with
      | panic => rfl
      | hang => rfl
      | ok st =>
        simp only [Go.ok_bind]
        cases Stripe.devID st with
        | panic => rfl
        | hang => rfl
        | ok d =>
          simp only [Go.ok_bind]
          cases Stripe.offset st with
          | panic => rfl
          | hang => rfl
          | ok o => rfl

theorem foldRange_stripes (b : Bucket) (E : Bytes) (items : List ((VKey × Bytes) × Slice))
    (f : (VKey × Bytes) × Slice → Option StripeMapEntry) (hf : ∀ e ∈ items, entryOf e = .ok (f e))
    (s : List StripeMapEntry) :
    foldRange stripeMapBody s (items.map fun e => (Range.at b E e.1, e.2)) =
      .ok (s ++ items.filterMap f, false) := by
  induction items generalizing s with
  | nil => simp [foldRange]
  | cons e r ih =>
    simp only [List.map_cons, foldRange, stripeMapBody_eq, hf e List.mem_cons_self, Go.ok_bind, Go.pure_eq,
      Bool.false_eq_true, if_false]
    rw [ih (fun e he => hf e (List.mem_cons_of_mem _ he)), List.filterMap_cons]
    cases f e <;> simp

theorem entryOf_chunk {v : VKey} {x : Bytes} {s : Slice} {c : ChunkRec} {ss : List StripeRec} {rest : Bytes}
    (hs : Slice.data s = c.layout ++ (stripesLayout ss ++ rest)) (hn : c.numStripes.toNat = ss.length) :
    entryOf ((v, x), s) = .ok (ss.head?.map fun t => ⟨v.key.offset, t.devID, t.offset⟩) := by
  obtain ⟨d, tl⟩ := s
  simp only at hs
  subst hs
  have h1 : Chunk.numStripes ⟨c.layout ++ (stripesLayout ss ++ rest), tl⟩ = .ok c.numStripes :=
    (C07_Chunk_decodes c _ tl).2.2.2.2.2.2.2.2.1
  simp only [entryOf, h1, Go.ok_bind]
  cases ss with
  | nil =>
    have : c.numStripes = 0 := by
      rw [← UInt16.toNat_inj]; exact hn
    simp [this]
  | cons t ss =>
    have hne : ¬ c.numStripes = 0 := by
      intro h; rw [h] at hn; simp at hn
    obtain ⟨st, h2, h3, h4, -⟩ := C11_stripe_partial c (t :: ss) rest tl 0 t rfl (by decide)
    rw [if_neg hne]
    simp only [h2, Go.ok_bind, h3, h4, Go.pure_eq, List.head?_cons, Option.map_some]

theorem buildStripeMap_spec {b : Bucket} (hb : b.WF) (hm : ∃ m, b.stores metadataVersionKey m)
    (hok : b.RangeOK 3 (KL2 228 256)) {g : UInt64} (hc : b.ChunksOK g) :
    ∃ N m, (∀ fuel, N ≤ fuel → (Ix.mk b (~~~0)).buildStripeMap fuel = .ok m) ∧
      m.Pairwise (fun a b => a.logical < b.logical) ∧
      ∀ e, e ∈ m ↔ ∃ c s ss, b.chunkAt g e.logical c (s :: ss) ∧ e.devID = s.devID ∧
        e.offset = s.offset := by
  obtain ⟨l, hl, rfl⟩ := hb.exists_abs
  obtain ⟨rd, items, hr, hy, hp, hs⟩ := rangeAll_single hl hm hok (fun off hk => (hc off hk).1)
  have hdec : ∀ e ∈ items, ∃ start c ss, e.1.1 = ⟨3, ⟨256, 228, start⟩, g⟩ ∧
      l.enc.chunkAt g start c ss ∧
      entryOf e = .ok (ss.head?.map fun t => ⟨start, t.devID, t.offset⟩) := by
    rintro ⟨⟨w, y⟩, s⟩ he
    obtain ⟨off, rfl, h1, h2⟩ := (hs _ _ _).mp he
    obtain ⟨-, c, ss, x, d, rest, h3, h4, h5, h6⟩ := hc off ⟨g, y, h1⟩
    obtain rfl := hl.unique (enc_stores.mp h1) (enc_stores.mp h3)
    obtain ⟨s', h7, h8⟩ := h4.data
    rw [h7] at h2
    cases h2
    refine ⟨off, c, ss, rfl, ⟨y, d, rest, h3, h4, h5, h6⟩, ?_⟩
    rw [entryOf_chunk (h8.trans h5) h6]
  let f : (VKey × Bytes) × Slice → Option StripeMapEntry := fun e =>
    match entryOf e with
    | .ok o => o
    | _ => none
  have hf : ∀ e ∈ items, entryOf e = .ok (f e) := by
    intro e he
    obtain ⟨_, _, _, -, -, h⟩ := hdec e he
    simp only [f, h]
  have hfo : ∀ e ∈ items, ∀ x, f e = some x → x.logical = e.1.1.key.offset := by
    intro e he x hx
    obtain ⟨start, c, ss, h1, -, h⟩ := hdec e he
    simp only [f, h] at hx
    cases ss with
    | nil => simp at hx
    | cons t ss =>
      simp only [List.head?_cons, Option.map_some, Option.some.injEq] at hx
      rw [← hx, h1]
  refine ⟨items.length + 1, items.filterMap f, ?_, ?_, ?_⟩
  · intro fuel hfu
    have hr' : (Ix.mk l.enc (~~~0)).chunks = .ok rd := hr
    simp only [Ix.buildStripeMap, hr', Go.ok_bind]
    rw [rangeLoop_eq _ hy fuel _ (by simp only [List.length_map]; omega),
      foldRange_stripes _ _ _ f hf]
    rfl
  · rw [List.pairwise_filterMap]
    refine List.Pairwise.imp_of_mem ?_ hp
    intro a b ha hb' hab x hx y hy'
    rw [hfo a ha x hx, hfo b hb' y hy', UInt64.lt_iff_toNat_lt]
    obtain ⟨sa, _, _, h1, -⟩ := hdec a ha
    obtain ⟨sb, _, _, h2, -⟩ := hdec b hb'
    rw [h1, h2] at hab
    rw [h1, h2]
    rw [VKey.num_eq, VKey.num_eq, VKey.p25_eq, VKey.p25_eq] at hab
    have h17 : (VKey.mk 3 ⟨256, 228, sa⟩ g).p17 = (VKey.mk 3 ⟨256, 228, sb⟩ g).p17 :=
      VKey.p17_inj.mpr ⟨rfl, rfl, rfl⟩
    rw [h17] at hab
    simp only at hab ⊢
    omega
  · intro e
    rw [List.mem_filterMap]
    constructor
    · rintro ⟨a, ha, hfa⟩
      obtain ⟨start, c, ss, h1, h2, h⟩ := hdec a ha
      simp only [f, h] at hfa
      cases ss with
      | nil => simp at hfa
      | cons t ss =>
        simp only [List.head?_cons, Option.map_some, Option.some.injEq] at hfa
        subst hfa
        exact ⟨c, t, ss, h2, rfl, rfl⟩
    · rintro ⟨c, s, ss, ⟨x, d, rest, h3, h4, h5, h6⟩, h7, h8⟩
      obtain ⟨s', h9, h10⟩ := h4.data
      refine ⟨((⟨3, ⟨256, 228, e.logical⟩, g⟩, x), s'), (hs _ _ _).mpr ⟨_, rfl, h3, h9⟩, ?_⟩
      simp only [f, entryOf_chunk (h10.trans h5) h6, List.head?_cons, Option.map_some]
      rw [← h7, ← h8]

end Btrfscue
