import Verif.Proof.Physical
import Verif.Proof.Bounds
/-! # The stripe map of any chunk tree -/

namespace Btrfscue

/-- Below the first entry: the first one is used all the same. -/
theorem lookupStripe_below {e : StripeMapEntry} {r : List StripeMapEntry} {a : UInt64}
    (hs : (e :: r).Pairwise fun a b => a.logical < b.logical) (hlt : a < e.logical) :
    lookupStripe (e :: r) a = .ok (e.devID, e.offset + (a - e.logical)) := by
  have hadd : ∀ x y z : UInt64, x + y - z = x + (y - z) := by
    intro x y z
    rw [UInt64.sub_eq_add_neg, UInt64.sub_eq_add_neg, UInt64.add_assoc]
  have hall : ∀ k, k < (e :: r).length → ((e :: r)[k]?.any fun e => decide (a ≤ e.logical)) = true := by
    intro k hk
    rw [List.getElem?_eq_getElem hk, Option.any_some, decide_eq_true_eq, UInt64.le_iff_toNat_le]
    rw [UInt64.lt_iff_toNat_lt] at hlt
    rcases List.mem_cons.mp (List.getElem_mem hk) with h | h
    · rw [h]; omega
    · have := List.rel_of_pairwise_cons hs h
      rw [UInt64.lt_iff_toNat_lt] at this
      omega
  obtain ⟨h1, h2, -⟩ := goSearch_spec (fun i => (e :: r)[i]?.any fun e => decide (a ≤ e.logical)) (e :: r).length
    (fun i j _ hj _ => hall j hj) 0 _ (Nat.zero_le _) (Nat.le_refl _) (by intro k hk; omega) (by intro k hk hkn; omega)
  have hq : goSearch (fun i => (e :: r)[i]?.any fun e => decide (a ≤ e.logical)) 0 (e :: r).length = 0 := by
    rcases Nat.eq_zero_or_pos (goSearch (fun i => (e :: r)[i]?.any fun e => decide (a ≤ e.logical)) 0 (e :: r).length) with h | h
    · exact h
    · have := h2 0 h
      rw [hall 0 (by simp)] at this
      cases this
  simp only [lookupStripe, hq]
  rw [if_neg (by simp)]
  simp [hadd]

theorem lookupStripe_nil (a : UInt64) : lookupStripe [] a = .panic := by
  have : goSearch (fun i => ([] : List StripeMapEntry)[i]?.any fun e => decide (a ≤ e.logical)) 0 0 = 0 := by
    unfold goSearch; rfl
  simp only [lookupStripe, List.length_nil, this]
  rfl

theorem exists_last {m : List StripeMapEntry} (P : StripeMapEntry → Prop) [DecidablePred P] (h : ∃ e ∈ m, P e) :
    ∃ e ∈ m, P e ∧ ∀ e' ∈ m, P e' → e'.logical ≤ e.logical := by
  induction m with
  | nil => obtain ⟨e, he, -⟩ := h; cases he
  | cons x r ih =>
    by_cases hr : ∃ e ∈ r, P e
    · obtain ⟨e, h1, h2, h3⟩ := ih hr
      by_cases hx : P x ∧ e.logical < x.logical
      · refine ⟨x, List.mem_cons_self, hx.1, fun e' he' hp => ?_⟩
        rcases List.mem_cons.mp he' with rfl | h
        · exact UInt64.le_refl _
        · exact UInt64.le_trans (h3 e' h hp) (UInt64.le_of_lt hx.2)
      · refine ⟨e, List.mem_cons_of_mem _ h1, h2, fun e' he' hp => ?_⟩
        rcases List.mem_cons.mp he' with rfl | h
        · exact UInt64.not_lt.mp fun h => hx ⟨hp, h⟩
        · exact h3 e' h hp
    · obtain ⟨e, h1, h2⟩ := h
      rcases List.mem_cons.mp h1 with rfl | h1
      · refine ⟨e, List.mem_cons_self, h2, fun e' he' hp => ?_⟩
        rcases List.mem_cons.mp he' with rfl | h
        · exact UInt64.le_refl _
        · exact absurd ⟨e', h, hp⟩ hr
      · exact absurd ⟨e, h1, h2⟩ hr

/-- Every address is translated with the last entry at or before it, or else with the first. -/
theorem lookupStripe_total {m : List StripeMapEntry} (hs : m.Pairwise fun a b => a.logical < b.logical) (hne : m ≠ []) (a : UInt64) :
    ∃ e ∈ m, lookupStripe m a = .ok (e.devID, e.offset + (a - e.logical)) := by
  by_cases h : ∃ e ∈ m, e.logical ≤ a
  · obtain ⟨e, h1, h2, h3⟩ := exists_last (fun e => e.logical ≤ a) h
    exact ⟨e, h1, lookupStripe_hit hs h1 h2 h3⟩
  · cases m with
    | nil => exact absurd rfl hne
    | cons e r =>
      exact ⟨e, List.mem_cons_self, lookupStripe_below hs (UInt64.not_le.mp fun hle => h ⟨e, List.mem_cons_self, hle⟩)⟩

theorem entryOf_iff (v : VKey) (x d : Bytes) :
    (∃ o, entryOf ((v, x), ⟨d, []⟩) = .ok o ∧ (o.isSome ↔ ¬ (d[44]? = some 0 ∧ d[45]? = some 0)) ∧ (∀ e, o = some e → e.logical = v.key.offset)) ∧
        (46 ≤ d.length ∧ ((d[44]? = some 0 ∧ d[45]? = some 0) ∨ 64 ≤ d.length)) ∨
      entryOf ((v, x), ⟨d, []⟩) = .panic ∧ ¬ (46 ≤ d.length ∧ ((d[44]? = some 0 ∧ d[45]? = some 0) ∨ 64 ≤ d.length)) := by
  have h1 : Chunk.numStripes ⟨d, []⟩ = u16at ⟨d, []⟩ 44 := rfl
  have h2 : Chunk.stripe ⟨d, []⟩ 0 = Slice.from ⟨d, []⟩ 48 := rfl
  unfold entryOf
  rw [h1, h2, u16at_eq, from_eq]
  simp only [List.append_nil, List.length_nil, Nat.add_zero]
  by_cases hl : 46 ≤ d.length
  · have hz : (UInt16.ofNat (leNat ((d.drop 44).take 2)) = 0) ↔ (d[44]? = some 0 ∧ d[45]? = some 0) := by
      have e1 : d.drop 44 = d[44] :: d[45] :: d.drop 46 := by
        rw [List.drop_eq_getElem_cons (by omega), List.drop_eq_getElem_cons (by omega)]
      rw [e1]
      simp only [List.take_succ_cons, List.take_zero, leNat, List.getElem?_eq_getElem (show 44 < d.length by omega),
        List.getElem?_eq_getElem (show 45 < d.length by omega), Option.some.injEq, ← UInt16.toNat_inj, ← UInt8.toNat_inj]
      have a := d[44].toNat_lt
      have b := d[45].toNat_lt
      simp only [UInt16.toNat_ofNat', UInt16.toNat_ofNat, UInt8.toNat_ofNat]
      omega
    rw [if_pos (by omega)]
    simp only [Go.ok_bind]
    by_cases h0 : d[44]? = some 0 ∧ d[45]? = some 0
    · left
      rw [if_pos (hz.mpr h0)]
      exact ⟨⟨none, rfl, by simp [h0], by simp⟩, hl, Or.inl h0⟩
    · rw [if_neg (fun h => h0 (hz.mp h))]
      by_cases h64 : 64 ≤ d.length
      · left
        rw [if_pos (by omega)]
        have e3 : Stripe.devID ⟨d.drop 48, []⟩ = u64at ⟨d.drop 48, []⟩ 0 := rfl
        have e4 : Stripe.offset ⟨d.drop 48, []⟩ = u64at ⟨d.drop 48, []⟩ 8 := rfl
        simp only [Go.ok_bind, e3, e4, u64at_eq, List.length_drop, List.length_nil]
        rw [if_pos (by omega), if_pos (by omega)]
        refine ⟨⟨_, rfl, by simp [h0], ?_⟩, hl, Or.inr h64⟩
        intro e he
        cases he
        rfl
      · right
        refine ⟨?_, fun h => h.2.elim h0 h64⟩
        by_cases h48 : 48 ≤ d.length
        · rw [if_pos h48]
          have e3 : Stripe.devID ⟨d.drop 48, []⟩ = u64at ⟨d.drop 48, []⟩ 0 := rfl
          have e4 : Stripe.offset ⟨d.drop 48, []⟩ = u64at ⟨d.drop 48, []⟩ 8 := rfl
          simp only [Go.ok_bind, e3, e4, u64at_eq, List.length_drop, List.length_nil]
          rw [if_neg (c := (8 ≤ d.length - 48 ∧ 8 + 8 ≤ d.length - 48 + 0)) (by omega)]
          by_cases h56 : 56 ≤ d.length
          · rw [if_pos (by omega)]; rfl
          · rw [if_neg (by omega)]; rfl
        · rw [if_neg h48]; rfl
  · right
    rw [if_neg (by omega)]
    exact ⟨rfl, fun h => hl h.1⟩

theorem foldRange_panic (b : Bucket) (E : Bytes) (items : List ((VKey × Bytes) × Slice))
    (hall : ∀ e ∈ items, (∃ o, entryOf e = .ok o) ∨ entryOf e = .panic) (hp : ∃ e ∈ items, entryOf e = .panic)
    (s : List StripeMapEntry) :
    foldRange stripeMapBody s (items.map fun e => (Range.at b E e.1, e.2)) = .panic := by
  induction items generalizing s with
  | nil => obtain ⟨e, he, -⟩ := hp; cases he
  | cons e r ih =>
    simp only [List.map_cons, foldRange, stripeMapBody_eq]
    rcases hall e List.mem_cons_self with ⟨o, ho⟩ | ho
    · rw [ho]
      simp only [Go.ok_bind, Go.pure_eq, Bool.false_eq_true, if_false]
      refine ih (fun e he => hall e (List.mem_cons_of_mem _ he)) ?_ _
      obtain ⟨e', he', hp'⟩ := hp
      rcases List.mem_cons.mp he' with rfl | h
      · rw [ho] at hp'; cases hp'
      · exact ⟨e', h, hp'⟩
    · rw [ho]; rfl

end Btrfscue
