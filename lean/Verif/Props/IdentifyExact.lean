import Verif.Props.Identify
/-!
# C47: when exactly the samples are found
-/

namespace Btrfscue

theorem sampleLoop_hang_keeps {rnd : Nat → Nat} {nb : Int} {bs n : UInt64} : ∀ {fuel k : Nat} {s : List UInt64},
    sampleLoop rnd nb bs n (fuel + 1) k s = .hang →
    ∃ t : List UInt64, t.length < n.toNat ∧ (∀ x ∈ s, x ∈ t) ∧
      ∀ i < fuel, UInt64.ofNat (rnd (k + i) % nb.toNat) * bs ∈ t := by
  intro fuel
  induction fuel with
  | zero =>
    intro k s h
    rw [sampleLoop] at h
    by_cases h1 : s.length < n.toNat
    · exact ⟨s, h1, fun x hx => hx, by intro i hi; omega⟩
    · rw [if_neg h1] at h; simp at h
  | succ fuel ih =>
    intro k s h
    rw [sampleLoop] at h
    by_cases h1 : s.length < n.toNat
    · rw [if_pos h1] at h
      by_cases h2 : nb ≤ 0
      · rw [if_pos h2] at h; simp at h
      · rw [if_neg h2] at h
        obtain ⟨t, t1, t2, t3⟩ := ih h
        have hin : ∀ x, x ∈ s ∨ x = UInt64.ofNat (rnd k % nb.toNat) * bs → x ∈ t := by
          intro x hx
          apply t2
          unfold setInsert
          by_cases hm : UInt64.ofNat (rnd k % nb.toNat) * bs ∈ s
          · rw [if_pos hm]
            rcases hx with hx | rfl
            · exact hx
            · exact hm
          · rw [if_neg hm, List.mem_append, List.mem_singleton]; exact hx
        refine ⟨t, t1, fun x hx => hin x (.inl hx), fun i hi => ?_⟩
        cases i with
        | zero => exact hin _ (.inr rfl)
        | succ i =>
          have := t3 i (by omega)
          rwa [show k + 1 + i = k + (i + 1) by omega] at this
    · rw [if_neg h1] at h; simp at h

/-- The offsets identify can sample: the fixed ones and the start of every block. -/
def sampleable (devSize bs o : Nat) : Prop :=
  baseSample devSize bs o ∨ ∃ j < devSize / bs, o = j * bs

/-- C47, exactly. Let `all` be the offsets that can be sampled, without repetition, and the
random source hit every block at some time. Asked for fewer samples than there are fixed ones
`MakeSampleOffsets` crashes; asked for more than can be sampled it never returns; otherwise
it returns. -/
theorem C47_returns_exactly (devSize bs n : UInt64) (hb : bs.toNat < 2 ^ 32) (hpos : 0 < bs.toNat)
    (hd : devSize.toNat < 2 ^ 63) (hblk : bs.toNat ≤ devSize.toNat)
    (all : List Nat) (hnd : all.Nodup) (hall : ∀ o, o ∈ all ↔ sampleable devSize.toNat bs.toNat o)
    (rnd : Nat → Nat) (hr : ∀ j < devSize.toNat / bs.toNat, ∃ k, rnd k % (devSize.toNat / bs.toNat) = j)
    (ord : List UInt64 → List UInt64) (ho : MapOrder ord) :
    (n.toNat < baseCount devSize.toNat → ∀ fuel, MakeSampleOffsets (fuel + 1) rnd ord devSize bs n = .panic) ∧
    (baseCount devSize.toNat ≤ n.toNat → n.toNat ≤ all.length →
      ∃ F t, ∀ fuel, F ≤ fuel → MakeSampleOffsets fuel rnd ord devSize bs n = .ok t) ∧
    (all.length < n.toNat → baseCount devSize.toNat ≤ n.toNat →
      ∀ fuel, MakeSampleOffsets fuel rnd ord devSize bs n = .hang) := by
  have hi : int64OfU64 (devSize / bs) = ((devSize.toNat / bs.toNat : Nat) : Int) := int64_blocks hd
  have hnb0 : 0 < devSize.toNat / bs.toNat := Nat.div_pos hblk hpos
  refine ⟨fun h fuel => C47_few_samples_crash devSize bs n hb hpos h fuel rnd ord ho, fun hn hn' => ?_, fun hn hn' fuel => ?_⟩
  · generalize hnb : devSize.toNat / bs.toNat = nb at *
    have hK : ∀ m, m ≤ nb → ∃ K, ∀ j < m, ∃ k < K, rnd k % nb = j := by
      intro m
      induction m with
      | zero => intro _; exact ⟨0, by intro j hj; omega⟩
      | succ m ih =>
        intro hm
        obtain ⟨K, hK⟩ := ih (by omega)
        obtain ⟨k, hk⟩ := hr m (by omega)
        refine ⟨max K (k + 1), ?_⟩
        intro j hj
        by_cases hjm : j = m
        · subst hjm; exact ⟨k, by omega, hk⟩
        · obtain ⟨k', hk', he⟩ := hK j (by omega)
          exact ⟨k', by omega, he⟩
    obtain ⟨K, hK⟩ := hK nb (Nat.le_refl _)
    obtain ⟨s, hs⟩ : ∃ s, sampleLoop rnd (int64OfU64 (devSize / bs)) bs n (K + 1) 0 (baseOffsets devSize bs) = .ok s := by
      cases hc : sampleLoop rnd (int64OfU64 (devSize / bs)) bs n (K + 1) 0 (baseOffsets devSize bs) with
      | ok s => exact ⟨s, rfl⟩
      | panic => exact absurd hc (sampleLoop_ne_panic (by omega))
      | hang =>
        exfalso
        obtain ⟨t, t1, t0, t2⟩ := sampleLoop_hang_keeps hc
        rw [hi, Int.toNat_natCast] at t2
        have hsub : ∀ o ∈ all, o ∈ t.map UInt64.toNat := by
          intro o ho'
          rcases (hall o).mp ho' with hbase | ⟨j, hj, rfl⟩
          · have hlt : o < 2 ^ 64 := by
              unfold baseSample at hbase
              have hm : ∀ i k : Nat, i < k → i * bs.toNat ≤ k * 2 ^ 32 := fun i k h => Nat.mul_le_mul (by omega) (by omega)
              rcases hbase with ⟨i, hi', rfl⟩ | ⟨i, hi', rfl⟩ | ⟨-, i, hi', rfl⟩ | ⟨-, i, hi', rfl⟩
              · have := hm i 400 (by omega); omega
              · have := hm (100 + i) 400 (by omega); omega
              · have := hm (200 + i) 400 (by omega); omega
              · have := hm (300 + i) 400 (by omega); omega
            have e : (UInt64.ofNat o).toNat = o := by rw [UInt64.toNat_ofNat']; exact Nat.mod_eq_of_lt hlt
            exact List.mem_map.mpr ⟨UInt64.ofNat o, t0 _ ((mem_baseOffsets hb).mpr (by rw [e]; exact hbase)), e⟩
          · rw [hnb] at hj
            obtain ⟨k, hk, he⟩ := hK j hj
            have := t2 k hk
            rw [Nat.zero_add, he] at this
            exact List.mem_map.mpr ⟨_, this, blockOff_toNat (devSize := devSize) (by omega)⟩
        have := (List.Nodup.subperm hnd hsub).length_le
        rw [List.length_map] at this
        omega
    obtain ⟨-, -, -, i4, -, -⟩ := sampleLoop_inv hs (baseOffsets_nodup hb hpos)
    have hlen := i4 (by rw [baseOffsets_length]; exact hn)
    refine ⟨K + 1, (ord s ++ List.replicate (n.toNat - (ord s).length) 0).mergeSort fun a b => decide (a ≤ b), ?_⟩
    intro fuel hf
    rw [makeSamples_eq hb hpos, sampleLoop_mono hs hf, Go.ok_bind, if_neg (by rw [(ho s).length_eq]; omega)]
  · rw [makeSamples_eq hb hpos]
    cases hc : sampleLoop rnd (int64OfU64 (devSize / bs)) bs n fuel 0 (baseOffsets devSize bs) with
    | hang => rfl
    | panic => exact absurd hc (sampleLoop_ne_panic (by omega))
    | ok s =>
      exfalso
      obtain ⟨i1, -, i3, -, -, i6⟩ := sampleLoop_inv hc (baseOffsets_nodup hb hpos)
      have hsub : ∀ x ∈ s.map UInt64.toNat, x ∈ all := by
        intro x hx
        obtain ⟨y, hy, rfl⟩ := List.mem_map.mp hx
        rw [hall]
        rcases i6 y hy with h | ⟨j, hj, rfl⟩
        · exact .inl ((mem_baseOffsets hb).mp h)
        · rw [hi] at hj
          exact .inr ⟨j, by omega, blockOff_toNat (devSize := devSize) (by omega)⟩
      have hnd' : (s.map UInt64.toNat).Nodup := by
        unfold List.Nodup
        rw [List.pairwise_map]
        exact List.Pairwise.imp (fun hne he => hne (UInt64.toNat_inj.mp he)) i1
      have := (List.Nodup.subperm hnd' hsub).length_le
      rw [List.length_map] at this
      omega

/-- C47: for block sizes that divide 64 KiB and roomy devices the fixed samples are starts of
blocks, so that `MakeSampleOffsets` returns exactly when asked for at least the fixed samples and at
most the number of blocks. -/
theorem C47_returns_on_blocks (devSize bs n : UInt64) (hdv : bs.toNat ∣ 65536)
    (hd : devSize.toNat < 2 ^ 63) (hroom : roomy devSize.toNat bs.toNat)
    (rnd : Nat → Nat) (hr : ∀ j < devSize.toNat / bs.toNat, ∃ k, rnd k % (devSize.toNat / bs.toNat) = j)
    (ord : List UInt64 → List UInt64) (ho : MapOrder ord) :
    (∃ F t, ∀ fuel, F ≤ fuel → MakeSampleOffsets fuel rnd ord devSize bs n = .ok t) ↔
      baseCount devSize.toNat ≤ n.toNat ∧ n.toNat ≤ devSize.toNat / bs.toNat := by
  have hle : bs.toNat ≤ 65536 := Nat.le_of_dvd (by decide) hdv
  have hpos : 0 < bs.toNat := Nat.pos_of_dvd_of_pos hdv (by decide)
  obtain ⟨r1, r2, r3⟩ := hroom
  obtain ⟨q, hq⟩ := hdv
  have hin : ∀ o, o + bs.toNat ≤ devSize.toNat → bs.toNat ∣ o → ∃ j < devSize.toNat / bs.toNat, o = j * bs.toNat := by
    rintro o h1 ⟨j, rfl⟩
    refine ⟨j, ?_, Nat.mul_comm _ _⟩
    have : (j + 1) * bs.toNat ≤ devSize.toNat := by rw [Nat.succ_mul, Nat.mul_comm]; exact h1
    exact (Nat.le_div_iff_mul_le hpos).mpr this
  have hdiv : ∀ S k : Nat, 65536 ∣ S → bs.toNat ∣ S + k * bs.toNat := fun S k hS =>
    Nat.dvd_add (Nat.dvd_trans ⟨q, hq⟩ hS) (Nat.dvd_mul_left _ _)
  have mono : ∀ {i k : Nat}, i + 1 ≤ k → i * bs.toNat + bs.toNat ≤ k * bs.toNat := by
    intro i k hik
    have := Nat.mul_le_mul_right bs.toNat hik
    rwa [Nat.succ_mul] at this
  have hbase : ∀ o, baseSample devSize.toNat bs.toNat o → ∃ j < devSize.toNat / bs.toNat, o = j * bs.toNat := by
    rintro o (⟨i, hi, rfl⟩ | ⟨i, hi, rfl⟩ | ⟨hs, i, hi, rfl⟩ | ⟨hs, i, hi, rfl⟩)
    · exact hin _ (by have := mono (i := i) (k := 200) (by omega); omega) (hdiv _ _ (by decide))
    · exact hin _ (by have := mono (i := 100 + i) (k := 200) (by omega); omega) (hdiv _ _ (by decide))
    · exact hin _ (by have := mono (i := 200 + i) (k := 300) (by omega); have := r2 hs; omega) (hdiv _ _ (by decide))
    · exact hin _ (by have := mono (i := 300 + i) (k := 400) (by omega); have := r3 hs; omega) (hdiv _ _ (by decide))
  have hnd : ((List.range (devSize.toNat / bs.toNat)).map (· * bs.toNat)).Nodup := by
    unfold List.Nodup
    rw [List.pairwise_map]
    exact List.nodup_range.imp fun hne he => hne (Nat.eq_of_mul_eq_mul_right hpos he)
  have hall : ∀ o, o ∈ (List.range (devSize.toNat / bs.toNat)).map (· * bs.toNat) ↔ sampleable devSize.toNat bs.toNat o := by
    intro o
    rw [List.mem_map]
    constructor
    · rintro ⟨j, hj, rfl⟩
      exact .inr ⟨j, List.mem_range.mp hj, rfl⟩
    · intro h
      obtain ⟨j, hj, rfl⟩ : ∃ j < devSize.toNat / bs.toNat, o = j * bs.toNat := h.elim (hbase o) id
      exact ⟨j, List.mem_range.mpr hj, rfl⟩
  obtain ⟨h1, h2, h3⟩ := C47_returns_exactly devSize bs n (by omega) hpos hd (by omega) _ hnd hall rnd hr ord ho
  rw [List.length_map, List.length_range] at h2 h3
  constructor
  · rintro ⟨F, t, h⟩
    have h' := h (F + 1) (by omega)
    by_cases hlt : n.toNat < baseCount devSize.toNat
    · rw [h1 hlt] at h'; cases h'
    · refine ⟨by omega, ?_⟩
      by_cases hgt : devSize.toNat / bs.toNat < n.toNat
      · rw [h3 hgt (by omega)] at h'; cases h'
      · omega
  · rintro ⟨h4, h5⟩
    exact h2 h4 h5

/-- The hypotheses of `C47_returns_on_blocks`: a device of 128 MiB with blocks of 16 KiB, a random
source that counts. -/
example : (16384 : UInt64).toNat ∣ 65536 ∧ roomy (0x8000000 : UInt64).toNat (16384 : UInt64).toNat ∧
    (∀ j < (0x8000000 : UInt64).toNat / (16384 : UInt64).toNat, ∃ k, id k % ((0x8000000 : UInt64).toNat / (16384 : UInt64).toNat) = j) ∧
    baseCount (0x8000000 : UInt64).toNat ≤ (1000 : UInt64).toNat ∧ (1000 : UInt64).toNat ≤ (0x8000000 : UInt64).toNat / (16384 : UInt64).toNat :=
  ⟨⟨4, rfl⟩, by unfold roomy; decide, fun j hj => ⟨j, Nat.mod_eq_of_lt hj⟩, by decide, by decide⟩

/-- C47: with the default limits, and a fraction of the blocks that is at most all of them, the
samples of a roomy device are always found. -/
theorem C47_default_limits_return (devSize : UInt64) (o : IdentifyOptions) (hmin : o.minBlocks = 1000)
    (hmax : o.maxBlocks = 1000000) (hfr : o.sampled.toNat ≤ devSize.toNat / o.blockSize.toNat)
    (hdv : o.blockSize.toNat ∣ 65536) (hd : devSize.toNat < 2 ^ 63) (hroom : roomy devSize.toNat o.blockSize.toNat)
    (rnd : Nat → Nat) (hr : ∀ j < devSize.toNat / o.blockSize.toNat, ∃ k, rnd k % (devSize.toNat / o.blockSize.toNat) = j)
    (ord : List UInt64 → List UInt64) (ho : MapOrder ord) :
    ∃ F t, ∀ fuel, F ≤ fuel → MakeSampleOffsets fuel rnd ord devSize o.blockSize o.numSamples = .ok t := by
  refine (C47_returns_on_blocks devSize o.blockSize o.numSamples hdv hd hroom rnd hr ord ho).mpr ?_
  have hle : o.blockSize.toNat ≤ 65536 := Nat.le_of_dvd (by decide) hdv
  have hpos : 0 < o.blockSize.toNat := Nat.pos_of_dvd_of_pos hdv (by decide)
  obtain ⟨c1, -, c3, c4, c5⟩ := C47_sample_count o (by rw [hmin, hmax]; decide)
  have hb : baseCount devSize.toNat ≤ 400 := by unfold baseCount; split <;> [omega; (split <;> omega)]
  have hnb : 1000 ≤ devSize.toNat / o.blockSize.toNat := by
    rw [Nat.le_div_iff_mul_le hpos]
    have := hroom.1
    have : 1000 * o.blockSize.toNat ≤ 1000 * 65536 := Nat.mul_le_mul_left _ hle
    omega
  have h1000 : (1000 : UInt64).toNat = 1000 := rfl
  have hM : (1000000 : UInt64).toNat = 1000000 := rfl
  rw [hmin] at c1 c3 c4
  rw [hmax] at c3 c5
  simp only [UInt64.le_iff_toNat_le, ← UInt64.toNat_inj, h1000, hM] at c1 c3 c4 c5
  omega

end Btrfscue
