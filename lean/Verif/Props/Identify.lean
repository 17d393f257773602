import Mathlib.Data.List.Perm.Subperm
import Verif.Proof.Identify
/-!
# C44–C48: identify
-/

namespace Btrfscue

section
variable {F : Type} [LinearOrder F]

/-- An iteration order of a Go map: some permutation of its entries. -/
def MapOrder {α : Type} (ord : List α → List α) : Prop := ∀ l, (ord l).Perm l

theorem entries_spec (ent : UUID → F) (avg : UInt64 → UInt64 → Nat) {ord : FSIDHist → FSIDHist} (ho : MapOrder ord)
    {h : FSIDHist} (hu : h.Uniq) (min : UInt64) :
    (entries ent avg ord h min).Pairwise FSEntry.ahead ∧
    ((entries ent avg ord h min).map FSEntry.fsid).Nodup ∧
    ∀ e, e ∈ entries ent avg ord h min ↔ ∃ x, h.find e.fsid = some x ∧ min ≤ x.count ∧
      e = ⟨e.fsid, x.count, ent e.fsid, blockSizeGuess avg x⟩ := by
  unfold entries
  simp only
  set occ := ((ord h).filter fun e => decide (min ≤ e.2.count)).map fun e =>
    (⟨e.1, e.2.count, ent e.1, blockSizeGuess avg e.2⟩ : FSEntry F) with hocc
  have hperm := List.mergeSort_perm occ (fun a b => !FSEntry.less a b)
  have hids : (occ.map FSEntry.fsid).Nodup := by
    have e1 : occ.map FSEntry.fsid = ((ord h).filter fun e => decide (min ≤ e.2.count)).map Prod.fst := by
      rw [hocc, List.map_map]; rfl
    rw [e1]
    have hn : ((ord h).map Prod.fst).Nodup := ((ho h).map Prod.fst).nodup_iff.mpr hu
    exact hn.sublist ((List.filter_sublist).map _)
  have hids' : ((occ.mergeSort fun a b => !FSEntry.less a b).map FSEntry.fsid).Nodup :=
    (hperm.map _).nodup_iff.mpr hids
  refine ⟨?_, hids', ?_⟩
  · have hs := List.pairwise_mergeSort (le := fun a b : FSEntry F => !FSEntry.less a b)
      (by intro a b c h1 h2; rw [not_less_iff] at *; exact not_ahead_trans h1 h2)
      (by intro a b; rw [Bool.or_eq_true, not_less_iff, not_less_iff]; exact not_ahead_total a b) occ
    unfold List.Nodup at hids'
    rw [List.pairwise_map] at hids'
    refine (hs.and hids').imp ?_
    intro a b hab
    rcases ahead_total hab.2 with hx | hx
    · exact hx
    · exact absurd hx ((not_less_iff a b).mp hab.1)
  · intro e
    rw [hperm.mem_iff, hocc, List.mem_map]
    constructor
    · rintro ⟨x, hx, rfl⟩
      rw [List.mem_filter, (ho h).mem_iff] at hx
      exact ⟨x.2, hu.mem_find hx.1, by simpa using hx.2, rfl⟩
    · rintro ⟨x, hx, hm, he⟩
      refine ⟨(e.fsid, x), ?_, he.symm⟩
      rw [List.mem_filter, (ho h).mem_iff]
      exact ⟨FSIDHist.find_mem hx, by simpa using hm⟩

theorem ahead_unique {l l' : List (FSEntry F)} (h : l.Pairwise FSEntry.ahead) (h' : l'.Pairwise FSEntry.ahead)
    (hm : ∀ e, e ∈ l ↔ e ∈ l') : l = l' := by
  have hn : ∀ {l : List (FSEntry F)}, l.Pairwise FSEntry.ahead → l.Nodup := by
    intro l hl
    refine List.Pairwise.imp ?_ hl
    intro a b hab he; subst he; exact ahead_irrefl _ hab
  have hp : l.Perm l' := (List.perm_ext_iff_of_nodup (hn h) (hn h')).mpr hm
  refine hp.eq_of_pairwise ?_ h h'
  intro a b _ _ h1 h2
  exact absurd (ahead_trans h1 h2) (ahead_irrefl a)

/-! ## C44 -/

/-- C44: after collecting any blocks (each long enough for a block header and an item
header), `Entries` reports exactly the FSIDs, other than all-zero and all-0xFF, with at
least `min` leaf blocks, and for each the number of leaf blocks carrying it. -/
theorem C44_counts_exact (blocks : List Bytes) (hb : ∀ b ∈ blocks, 126 ≤ b.length)
    (hl : blocks.length ≤ 2 ^ 31) :
    ∃ h, collectAll [] blocks = .ok h ∧
      ∀ (ent : UUID → F) (avg : UInt64 → UInt64 → Nat) (ord : FSIDHist → FSIDHist), MapOrder ord →
      ∀ (min : UInt64),
        (∀ u, (∃ e ∈ entries ent avg ord h min, e.fsid = u) ↔
          realFSID u ∧ leavesOf u blocks ≠ [] ∧ min.toNat ≤ (leavesOf u blocks).length) ∧
        ∀ e ∈ entries ent avg ord h min, e.count.toNat = (leavesOf e.fsid blocks).length := by
  obtain ⟨h, h1, h2⟩ := collectAll_counted blocks [] [] Counted.nil (by simpa using hl) hb
  rw [List.nil_append] at h2
  refine ⟨h, h1, ?_⟩
  intro ent avg ord ho min
  obtain ⟨-, -, hm⟩ := entries_spec ent avg ho h2.uniq min
  constructor
  · intro u
    constructor
    · rintro ⟨e, he, rfl⟩
      obtain ⟨x, hx, hmin, -⟩ := (hm e).mp he
      have hnn : ¬ (¬ realFSID e.fsid ∨ leavesOf e.fsid blocks = []) := by
        rw [← h2.none, hx]; simp
      rw [not_or, not_not] at hnn
      refine ⟨hnn.1, hnn.2, ?_⟩
      rw [← (h2.some _ _ hx).1]; exact UInt64.le_iff_toNat_le.mp hmin
    · rintro ⟨hr, hne, hmin⟩
      cases hx : h.find u with
      | none =>
        rcases (h2.none u).mp hx with hh | hh
        · exact absurd hr hh
        · exact absurd hh hne
      | some x =>
        refine ⟨⟨u, x.count, ent u, blockSizeGuess avg x⟩, (hm _).mpr ⟨x, hx, ?_, rfl⟩, rfl⟩
        rw [UInt64.le_iff_toNat_le, (h2.some _ _ hx).1]; exact hmin
  · intro e he
    obtain ⟨x, hx, -, hxe⟩ := (hm e).mp he
    rw [hxe]; exact (h2.some _ _ hx).1

/-- C44: the order in which the blocks are collected does not matter for the reported
FSIDs and counts. -/
theorem C44_order_irrelevant (blocks blocks' : List Bytes) (hp : blocks.Perm blocks')
    (hb : ∀ b ∈ blocks, 126 ≤ b.length) (hl : blocks.length ≤ 2 ^ 31) :
    ∃ h h', collectAll [] blocks = .ok h ∧ collectAll [] blocks' = .ok h' ∧
      ∀ (ent : UUID → F) (avg : UInt64 → UInt64 → Nat) (ord ord' : FSIDHist → FSIDHist), MapOrder ord → MapOrder ord' →
      ∀ (min : UInt64),
        (entries ent avg ord h min).map (fun e => (e.fsid, e.count)) =
        (entries ent avg ord' h' min).map (fun e => (e.fsid, e.count)) := by
  obtain ⟨h, h1, h2⟩ := collectAll_counted blocks [] [] Counted.nil (by simpa using hl) hb
  obtain ⟨h', h1', h2'⟩ := collectAll_counted blocks' [] [] Counted.nil (by simpa [hp.length_eq] using hl)
    (fun b hb' => hb b (hp.mem_iff.mpr hb'))
  rw [List.nil_append] at h2 h2'
  refine ⟨h, h', h1, h1', ?_⟩
  intro ent avg ord ord' ho ho' min
  obtain ⟨hs, -, hm⟩ := entries_spec ent avg ho h2.uniq min
  obtain ⟨hs', -, hm'⟩ := entries_spec ent avg ho' h2'.uniq min
  have hlen : ∀ u, (leavesOf u blocks).length = (leavesOf u blocks').length := by
    intro u; exact (hp.filter _).length_eq
  have hnil : ∀ u, leavesOf u blocks = [] ↔ leavesOf u blocks' = [] := by
    intro u; rw [← List.length_eq_zero_iff, hlen u, List.length_eq_zero_iff]
  -- forget the block size guesses
  let er : FSEntry F → FSEntry F := fun e => { e with blockSize := 0 }
  have her : ∀ a b : FSEntry F, a.ahead b → (er a).ahead (er b) := fun a b hab => hab
  have sub : ∀ {ha hb' : FSIDHist} {ba bb : List Bytes} (_ : Counted ba ha) (_ : Counted bb hb')
      (_ : ∀ u, (leavesOf u ba).length = (leavesOf u bb).length) {la lb : List (FSEntry F)}
      (_ : ∀ e, e ∈ la ↔ ∃ x, ha.find e.fsid = some x ∧ min ≤ x.count ∧ e = ⟨e.fsid, x.count, ent e.fsid, blockSizeGuess avg x⟩)
      (_ : ∀ e, e ∈ lb ↔ ∃ x, hb'.find e.fsid = some x ∧ min ≤ x.count ∧ e = ⟨e.fsid, x.count, ent e.fsid, blockSizeGuess avg x⟩)
      (e : FSEntry F), e ∈ la.map er → e ∈ lb.map er := by
    intro ha hb' ba bb ca cb hlen la lb hla hlb e he
    rw [List.mem_map] at he ⊢
    obtain ⟨a, hma, rfl⟩ := he
    obtain ⟨x, hx, hmin, hxa⟩ := (hla a).mp hma
    have hnn : ¬ (¬ realFSID a.fsid ∨ leavesOf a.fsid ba = []) := by rw [← ca.none, hx]; simp
    rw [not_or, not_not] at hnn
    have hnb : ¬ (¬ realFSID a.fsid ∨ leavesOf a.fsid bb = []) := by
      rw [not_or, not_not]
      refine ⟨hnn.1, fun hh => hnn.2 ?_⟩
      rw [← List.length_eq_zero_iff, hlen, hh]; rfl
    rw [← cb.none] at hnb
    obtain ⟨y, hy⟩ := Option.ne_none_iff_exists'.mp hnb
    have hcount : x.count = y.count := by
      rw [← UInt64.toNat_inj, (ca.some _ _ hx).1, (cb.some _ _ hy).1, hlen]
    refine ⟨⟨a.fsid, y.count, ent a.fsid, blockSizeGuess avg y⟩, (hlb _).mpr ⟨y, hy, hcount ▸ hmin, rfl⟩, ?_⟩
    show er _ = er _
    rw [hxa]
    simp only [er, hcount]
  have heq : (entries ent avg ord h min).map er = (entries ent avg ord' h' min).map er := by
    apply ahead_unique
    · rw [List.pairwise_map]; exact hs.imp (fun {a b} hab => her a b hab)
    · rw [List.pairwise_map]; exact hs'.imp (fun {a b} hab => her a b hab)
    · intro e
      exact ⟨sub h2 h2' hlen hm hm' e, sub h2' h2 (fun u => (hlen u).symm) hm' hm e⟩
  have := congrArg (List.map (fun e : FSEntry F => (e.fsid, e.count))) heq
  rw [List.map_map, List.map_map] at this
  exact this

/-! ## C45 -/

/-- C45: the entries are in strictly descending (count, entropy, FSID) order, list
every FSID with at least `min` occurrences exactly once, do not depend on the map
iteration order, and no other permutation is sorted (so the sorting algorithm does not
matter either). Holds for every entropy function. -/
theorem C45_sorted_complete_deterministic (blocks : List Bytes) (hb : ∀ b ∈ blocks, 126 ≤ b.length)
    (hl : blocks.length ≤ 2 ^ 31) :
    ∃ h, collectAll [] blocks = .ok h ∧
      ∀ (ent : UUID → F) (avg : UInt64 → UInt64 → Nat) (ord : FSIDHist → FSIDHist), MapOrder ord →
      ∀ (min : UInt64),
        (entries ent avg ord h min).Pairwise FSEntry.ahead ∧
        ((entries ent avg ord h min).map FSEntry.fsid).Nodup ∧
        (∀ u, u ∈ (entries ent avg ord h min).map FSEntry.fsid ↔
          realFSID u ∧ leavesOf u blocks ≠ [] ∧ min.toNat ≤ (leavesOf u blocks).length) ∧
        (∀ e ∈ entries ent avg ord h min, e.entropy = ent e.fsid) ∧
        (∀ ord', MapOrder ord' → entries ent avg ord' h min = entries ent avg ord h min) ∧
        (∀ l : List (FSEntry F), l.Perm (entries ent avg ord h min) → l.Pairwise (fun a b => ¬ b.ahead a) →
          l = entries ent avg ord h min) := by
  obtain ⟨h, h1, h3⟩ := C44_counts_exact (F := F) blocks hb hl
  obtain ⟨h', h1', h2⟩ := collectAll_counted blocks [] [] Counted.nil (by simpa using hl) hb
  rw [h1] at h1'
  simp only [Go.ok.injEq] at h1'
  subst h1'
  refine ⟨h, h1, ?_⟩
  intro ent avg ord ho min
  obtain ⟨hs, hn, hm⟩ := entries_spec ent avg ho h2.uniq min
  refine ⟨hs, hn, ?_, ?_, ?_, ?_⟩
  · intro u; rw [← (h3 ent avg ord ho min).1 u, List.mem_map]
  · intro e he
    obtain ⟨x, -, -, hxe⟩ := (hm e).mp he
    rw [hxe]
  · intro ord' ho'
    obtain ⟨hs', -, hm'⟩ := entries_spec ent avg ho' h2.uniq min
    exact ahead_unique hs' hs (fun e => by rw [hm, hm'])
  · intro l hp hl'
    have hnl : (l.map FSEntry.fsid).Nodup := (hp.map _).nodup_iff.mpr hn
    unfold List.Nodup at hnl
    rw [List.pairwise_map] at hnl
    have hs' : l.Pairwise FSEntry.ahead := by
      refine (hl'.and hnl).imp ?_
      intro a b hab
      rcases ahead_total hab.2 with hx | hx
      · exact hx
      · exact absurd hx hab.1
    exact ahead_unique hs' hs (fun e => hp.mem_iff)

/-! ## C46 -/

theorem guess_entry {blocks : List Bytes} {h : FSIDHist} (h2 : Counted blocks h) (hl : blocks.length ≤ 2 ^ 20)
    (ent : UUID → F) {avg : UInt64 → UInt64 → Nat} {ord : FSIDHist → FSIDHist} (ho : MapOrder ord) (ha : AvgOK avg)
    (min : UInt64) (e : FSEntry F) (he : e ∈ entries ent avg ord h min) :
    ∃ a : Nat, e.blockSize = UInt32.ofNat a / 4096 * 4096 ∧ 0 < (leavesOf e.fsid blocks).length ∧
      ∀ n < 2 ^ 32,
        (n * (leavesOf e.fsid blocks).length ≤ ((leavesOf e.fsid blocks).tail.map offsetOf).sum → n + 4096 ≤ a) ∧
        (((leavesOf e.fsid blocks).tail.map offsetOf).sum ≤ n * (leavesOf e.fsid blocks).length → a ≤ n + 4096) := by
  obtain ⟨x, hx, -, hxe⟩ := ((entries_spec ent avg ho h2.uniq min).2.2 e).mp he
  obtain ⟨hc, hsum⟩ := h2.some _ _ hx
  have hnn : ¬ (¬ realFSID e.fsid ∨ leavesOf e.fsid blocks = []) := by rw [← h2.none, hx]; simp
  rw [not_or, not_not] at hnn
  have hpos : 0 < (leavesOf e.fsid blocks).length := List.length_pos_iff.mpr hnn.2
  have hle := leavesOf_le e.fsid blocks
  have hsb := sum_map_le (leavesOf e.fsid blocks).tail
  have htl : (leavesOf e.fsid blocks).tail.length ≤ (leavesOf e.fsid blocks).length := by simp
  refine ⟨avg x.blockSizeSum x.count, by rw [hxe]; rfl, hpos, ?_⟩
  have hs53 : x.blockSizeSum.toNat < 2 ^ 53 := by
    rw [hsum]
    have : (leavesOf e.fsid blocks).tail.length * 2 ^ 32 ≤ 2 ^ 20 * 2 ^ 32 := Nat.mul_le_mul_right _ (by omega)
    omega
  intro n hn
  have := ha x.blockSizeSum x.count hs53 (by omega) (by omega) n hn
  rwa [hsum, hc] at this

theorem round_guess {a B : Nat} (h1 : 4096 * B ≤ a) (h2 : a < 4096 * B + 4096) (hB : B < 2 ^ 19) :
    (UInt32.ofNat a / 4096 * 4096).toNat = 4096 * B := by
  have hav : (UInt32.ofNat a).toNat = a := by
    rw [UInt32.toNat_ofNat']; exact Nat.mod_eq_of_lt (by omega)
  rw [UInt32.toNat_mul, UInt32.toNat_div, hav]
  show a / 4096 * 4096 % 2 ^ 32 = _
  have : a / 4096 = B := by omega
  rw [this]; omega

theorem sum_bounds (l : List Bytes) {lo hi : Nat} (h : ∀ b ∈ l, ∃ o, firstOffset b o ∧ lo ≤ o ∧ o ≤ hi) :
    l.length * lo ≤ (l.map offsetOf).sum ∧ (l.map offsetOf).sum ≤ l.length * hi := by
  induction l with
  | nil => simp
  | cons b r ih =>
    obtain ⟨i1, i2⟩ := ih (fun x hx => h x (List.mem_cons_of_mem _ hx))
    obtain ⟨o, ho, h1, h2⟩ := h b (List.mem_cons_self ..)
    have heq : offsetOf b = o := by
      obtain ⟨hdr, rr, rest, rfl, hn, hro⟩ := ho
      rw [offsetOf_eq, if_neg hn, hro]
    simp only [List.map_cons, List.sum_cons, List.length_cons, Nat.succ_mul, heq]
    omega

/-- C46, the part that holds: if the leaves of an FSID (n of them) all have items and
first item offsets in [lo, B-1], B a multiple of 4096, then the reported block size is
B provided (n-1)*lo ≥ n*(B-4096) -- the offset of the first leaf is not counted, so
few samples give too small a guess. -/
theorem C46_guess_partial (blocks : List Bytes) (hb : ∀ b ∈ blocks, 126 ≤ b.length) (hl : blocks.length ≤ 2 ^ 20) :
    ∃ h, collectAll [] blocks = .ok h ∧
      ∀ (ent : UUID → F) (avg : UInt64 → UInt64 → Nat) (ord : FSIDHist → FSIDHist), MapOrder ord → AvgOK avg →
      ∀ (min : UInt64), ∀ e ∈ entries ent avg ord h min, ∀ (B lo : Nat), 4096 ∣ B → 0 < B → B < 2 ^ 31 →
        (∀ b ∈ leavesOf e.fsid blocks, ∃ o, firstOffset b o ∧ lo ≤ o ∧ o ≤ B - 1) →
        (leavesOf e.fsid blocks).length * (B - 4096) ≤ ((leavesOf e.fsid blocks).length - 1) * lo →
        e.blockSize.toNat = B := by
  obtain ⟨h, h1, h2⟩ := collectAll_counted blocks [] [] Counted.nil (by simp; omega) hb
  rw [List.nil_append] at h2
  refine ⟨h, h1, ?_⟩
  intro ent avg ord ho ha min e he B lo hdvd hB0 hB hoffs hfew
  obtain ⟨a, hbs, hpos, hav⟩ := guess_entry h2 hl ent ho ha min e he
  obtain ⟨s1, s2⟩ := sum_bounds (leavesOf e.fsid blocks).tail (lo := lo) (hi := B - 1)
    (fun b hb' => hoffs b (List.mem_of_mem_tail hb'))
  rw [List.length_tail] at s1 s2
  obtain ⟨q, rfl⟩ := hdvd
  have l1 := (hav (4096 * q - 4096) (by omega)).1 (by rw [Nat.mul_comm]; omega)
  have l2 := (hav (4096 * q - 1) (by omega)).2 (by
    have : ((leavesOf e.fsid blocks).length - 1) * (4096 * q - 1) ≤ (leavesOf e.fsid blocks).length * (4096 * q - 1) :=
      Nat.mul_le_mul_right _ (by omega)
    rw [Nat.mul_comm (4096 * q - 1)]; omega)
  rw [hbs]
  exact round_guess (by omega) (by omega) (by omega)

/-- C46 is false of the code: a file system seen in exactly four leaves of 16 KiB (four
is the default of --min-occurrence) is reported with a block size of at most 12 KiB,
whatever the leaves contain. An item offset of a 16 KiB leaf is at most 16384-101. -/
theorem C46_four_samples_too_small (blocks : List Bytes) (hb : ∀ b ∈ blocks, 126 ≤ b.length)
    (hl : blocks.length ≤ 2 ^ 20) :
    ∃ h, collectAll [] blocks = .ok h ∧
      ∀ (ent : UUID → F) (avg : UInt64 → UInt64 → Nat) (ord : FSIDHist → FSIDHist), MapOrder ord → AvgOK avg →
      ∀ (min : UInt64), ∀ e ∈ entries ent avg ord h min, (leavesOf e.fsid blocks).length = 4 →
        (∀ b ∈ leavesOf e.fsid blocks, ∃ o, firstOffset b o ∧ o ≤ 16384 - 101) →
        e.blockSize.toNat ≤ 12288 := by
  obtain ⟨h, h1, h2⟩ := collectAll_counted blocks [] [] Counted.nil (by simp; omega) hb
  rw [List.nil_append] at h2
  refine ⟨h, h1, ?_⟩
  intro ent avg ord ho ha min e he h4 hoffs
  obtain ⟨a, hbs, -, hav⟩ := guess_entry h2 hl ent ho ha min e he
  obtain ⟨-, s2⟩ := sum_bounds (leavesOf e.fsid blocks).tail (lo := 0) (hi := 16384 - 101) (by
    intro b hb'
    obtain ⟨o, ho', hle⟩ := hoffs b (List.mem_of_mem_tail hb')
    exact ⟨o, ho', by omega, hle⟩)
  rw [List.length_tail, h4] at s2
  have l2 := (hav 12213 (by omega)).2 (by rw [h4]; omega)
  rw [hbs]
  have hav : (UInt32.ofNat a).toNat = a := by
    rw [UInt32.toNat_ofNat']; exact Nat.mod_eq_of_lt (by omega)
  rw [UInt32.toNat_mul, UInt32.toNat_div, hav]
  show a / 4096 * 4096 % 2 ^ 32 ≤ _
  omega

/-- C46 is false of the code: an FSID seen in a single leaf is always reported with
4 KiB. -/
theorem C46_single_sample_guess (blocks : List Bytes) (hb : ∀ b ∈ blocks, 126 ≤ b.length)
    (hl : blocks.length ≤ 2 ^ 20) :
    ∃ h, collectAll [] blocks = .ok h ∧
      ∀ (ent : UUID → F) (avg : UInt64 → UInt64 → Nat) (ord : FSIDHist → FSIDHist), MapOrder ord → AvgOK avg →
      ∀ (min : UInt64), ∀ e ∈ entries ent avg ord h min, (leavesOf e.fsid blocks).length = 1 →
        e.blockSize = 4096 := by
  obtain ⟨h, h1, h2⟩ := collectAll_counted blocks [] [] Counted.nil (by simp; omega) hb
  rw [List.nil_append] at h2
  refine ⟨h, h1, ?_⟩
  intro ent avg ord ho ha min e he h4
  obtain ⟨a, hbs, -, hav⟩ := guess_entry h2 hl ent ho ha min e he
  have hs : ((leavesOf e.fsid blocks).tail.map offsetOf).sum = 0 := by
    have : (leavesOf e.fsid blocks).tail = [] := by
      rw [← List.length_eq_zero_iff, List.length_tail, h4]
    rw [this]; rfl
  have l1 := (hav 0 (by omega)).1 (by omega)
  have l2 := (hav 0 (by omega)).2 (by omega)
  have : a = 4096 := by omega
  rw [hbs, this]; decide

/-- Exact division satisfies what is assumed of the average. -/
example : AvgOK (fun s c => s.toNat / c.toNat + 4096) := by
  intro s c _ hc _ n _
  constructor
  · intro h
    have := (Nat.le_div_iff_mul_le hc).mpr h
    show n + 4096 ≤ s.toNat / c.toNat + 4096; omega
  · intro h
    have : s.toNat / c.toNat ≤ n := by
      have h' : s.toNat ≤ c.toNat * n := by rw [Nat.mul_comm]; exact h
      exact Nat.div_le_of_le_mul h'
    show s.toNat / c.toNat + 4096 ≤ n + 4096; omega

end

/-! ## C47 -/

/-- What can be said of the samples. -/
theorem samples_spec {devSize bs n : UInt64} (hb : bs.toNat < 2 ^ 32) (hpos : 0 < bs.toNat) {fuel : Nat}
    {rnd : Nat → Nat} {ord : List UInt64 → List UInt64} (ho : MapOrder ord) {t : List UInt64}
    (h : MakeSampleOffsets fuel rnd ord devSize bs n = .ok t) :
    baseCount devSize.toNat ≤ n.toNat ∧ t.length = n.toNat ∧ t.Pairwise (fun a b => a.toNat < b.toNat) ∧
    (∀ x ∈ baseOffsets devSize bs, x ∈ t) ∧
    ∀ x ∈ t, x ∈ baseOffsets devSize bs ∨ ∃ j : Nat, (j : Int) < int64OfU64 (devSize / bs) ∧ x = UInt64.ofNat j * bs := by
  rw [makeSamples_eq hb hpos, Go.bind_eq_ok] at h
  obtain ⟨s, hs, h⟩ := h
  obtain ⟨i1, i2, i3, i4, i5, i6⟩ := sampleLoop_inv hs (baseOffsets_nodup hb hpos)
  have hol := (ho s).length_eq
  by_cases hlt : n.toNat < (ord s).length
  · rw [if_pos hlt] at h; simp at h
  · rw [if_neg hlt] at h
    simp only [Go.ok.injEq] at h
    have hlen : (ord s).length = n.toNat := by omega
    have hnd : (ord s).Nodup := (ho s).nodup_iff.mpr i1
    have e0 : ord s ++ List.replicate (n.toNat - (ord s).length) 0 = ord s := by rw [hlen]; simp
    rw [e0] at h
    obtain ⟨p1, p2⟩ := sort_u64 (ord s) hnd
    rw [h] at p1 p2
    have hbl := baseOffsets_length devSize bs
    refine ⟨?_, by rw [p1.length_eq]; exact hlen, p2, ?_, ?_⟩
    · by_contra hc
      have := congrArg List.length (i5 (by omega))
      omega
    · intro x hx; exact p1.mem_iff.mpr ((ho s).mem_iff.mpr (i2 x hx))
    · intro x hx; exact i6 x ((ho s).mem_iff.mp (p1.mem_iff.mp hx))

theorem int64_blocks {devSize bs : UInt64} (hd : devSize.toNat < 2 ^ 63) :
    int64OfU64 (devSize / bs) = ((devSize.toNat / bs.toNat : Nat) : Int) := by
  rw [int64_small, UInt64.toNat_div]
  rw [UInt64.toNat_div]
  exact Nat.lt_of_le_of_lt (Nat.div_le_self _ _) hd

theorem blockOff_toNat {devSize bs : UInt64} {j : Nat} (h : j < devSize.toNat / bs.toNat) :
    (UInt64.ofNat j * bs).toNat = j * bs.toNat := by
  have h1 : j * bs.toNat ≤ devSize.toNat := by
    calc j * bs.toNat ≤ devSize.toNat / bs.toNat * bs.toNat := Nat.mul_le_mul_right _ (by omega)
      _ ≤ devSize.toNat := Nat.div_mul_le_self _ _
  have h2 := devSize.toNat_lt
  have h3 : j < 2 ^ 64 := by
    have := Nat.div_le_self devSize.toNat bs.toNat; omega
  rw [UInt64.toNat_mul, UInt64.toNat_ofNat', Nat.mod_eq_of_lt h3, Nat.mod_eq_of_lt (by omega)]

/-- C47, the part that holds: whatever the random numbers and the map order, when
`MakeSampleOffsets` returns it returns exactly `n` strictly increasing offsets, among
them all the fixed ones, and every other one is the start of a block of the device. -/
theorem C47_samples_partial (devSize bs n : UInt64) (hb : bs.toNat < 2 ^ 32) (hpos : 0 < bs.toNat)
    (hd : devSize.toNat < 2 ^ 63) (fuel : Nat) (rnd : Nat → Nat) (ord : List UInt64 → List UInt64)
    (ho : MapOrder ord) (t : List UInt64) (h : MakeSampleOffsets fuel rnd ord devSize bs n = .ok t) :
    t.length = n.toNat ∧ t.Pairwise (fun a b => a.toNat < b.toNat) ∧
    (∀ x : UInt64, baseSample devSize.toNat bs.toNat x.toNat → x ∈ t) ∧
    ∀ x ∈ t, baseSample devSize.toNat bs.toNat x.toNat ∨
      ∃ j, j < devSize.toNat / bs.toNat ∧ x.toNat = j * bs.toNat := by
  obtain ⟨-, h1, h2, h3, h4⟩ := samples_spec hb hpos ho h
  refine ⟨h1, h2, fun x hx => h3 x ((mem_baseOffsets hb).mpr hx), ?_⟩
  intro x hx
  rcases h4 x hx with hx | ⟨j, hj, rfl⟩
  · exact Or.inl ((mem_baseOffsets hb).mp hx)
  · right
    rw [int64_blocks hd] at hj
    have hj' : j < devSize.toNat / bs.toNat := by omega
    exact ⟨j, hj', blockOff_toNat hj'⟩

/-- C47: it does return, when at least the fixed offsets are asked for and no more than
the device has blocks, provided the random source eventually hits every block. -/
theorem C47_samples_terminates (devSize bs n : UInt64) (hb : bs.toNat < 2 ^ 32) (hpos : 0 < bs.toNat)
    (hd : devSize.toNat < 2 ^ 63) (hn : baseCount devSize.toNat ≤ n.toNat) (hn' : n.toNat ≤ devSize.toNat / bs.toNat)
    (rnd : Nat → Nat) (hr : ∀ j < devSize.toNat / bs.toNat, ∃ k, rnd k % (devSize.toNat / bs.toNat) = j)
    (ord : List UInt64 → List UInt64) (ho : MapOrder ord) :
    ∃ F t, ∀ fuel, F ≤ fuel → MakeSampleOffsets fuel rnd ord devSize bs n = .ok t := by
  set nb := devSize.toNat / bs.toNat with hnb
  have hnb0 : 0 < nb := by
    have : 200 ≤ baseCount devSize.toNat := by unfold baseCount; split <;> [omega; (split <;> omega)]
    omega
  -- a number of draws after which every block was hit
  have hK : ∀ m, m ≤ nb → ∃ K, ∀ j < m, ∃ k < K, rnd k % nb = j := by
    intro m
    induction m with
    | zero => intro _; exact ⟨0, by intro j hj; omega⟩
    | succ m ih =>
      intro hm
      obtain ⟨K, hK⟩ := ih (by omega)
      obtain ⟨k, hk⟩ := hr m (by omega)
      refine ⟨max K (k + 1), ?_⟩
      intro j hj
      by_cases hjm : j = m
      · subst hjm; exact ⟨k, by omega, hk⟩
      · obtain ⟨k', hk', he⟩ := hK j (by omega)
        exact ⟨k', by omega, he⟩
  obtain ⟨K, hK⟩ := hK nb (Nat.le_refl _)
  have hi : int64OfU64 (devSize / bs) = (nb : Int) := int64_blocks hd
  obtain ⟨s, hs⟩ : ∃ s, sampleLoop rnd (int64OfU64 (devSize / bs)) bs n (K + 1) 0 (baseOffsets devSize bs) = .ok s := by
    cases hc : sampleLoop rnd (int64OfU64 (devSize / bs)) bs n (K + 1) 0 (baseOffsets devSize bs) with
    | ok s => exact ⟨s, rfl⟩
    | panic => exact absurd hc (sampleLoop_ne_panic (by omega))
    | hang =>
      exfalso
      obtain ⟨t, t1, t2⟩ := sampleLoop_hang hc (baseOffsets_nodup hb hpos)
      rw [hi, Int.toNat_natCast] at t2
      have hsub : ∀ x ∈ (List.range nb).map (fun j => UInt64.ofNat j * bs), x ∈ t := by
        intro x hx
        rw [List.mem_map] at hx
        obtain ⟨j, hj, rfl⟩ := hx
        rw [List.mem_range] at hj
        obtain ⟨k, hk, he⟩ := hK j hj
        have := t2 k hk
        rwa [Nat.zero_add, he] at this
      have hnd : ((List.range nb).map (fun j => UInt64.ofNat j * bs)).Nodup := by
        unfold List.Nodup
        rw [List.pairwise_map]
        refine List.nodup_range.imp_of_mem ?_
        intro a b ha hb' hne heq
        rw [List.mem_range] at ha hb'
        have := congrArg UInt64.toNat heq
        rw [blockOff_toNat (devSize := devSize) (by omega), blockOff_toNat (devSize := devSize) (by omega)] at this
        exact hne (Nat.eq_of_mul_eq_mul_right hpos this)
      have := (List.Nodup.subperm hnd hsub).length_le
      simp only [List.length_map, List.length_range] at this
      omega
  obtain ⟨-, -, -, i4, -, -⟩ := sampleLoop_inv hs (baseOffsets_nodup hb hpos)
  have hlen := i4 (by rw [baseOffsets_length]; exact hn)
  refine ⟨K + 1, (ord s ++ List.replicate (n.toNat - (ord s).length) 0).mergeSort fun a b => decide (a ≤ b), ?_⟩
  intro fuel hf
  rw [makeSamples_eq hb hpos, sampleLoop_mono hs hf, Go.ok_bind, if_neg (by rw [(ho s).length_eq]; omega)]

/-- C47: the number of samples asked for is the fraction of the blocks given by the
options, brought into the interval between the two limits. -/
theorem C47_sample_count (o : IdentifyOptions) (h : o.minBlocks ≤ o.maxBlocks) :
    o.minBlocks ≤ o.numSamples ∧ o.numSamples ≤ o.maxBlocks ∧
    (o.minBlocks ≤ o.sampled → o.sampled ≤ o.maxBlocks → o.numSamples = o.sampled) ∧
    (o.sampled ≤ o.minBlocks → o.numSamples = o.minBlocks) ∧
    (o.maxBlocks ≤ o.sampled → o.numSamples = o.maxBlocks) := by
  unfold IdentifyOptions.numSamples
  simp only [UInt64.le_iff_toNat_le, UInt64.lt_iff_toNat_lt, ← UInt64.toNat_inj] at *
  split
  · omega
  · split <;> omega

example : IdentifyOptions.numSamples ⟨16384, 20, 1000, 1000000, 4⟩ = 1000 ∧
    IdentifyOptions.numSamples ⟨16384, 2000, 1000, 1000000, 4⟩ = 2000 ∧
    IdentifyOptions.numSamples ⟨16384, 2000000, 1000, 1000000, 4⟩ = 1000000 := by decide

/-- C47 is false of the code: asked for fewer samples than there are fixed offsets, it
crashes. -/
theorem C47_few_samples_crash (devSize bs n : UInt64) (hb : bs.toNat < 2 ^ 32) (hpos : 0 < bs.toNat)
    (hn : n.toNat < baseCount devSize.toNat) (fuel : Nat) (rnd : Nat → Nat)
    (ord : List UInt64 → List UInt64) (ho : MapOrder ord) :
    MakeSampleOffsets (fuel + 1) rnd ord devSize bs n = .panic := by
  rw [makeSamples_eq hb hpos, sampleLoop, if_neg (by rw [baseOffsets_length]; omega), Go.ok_bind,
    if_pos (by rw [(ho _).length_eq, baseOffsets_length]; exact hn)]

/-- C47 is false of the code: asked for more samples than fixed offsets and blocks
together, it never returns, whatever the random numbers. -/
theorem C47_many_samples_hang (devSize bs n : UInt64) (hb : bs.toNat < 2 ^ 32) (hpos : 0 < bs.toNat)
    (hd : devSize.toNat < 2 ^ 63) (hblk : bs.toNat ≤ devSize.toNat)
    (hn : baseCount devSize.toNat + devSize.toNat / bs.toNat < n.toNat) (fuel : Nat) (rnd : Nat → Nat)
    (ord : List UInt64 → List UInt64) :
    MakeSampleOffsets fuel rnd ord devSize bs n = .hang := by
  have hi : int64OfU64 (devSize / bs) = ((devSize.toNat / bs.toNat : Nat) : Int) := int64_blocks hd
  have hnb : 0 < devSize.toNat / bs.toNat := Nat.div_pos hblk hpos
  rw [makeSamples_eq hb hpos]
  cases hc : sampleLoop rnd (int64OfU64 (devSize / bs)) bs n fuel 0 (baseOffsets devSize bs) with
  | hang => rfl
  | panic => exact absurd hc (sampleLoop_ne_panic (by omega))
  | ok s =>
    exfalso
    obtain ⟨i1, -, i3, -, -, i6⟩ := sampleLoop_inv hc (baseOffsets_nodup hb hpos)
    have hsub : ∀ x ∈ s, x ∈ baseOffsets devSize bs ++
        (List.range (devSize.toNat / bs.toNat)).map (fun j => UInt64.ofNat j * bs) := by
      intro x hx
      rw [List.mem_append]
      rcases i6 x hx with h | ⟨j, hj, rfl⟩
      · exact Or.inl h
      · right
        rw [hi] at hj
        exact List.mem_map.mpr ⟨j, List.mem_range.mpr (by omega), rfl⟩
    have := (List.Nodup.subperm i1 hsub).length_le
    rw [List.length_append, baseOffsets_length, List.length_map, List.length_range] at this
    omega

/-- The identity is a map order. -/
theorem mapOrder_id {α : Type} : MapOrder (id : List α → List α) := fun l => List.Perm.refl l

/-- C47 is false of the code: the fourth superblock copy (at 1 PiB) is never looked at;
asked for 400 samples of a device of 2 PiB, all samples lie below it. Nor is the second
copy (at 64 MiB) itself among them. -/
theorem C47_superblocks_missed (fuel : Nat) (rnd : Nat → Nat) (ord : List UInt64 → List UInt64)
    (ho : MapOrder ord) :
    ∃ t, MakeSampleOffsets (fuel + 1) rnd ord 0x8000000000000 16384 400 = .ok t ∧
      (∀ x ∈ t, x.toNat < 0x4000000000000) ∧ (0x4000000 : UInt64) ∉ t := by
  have hb : (16384 : UInt64).toNat < 2 ^ 32 := by decide
  have hpos : 0 < (16384 : UInt64).toNat := by decide
  have hbc : baseCount (0x8000000000000 : UInt64).toNat = 400 := by decide
  have hl := baseOffsets_length 0x8000000000000 16384
  rw [hbc] at hl
  have hs : ∀ fuel, sampleLoop rnd (int64OfU64 (0x8000000000000 / 16384)) 16384 400 (fuel + 1) 0
      (baseOffsets 0x8000000000000 16384) = .ok (baseOffsets 0x8000000000000 16384) := by
    intro fuel
    rw [sampleLoop, if_neg (by rw [hl]; decide)]
  have hlo : (ord (baseOffsets 0x8000000000000 16384)).length = 400 := by rw [(ho _).length_eq, hl]
  obtain ⟨t, ht⟩ : ∃ t, MakeSampleOffsets (fuel + 1) rnd ord 0x8000000000000 16384 400 = .ok t := by
    rw [makeSamples_eq hb hpos, hs, Go.ok_bind, if_neg (by rw [hlo]; decide)]
    exact ⟨_, rfl⟩
  have hmem : ∀ x ∈ t, x ∈ baseOffsets 0x8000000000000 16384 := by
    have ht' := ht
    rw [makeSamples_eq hb hpos, hs, Go.ok_bind, if_neg (by rw [hlo]; decide)] at ht'
    simp only [Go.ok.injEq] at ht'
    have e0 : (400 : UInt64).toNat - (ord (baseOffsets 0x8000000000000 16384)).length = 0 := by rw [hlo]; rfl
    rw [e0, List.replicate_zero, List.append_nil] at ht'
    intro x hx
    rw [← ht'] at hx
    exact (ho _).mem_iff.mp ((List.mergeSort_perm _ _).mem_iff.mp hx)
  refine ⟨t, ht, ?_, ?_⟩
  · intro x hx
    have := (mem_baseOffsets hb).mp (hmem x hx)
    have e1 : (16384 : UInt64).toNat = 16384 := by decide
    rw [e1] at this
    rcases this with ⟨i, hi, h⟩ | ⟨i, hi, h⟩ | ⟨-, i, hi, h⟩ | ⟨-, i, hi, h⟩ <;> omega
  · intro hx
    have := (mem_baseOffsets hb).mp (hmem _ hx)
    have e1 : (16384 : UInt64).toNat = 16384 := by decide
    have e2 : (0x4000000 : UInt64).toNat = 0x4000000 := by decide
    rw [e1, e2] at this
    rcases this with ⟨i, hi, h⟩ | ⟨i, hi, h⟩ | ⟨-, i, hi, h⟩ | ⟨-, i, hi, h⟩ <;> omega

/-! ## C48 -/

/-- Devices on which every fixed sample lies inside: 200 blocks fit after 64 MiB, and
if the device reaches 256 GiB then 300 blocks (400 from 1 PiB on) fit after that. -/
def roomy (size bs : Nat) : Prop :=
  0x4000000 + 200 * bs ≤ size ∧ (0x4000000000 ≤ size → 0x4000000000 + 300 * bs ≤ size) ∧
    (0x4000000000000 ≤ size → 0x4000000000 + 400 * bs ≤ size)

/-- C48, the part that holds: on roomy devices every sample leaves room for a full
block. -/
theorem C48_samples_inside_partial (devSize bs n : UInt64) (hb : bs.toNat < 2 ^ 32) (hpos : 0 < bs.toNat)
    (hd : devSize.toNat < 2 ^ 63) (hroom : roomy devSize.toNat bs.toNat)
    (fuel : Nat) (rnd : Nat → Nat) (ord : List UInt64 → List UInt64) (ho : MapOrder ord) (t : List UInt64)
    (h : MakeSampleOffsets fuel rnd ord devSize bs n = .ok t) :
    ∀ x ∈ t, x.toNat + bs.toNat ≤ devSize.toNat := by
  intro x hx
  obtain ⟨-, -, -, h4⟩ := C47_samples_partial devSize bs n hb hpos hd fuel rnd ord ho t h
  obtain ⟨r1, r2, r3⟩ := hroom
  have mono : ∀ {i k : Nat}, i + 1 ≤ k → i * bs.toNat + bs.toNat ≤ k * bs.toNat := by
    intro i k hik
    have := Nat.mul_le_mul_right bs.toNat hik
    rwa [Nat.succ_mul] at this
  rcases h4 x hx with (⟨i, hi, h⟩ | ⟨i, hi, h⟩ | ⟨hs, i, hi, h⟩ | ⟨hs, i, hi, h⟩) | ⟨j, hj, h⟩
  · have := mono (i := i) (k := 200) (by omega); omega
  · have := mono (i := 100 + i) (k := 200) (by omega); omega
  · have := mono (i := 200 + i) (k := 300) (by omega); have := r2 hs; omega
  · have := mono (i := 300 + i) (k := 400) (by omega); have := r3 hs; omega
  · have := mono (i := j) (k := devSize.toNat / bs.toNat) (by omega)
    have := Nat.div_mul_le_self devSize.toNat bs.toNat
    omega

/-- C48 is false of the code: whenever samples are returned for a device that is not
roomy, some sample does not fit. In particular this is so for every device of 64 MiB
plus 100 to 199 blocks, which `CheckDeviceSize` accepts. -/
theorem C48_sample_outside (devSize bs n : UInt64) (hb : bs.toNat < 2 ^ 32) (hpos : 0 < bs.toNat)
    (hnr : ¬ roomy devSize.toNat bs.toNat)
    (fuel : Nat) (rnd : Nat → Nat) (ord : List UInt64 → List UInt64) (ho : MapOrder ord) (t : List UInt64)
    (h : MakeSampleOffsets fuel rnd ord devSize bs n = .ok t) :
    ∃ x ∈ t, devSize.toNat < x.toNat + bs.toNat := by
  obtain ⟨-, -, -, h3, -⟩ := samples_spec hb hpos ho h
  have get : ∀ (S k : Nat), S ≤ 0x4000000000 → k < 400 →
      (baseSample devSize.toNat bs.toNat (S + k * bs.toNat)) → devSize.toNat < S + (k + 1) * bs.toNat →
      ∃ x ∈ t, devSize.toNat < x.toNat + bs.toNat := by
    intro S k hS hk hbs hlt
    have e := baseOff_toNat (S := S) (i := k) hb hS hk
    refine ⟨UInt64.ofNat S + UInt64.ofNat k * bs, h3 _ ((mem_baseOffsets hb).mpr (by rw [e]; exact hbs)), ?_⟩
    rw [e]; rw [Nat.succ_mul] at hlt; omega
  unfold roomy at hnr
  by_cases h1 : 0x4000000 + 200 * bs.toNat ≤ devSize.toNat
  · by_cases h2 : 0x4000000000 ≤ devSize.toNat → 0x4000000000 + 300 * bs.toNat ≤ devSize.toNat
    · have h3' : ¬ (0x4000000000000 ≤ devSize.toNat → 0x4000000000 + 400 * bs.toNat ≤ devSize.toNat) :=
        fun hh => hnr ⟨h1, h2, hh⟩
      rw [Classical.not_imp] at h3'
      exact get 0x4000000000 399 (by omega) (by omega)
        (Or.inr (Or.inr (Or.inr ⟨h3'.1, 99, by omega, rfl⟩))) (by omega)
    · rw [Classical.not_imp] at h2
      exact get 0x4000000000 299 (by omega) (by omega)
        (Or.inr (Or.inr (Or.inl ⟨h2.1, 99, by omega, rfl⟩))) (by omega)
  · exact get 0x4000000 199 (by omega) (by omega) (Or.inr (Or.inl ⟨99, by omega, rfl⟩)) (by omega)

/-- C48, exactly: the samples that are returned all leave room for a full block if and only if
the device is roomy. -/
theorem C48_inside_iff (devSize bs n : UInt64) (hb : bs.toNat < 2 ^ 32) (hpos : 0 < bs.toNat) (hd : devSize.toNat < 2 ^ 63)
    (fuel : Nat) (rnd : Nat → Nat) (ord : List UInt64 → List UInt64) (ho : MapOrder ord) (t : List UInt64)
    (h : MakeSampleOffsets fuel rnd ord devSize bs n = .ok t) :
    (∀ x ∈ t, x.toNat + bs.toNat ≤ devSize.toNat) ↔ roomy devSize.toNat bs.toNat := by
  refine ⟨fun hx => ?_, fun hr => C48_samples_inside_partial devSize bs n hb hpos hd hr fuel rnd ord ho t h⟩
  by_contra hnr
  obtain ⟨x, hx1, hx2⟩ := C48_sample_outside devSize bs n hb hpos hnr fuel rnd ord ho t h
  have := hx x hx1
  omega

section
variable {F : Type} [LinearOrder F]

/-- C44/C48 for the whole command on a device image: on a roomy device `IdentifyFS`
ends normally once the samples are chosen, and prints exactly the FSIDs of the sampled
blocks with their counts. -/
theorem C48_identify_image_partial (dev : Bytes) (o : IdentifyOptions) (hb : o.blockSize.toNat < 2 ^ 32)
    (hmin : 126 ≤ o.blockSize.toNat) (hlen : dev.length < 2 ^ 63) (hroom : roomy dev.length o.blockSize.toNat)
    (hn : o.numSamples.toNat ≤ 2 ^ 31)
    (fuel : Nat) (rnd : Nat → Nat) (ordS : List UInt64 → List UInt64) (ordH : FSIDHist → FSIDHist)
    (hoS : MapOrder ordS) (hoH : MapOrder ordH) (ent : UUID → F) (avg : UInt64 → UInt64 → Nat) (t : List UInt64)
    (ht : MakeSampleOffsets fuel rnd ordS (UInt64.ofNat dev.length) o.blockSize o.numSamples = .ok t) :
    ∃ es : List (FSEntry F),
      IdentifyFS fuel rnd ordS ordH ent avg (imageReader dev) (some (UInt64.ofNat dev.length)) o () = .ok es () ∧
      es.Pairwise FSEntry.ahead ∧
      (∀ u, u ∈ es.map FSEntry.fsid ↔ realFSID u ∧
        leavesOf u (t.map (blockAt dev o.blockSize.toNat)) ≠ [] ∧
        o.minOccurrence.toNat ≤ (leavesOf u (t.map (blockAt dev o.blockSize.toNat))).length) ∧
      ∀ e ∈ es, e.count.toNat = (leavesOf e.fsid (t.map (blockAt dev o.blockSize.toNat))).length := by
  have hsz : (UInt64.ofNat dev.length).toNat = dev.length := by
    rw [UInt64.toNat_ofNat']; exact Nat.mod_eq_of_lt (by omega)
  have hne : o.blockSize ≠ 0 := by intro hh; rw [hh] at hmin; simp at hmin
  have hchk : CheckDeviceSize (some (UInt64.ofNat dev.length)) o.blockSize = .ok (UInt64.ofNat dev.length) :=
    check_ok _ _ hb (by rw [hsz]; have := hroom.1; omega)
  have hin := C48_samples_inside_partial (UInt64.ofNat dev.length) o.blockSize o.numSamples hb (by omega)
    (by rw [hsz]; exact hlen) (by rw [hsz]; exact hroom) fuel rnd ordS hoS t ht
  rw [hsz] at hin
  have htlen : t.length = o.numSamples.toNat := (samples_spec hb (by omega) hoS ht).2.1
  have hoff : ∀ x ∈ t, x.toNat < 2 ^ 63 := fun x hx => by have := hin x hx; omega
  obtain ⟨hok, -⟩ := identifyLoop_image dev o.blockSize.toNat hmin hlen t (List.replicate o.blockSize.toNat 0) []
    (List.length_replicate ..) hoff
  obtain ⟨h, hc, hrun⟩ := hok hin
  obtain ⟨h', hc', hcount⟩ := C44_counts_exact (F := F) (t.map (blockAt dev o.blockSize.toNat)) (by
    intro b hb'
    rw [List.mem_map] at hb'
    obtain ⟨x, hx, rfl⟩ := hb'
    have := hin x hx
    rw [blockAt, List.length_take, List.length_drop]; omega) (by rw [List.length_map]; omega)
  obtain ⟨h'', hc'', hsort⟩ := C45_sorted_complete_deterministic (F := F) (t.map (blockAt dev o.blockSize.toNat)) (by
    intro b hb'
    rw [List.mem_map] at hb'
    obtain ⟨x, hx, rfl⟩ := hb'
    have := hin x hx
    rw [blockAt, List.length_take, List.length_drop]; omega) (by rw [List.length_map]; omega)
  rw [hc] at hc' hc''
  simp only [Go.ok.injEq] at hc' hc''
  subst hc'; subst hc''
  refine ⟨entries ent avg ordH h o.minOccurrence, ?_, (hsort ent avg ordH hoH _).1, (hsort ent avg ordH hoH _).2.2.1,
    (hcount ent avg ordH hoH _).2⟩
  unfold IdentifyFS
  simp only [hchk, if_neg hne]
  rw [Cmd.bind_ok (a := t) (s' := ()) (by rw [ht]; rfl), Cmd.bind_ok (a := h) (s' := ()) hrun]
  rfl

/-- C48 is false of the code: on an image accepted by `CheckDeviceSize` that is not
roomy, `IdentifyFS` always ends with a read error (or does not get that far), whatever
the image contains. -/
theorem C48_identify_fails (dev : Bytes) (o : IdentifyOptions) (hb : o.blockSize.toNat < 2 ^ 32)
    (hmin : 126 ≤ o.blockSize.toNat) (hlen : dev.length < 2 ^ 62) (hnr : ¬ roomy dev.length o.blockSize.toNat)
    (hsize : 64 * 2 ^ 20 + 100 * o.blockSize.toNat ≤ dev.length)
    (fuel : Nat) (rnd : Nat → Nat) (ordS : List UInt64 → List UInt64) (ordH : FSIDHist → FSIDHist)
    (hoS : MapOrder ordS) (ent : UUID → F) (avg : UInt64 → UInt64 → Nat) (t : List UInt64)
    (ht : MakeSampleOffsets fuel rnd ordS (UInt64.ofNat dev.length) o.blockSize o.numSamples = .ok t) :
    IdentifyFS fuel rnd ordS ordH ent avg (imageReader dev) (some (UInt64.ofNat dev.length)) o () = .exit () := by
  have hsz : (UInt64.ofNat dev.length).toNat = dev.length := by
    rw [UInt64.toNat_ofNat']; exact Nat.mod_eq_of_lt (by omega)
  have hne : o.blockSize ≠ 0 := by intro hh; rw [hh] at hmin; simp at hmin
  have hchk : CheckDeviceSize (some (UInt64.ofNat dev.length)) o.blockSize = .ok (UInt64.ofNat dev.length) :=
    check_ok _ _ hb (by rw [hsz]; exact hsize)
  obtain ⟨x, hx, hlt⟩ := C48_sample_outside (UInt64.ofNat dev.length) o.blockSize o.numSamples hb (by omega)
    (by rw [hsz]; exact hnr) fuel rnd ordS hoS t ht
  rw [hsz] at hlt
  have hoff : ∀ x ∈ t, x.toNat < 2 ^ 63 := by
    intro y hy
    obtain ⟨-, -, -, h4⟩ := C47_samples_partial (UInt64.ofNat dev.length) o.blockSize o.numSamples hb (by omega)
      (by rw [hsz]; omega) fuel rnd ordS hoS t ht
    rw [hsz] at h4
    rcases h4 y hy with (⟨i, hi, h⟩ | ⟨i, hi, h⟩ | ⟨hs, i, hi, h⟩ | ⟨hs, i, hi, h⟩) | ⟨j, hj, h⟩
    · have : i * o.blockSize.toNat ≤ 400 * 2 ^ 32 := Nat.mul_le_mul (by omega) (by omega)
      omega
    · have : (100 + i) * o.blockSize.toNat ≤ 400 * 2 ^ 32 := Nat.mul_le_mul (by omega) (by omega)
      omega
    · have : (200 + i) * o.blockSize.toNat ≤ 400 * 2 ^ 32 := Nat.mul_le_mul (by omega) (by omega)
      omega
    · have : (300 + i) * o.blockSize.toNat ≤ 400 * 2 ^ 32 := Nat.mul_le_mul (by omega) (by omega)
      omega
    · have h1 : j * o.blockSize.toNat ≤ dev.length / o.blockSize.toNat * o.blockSize.toNat :=
        Nat.mul_le_mul_right _ (by omega)
      have := Nat.div_mul_le_self dev.length o.blockSize.toNat
      omega
  obtain ⟨-, hex⟩ := identifyLoop_image dev o.blockSize.toNat hmin (by omega) t (List.replicate o.blockSize.toNat 0) []
    (List.length_replicate ..) hoff
  unfold IdentifyFS
  simp only [hchk, if_neg hne]
  rw [Cmd.bind_ok (a := t) (s' := ()) (by rw [ht]; rfl), Cmd.bind_exit (hex ⟨x, hx, hlt⟩)]

/-- A device of 64 MiB and 150 blocks: large enough for `CheckDeviceSize`, not roomy. -/
example : 64 * 2 ^ 20 + 100 * 16384 ≤ 0x4000000 + 150 * 16384 ∧ ¬ roomy (0x4000000 + 150 * 16384) 16384 := by
  refine ⟨by decide, ?_⟩
  unfold roomy; omega

/-- The default of 1000 samples on a device of 128 MiB with 16 KiB blocks, with the random
source counting up, satisfies the termination theorem. -/
example : ∃ F t, ∀ fuel, F ≤ fuel →
    MakeSampleOffsets fuel (fun k => k) id 0x8000000 16384 1000 = .ok t :=
  C47_samples_terminates 0x8000000 16384 1000 (by decide) (by decide) (by decide) (by decide) (by decide) _
    (fun j hj => ⟨j, Nat.mod_eq_of_lt hj⟩) id mapOrder_id

/-- Two leaves of one file system and one of another. -/
def exFsid (x : UInt8) : UUID := ⟨List.replicate 15 0 ++ [x], rfl⟩
/-- A leaf with one item whose payload is recorded at 16191. -/
def exIdBlock (u : UUID) : Bytes :=
  HeaderRec.layout ⟨⟨List.replicate 32 0, by simp⟩, u, 0, 0, uuidAllZero, 7, 5, 1, 0⟩ ++
    ((⟨⟨256, 1, 0⟩, 16191, 160⟩ : ItemRec).layout ++ List.replicate 200 0)

theorem exIdBlock_leaf (u v : UUID) : leafWith v (exIdBlock u) ↔ u = v := by
  rw [exIdBlock, leafWith_iff]; simp

theorem exIdBlock_offset (u : UUID) : firstOffset (exIdBlock u) 16191 := by
  rw [exIdBlock, firstOffset_iff]; exact ⟨by simp, rfl⟩

theorem exIdBlock_length (u : UUID) : 126 ≤ (exIdBlock u).length := by
  rw [exIdBlock, List.length_append, headerRec_length, List.length_append, (C07_Item_decodes _ [] []).1]; omega

/-- The hypotheses of the counting theorems, and a count of two. -/
example : (∀ b ∈ [exIdBlock (exFsid 1), exIdBlock (exFsid 2), exIdBlock (exFsid 1)], 126 ≤ b.length) ∧
    (leavesOf (exFsid 1) [exIdBlock (exFsid 1), exIdBlock (exFsid 2), exIdBlock (exFsid 1)]).length = 2 := by
  constructor
  · intro b hb
    simp only [List.mem_cons, List.not_mem_nil, or_false] at hb
    rcases hb with rfl | rfl | rfl <;> exact exIdBlock_length _
  · have h12 : exFsid 2 ≠ exFsid 1 := by decide
    simp [leavesOf, exIdBlock_leaf, h12]

/-- C46: four leaves of one file system, each with its first item at 16191 as on a file
system with 16 KiB blocks, meet the hypotheses of `C46_four_samples_too_small`. -/
example : (leavesOf (exFsid 1) (List.replicate 4 (exIdBlock (exFsid 1)))).length = 4 ∧
    ∀ b ∈ leavesOf (exFsid 1) (List.replicate 4 (exIdBlock (exFsid 1))), ∃ o, firstOffset b o ∧ o ≤ 16384 - 101 := by
  have : leavesOf (exFsid 1) (List.replicate 4 (exIdBlock (exFsid 1))) = List.replicate 4 (exIdBlock (exFsid 1)) := by
    simp [leavesOf, exIdBlock_leaf]
  rw [this]
  refine ⟨List.length_replicate .., ?_⟩
  intro b hb
  rw [(List.mem_replicate.mp hb).2]
  exact ⟨16191, exIdBlock_offset _, by decide⟩

/-- C46: with 15 such leaves the guess is right. -/
example : (leavesOf (exFsid 1) (List.replicate 15 (exIdBlock (exFsid 1)))).length * (16384 - 4096) ≤
    ((leavesOf (exFsid 1) (List.replicate 15 (exIdBlock (exFsid 1)))).length - 1) * 16191 := by
  have : leavesOf (exFsid 1) (List.replicate 15 (exIdBlock (exFsid 1))) = List.replicate 15 (exIdBlock (exFsid 1)) := by
    simp [leavesOf, exIdBlock_leaf]
  rw [this, List.length_replicate]; decide

end

end Btrfscue
