import Verif.Proof.RangeAll
import Verif.Props.IndexLookup
/-!
# C31–C35: ranges
-/

namespace Btrfscue

/-! ## C31 -/

/-- C31 (what is proved): on a well-behaved index iterating `RangeAll(owner, t, id)`
ends, and yields only stored, intact items of that owner, type and object id, in
strictly increasing key order and all of one generation. Missing: indexes violating
`RangeOK`, see `C31_wrong_type_items` and C33. -/
theorem C31_range_sound_partial (b : Bucket) (hb : b.WF) (m : Bytes)
    (hm : b.stores metadataVersionKey m) (o : UInt64) (t : UInt8) (id : UInt64)
    (hok : b.RangeOK o (KL2 t id)) (G : UInt64) :
    ∃ N items g, (∀ fuel, N ≤ fuel →
        rangeAllItems fuel ⟨b, G⟩ o t id = .ok items) ∧
      items.Pairwise (fun x y => bytesLt x.1 y.1 = true) ∧
      ∀ ik d, (ik, d) ∈ items → ∃ off x, ik = (VKey.mk o ⟨id, t, off⟩ g).encode ∧
        b.stores ⟨o, ⟨id, t, off⟩, g⟩ x ∧ holdsItem x d := by
  obtain ⟨N, items, h1, h2, h3⟩ := rangeItems_spec hb (first := KF t id) ⟨m, hm⟩ hok G
  rcases h3 with ⟨-, rfl⟩ | ⟨k0, g0, h4, h5, h6⟩
  · exact ⟨N, [], 0, h1, h2, fun _ _ h => by cases h⟩
  · refine ⟨N, items, g0, h1, h2, fun ik d hmem => ?_⟩
    obtain ⟨k, x, rfl, h7, h8, h9, h10, -⟩ := (h6 ik d).mp hmem
    obtain ⟨ht, hi⟩ := between_same_prefix h4.2.1 h4.2.2.1 h9 h10
    obtain ⟨ko, kt, kf⟩ := k
    simp only at ht hi
    subst ht; subst hi
    exact ⟨kf, x, rfl, h7, h8⟩

/-- C31: the named ranges are `RangeAll` with the type numbers of the on-disk format:
84 for directory entries, 24 for extended attributes, 108 for file extents, and in the
chunk tree (owner 3) 228 for chunks of object 256 and 216 for devices of object 1. -/
theorem C31_named_ranges (ix : Ix) (o id : UInt64) :
    ix.dirItems o id = ix.rangeAll o 84 id ∧ ix.xattrItems o id = ix.rangeAll o 24 id ∧
    ix.fileExtentItems o id = ix.rangeAll o 108 id ∧ ix.chunks = ix.rangeAll 3 228 256 ∧
    ix.devItems = ix.rangeAll 3 216 1 := ⟨rfl, rfl, rfl, rfl, rfl⟩

/-- A directory with two entries of the same generation, an extent, metadata. -/
def exDirStore : AStore :=
  [(⟨5, ⟨256, 84, 1⟩, 10⟩, mkItem ⟨256, 84, 1⟩ [1]), (⟨5, ⟨256, 84, 9⟩, 10⟩, mkItem ⟨256, 84, 9⟩ [2]),
   (⟨5, ⟨257, 108, 0⟩, 10⟩, mkItem ⟨257, 108, 0⟩ [3]), (metadataVersionKey, [])]

theorem exDirStore_ok : exDirStore.Sorted ∧ exDirStore.enc.RangeOK 5 (KL2 84 256) := by
  refine ⟨sorted_of_before (by decide +kernel), rangeOK_of (by decide) ?_ (by decide +kernel)
    (by decide +kernel)⟩
  intro e he ho
  simp only [exDirStore, List.mem_cons, List.not_mem_nil, or_false] at he
  rcases he with rfl | rfl | rfl | rfl
  · exact ⟨_, mkItem_holds _ _ (by decide)⟩
  · exact ⟨_, mkItem_holds _ _ (by decide)⟩
  · exact ⟨_, mkItem_holds _ _ (by decide)⟩
  · exact absurd ho (by decide)

example : exDirStore.enc.WF ∧ exDirStore.enc.stores metadataVersionKey [] ∧
    exDirStore.enc.RangeOK 5 (KL2 84 256) :=
  ⟨AStore.enc_wf exDirStore_ok.1, enc_stores.mpr (by simp [exDirStore]), exDirStore_ok.2⟩

/-- Two subvolumes, each in one leaf. -/
def exTwoSubvols : AStore :=
  [(⟨256, ⟨256, 1, 0⟩, 10⟩, mkItem ⟨256, 1, 0⟩ [7]), (⟨256, ⟨257, 108, 0⟩, 10⟩, mkItem ⟨257, 108, 0⟩ [8]),
   (⟨257, ⟨256, 1, 0⟩, 11⟩, mkItem ⟨256, 1, 0⟩ [9]), (metadataVersionKey, [])]

/-- C31 refuted in general: iterating the file extents of inode 257 of subvolume 256 in
an index with two small subvolumes visits the inode item of the root directory. -/
theorem C31_wrong_type_items :
    exTwoSubvols.Sorted ∧
    ∃ r d r' d', (Ix.mk exTwoSubvols.enc (~~~0)).fileExtentItems 256 257 = .ok (r, d) ∧
      r.next = .ok (r', d') ∧ r'.hasNext = true ∧ r'.rKey = .ok ⟨256, 1, 0⟩ := by
  refine ⟨sorted_of_before (by decide +kernel), ?_⟩
  have h1 : (Ix.mk exTwoSubvols.enc (~~~0)).fileExtentItems 256 257 =
      .ok (Range.at exTwoSubvols.enc (VKey.mk 256 (KL2 108 257) (~~~0)).encode
        (⟨256, ⟨257, 108, 0⟩, 10⟩, mkItem ⟨257, 108, 0⟩ [8]), ⟨[8], []⟩) := by decide +kernel
  have h2 : (Range.at exTwoSubvols.enc (VKey.mk 256 (KL2 108 257) (~~~0)).encode
        (⟨256, ⟨257, 108, 0⟩, 10⟩, mkItem ⟨257, 108, 0⟩ [8])).next =
      .ok (Range.at exTwoSubvols.enc (VKey.mk 256 (KL2 108 257) (~~~0)).encode
        (⟨256, ⟨256, 1, 0⟩, 10⟩, mkItem ⟨256, 1, 0⟩ [7]), ⟨[7], []⟩) := by decide +kernel
  exact ⟨_, _, _, _, h1, h2, by decide +kernel, by decide +kernel⟩

/-! ## C32 -/

/-- C32 (what is proved): on a well-behaved index the iteration yields exactly the keys
`(t id ?)` such that no stored key of the range up to it lacks the generation chosen
for the first key; nothing is yielded exactly if there is no such key. Missing:
directories whose items have different generations (`C32_incomplete`). -/
theorem C32_range_exact_partial (b : Bucket) (hb : b.WF) (m : Bytes)
    (hm : b.stores metadataVersionKey m) (o : UInt64) (t : UInt8) (id : UInt64)
    (hok : b.RangeOK o (KL2 t id)) (G : UInt64) :
    ∃ N items, (∀ fuel, N ≤ fuel →
        rangeAllItems fuel ⟨b, G⟩ o t id = .ok items) ∧
      (((∀ off, ¬ b.hasKey o ⟨id, t, off⟩) ∧ items = []) ∨
       ∃ k0 g0, b.firstOf o t id k0 ∧ b.actualChoice o k0 G g0 ∧
        ∀ off d, ((VKey.mk o ⟨id, t, off⟩ g0).encode, d) ∈ items ↔
          (∃ x, b.stores ⟨o, ⟨id, t, off⟩, g0⟩ x ∧ holdsItem x d) ∧ (off ≠ ~~~0 ∨ g0 ≤ G) ∧
          ∀ off', off' ≤ off → b.hasKey o ⟨id, t, off'⟩ → b.hasVersion o ⟨id, t, off'⟩ g0) := by
  obtain ⟨N, items, h1, h2, h3⟩ := rangeItems_spec hb (first := KF t id) ⟨m, hm⟩ hok G
  refine ⟨N, items, h1, ?_⟩
  rcases h3 with ⟨h4, h5⟩ | ⟨k0, g0, h4, h5, h6⟩
  · exact Or.inl ⟨fun off hk => h4 _ hk ⟨rfl, rfl⟩, h5⟩
  · refine Or.inr ⟨k0, g0, h4, h5, fun off d => ?_⟩
    rw [h6]
    have hle : ∀ a b : UInt64, ¬ (Key.mk id t a).before ⟨id, t, b⟩ ↔ b ≤ a := by
      intro a b
      rw [UInt64.le_iff_toNat_le]
      simp [Key.before, Key.fields, lexLt]
    have hfirst : ∀ off, b.hasKey o ⟨id, t, off⟩ → ¬ (Key.mk id t off).before k0 := fun off hk =>
      h4.2.2.2 _ hk rfl rfl
    have hend : ¬ (VKey.mk o (KL2 t id) G).before ⟨o, ⟨id, t, off⟩, g0⟩ ↔ (off ≠ ~~~0 ∨ g0 ≤ G) := by
      have hoff : off = ~~~0 ↔ off.toNat = 2 ^ 64 - 1 := by
        rw [← UInt64.toNat_inj, max64_toNat]
      rw [Ne, hoff, UInt64.le_iff_toNat_le, ← VKey.num_lt_iff, VKey.num_eq, VKey.num_eq, VKey.p25_eq,
        VKey.p25_eq]
      have h7 : (VKey.mk o ⟨id, t, off⟩ g0).p17 = (VKey.mk o (KL2 t id) G).p17 :=
        VKey.p17_inj.mpr ⟨rfl, rfl, rfl⟩
      rw [h7]
      have h8 : (KL2 t id).offset.toNat = 2 ^ 64 - 1 := max64_toNat
      have := off.toNat_lt
      have := g0.toNat_lt
      have := G.toNat_lt
      simp only [h8]
      omega
    constructor
    · rintro ⟨k, x, hk, h7, h8, h9, h10, h11⟩
      rw [VKey.encode_inj] at hk
      simp only [VKey.mk.injEq, true_and, and_true] at hk
      subst hk
      refine ⟨⟨x, h7, h8⟩, hend.mp h10, fun off' hoff hk' => ?_⟩
      exact h11 _ hk' (hfirst _ hk') ((hle _ _).mpr hoff)
    · rintro ⟨⟨x, h7, h8⟩, h9, h10⟩
      have hk : b.hasKey o ⟨id, t, off⟩ := ⟨g0, x, h7⟩
      refine ⟨_, x, rfl, h7, h8, hfirst _ hk, hend.mpr h9, fun k' hk' hb1 hb2 => ?_⟩
      have h11 : ¬ (VKey.mk o (KL2 t id) (~~~0)).before ⟨o, k', g0⟩ := by
        rw [← VKey.num_lt_iff]
        rw [key_before_iff (o := o) (g := g0) (g' := g0)] at hb2
        have h12 : (VKey.mk o ⟨id, t, off⟩ g0).p25 ≤ (VKey.mk o (KL2 t id) (~~~0)).p25 := by
          rw [VKey.p25_eq, VKey.p25_eq]
          have : (VKey.mk o ⟨id, t, off⟩ g0).p17 = (VKey.mk o (KL2 t id) (~~~0)).p17 :=
            VKey.p17_inj.mpr ⟨rfl, rfl, rfl⟩
          rw [this]
          have := off.toNat_lt
          simp only [KL2, max64_toNat]
          omega
        rw [VKey.num_eq, VKey.num_eq]
        have := g0.toNat_lt
        simp only [max64_toNat]
        omega
      obtain ⟨h12, h13⟩ := between_same_prefix h4.2.1 h4.2.2.1 hb1 h11
      obtain ⟨ko, kt, kf⟩ := k'
      simp only at h12 h13
      subst h12; subst h13
      exact h10 kf ((hle _ _).mp hb2) hk'

/-- C32: complete for directories written in one generation: if `g` is the newest
generation of every key `(t id ?)`, an index open for reading yields every one of
them at that generation. -/
theorem C32_range_complete_single_generation (b : Bucket) (hb : b.WF) (m : Bytes)
    (hm : b.stores metadataVersionKey m) (o : UInt64) (t : UInt8) (id : UInt64)
    (hok : b.RangeOK o (KL2 t id)) (g : UInt64)
    (hg : ∀ off, b.hasKey o ⟨id, t, off⟩ → b.newest o ⟨id, t, off⟩ g) :
    ∃ N items, (∀ fuel, N ≤ fuel →
        rangeAllItems fuel ⟨b, ~~~0⟩ o t id = .ok items) ∧
      ∀ off, b.hasKey o ⟨id, t, off⟩ → ∃ x d, b.stores ⟨o, ⟨id, t, off⟩, g⟩ x ∧ holdsItem x d ∧
        ((VKey.mk o ⟨id, t, off⟩ g).encode, d) ∈ items := by
  obtain ⟨N, items, h1, h2⟩ := C32_range_exact_partial b hb m hm o t id hok (~~~0)
  refine ⟨N, items, h1, fun off hk => ?_⟩
  rcases h2 with ⟨h2, -⟩ | ⟨k0, g0, h3, h4, h5⟩
  · exact absurd hk (h2 off)
  · have hg0 : g0 = g := by
      obtain ⟨ko, kt, kf⟩ := k0
      obtain ⟨h6, h7, h8, -⟩ := h3
      simp only at h7 h8
      subst h7; subst h8
      obtain ⟨h9, h10⟩ := hg kf h6
      obtain ⟨h11, h12⟩ := h4
      have h13 := h10 g0 h11
      have h14 := le_max64 g
      rw [UInt64.le_iff_toNat_le] at h13 h14
      rw [← UInt64.toNat_inj]
      rcases h12 with ⟨h15, -⟩ | ⟨-, h15⟩
      · rw [UInt64.le_iff_toNat_le] at h15; omega
      · have := h15 g h9
        rw [UInt64.le_iff_toNat_le] at this; omega
    subst hg0
    obtain ⟨⟨x, hx⟩, -⟩ := hg off hk
    obtain ⟨d, hd⟩ := hok.intact _ _ hx rfl
    exact ⟨x, d, hx, hd, (h5 off d).mpr ⟨⟨x, hx, hd⟩, Or.inr (le_max64 _),
      fun off' _ hk' => (hg off' hk').1⟩⟩

/-- The hypotheses hold for the two entries of `exDirStore`. -/
example : ∀ off, exDirStore.enc.hasKey 5 ⟨256, 84, off⟩ →
    exDirStore.enc.newest 5 ⟨256, 84, off⟩ 10 := by
  intro off hk
  obtain ⟨g, x, hx⟩ := enc_hasKey.mp hk
  have hall : ∀ e ∈ exDirStore, e.1.owner = 5 → e.1.gen = 10 := by decide +kernel
  have := hall _ hx rfl
  simp only at this
  subst this
  refine ⟨enc_hasVersion.mpr ⟨x, hx⟩, fun g' hg' => ?_⟩
  obtain ⟨y, hy⟩ := enc_hasVersion.mp hg'
  have := hall _ hy rfl
  simp only at this
  subst this
  exact (by decide : (10 : UInt64) ≤ 10)

/-- The same directory after its second entry was rewritten in generation 11. -/
def exMixedDir : AStore :=
  [(⟨5, ⟨256, 84, 1⟩, 10⟩, mkItem ⟨256, 84, 1⟩ [1]), (⟨5, ⟨256, 84, 9⟩, 11⟩, mkItem ⟨256, 84, 9⟩ [2]),
   (⟨5, ⟨257, 108, 0⟩, 10⟩, mkItem ⟨257, 108, 0⟩ [3]), (metadataVersionKey, [])]

/-- C32 refuted in general: a directory whose entries live in leaves of different
generations is listed only up to the first change of generation. -/
theorem C32_incomplete :
    exMixedDir.Sorted ∧ exMixedDir.enc.RangeOK 5 (KL2 84 256) ∧
    exMixedDir.enc.hasKey 5 ⟨256, 84, 9⟩ ∧
    ∀ fuel, 2 ≤ fuel → rangeAllItems fuel ⟨exMixedDir.enc, ~~~0⟩ 5 84 256 =
      .ok [((VKey.mk 5 ⟨256, 84, 1⟩ 10).encode, [1])] := by
  refine ⟨sorted_of_before (by decide +kernel), rangeOK_of (by decide) ?_ (by decide +kernel)
    (by decide +kernel), enc_hasKey.mpr ⟨11, mkItem ⟨256, 84, 9⟩ [2], by simp [exMixedDir]⟩, ?_⟩
  · intro e he ho
    simp only [exMixedDir, List.mem_cons, List.not_mem_nil, or_false] at he
    rcases he with rfl | rfl | rfl | rfl
    · exact ⟨_, mkItem_holds _ _ (by decide)⟩
    · exact ⟨_, mkItem_holds _ _ (by decide)⟩
    · exact ⟨_, mkItem_holds _ _ (by decide)⟩
    · exact absurd ho (by decide)
  · intro fuel hf
    have h1 : (Ix.mk exMixedDir.enc (~~~0)).range 5 (KF 84 256) (KL2 84 256) =
        .ok (Range.at exMixedDir.enc (VKey.mk 5 (KL2 84 256) (~~~0)).encode
          (⟨5, ⟨256, 84, 1⟩, 10⟩, mkItem ⟨256, 84, 1⟩ [1]), ⟨[1], []⟩) := by decide +kernel
    have h2 : (Range.at exMixedDir.enc (VKey.mk 5 (KL2 84 256) (~~~0)).encode
          (⟨5, ⟨256, 84, 1⟩, 10⟩, mkItem ⟨256, 84, 1⟩ [1])).next =
        .ok (⟨exMixedDir.enc, none, (VKey.mk 5 (KL2 84 256) (~~~0)).encode, ⟨[], []⟩⟩, ⟨[], []⟩) := by
      decide +kernel
    simp only [rangeAllItems, Ix.rangeAll, h1, Go.ok_bind]
    rw [collect_eq (.step (by decide +kernel) h2 (.done rfl)) fuel (by simp only [List.length_cons, List.length_nil]; omega)]
    rfl

/-! ## C33 -/

/-- C33 (what is proved): every range over a well-behaved index ends, with a number of
steps bounded by the number of stored entries. Missing: the two ways to loop forever
below. -/
theorem C33_range_terminates_partial (b : Bucket) (hb : b.WF) (m : Bytes)
    (hm : b.stores metadataVersionKey m) (o : UInt64) (first last : Key)
    (hok : b.RangeOK o last) (G : UInt64) :
    ∀ fuel, b.length < fuel → (rangeItems fuel ⟨b, G⟩ o first last).isOk = true := by
  obtain ⟨l, hl, rfl⟩ := hb.exists_abs
  obtain ⟨rd, items, hr, hy, hp, hs⟩ := range_yields hl (first := first) ⟨m, hm⟩ hok G
  intro fuel hf
  have hsub : (items.map fun e => e.1).length ≤ l.length := by
    have hnd : (items.map fun e => e.1).Pairwise (fun a b => a.1.num < b.1.num) :=
      List.pairwise_map.mpr hp
    have hmem : ∀ e ∈ (items.map fun e => e.1), e ∈ l := by
      intro e he
      obtain ⟨⟨⟨w, y⟩, s⟩, h1, rfl⟩ := List.mem_map.mp he
      rcases hs with ⟨-, rfl⟩ | ⟨k0, g0, -, -, h3⟩
      · cases h1
      · obtain ⟨k, rfl, h4, -⟩ := (h3 w y s).mp h1
        exact enc_stores.mp h4
    have hnd' : (items.map fun e => e.1).Nodup := hnd.imp (by
      intro a b hab heq; subst heq; omega)
    exact hnd'.length_le_of_subset hmem
  simp only [rangeItems, hr, Go.ok_bind]
  rw [collect_eq hy fuel (by
    simp only [List.length_map] at hsub ⊢
    simp only [AStore.enc, List.length_map] at hf
    omega)]
  rfl

/-- C33 refuted: a range that reaches an item of generation `2^64-1` never ends. -/
theorem C33_max_generation_hangs (l : AStore) (h : l.Sorted) (o : UInt64) (k last : Key) (x : Bytes)
    (hx : (⟨o, k, ~~~0⟩, x) ∈ l) (d : Slice) (hd : Item.data ⟨x, []⟩ = .ok d)
    (hlast : ¬ last.before k) (fuel : Nat) :
    Range.collect fuel (Range.at l.enc (VKey.mk o last (~~~0)).encode (⟨o, k, ~~~0⟩, x), d) = .hang := by
  apply collect_hang (fun rd =>
    rd = (Range.at l.enc (VKey.mk o last (~~~0)).encode (⟨o, k, ~~~0⟩, x), d)) _ fuel _ rfl
  rintro rd rfl
  constructor
  · apply decide_eq_true
    apply (VKey.bytesCompare_le _ _).mpr
    rw [key_before_iff (o := o) (g := ~~~0) (g' := ~~~0)] at hlast
    rw [VKey.num_eq, VKey.num_eq]
    simp only
    omega
  · refine ⟨_, ?_, rfl⟩
    have hc : l.cand ⟨o, k, ~~~0⟩ = some (⟨o, k, ~~~0⟩, x) := hi_head_eq h _ _ hx
    simp only [Range.at, Range.next, findNext_hit h hc hx, Go.ok_bind, Range.setTo, Range.current,
      hd, Go.pure_eq]

/-- C33 refuted: if all items of an owner have one generation, the range reaches its
last item, and the first item of the next owner has a key that also occurs here, the
iteration starts over and never ends. -/
theorem C33_wraps_forever (l : AStore) (h : l.Sorted) (o : UInt64) (ho : o ≠ ~~~0) (g : UInt64)
    (hgm : g ≠ ~~~0) (hs : ∃ m, (metadataVersionKey, m) ∈ l) (last : Key)
    (hone : ∀ v x, (v, x) ∈ l → v.owner = o → v.gen = g ∧ ¬ last.before v.key ∧
      ∃ s, Item.data ⟨x, []⟩ = .ok s)
    (f : VKey) (hf : l.enc.firstAfter o f) (hw : l.enc.hasVersion o f.key g)
    (v : VKey) (x : Bytes) (hv : (v, x) ∈ l) (hvo : v.owner = o) (d : Slice) (fuel : Nat) :
    Range.collect fuel (Range.at l.enc (VKey.mk o last (~~~0)).encode (v, x), d) = .hang := by
  apply collect_hang (fun rd => ∃ v x d, (v, x) ∈ l ∧ v.owner = o ∧
    rd = (Range.at l.enc (VKey.mk o last (~~~0)).encode (v, x), d)) _ fuel _ ⟨v, x, d, hv, hvo, rfl⟩
  rintro rd ⟨v, x, d, hv, hvo, rfl⟩
  constructor
  · apply decide_eq_true
    apply (VKey.bytesCompare_le _ _).mpr
    obtain ⟨-, h2, -⟩ := hone v x hv hvo
    rw [key_before_iff (o := o) (g := ~~~0) (g' := v.gen)] at h2
    have h3 : (VKey.mk o v.key v.gen) = v := by rw [← hvo]
    rw [h3] at h2
    rw [VKey.num_eq, VKey.num_eq]
    have := v.gen.toNat_lt
    simp only [max64_toNat]
    omega
  · obtain ⟨c, y, hc, hcl, hlt, hmin⟩ := cand_spec h ho hs (fun k x hx => by
      have := (hone _ _ hx rfl).1
      exact hgm this.symm) hvo
    have hhas : ∃ z, (⟨v.owner, c.key, v.gen⟩, z) ∈ l := by
      by_cases hco : c.owner = o
      · refine ⟨y, ?_⟩
        have h1 := (hone c y hcl hco).1
        have h2 := (hone v x hv hvo).1
        rw [hvo, ← hco, h2, ← h1]
        exact hcl
      · have hcf : c = f := by
          obtain ⟨⟨z, hz⟩, h2, h3⟩ := hf
          have hvf : v.p25 < f.p25 := by
            have h4 : (VKey.mk v.owner v.key (~~~0)).num < (VKey.mk f.owner f.key 0).num := by
              apply num_lt_of_owner; rw [hvo]; exact h2
            have h5 := p25_le_of_num_le (Nat.le_of_lt h4)
            rcases Nat.lt_or_eq_of_le h5 with h6 | h6
            · rw [p25_gen (~~~0) v.gen, p25_gen 0 f.gen] at h6; exact h6
            · obtain ⟨h7, -⟩ := VKey.p25_inj.mp h6
              simp only at h7
              rw [← h7, hvo, UInt64.lt_iff_toNat_lt] at h2
              omega
          have h4 := hmin f z (enc_stores.mp hz) hvf
          have hcgt : o < c.owner := by
            have hnum : v.num ≤ c.num := by
              rw [VKey.num_eq, VKey.num_eq]
              have := v.gen.toNat_lt
              omega
            have h1 := owner_le_of_num hnum
            rw [hvo, UInt64.le_iff_toNat_le] at h1
            rw [UInt64.lt_iff_toNat_lt]
            have : o.toNat ≠ c.owner.toNat := fun he => hco (UInt64.toNat_inj.mp he.symm)
            omega
          have h5 := h3 c y (enc_stores.mpr hcl) hcgt
          rw [← VKey.num_lt_iff] at h5
          exact VKey.num_inj.mp (by omega)
        subst hcf
        obtain ⟨z, hz⟩ := enc_hasVersion.mp hw
        refine ⟨z, ?_⟩
        rw [hvo, (hone v x hv hvo).1]
        exact hz
    obtain ⟨z, hz⟩ := hhas
    obtain ⟨-, -, s, hsd⟩ := hone _ _ hz hvo
    refine ⟨_, ?_, ⟨_, z, s, hz, hvo, rfl⟩⟩
    simp only [Range.at, Range.next, findNext_hit h hc hz, Go.ok_bind, Range.setTo, Range.current,
      hsd, Go.pure_eq]

/-- C33: `exTwoSubvols` is such an index: listing the extents of the last inode of
subvolume 256 never ends. -/
theorem C33_two_subvolumes_hang (fuel : Nat) :
    rangeAllItems fuel ⟨exTwoSubvols.enc, ~~~0⟩ 256 108 257 = .hang := by
  have h1 : (Ix.mk exTwoSubvols.enc (~~~0)).range 256 (KF 108 257) (KL2 108 257) =
      .ok (Range.at exTwoSubvols.enc (VKey.mk 256 (KL2 108 257) (~~~0)).encode
        (⟨256, ⟨257, 108, 0⟩, 10⟩, mkItem ⟨257, 108, 0⟩ [8]), ⟨[8], []⟩) := by decide +kernel
  simp only [rangeAllItems, Ix.rangeAll, h1, Go.ok_bind]
  refine C33_wraps_forever exTwoSubvols (sorted_of_before (by decide +kernel)) 256 (by decide) 10
    (by decide) ⟨[], by simp [exTwoSubvols]⟩ _ ?_ ⟨257, ⟨256, 1, 0⟩, 11⟩ ?_ ?_ _ _
    (by simp [exTwoSubvols]) rfl _ _
  · intro v x hv hvo
    simp only [exTwoSubvols, List.mem_cons, List.not_mem_nil, or_false, Prod.mk.injEq] at hv
    rcases hv with ⟨rfl, rfl⟩ | ⟨rfl, rfl⟩ | ⟨rfl, rfl⟩ | ⟨rfl, rfl⟩
    · exact ⟨rfl, by decide, ⟨[7], []⟩, by decide +kernel⟩
    · exact ⟨rfl, by decide, ⟨[8], []⟩, by decide +kernel⟩
    · exact absurd hvo (by decide)
    · exact absurd hvo (by decide)
  · refine ⟨⟨_, enc_stores.mpr (by simp only [exTwoSubvols, List.mem_cons]; right; right; left; rfl)⟩,
      by decide, ?_⟩
    intro w x hw hwo
    have hw := enc_stores.mp hw
    simp only [exTwoSubvols, List.mem_cons, List.not_mem_nil, or_false, Prod.mk.injEq] at hw
    rcases hw with ⟨rfl, rfl⟩ | ⟨rfl, rfl⟩ | ⟨rfl, rfl⟩ | ⟨rfl, rfl⟩
    · exact absurd hwo (by decide)
    · exact absurd hwo (by decide)
    · decide
    · decide
  · exact enc_hasVersion.mpr ⟨_, by simp only [exTwoSubvols, List.mem_cons]; left; rfl⟩

/-! ## C34 -/

/-- A full range positioned at entry `y` with number `i`. -/
def FullRange.at (b : Bucket) (E : Bytes) (i : Nat) (y : Bytes × Bytes) : FullRange :=
  ⟨⟨b, i⟩, ⟨b, some y.1, E, ⟨y.2, []⟩⟩⟩

theorem fnext_item {b : Bucket} {E : Bytes} {i : Nat} {e y : Bytes × Bytes} {s : Slice}
    (h : b[i + 1]? = some y) (hne : y.1 ≠ E) (hs : Item.data ⟨y.2, []⟩ = .ok s) :
    (FullRange.at b E i e).next = .ok (FullRange.at b E (i + 1) y, s) := by
  have hl : i + 1 < b.length := by
    rcases Nat.lt_or_ge (i + 1) b.length with h1 | h1
    · exact h1
    · rw [List.getElem?_eq_none h1] at h; cases h
  simp only [FullRange.at, FullRange.next, Cursor.next, if_pos hl, Cursor.cur, h, Range.setTo,
    if_pos hne, hs, Go.ok_bind, Go.pure_eq]

theorem fnext_end {b : Bucket} {E : Bytes} {i : Nat} {e y : Bytes × Bytes}
    (h : b[i + 1]? = some y) (he : y.1 = E) :
    (FullRange.at b E i e).next = .ok (FullRange.at b E (i + 1) y, ⟨[], []⟩) := by
  have hl : i + 1 < b.length := by
    rcases Nat.lt_or_ge (i + 1) b.length with h1 | h1
    · exact h1
    · rw [List.getElem?_eq_none h1] at h; cases h
  have hne : ¬ y.1 ≠ E := fun hc => hc he
  simp only [FullRange.at, FullRange.next, Cursor.next, if_pos hl, Cursor.cur, h, Range.setTo,
    if_neg hne, Go.pure_eq]

theorem fnext_none {b : Bucket} {E : Bytes} {i : Nat} {e : Bytes × Bytes} (h : b.length ≤ i + 1) :
    ∃ f, (FullRange.at b E i e).next = .ok (f, ⟨[], []⟩) ∧ f.r.hasNext = false := by
  have hl : ¬ i + 1 < b.length := Nat.not_lt.mpr h
  refine ⟨⟨⟨b, i⟩, ⟨b, none, E, ⟨[], []⟩⟩⟩, ?_, rfl⟩
  have hc : Cursor.next ⟨b, i⟩ = (none, ⟨b, i⟩) := if_neg hl
  simp only [FullRange.at, FullRange.next, hc, Range.setTo, Go.pure_eq]

theorem fat_hasNext {b : Bucket} {E v : VKey} {i : Nat} {y : Bytes × Bytes} (hv : y.1 = v.encode)
    (hn : v.num ≤ E.num) : (FullRange.at b E.encode i y).r.hasNext = true := by
  apply decide_eq_true
  rw [hv]
  exact (VKey.bytesCompare_le _ _).mpr hn

theorem fullRange_run (payload : Bytes → Bytes) (E : VKey) (m : Bytes) :
    ∀ (rest pre : Bucket) (e : Bytes × Bytes) (d : Slice) (fuel : Nat) (b : Bucket),
      b = pre ++ e :: (rest ++ [(E.encode, m)]) →
      (∀ x ∈ e :: rest, ∃ v : VKey, x.1 = v.encode ∧ v.num < E.num) →
      (∀ x ∈ rest, holdsItem x.2 (payload x.2)) → rest.length + 2 < fuel →
      FullRange.collect fuel (FullRange.at b E.encode pre.length e, d) =
      .ok ((e.1, d.data) :: (rest.map (fun x => (x.1, payload x.2)) ++ [(E.encode, [])])) := by
  intro rest
  induction rest with
  | nil =>
    intro pre e d fuel b hb hlt _ hf
    obtain ⟨v, hv, hn⟩ := hlt e List.mem_cons_self
    obtain ⟨f, rfl⟩ : ∃ f, fuel = f + 3 := ⟨fuel - 3, by simp at hf; omega⟩
    have hc : b[pre.length + 1]? = some (E.encode, m) := by
      rw [hb, List.getElem?_append_right (by omega)]
      simp
    have hl : b.length = pre.length + 2 := by rw [hb]; simp
    obtain ⟨f', h3, h4⟩ := fnext_none (b := b) (E := E.encode) (i := pre.length + 1)
      (e := (E.encode, m)) (by omega)
    simp only [FullRange.collect, fat_hasNext hv (Nat.le_of_lt hn), if_true, fnext_end hc rfl, Go.ok_bind,
      fat_hasNext (y := (E.encode, m)) rfl (Nat.le_refl _), h3, h4, Bool.false_eq_true, if_false, Go.pure_eq]
    rfl
  | cons y rest ih =>
    intro pre e d fuel b hb hlt hit hf
    obtain ⟨v, hv, hn⟩ := hlt e List.mem_cons_self
    obtain ⟨w, hw, hwn⟩ := hlt y (by simp)
    obtain ⟨f, rfl⟩ : ∃ f, fuel = f + 1 := ⟨fuel - 1, by omega⟩
    have hc : b[pre.length + 1]? = some y := by
      rw [hb, List.getElem?_append_right (by omega)]
      simp
    have hne : y.1 ≠ E.encode := by
      rw [hw, Ne, VKey.encode_inj]
      rintro rfl; omega
    obtain ⟨s, hs, hsd⟩ := (hit y (by simp)).data
    have hrec := ih (pre ++ [e]) y s f b (by simp [hb]) (fun x hx => hlt x (List.mem_cons_of_mem _ hx))
      (fun x hx => hit x (List.mem_cons_of_mem _ hx)) (by simp at hf; omega)
    simp only [List.length_append, List.length_cons, List.length_nil, Nat.zero_add] at hrec
    simp only [FullRange.collect, fat_hasNext hv (Nat.le_of_lt hn), if_true, fnext_item hc hne hs,
      Go.ok_bind, hrec, Go.pure_eq, hsd]
    rfl

/-- C34 (what is proved): iterating `FullRange` of a non-empty index with intact items,
opened for reading, visits every stored entry exactly once, in key order, with its
payload - and then the metadata entry, as if it were an item without data. Missing: the
metadata entry should not be visited; and the crashes below. -/
theorem C34_full_range_partial (es : Bucket) (m : Bytes) (hne : es ≠ [])
    (hwf : (es ++ [(metadataVersionKey.encode, m)]).WF) (payload : Bytes → Bytes)
    (hit : ∀ e ∈ es, holdsItem e.2 (payload e.2)) (fuel : Nat) (hf : es.length + 1 < fuel) :
    fullRangeItems fuel ⟨es ++ [(metadataVersionKey.encode, m)], ~~~0⟩ =
      .ok (es.map (fun e => (e.1, payload e.2)) ++ [(metadataVersionKey.encode, [])]) := by
  obtain ⟨e, rest, rfl⟩ := List.exists_cons_of_ne_nil hne
  have hlt : ∀ x ∈ e :: rest, ∃ v : VKey, x.1 = v.encode ∧ v.num < metadataVersionKey.num := by
    obtain ⟨l, hl, heq⟩ := hwf.exists_abs
    intro x hx
    have hp : (e :: rest ++ [(metadataVersionKey.encode, m)]).Pairwise
        (fun a b => bytesLt a.1 b.1 = true) := by
      rw [heq]
      simp only [AStore.enc, List.pairwise_map]
      exact hl.imp fun h => VKey.bytesLt_iff.mpr h
    have hm := (List.pairwise_append.mp hp).2.2 x hx _ (List.mem_singleton.mpr rfl)
    have hx' : x ∈ l.enc := by rw [← heq]; exact List.mem_append_left _ hx
    obtain ⟨a, -, rfl⟩ := List.mem_map.mp hx'
    exact ⟨a.1, rfl, VKey.bytesLt_iff.mp hm⟩
  obtain ⟨s, hs, hsd⟩ := (hit e List.mem_cons_self).data
  have h := fullRange_run payload metadataVersionKey m rest [] e s fuel _ rfl hlt
    (fun x hx => hit x (List.mem_cons_of_mem _ hx)) (by simp at hf; omega)
  have hfr : (Ix.mk (e :: rest ++ [(metadataVersionKey.encode, m)]) (~~~0)).fullRange =
      .ok (FullRange.mk ⟨e :: (rest ++ [(metadataVersionKey.encode, m)]), 0⟩
          ⟨e :: (rest ++ [(metadataVersionKey.encode, m)]), some e.1, metadataVersionKey.encode,
            ⟨e.2, []⟩⟩, s) := by
    simp only [Ix.fullRange, Bucket.first, Cursor.cur, List.cons_append, List.getElem?_cons_zero,
      Range.setTo, hs, Go.ok_bind, Go.pure_eq]
    rfl
  simp only [fullRangeItems, hfr, Go.ok_bind]
  rw [hsd] at h
  exact h

example : exDirStore.enc = (exDirStore.enc.take 3) ++ [(metadataVersionKey.encode, [])] ∧
    (exDirStore.enc.take 3) ≠ [] ∧ exDirStore.enc.WF ∧
    ∀ e ∈ exDirStore.enc.take 3, holdsItem e.2 (e.2.drop 25) := by
  refine ⟨rfl, by simp [AStore.enc, exDirStore], AStore.enc_wf exDirStore_ok.1, ?_⟩
  intro e he
  simp only [AStore.enc, exDirStore, List.map_cons, List.take_succ_cons, List.take_zero,
    List.mem_cons, List.not_mem_nil, or_false] at he
  rcases he with rfl | rfl | rfl
  · exact mkItem_holds ⟨256, 84, 1⟩ [1] (by decide)
  · exact mkItem_holds ⟨256, 84, 9⟩ [2] (by decide)
  · exact mkItem_holds ⟨257, 108, 0⟩ [3] (by decide)

/-- C34 refuted: on an index without items (`recon` found none) `FullRange` crashes,
here for the file system id `ffffffff-...`. -/
theorem C34_empty_index_crashes (fuel : Nat) :
    fullRangeItems fuel ⟨[(metadataVersionKey.encode, newIndexMetadata exOptions)], ~~~0⟩ = .panic := by
  have h : (Ix.mk [(metadataVersionKey.encode, newIndexMetadata exOptions)] (~~~0)).fullRange = .panic := by
    decide +kernel
  simp only [fullRangeItems, h, Go.panic_bind]

/-- C34 refuted: at an index generation below the maximum the metadata entry is read
as an item, which crashes: here for the same file system id and one item. -/
theorem C34_older_generation_crashes (fuel : Nat) (hf : 2 ≤ fuel) :
    fullRangeItems fuel ⟨[((VKey.mk 5 ⟨256, 84, 1⟩ 10).encode, mkItem ⟨256, 84, 1⟩ [1]),
      (metadataVersionKey.encode, newIndexMetadata exOptions)], 20⟩ = .panic := by
  obtain ⟨f, rfl⟩ : ∃ f, fuel = f + 1 := ⟨fuel - 1, by omega⟩
  have h : (Ix.mk [((VKey.mk 5 ⟨256, 84, 1⟩ 10).encode, mkItem ⟨256, 84, 1⟩ [1]),
      (metadataVersionKey.encode, newIndexMetadata exOptions)] 20).fullRange =
      .ok (FullRange.at [((VKey.mk 5 ⟨256, 84, 1⟩ 10).encode, mkItem ⟨256, 84, 1⟩ [1]),
        (metadataVersionKey.encode, newIndexMetadata exOptions)] (VKey.mk (~~~0) KL0 20).encode 0
        ((VKey.mk 5 ⟨256, 84, 1⟩ 10).encode, mkItem ⟨256, 84, 1⟩ [1]), ⟨[1], []⟩) := by
    decide +kernel
  have h2 : (FullRange.at [((VKey.mk 5 ⟨256, 84, 1⟩ 10).encode, mkItem ⟨256, 84, 1⟩ [1]),
        (metadataVersionKey.encode, newIndexMetadata exOptions)] (VKey.mk (~~~0) KL0 20).encode 0
        ((VKey.mk 5 ⟨256, 84, 1⟩ 10).encode, mkItem ⟨256, 84, 1⟩ [1])).next = .panic := by
    decide +kernel
  have h3 : (FullRange.at [((VKey.mk 5 ⟨256, 84, 1⟩ 10).encode, mkItem ⟨256, 84, 1⟩ [1]),
        (metadataVersionKey.encode, newIndexMetadata exOptions)] (VKey.mk (~~~0) KL0 20).encode 0
        ((VKey.mk 5 ⟨256, 84, 1⟩ 10).encode, mkItem ⟨256, 84, 1⟩ [1])).r.hasNext = true := by
    decide +kernel
  simp only [fullRangeItems, h, Go.ok_bind, FullRange.collect, h3, if_true, h2, Go.panic_bind]

/-! ## C35 -/

/-- C35 (what is proved): if a root item of subvolume 256 is stored and all subvolume
root items have the same newest generation, `Subvolumes` yields all of them. Missing:
`C35_needs_subvolume_256`, and root items of different generations (`C32_incomplete`
applies). -/
theorem C35_subvolumes_partial (b : Bucket) (hb : b.WF) (m : Bytes)
    (hm : b.stores metadataVersionKey m) (hok : b.RangeOK 1 (KL2 132 LastFreeObjectID)) (g : UInt64)
    (h256 : ∃ off, b.hasKey 1 ⟨256, 132, off⟩)
    (hg : ∀ id off, 256 ≤ id → id ≤ LastFreeObjectID → b.hasKey 1 ⟨id, 132, off⟩ →
      b.newest 1 ⟨id, 132, off⟩ g) :
    ∃ N items, (∀ fuel, N ≤ fuel → subvolumeItems fuel ⟨b, ~~~0⟩ = .ok items) ∧
      (∀ ik d, (ik, d) ∈ items → ∃ id off x, ik = (VKey.mk 1 ⟨id, 132, off⟩ g).encode ∧
        256 ≤ id ∧ id ≤ LastFreeObjectID ∧ b.stores ⟨1, ⟨id, 132, off⟩, g⟩ x ∧ holdsItem x d) ∧
      ∀ id off, 256 ≤ id → id ≤ LastFreeObjectID → b.hasKey 1 ⟨id, 132, off⟩ →
        ∃ x d, b.stores ⟨1, ⟨id, 132, off⟩, g⟩ x ∧ holdsItem x d ∧
          ((VKey.mk 1 ⟨id, 132, off⟩ g).encode, d) ∈ items := by
  obtain ⟨N, items, h1, -, h3⟩ := rangeItems_spec hb (first := KF 132 256) ⟨m, hm⟩ hok (~~~0)
  refine ⟨N, items, h1, ?_⟩
  rcases h3 with ⟨h4, -⟩ | ⟨k0, g0, h4, h5, h6⟩
  · obtain ⟨off, h⟩ := h256
    exact absurd ⟨rfl, rfl⟩ (h4 _ h)
  · obtain ⟨ko, kt, kf⟩ := k0
    obtain ⟨h7, h8, h9, h10⟩ := h4
    simp only [KF] at h8 h9 h10
    subst h8; subst h9
    have hkb : ∀ (id : UInt64) (t : UInt8) (off id' : UInt64) (t' : UInt8) (off' : UInt64),
        (Key.mk id t off).before ⟨id', t', off'⟩ ↔ t.toNat < t'.toNat ∨ (t.toNat = t'.toNat ∧
          (id.toNat < id'.toNat ∨ (id.toNat = id'.toNat ∧ off.toNat < off'.toNat))) := by
      intros; simp [Key.before, Key.fields, lexLt]
    have hvb : ∀ (k k' : Key) (g g' : UInt64), (VKey.mk 1 k g).before ⟨1, k', g'⟩ ↔
        k.before k' ∨ (k = k' ∧ g.toNat < g'.toNat) := by
      intro k k' g g'
      rw [← VKey.num_lt_iff, key_before_iff (o := 1) (g := g) (g' := g'), VKey.num_eq, VKey.num_eq]
      have := g.toNat_lt
      have := g'.toNat_lt
      have hk : k = k' ↔ (VKey.mk 1 k g).p25 = (VKey.mk 1 k' g').p25 := by
        rw [VKey.p25_inj]; simp
      rw [hk]
      simp only
      omega
    have h256' : (256 : UInt64).toNat = 256 := rfl
    have hlf : LastFreeObjectID.toNat < 2 ^ 64 := LastFreeObjectID.toNat_lt
    have h132 : (132 : UInt8).toNat = 132 := rfl
    have hg0 : g0 = g := by
      obtain ⟨hn1, hn2⟩ := hg 256 kf (by decide) (by decide) h7
      obtain ⟨ha1, ha2⟩ := h5
      have h13 := hn2 g0 ha1
      have h14 := le_max64 g
      rw [UInt64.le_iff_toNat_le] at h13 h14
      rw [← UInt64.toNat_inj]
      rcases ha2 with ⟨h15, -⟩ | ⟨-, h15⟩
      · rw [UInt64.le_iff_toNat_le] at h15; omega
      · have := h15 g hn1
        rw [UInt64.le_iff_toNat_le] at this; omega
    subst hg0
    have hrange : ∀ k : Key, ¬ k.before ⟨256, 132, kf⟩ →
        ¬ (VKey.mk 1 (KL2 132 LastFreeObjectID) (~~~0)).before ⟨1, k, g0⟩ →
        k.typ = 132 ∧ 256 ≤ k.objectID ∧ k.objectID ≤ LastFreeObjectID := by
      rintro ⟨id, t, off⟩ ha hc
      rw [hkb] at ha
      rw [hvb, KL2, hkb] at hc
      simp only [UInt64.le_iff_toNat_le, ← UInt8.toNat_inj, h256', h132] at *
      omega
    constructor
    · intro ik d hmem
      obtain ⟨⟨id, t, off⟩, x, rfl, hx, hd, ha, hc, -⟩ := (h6 ik d).mp hmem
      obtain ⟨rfl, h11, h12⟩ := hrange _ ha hc
      exact ⟨id, off, x, rfl, h11, h12, hx, hd⟩
    · intro id off hid hid' hk
      obtain ⟨⟨x, hx⟩, -⟩ := hg id off hid hid' hk
      obtain ⟨d, hd⟩ := hok.intact _ _ hx rfl
      refine ⟨x, d, hx, hd, (h6 _ _).mpr ⟨_, x, rfl, hx, hd, ?_, ?_, ?_⟩⟩
      · intro hlt
        rw [hkb] at hlt
        rw [UInt64.le_iff_toNat_le] at hid
        by_cases he : id = 256
        · subst he
          exact h10 _ hk rfl rfl ((hkb _ _ _ _ _ _).mpr hlt)
        · rw [← UInt64.toNat_inj] at he
          simp only [h256'] at *
          omega
      · rw [hvb, KL2, hkb]
        rw [UInt64.le_iff_toNat_le] at hid'
        have := off.toNat_lt
        have := g0.toNat_lt
        simp only [max64_toNat]
        omega
      · rintro ⟨id', t', off'⟩ hk' ha hc
        rw [hkb] at ha hc
        rw [UInt64.le_iff_toNat_le] at hid'
        have : t' = 132 := by rw [← UInt8.toNat_inj]; simp only [h132] at *; omega
        subst this
        refine (hg id' off' ?_ ?_ hk').1 <;> rw [UInt64.le_iff_toNat_le] <;>
          simp only [h256', h132, Nat.lt_irrefl, false_or, true_and] at ha hc ⊢ <;> omega

/-- Two subvolumes' root items of one generation, then a root backref. -/
def exRoots : AStore :=
  [(⟨1, ⟨256, 132, 0⟩, 10⟩, mkItem ⟨256, 132, 0⟩ [1]), (⟨1, ⟨258, 132, 7⟩, 10⟩, mkItem ⟨258, 132, 7⟩ [2]),
   (⟨1, ⟨258, 144, 5⟩, 10⟩, mkItem ⟨258, 144, 5⟩ [3]), (metadataVersionKey, [])]

example : exRoots.enc.WF ∧ exRoots.enc.stores metadataVersionKey [] ∧
    exRoots.enc.RangeOK 1 (KL2 132 LastFreeObjectID) ∧ (∃ off, exRoots.enc.hasKey 1 ⟨256, 132, off⟩) ∧
    ∀ id off, 256 ≤ id → id ≤ LastFreeObjectID → exRoots.enc.hasKey 1 ⟨id, 132, off⟩ →
      exRoots.enc.newest 1 ⟨id, 132, off⟩ 10 := by
  refine ⟨AStore.enc_wf (sorted_of_before (by decide +kernel)), enc_stores.mpr (by simp [exRoots]),
    rangeOK_of (by decide) ?_ (by decide +kernel) (by decide +kernel),
    ⟨0, enc_hasKey.mpr ⟨10, mkItem ⟨256, 132, 0⟩ [1], by simp [exRoots]⟩⟩, ?_⟩
  · intro e he ho
    simp only [exRoots, List.mem_cons, List.not_mem_nil, or_false] at he
    rcases he with rfl | rfl | rfl | rfl
    · exact ⟨_, mkItem_holds _ _ (by decide)⟩
    · exact ⟨_, mkItem_holds _ _ (by decide)⟩
    · exact ⟨_, mkItem_holds _ _ (by decide)⟩
    · exact absurd ho (by decide)
  · intro id off _ _ hk
    obtain ⟨g, x, hx⟩ := enc_hasKey.mp hk
    have hall : ∀ e ∈ exRoots, e.1.owner = 1 → e.1.gen = 10 := by decide +kernel
    have := hall _ hx rfl
    simp only at this
    subst this
    refine ⟨enc_hasVersion.mpr ⟨x, hx⟩, fun g' hg' => ?_⟩
    obtain ⟨y, hy⟩ := enc_hasVersion.mp hg'
    have := hall _ hy rfl
    simp only at this
    subst this
    exact (by decide : (10 : UInt64) ≤ 10)

/-- The root items of subvolume 258 only (256 was deleted). -/
def exNo256 : AStore := exRoots.drop 1

/-- C35 refuted in general: without a root item of subvolume 256 no subvolume is
listed at all. -/
theorem C35_needs_subvolume_256 (b : Bucket) (hb : b.WF) (m : Bytes)
    (hm : b.stores metadataVersionKey m) (hok : b.RangeOK 1 (KL2 132 LastFreeObjectID))
    (h256 : ∀ off, ¬ b.hasKey 1 ⟨256, 132, off⟩) (G : UInt64) :
    ∃ N, ∀ fuel, N ≤ fuel → subvolumeItems fuel ⟨b, G⟩ = .ok [] := by
  obtain ⟨N, items, h1, -, h3⟩ := rangeItems_spec hb (first := KF 132 256) ⟨m, hm⟩ hok G
  rcases h3 with ⟨-, rfl⟩ | ⟨⟨ko, kt, kf⟩, g0, h4, -⟩
  · exact ⟨N, h1⟩
  · obtain ⟨h7, h8, h9, -⟩ := h4
    simp only [KF] at h8 h9
    subst h8; subst h9
    exact absurd h7 (h256 kf)

/-- C35: `exNo256` is such an index, although it stores subvolume 258. -/
theorem C35_subvolume_258_not_listed :
    exNo256.Sorted ∧ exNo256.enc.hasKey 1 ⟨258, 132, 7⟩ ∧
    ∀ fuel, 1 ≤ fuel → subvolumeItems fuel ⟨exNo256.enc, ~~~0⟩ = .ok [] := by
  refine ⟨sorted_of_before (by decide +kernel),
    enc_hasKey.mpr ⟨10, mkItem ⟨258, 132, 7⟩ [2], by simp [exNo256, exRoots]⟩, fun fuel hf => ?_⟩
  obtain ⟨f, rfl⟩ : ∃ f, fuel = f + 1 := ⟨fuel - 1, by omega⟩
  have h1 : (Ix.mk exNo256.enc (~~~0)).subvolumes =
      .ok (⟨exNo256.enc, none, (VKey.mk 1 (KL2 132 LastFreeObjectID) (~~~0)).encode, ⟨[], []⟩⟩,
        ⟨[], []⟩) := by decide +kernel
  simp only [subvolumeItems, h1, Go.ok_bind]
  rw [collect_eq (.done rfl) (f + 1) (by simp)]
  rfl

end Btrfscue
