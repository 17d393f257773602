import Verif.Props.RescueOpen
import Verif.Props.PhysicalExact
import Verif.Props.Refuted
/-!
# C71, C55: what an opened file is, for any generations
-/

namespace Btrfscue

theorem exists_max (P : UInt64 → Prop) (h : ∃ x, P x) : ∃ x, P x ∧ ∀ y, P y → y ≤ x := by
  have key : ∀ n x, P x → 2 ^ 64 - x.toNat ≤ n → ∃ x, P x ∧ ∀ y, P y → y ≤ x := by
    intro n
    induction n with
    | zero => intro x _ hx; have := x.toNat_lt; omega
    | succ n ih =>
      intro x hx hn
      apply Classical.byCases (p := ∀ y, P y → y ≤ x)
      · exact fun h => ⟨x, hx, h⟩
      · intro h
        obtain ⟨y, hy⟩ := Classical.not_forall.mp h
        obtain ⟨hy, hlt⟩ := Classical.not_imp.mp hy
        rw [UInt64.le_iff_toNat_le] at hlt
        exact ih y hy (by omega)
  obtain ⟨x, hx⟩ := h
  exact key _ x hx (Nat.le_refl _)

theorem exists_min (P : UInt64 → Prop) (h : ∃ x, P x) : ∃ x, P x ∧ ∀ y, P y → x ≤ y := by
  have key : ∀ n (x : UInt64), P x → x.toNat ≤ n → ∃ x, P x ∧ ∀ y, P y → x ≤ y := by
    intro n
    induction n with
    | zero =>
      intro x hx hn
      exact ⟨x, hx, fun y _ => by rw [UInt64.le_iff_toNat_le]; omega⟩
    | succ n ih =>
      intro x hx hn
      apply Classical.byCases (p := ∀ y, P y → x ≤ y)
      · exact fun h => ⟨x, hx, h⟩
      · intro h
        obtain ⟨y, hy⟩ := Classical.not_forall.mp h
        obtain ⟨hy, hlt⟩ := Classical.not_imp.mp hy
        rw [UInt64.le_iff_toNat_le] at hlt
        exact ih y hy (by omega)
  obtain ⟨x, hx⟩ := h
  exact key _ x hx (Nat.le_refl _)

/-- Where there is a key, the iteration gets to the first. -/
theorem run_first {b : Bucket} {o : UInt64} {t : UInt8} {id : UInt64} (h : ∃ off, b.hasKey o ⟨id, t, off⟩) :
    ∃ off g, b.runVersion o t id off g ∧ b.hasVersion o ⟨id, t, off⟩ g := by
  obtain ⟨off, hk, hmin⟩ := exists_min _ h
  obtain ⟨g, hg, hmax⟩ := exists_max _ hk
  refine ⟨off, g, ⟨⟨off, ⟨hg, hmax⟩, hmin⟩, fun off' hk' hle => ?_⟩, hg⟩
  have h1 := hmin off' hk'
  rw [UInt64.le_iff_toNat_le] at h1 hle
  have : off' = off := by rw [← UInt64.toNat_inj]; omega
  rw [this]; exact hg

/-- If there is a chunk, every address has a place. -/
theorem placed_total {b : Bucket} {dbn : UInt64} (h : dbn ≠ 0 → ∃ start s, b.chunkSeen start s) :
    ∃ dev phys, b.placed dbn dev phys := by
  by_cases hz : dbn = 0
  · exact ⟨0, 0, .inl ⟨hz, rfl, rfl⟩⟩
  · by_cases hle : ∃ start, (∃ s, b.chunkSeen start s) ∧ start ≤ dbn
    · obtain ⟨start, ⟨⟨s, h1⟩, h2⟩, h3⟩ := exists_max (fun start => (∃ s, b.chunkSeen start s) ∧ start ≤ dbn) hle
      exact ⟨_, _, .inr ⟨hz, start, s, h1, rfl, rfl, .inl ⟨h2, fun s1 s' k1 k2 => h3 s1 ⟨⟨s', k1⟩, k2⟩⟩⟩⟩
    · obtain ⟨start, ⟨s, h1⟩, h3⟩ := exists_min (fun start => ∃ s, b.chunkSeen start s) (by
        obtain ⟨a, s, h⟩ := h hz; exact ⟨a, s, h⟩)
      have hlt : dbn < start := by
        rw [UInt64.lt_iff_toNat_lt]
        apply Nat.lt_of_not_le
        intro hc
        exact hle ⟨start, ⟨s, h1⟩, by rw [UInt64.le_iff_toNat_le]; exact hc⟩
      exact ⟨_, _, .inr ⟨hz, start, s, h1, rfl, rfl, .inr ⟨hlt, fun s1 s' k1 => h3 s1 ⟨s', k1⟩⟩⟩⟩

/-- C71, for extents and chunks of any generations, overlapping or not: a file whose
extents are intact opens, and the opened file consists of the extents that iterating gets
to (those up to the first that lacks the generation of the first), one for one, ascending,
each at the place its address has. -/
theorem C71_open_exact (b : Bucket) (hb : b.WF) (m : Bytes) (hm : b.stores metadataVersionKey m) (owner ino : UInt64)
    (hrange : b.RangeOK owner (KL2 108 ino)) (hchunks : b.RangeOK 3 (KL2 228 256)) (hseen : b.SeenIntact)
    (hin : b.ExtentsIntact owner ino) (hne : ∃ off, b.hasKey owner ⟨ino, 108, off⟩) :
    ∃ N map ext, (∀ fuel, N ≤ fuel → ∀ cache, cache = none ∨ cache = some map →
        ∃ c', (newRescueNode owner ino).open fuel ⟨b, ~~~0⟩ cache = .ok (c', .ok (.extents ext)) ∧
          (c' = none ∨ c' = some map)) ∧
      ext.Pairwise (fun x y => x.fileOffset < y.fileOffset) ∧
      ∀ e, e ∈ ext ↔ ∃ f phys, b.extentSeen owner ino e.fileOffset f ∧ b.placed f.diskByteNr e.devID phys ∧
        e.length = f.numBytes ∧ e.diskByteNr = f.diskByteNr ∧ e.physOffset = phys + f.offset := by
  obtain ⟨N0, map, hphys⟩ := C36_physical_exact b hb m hm hchunks hseen
  have hplace : ∀ fuel, N0 ≤ fuel → ∀ cache, cache = none ∨ cache = some map → ∀ dbn dev phys, dbn ≠ 0 → b.placed dbn dev phys →
      (Ix.mk b (~~~0)).physical fuel cache dbn = .ok (some map, dev, phys) := by
    rintro fuel hfu cache hc dbn dev phys hnz (⟨h0, -⟩ | ⟨-, start, s, h1, rfl, rfl, h4⟩)
    · exact absurd h0 hnz
    · obtain ⟨k1, k2, -⟩ := hphys fuel hfu cache hc dbn
      rcases h4 with ⟨h4, h5⟩ | ⟨h4, h5⟩
      · exact k1 start s h1 h4 h5
      · exact k2 start s h1 h4 h5
  obtain ⟨off0, g, hrun0, hver0⟩ := run_first hne
  obtain ⟨l, hl, rfl⟩ := hb.exists_abs
  obtain ⟨rd, items, hr, hy, hp, hs⟩ := rangeAll_run hl ⟨m, hm⟩ hrange
  -- the items decode
  have hdec : ∀ e ∈ items, ∃ off f rest phys dev t, e.1.1 = ⟨owner, ⟨ino, 108, off⟩, g⟩ ∧
      (l.enc.runVersion owner 108 ino off g ∧ l.enc.extentAt owner ino g off f) ∧ f.typ ≠ 0 ∧ l.enc.placed f.diskByteNr dev phys ∧
      e.2 = ⟨f.layout ++ rest, t⟩ := by
    rintro ⟨⟨w, y⟩, s⟩ he
    obtain ⟨off, g', h0, rfl, h1, h2⟩ := (hs _ _ _).mp he
    obtain rfl := runVersion_gen hrun0 h0
    obtain ⟨f, ⟨x, d, rest, h3, h4, h5⟩, h6, h7⟩ := hin off g h0 ⟨y, h1⟩
    obtain ⟨dev, phys, h7⟩ := placed_total h7
    obtain rfl := hl.unique (enc_stores.mp h1) (enc_stores.mp h3)
    obtain ⟨⟨sd, st⟩, h8, h9⟩ := h4.data
    rw [h8] at h2
    cases h2
    simp only at h9
    subst h9; subst h5
    exact ⟨off, f, rest, phys, dev, st, rfl, ⟨h0, y, _, rest, h3, h4, rfl⟩, h6, h7, rfl⟩
  have hbody : ∀ e ∈ items, ∃ (off : UInt64) (x : ExtentMapEntry) (f : FileExtentItemRec) (phys : UInt64),
      e.1.1 = ⟨owner, ⟨ino, 108, off⟩, g⟩ ∧ x.fileOffset = off ∧
      l.enc.extentSeen owner ino off f ∧ l.enc.placed f.diskByteNr x.devID phys ∧
      x.length = f.numBytes ∧ x.diskByteNr = f.diskByteNr ∧ x.physOffset = phys + f.offset ∧
      ∀ fuel, N0 ≤ fuel → ∀ (s : List ExtentMapEntry) cache, cache = none ∨ cache = some map →
        ∃ c', (c' = none ∨ c' = some map) ∧
        extentMapBody fuel ⟨l.enc, ~~~0⟩ (s, cache) (Range.at l.enc (VKey.mk owner (KL2 108 ino) (~~~0)).encode e.1) e.2 =
          .ok ((s ++ [x], c'), false) := by
    intro e he
    obtain ⟨off, f, rest, phys, dev, t, h1, h2, h3, h4, h5⟩ := hdec e he
    obtain ⟨-, -, -, -, -, -, -, d7, -, d9, d10⟩ := C07_FileExtentItem_decodes f rest t
    refine ⟨off, ⟨off, f.numBytes, phys + f.offset, f.diskByteNr, dev⟩, f, phys, h1, rfl, ⟨g, h2⟩, h4, rfl, rfl, rfl, ?_⟩
    intro fuel hfu s cache hc
    have hk : (Range.at l.enc (VKey.mk owner (KL2 108 ino) (~~~0)).encode e.1).rKey = .ok ⟨ino, 108, off⟩ := by
      simp only [Range.at, Range.rKey, h1, key_encode]
    unfold extentMapBody
    rw [h5]
    simp only [d7, Go.ok_bind, d9, d10, hk]
    by_cases hz : f.diskByteNr = 0
    · rw [if_neg (by rw [hz]; decide)]
      rcases h4 with ⟨-, rfl, rfl⟩ | ⟨nz, -⟩
      · exact ⟨cache, hc, rfl⟩
      · exact absurd hz nz
    · rw [if_pos (by
        rw [UInt64.lt_iff_toNat_lt]
        have : f.diskByteNr.toNat ≠ 0 := fun hz' => hz (by rw [← UInt64.toNat_inj]; exact hz')
        have h0 : (0 : UInt64).toNat = 0 := rfl
        omega), hplace fuel hfu cache hc _ _ _ hz h4]
      exact ⟨some map, Or.inr rfl, rfl⟩
  -- the loop
  have hfold : ∀ (its : List ((VKey × Bytes) × Slice)), (∀ e ∈ its, e ∈ items) →
      ∃ ext : List ExtentMapEntry, (∀ fuel, N0 ≤ fuel → ∀ (s : List ExtentMapEntry) cache, cache = none ∨ cache = some map →
        ∃ c', (c' = none ∨ c' = some map) ∧
        foldRange (extentMapBody fuel ⟨l.enc, ~~~0⟩) (s, cache)
          (its.map fun e => (Range.at l.enc (VKey.mk owner (KL2 108 ino) (~~~0)).encode e.1, e.2)) =
          .ok ((s ++ ext, c'), false)) ∧
        ext.map (fun x => (⟨owner, ⟨ino, 108, x.fileOffset⟩, g⟩ : VKey)) = its.map (fun e => e.1.1) ∧
        ∀ x ∈ ext, ∃ f phys, l.enc.extentSeen owner ino x.fileOffset f ∧ l.enc.placed f.diskByteNr x.devID phys ∧
          x.length = f.numBytes ∧ x.diskByteNr = f.diskByteNr ∧ x.physOffset = phys + f.offset := by
    intro its
    induction its with
    | nil => intro _; exact ⟨[], fun fuel _ s cache hc => ⟨cache, hc, by simp [foldRange]⟩, rfl, by simp⟩
    | cons e r ih =>
      intro hsub
      obtain ⟨ext, a1, a2, a3⟩ := ih fun x hx => hsub x (List.mem_cons_of_mem _ hx)
      obtain ⟨off, x, f, phys, b1, b2, b3, b4, b5, b6, b7, b8⟩ := hbody e (hsub e List.mem_cons_self)
      refine ⟨x :: ext, ?_, ?_, ?_⟩
      · intro fuel hfu s cache hc
        obtain ⟨c', hc', hb'⟩ := b8 fuel hfu s cache hc
        obtain ⟨c'', hc'', hb''⟩ := a1 fuel hfu (s ++ [x]) c' hc'
        refine ⟨c'', hc'', ?_⟩
        simp only [List.map_cons, foldRange, hb', Go.ok_bind, Bool.false_eq_true, if_false, hb'']
        simp
      · simp only [List.map_cons, a2, b1, b2]
      · intro y hy'
        rcases List.mem_cons.mp hy' with rfl | hy'
        · rw [b2]; exact ⟨f, phys, b3, b4, b5, b6, b7⟩
        · exact a3 y hy'
  obtain ⟨ext, e1, e2, e3⟩ := hfold items fun _ h => h
  refine ⟨max N0 (items.length + 1), map, ext, ?_, ?_, ?_⟩
  · intro fuel hfu cache hc
    obtain ⟨c', hc', hfl⟩ := e1 fuel (by omega) [] cache hc
    rcases yields_head hy with ⟨hnil, -⟩ | ⟨rest, hcons, hnx⟩
    · have : items = [] := List.map_eq_nil_iff.mp hnil
      subst this
      obtain ⟨x', hx'⟩ := hver0
      obtain ⟨d, hd⟩ := hrange.intact _ _ hx' rfl
      obtain ⟨s, hs', -⟩ := hd.data
      have := (hs _ _ _).mpr ⟨off0, g, hrun0, rfl, hx', hs'⟩
      cases this
    · refine ⟨c', ?_, hc'⟩
      have hr' : (Ix.mk l.enc (~~~0)).fileExtentItems owner ino = .ok rd := hr
      cases items with
      | nil => cases hcons
      | cons e its =>
        obtain ⟨off, f, frest, phys, dev, t, h1, h2, h3, h4, h5⟩ := hdec e List.mem_cons_self
        have hrd : rd.2 = ⟨f.layout ++ frest, t⟩ := by
          simp only [List.map_cons, List.cons.injEq] at hcons
          rw [← hcons.1]; exact h5
        have hin : FileExtentItem.isInline rd.2 = .ok false := by
          rw [hrd, C07_FileExtentItem_isInline]; simp [h3]
        have hnew : newExtentFile fuel ⟨l.enc, ~~~0⟩ cache owner ino = .ok (some ext, c') := by
          unfold newExtentFile
          rw [hr']
          simp only [Go.ok_bind, hnx, Bool.not_true, Bool.false_eq_true, if_false]
          rw [rangeLoop_eq _ hy fuel _ (by simp only [List.length_map]; omega), hfl]
          rfl
        obtain ⟨rd1, rd2⟩ := rd
        unfold RescueNode.open newRescueNode
        rw [hr']
        simp only [Go.ok_bind, hnx, Bool.not_true, Bool.false_eq_true, if_false, hin, hnew]
        rfl
  · have hpm : (ext.map (fun x => (⟨owner, ⟨ino, 108, x.fileOffset⟩, g⟩ : VKey))).Pairwise (fun a b => a.num < b.num) := by
      rw [e2, List.pairwise_map]; exact hp
    rw [List.pairwise_map] at hpm
    refine hpm.imp ?_
    intro x y hxy
    rw [VKey.num_eq, VKey.num_eq, VKey.p25_eq, VKey.p25_eq] at hxy
    have h17 : (VKey.mk owner ⟨ino, 108, x.fileOffset⟩ g).p17 = (VKey.mk owner ⟨ino, 108, y.fileOffset⟩ g).p17 :=
      VKey.p17_inj.mpr ⟨rfl, rfl, rfl⟩
    rw [h17] at hxy
    rw [UInt64.lt_iff_toNat_lt]
    simp only at hxy
    omega
  · intro e
    constructor
    · exact e3 e
    · rintro ⟨f, phys, ⟨g', hrun, h1⟩, h2, h3, h4, h5⟩
      obtain rfl := runVersion_gen hrun0 hrun
      obtain ⟨x, d, rest, k1, k2, k3⟩ := id h1
      obtain ⟨s, k4, -⟩ := k2.data
      have hmem := (hs _ _ _).mpr ⟨e.fileOffset, g, hrun, rfl, k1, k4⟩
      have hmem2 : (⟨owner, ⟨ino, 108, e.fileOffset⟩, g⟩ : VKey) ∈ items.map (fun e => e.1.1) :=
        List.mem_map.mpr ⟨_, hmem, rfl⟩
      rw [← e2] at hmem2
      obtain ⟨y, hy1, hy2⟩ := List.mem_map.mp hmem2
      have hoff : y.fileOffset = e.fileOffset := by
        injection hy2 with _ hk _
        injection hk
      obtain ⟨f', phys', ⟨g', q0, q1⟩, q2, q3, q4, q5⟩ := e3 y hy1
      obtain rfl := runVersion_gen hrun0 q0
      rw [hoff] at q1
      obtain rfl := extentAt_unique hl h1 q1
      have htr : e.devID = y.devID ∧ phys = phys' := by
        by_cases hz : f.diskByteNr = 0
        · rcases h2 with ⟨-, r1, r2⟩ | ⟨nz, -⟩
          · rcases q2 with ⟨-, t1, t2⟩ | ⟨nz, -⟩
            · exact ⟨r1.trans t1.symm, r2.trans t2.symm⟩
            · exact absurd hz nz
          · exact absurd hz nz
        · have p1 := hplace N0 (Nat.le_refl _) none (Or.inl rfl) _ _ _ hz h2
          have p2 := hplace N0 (Nat.le_refl _) none (Or.inl rfl) _ _ _ hz q2
          rw [p1] at p2
          injection p2 with p2
          injection p2 with _ p2
          injection p2 with p3 p4
          exact ⟨p3, p4⟩
      have : e = y := by
        obtain ⟨v1, v2, v3, v4, v5⟩ := e
        obtain ⟨w1, w2, w3, w4, w5⟩ := y
        simp only at *
        rw [hoff, h3, q3, h4, q4, h5, q5, htr.1, htr.2]
      rw [this]; exact hy1

/-! ## An example: `exTwoExtents 11`, whose extents are of different generations -/

theorem exTwo_mem {v : VKey} {x : Bytes} (h : (exTwoExtents 11).enc.stores v x) : (v, x) ∈ exTwoExtents 11 := enc_stores.mp h

theorem exTwo_intact (e : VKey × Bytes) (he : e ∈ exTwoExtents 11) (ho : e.1.owner ≠ ~~~0) : ∃ d, holdsItem e.2 d := by
  simp only [exTwoExtents, List.mem_cons, List.not_mem_nil, or_false] at he
  rcases he with rfl | rfl | rfl | rfl | rfl | rfl | rfl | rfl | rfl
  · exact ⟨_, mkItem_holds _ _ (by decide)⟩
  · exact exChunk_holds _ _ _ _
  · exact ⟨_, mkItem_holds _ _ (by decide)⟩
  · exact ⟨_, mkItem_holds _ _ (by decide +kernel)⟩
  · exact ⟨_, mkItem_holds _ _ (by decide +kernel)⟩
  · exact ⟨_, mkItem_holds _ _ (by decide +kernel)⟩
  · exact ⟨_, mkItem_holds _ _ (by decide +kernel)⟩
  · exact ⟨_, mkItem_holds _ _ (by decide)⟩
  · exact absurd rfl ho

theorem exTwo_range (o : UInt64) (k : Key) (ho : o ≠ ~~~0) (hk : ∃ e ∈ exTwoExtents 11, e.1.owner = o ∧ k.before e.1.key) :
    (exTwoExtents 11).enc.RangeOK o k where
  ordinary := ho
  intact v x hv hvo := exTwo_intact (v, x) (exTwo_mem hv) (by rw [show (v, x).1.owner = o from hvo]; exact ho)
  noMaxGen k' hk' := by
    obtain ⟨x, hx⟩ := enc_hasVersion.mp hk'
    have : ∀ e ∈ exTwoExtents 11, e.1.owner ≠ ~~~0 → e.1.gen ≠ ~~~0 := by decide +kernel
    exact this _ hx ho rfl
  noKL hk' := by
    obtain ⟨g, x, hx⟩ := enc_hasKey.mp hk'
    have : ∀ e ∈ exTwoExtents 11, e.1.owner ≠ ~~~0 → e.1.key ≠ KL0 := by decide +kernel
    exact this _ hx ho rfl
  closed := by
    obtain ⟨⟨⟨o', k', g'⟩, x⟩, he, rfl, h2⟩ := hk
    exact Or.inl ⟨k', enc_hasKey.mpr ⟨g', x, he⟩, h2⟩

theorem exTwo_chunk : (exTwoExtents 11).enc.chunkSeen 16 ⟨1, 0, uuidAllZero⟩ := by
  obtain ⟨off, g, h1, ⟨x, h2⟩⟩ := run_first (b := (exTwoExtents 11).enc) (o := 3) (t := 228) (id := 256)
    ⟨16, enc_hasKey.mpr ⟨7, exChunk 16 64 1 0, by simp only [exTwoExtents, List.mem_cons, true_or, or_true]⟩⟩
  have h3 : off = 16 ∧ g = 7 := by
    have : ∀ e ∈ exTwoExtents 11, e.1.owner = 3 → e.1.key.typ = 228 → e.1.key.offset = 16 ∧ e.1.gen = 7 := by decide +kernel
    exact this _ (exTwo_mem h2) rfl rfl
  obtain ⟨rfl, rfl⟩ := h3
  exact ⟨7, _, _, h1, exChunk_at (len := 64) (dev := 1) (off := 0) (by simp only [exTwoExtents, List.mem_cons, true_or, or_true])⟩

/-- The hypotheses of `C71_open_exact` are met. -/
theorem exTwo_ok : (exTwoExtents 11).enc.WF ∧ (exTwoExtents 11).enc.stores metadataVersionKey [] ∧
    (exTwoExtents 11).enc.RangeOK 5 (KL2 108 257) ∧ (exTwoExtents 11).enc.RangeOK 3 (KL2 228 256) ∧ (exTwoExtents 11).enc.SeenIntact ∧
    (exTwoExtents 11).enc.ExtentsIntact 5 257 ∧ ∃ off, (exTwoExtents 11).enc.hasKey 5 ⟨257, 108, off⟩ := by
  refine ⟨AStore.enc_wf (sorted_of_before (by decide +kernel)), enc_stores.mpr (by simp [exTwoExtents]),
    exTwo_range _ _ (by decide) (by decide +kernel), exTwo_range _ _ (by decide) (by decide +kernel), ?_, ?_,
    ⟨0, enc_hasKey.mpr ⟨10, _, by simp only [exTwoExtents, List.mem_cons]; right; right; right; right; right; left; rfl⟩⟩⟩
  · rintro start g - ⟨x, hx⟩
    have hx' := exTwo_mem hx
    have : ∀ e ∈ exTwoExtents 11, e.1.owner = 3 → e.1.key.typ = 228 → e = (⟨3, ⟨256, 228, 16⟩, 7⟩, exChunk 16 64 1 0) := by decide +kernel
    have h := this _ hx' rfl rfl
    simp only [Prod.mk.injEq, VKey.mk.injEq, Key.mk.injEq] at h
    obtain ⟨⟨-, ⟨-, -, rfl⟩, rfl⟩, rfl⟩ := h
    exact ⟨_, _, exChunk_at hx'⟩
  · rintro off g - ⟨x, hx⟩
    have hx' := exTwo_mem hx
    have : ∀ e ∈ exTwoExtents 11, e.1.owner = 5 → e.1.key.typ = 108 →
        e = (⟨5, ⟨257, 108, 0⟩, 10⟩, mkItem ⟨257, 108, 0⟩ (FileExtentItemRec.mk 9 4 0 0 0 1 16 4 0 4).layout) ∨
        e = (⟨5, ⟨257, 108, 4⟩, 11⟩, mkItem ⟨257, 108, 4⟩ (FileExtentItemRec.mk 9 4 0 0 0 1 20 4 0 4).layout) := by decide +kernel
    rcases this _ hx' rfl rfl with h | h <;>
    · simp only [Prod.mk.injEq, VKey.mk.injEq, Key.mk.injEq] at h
      obtain ⟨⟨-, ⟨-, -, rfl⟩, rfl⟩, rfl⟩ := h
      exact ⟨_, ⟨_, _, [], hx, mkItem_holds _ _ (by decide), (List.append_nil _).symm⟩, by decide, fun _ => ⟨_, _, exTwo_chunk⟩⟩

end Btrfscue
