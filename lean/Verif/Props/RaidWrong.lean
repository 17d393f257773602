import Verif.Props.Raid
/-!
# C95, C96: examples and counterexamples
-/

namespace Btrfscue

theorem stripe_layout_inj {s s' : StripeRec} {r r' : Bytes} (h : s.layout ++ r = s'.layout ++ r') : s = s' ∧ r = r' := by
  obtain ⟨l1, a1, a2, a3⟩ := C07_Stripe_decodes s r []
  obtain ⟨l2, b1, b2, b3⟩ := C07_Stripe_decodes s' r' []
  have hr := (List.append_inj h (l1.trans l2.symm)).2
  rw [h] at a1 a2 a3
  obtain ⟨s1, s2, s3⟩ := s
  obtain ⟨t1, t2, t3⟩ := s'
  simp only at *
  refine ⟨?_, hr⟩
  simp only [a1.symm.trans b1 |> Go.ok.inj, a2.symm.trans b2 |> Go.ok.inj, a3.symm.trans b3 |> Go.ok.inj]

theorem stripesLayout_inj : ∀ {ss ss' : List StripeRec} {r r' : Bytes}, ss.length = ss'.length →
    stripesLayout ss ++ r = stripesLayout ss' ++ r' → ss = ss'
  | [], [], _, _, _, _ => rfl
  | [], _ :: _, _, _, h, _ => by cases h
  | _ :: _, [], _, _, h, _ => by cases h
  | s :: ss, s' :: ss', r, r', hl, h => by
    simp only [stripesLayout, List.flatMap_cons, List.append_assoc] at h
    obtain ⟨rfl, h'⟩ := stripe_layout_inj h
    rw [stripesLayout_inj (r := r) (r' := r') (by simpa using hl) h']

/-- A stored chunk item says one thing. -/
theorem chunkAt_unique {l : AStore} (hl : l.Sorted) {g start : UInt64} {c c' : ChunkRec} {ss ss' : List StripeRec}
    (h : l.enc.chunkAt g start c ss) (h' : l.enc.chunkAt g start c' ss') : c = c' ∧ ss = ss' := by
  obtain ⟨x, d, rest, h1, h2, h3, h4⟩ := h
  obtain ⟨x', d', rest', h1', h2', h3', h4'⟩ := h'
  obtain rfl := hl.unique (enc_stores.mp h1) (enc_stores.mp h1')
  obtain rfl := h2.unique h2'
  have e := h3.symm.trans h3'
  obtain ⟨l1, a1, a2, a3, a4, a5, a6, a7, a8, a9⟩ := C07_Chunk_decodes c (stripesLayout ss ++ rest) []
  obtain ⟨l2, b1, b2, b3, b4, b5, b6, b7, b8, b9⟩ := C07_Chunk_decodes c' (stripesLayout ss' ++ rest') []
  have hr := (List.append_inj e (l1.trans l2.symm)).2
  rw [e] at a1 a2 a3 a4 a5 a6 a7 a8 a9
  obtain ⟨f1, f2, f3, f4, f5, f6, f7, f8, f9⟩ := c
  obtain ⟨g1, g2, g3, g4, g5, g6, g7, g8, g9⟩ := c'
  simp only at *
  have h8 := a8.symm.trans b8 |> Go.ok.inj
  subst h8
  refine ⟨?_, stripesLayout_inj (h4.symm.trans h4') hr⟩
  simp only [a1.symm.trans b1 |> Go.ok.inj, a2.symm.trans b2 |> Go.ok.inj, a3.symm.trans b3 |> Go.ok.inj,
    a4.symm.trans b4 |> Go.ok.inj, a5.symm.trans b5 |> Go.ok.inj, a6.symm.trans b6 |> Go.ok.inj,
    a7.symm.trans b7 |> Go.ok.inj, a9.symm.trans b9 |> Go.ok.inj]

/-- A byte of the file system at an address in a known chunk is at a place in that chunk. -/
theorem storedByte_in {l : AStore} (hl : l.Sorted) {gc : UInt64} (ha : l.enc.AddrOK gc) {devs : UInt64 → Bytes}
    {logical : Nat} {v : UInt8} (h : l.enc.storedByte gc devs logical v) {start : UInt64} {c : ChunkRec}
    {ss : List StripeRec} (hc : l.enc.chunkAt gc start c ss) (h1 : start.toNat ≤ logical)
    (h2 : logical < start.toNat + c.length.toNat) :
    ∃ p ∈ c.places ss (logical - start.toNat), (devs p.1)[p.2]? = some v := by
  obtain ⟨start', c', ss', hc', k1, k2, h⟩ := h
  have : start = start' := by
    rcases Nat.lt_trichotomy start.toNat start'.toNat with hlt | heq | hlt
    · have := ha.disjoint _ _ _ _ _ _ hc hc' (UInt64.lt_iff_toNat_lt.mpr hlt)
      omega
    · exact UInt64.toNat_inj.mp heq
    · have := ha.disjoint _ _ _ _ _ _ hc' hc (UInt64.lt_iff_toNat_lt.mpr hlt)
      omega
  subst this
  obtain ⟨rfl, rfl⟩ := chunkAt_unique hl hc hc'
  exact h

/-! ## A file in a chunk on device 1 -/

theorem exFileStore_chunk : exFileStore.enc.chunkAt 7 0x1000000 ⟨0x800000, 2, 65536, 1, 4096, 4096, 4096, 1, 0⟩
    [⟨1, 0x100000, uuidAllZero⟩] :=
  exChunk_at (by simp only [exFileStore, List.mem_cons]; right; left; trivial)

/-- The hypotheses of C95 and C96 hold for `exFileStore`. -/
theorem exFileStore_one : exFileStore.enc.OnOneDevice 5 257 10 7 1 := by
  intro off f hx hz
  rcases exFileStore_extents hx with ⟨rfl, rfl⟩ | ⟨rfl, rfl⟩
  · exact ⟨_, _, _, _, exFileStore_chunk, by decide, by decide, by decide, by decide, rfl⟩
  · exact absurd rfl hz

example : ∃ c s ss, exFileStore.enc.chunkAt 7 0x1000000 c (s :: ss) ∧ c.profile = .linear ∧
    s.offset.toNat + c.length.toNat ≤ 2 ^ 64 := ⟨_, _, _, exFileStore_chunk, by decide, by decide⟩

/-- Two devices: the first full of ones, the second full of twos. -/
def exDevs (dev : UInt64) : Bytes := List.replicate 0x200000 (if dev = 1 then 1 else 2)

theorem exDevs_get {dev : UInt64} {i : Nat} {v : UInt8} (h : (exDevs dev)[i]? = some v) : v = if dev = 1 then 1 else 2 := by
  obtain ⟨hlt, h⟩ := List.getElem?_eq_some_iff.mp h
  simp only [exDevs] at h
  rw [List.getElem_replicate] at h
  exact h.symm

/-- C96 is false of the code: if recover is given the image of device 2, a file whose data
are on device 1 is recovered without an error, with the bytes of device 2. -/
theorem C96_other_device_silent :
    exFileStore.Sorted ∧ exFileStore.enc.OnOneDevice 5 257 10 7 1 ∧
    (∀ v, exFileStore.enc.fileByteOn 5 257 10 7 exDevs 0 v → v = 1) ∧
    ∃ N, ∀ rf, N ≤ rf → ∃ s',
      recoverFile { quietEnv with dev := fun _ => imageReader (exDevs 2) } rf ⟨exFileStore.enc, ~~~0⟩
        false 5 257 (ascii "/a") (RecState.start exEmptyHost) = .ok none s' ∧
      ∃ d, s'.fs.readFile (ascii "/a") = some d ∧ d.length = 5000 ∧ d[0]? = some 2 := by
  refine ⟨exFileStore_sorted, exFileStore_one, ?_, ?_⟩
  · intro v hv
    rcases hv with ⟨off, f, hx, hin, hval⟩ | ⟨hno, -⟩
    · rcases exFileStore_extents hx with ⟨rfl, rfl⟩ | ⟨rfl, rfl⟩
      · rcases hval with ⟨h | h, -⟩ | ⟨-, -, hval⟩
        · exact absurd h (by decide)
        · exact absurd h (by decide)
        · obtain ⟨p, hp, hval⟩ := storedByte_in exFileStore_sorted exFileStore_addr hval exFileStore_chunk
            (by decide) (by decide)
          have : p.1 = 1 := by
            have h' : ∀ q ∈ (ChunkRec.mk 0x800000 2 65536 1 4096 4096 4096 1 0).places
              [⟨1, 0x100000, uuidAllZero⟩] (0x1001000 + 4096 + (0 - 0) - 0x1000000), q.1 = 1 := by decide +kernel
            exact h' p hp
          rw [exDevs_get hval, this]
          rfl
      · exact absurd hin.1 (by decide)
    · exact absurd ⟨by decide, by decide⟩ (hno 0 _ ⟨_, _, [], enc_stores.mpr (by
        simp only [exFileStore, List.mem_cons]; right; right; right; right; right; left; rfl),
          mkItem_holds _ _ (by decide), (List.append_nil _).symm⟩)
  · obtain ⟨N, h⟩ := C58_recovered exFileStore.enc (AStore.enc_wf exFileStore_sorted) [] (enc_stores.mpr (by simp [exFileStore]))
      5 257 10 7 (by decide) exFileStore_addr exFileStore_ok exFileStore_plain 5000 exFileStore_size (by decide)
    refine ⟨N, fun rf hrf => ?_⟩
    obtain ⟨s', hs, d, hd, hl, hb⟩ := h (exDevs 2) rf hrf { quietEnv with dev := fun _ => imageReader (exDevs 2) }
      ⟨fun _ _ => rfl, fun _ => rfl⟩ (by
        intro off f dev phys hx hz htr
        rcases exFileStore_extents hx with ⟨rfl, rfl⟩ | ⟨rfl, rfl⟩
        · rw [exFileStore_phys htr, exDevs, List.length_replicate]; decide
        · exact absurd rfl hz) false (ascii "/a") (RecState.start exEmptyHost) rfl (by decide +kernel) (Or.inr (by decide +kernel))
    have hlen : d.length = 5000 := hl
    refine ⟨s', hs, d, hd, hlen, ?_⟩
    have hv := List.getElem?_eq_getElem (l := d) (i := 0) (by omega)
    rcases hb 0 _ hv with ⟨off, f, hx, hin, hval⟩ | ⟨hno, -⟩
    · rcases exFileStore_extents hx with ⟨rfl, rfl⟩ | ⟨rfl, rfl⟩
      · rcases hval with ⟨h | h, -⟩ | ⟨-, -, dev, phys, htr, hval⟩
        · exact absurd h (by decide)
        · exact absurd h (by decide)
        · rw [hv, exDevs_get hval]; rfl
      · exact absurd hin.1 (by decide)
    · exact absurd ⟨by decide, by decide⟩ (hno 0 _ ⟨_, _, [], enc_stores.mpr (by
        simp only [exFileStore, List.mem_cons]; right; right; right; right; right; left; rfl),
          mkItem_holds _ _ (by decide), (List.append_nil _).symm⟩)

/-! ## A file in a chunk striped over two devices -/

/-- The header of a chunk of 8 MiB with profile RAID0. -/
def exRaid0 : ChunkRec := ⟨0x800000, 2, 65536, 9, 4096, 4096, 4096, 2, 0⟩

/-- Its stripes. -/
def exRaid0Stripes : List StripeRec := [⟨1, 0x100000, uuidAllZero⟩, ⟨2, 0x100000, uuidAllZero⟩]

/-- Its item. -/
def exRaid0Item : Bytes := mkItem ⟨256, 228, 0x1000000⟩ (exRaid0.layout ++ (stripesLayout exRaid0Stripes ++ []))

theorem exRaid0Item_holds : holdsItem exRaid0Item (exRaid0.layout ++ (stripesLayout exRaid0Stripes ++ [])) :=
  mkItem_holds _ _ (by simp [ChunkRec.layout, exRaid0Stripes, stripesLayout, StripeRec.layout])

attribute [irreducible] exRaid0Item

/-- A file of 128 KiB in one extent at the start of that chunk. -/
def exStripedStore : AStore :=
  [(⟨3, ⟨256, 228, 0x1000000⟩, 7⟩, exRaid0Item),
   (⟨3, ⟨257, 229, 0⟩, 7⟩, mkItem ⟨257, 229, 0⟩ []),
   (⟨5, ⟨257, 1, 0⟩, 10⟩, mkItem ⟨257, 1, 0⟩ (exInode 131072).layout),
   (⟨5, ⟨257, 108, 0⟩, 10⟩, mkItem ⟨257, 108, 0⟩ (FileExtentItemRec.mk 9 131072 0 0 0 1 0x1000000 131072 0 131072).layout),
   (⟨5, ⟨258, 132, 0⟩, 10⟩, mkItem ⟨258, 132, 0⟩ []),
   (metadataVersionKey, [])]

theorem exStripedStore_sorted : exStripedStore.Sorted := sorted_of_before (by decide +kernel)

theorem exStripedStore_intact (e : VKey × Bytes) (he : e ∈ exStripedStore) (ho : e.1.owner ≠ ~~~0) : ∃ d, holdsItem e.2 d := by
  simp only [exStripedStore, List.mem_cons, List.not_mem_nil, or_false] at he
  rcases he with rfl | rfl | rfl | rfl | rfl | rfl
  · exact ⟨_, exRaid0Item_holds⟩
  · exact ⟨_, mkItem_holds _ _ (by decide +kernel)⟩
  · exact ⟨_, mkItem_holds _ _ (by decide +kernel)⟩
  · exact ⟨_, mkItem_holds _ _ (by decide +kernel)⟩
  · exact ⟨_, mkItem_holds _ _ (by decide +kernel)⟩
  · exact absurd rfl ho

theorem exStripedStore_gens : ∀ e ∈ exStripedStore, e.1.owner ≠ ~~~0 → (e.1.gen ≠ ~~~0 ∧ e.1.key ≠ KL0) ∧
    (e.1.owner = 3 → e.1.gen = 7) ∧ (e.1.owner = 5 → e.1.gen = 10) := by decide +kernel

theorem exStripedStore_newest {o : UInt64} {k : Key} {g : UInt64}
    (hg : ∀ e ∈ exStripedStore, e.1.owner = o → e.1.gen = g) (hk : exStripedStore.enc.hasKey o k) :
    exStripedStore.enc.newest o k g := by
  obtain ⟨g', x, hx⟩ := enc_hasKey.mp hk
  have := hg _ hx rfl
  simp only at this
  subst this
  refine ⟨enc_hasVersion.mpr ⟨x, hx⟩, fun g'' hv => ?_⟩
  obtain ⟨y, hy⟩ := enc_hasVersion.mp hv
  have := hg _ hy rfl
  simp only at this
  rw [this]
  exact UInt64.le_refl _

theorem exStripedStore_chunk : exStripedStore.enc.chunkAt 7 0x1000000 exRaid0 exRaid0Stripes :=
  ⟨_, _, [], enc_stores.mpr (by simp only [exStripedStore, List.mem_cons]; left; trivial), exRaid0Item_holds, rfl, rfl⟩

theorem exStripedStore_chunks {g start : UInt64} (hk : exStripedStore.enc.hasVersion 3 ⟨256, 228, start⟩ g) :
    g = 7 ∧ start = 0x1000000 := by
  obtain ⟨x, hx⟩ := enc_hasVersion.mp hk
  simp only [exStripedStore, List.mem_cons, List.not_mem_nil, or_false, Prod.mk.injEq, VKey.mk.injEq, Key.mk.injEq] at hx
  rcases hx with ⟨⟨-, ⟨-, -, h⟩, h'⟩, -⟩ | ⟨⟨-, ⟨h, -, -⟩, -⟩, -⟩ | ⟨⟨h, -⟩, -⟩ | ⟨⟨h, -⟩, -⟩ | ⟨⟨h, -⟩, -⟩ | ⟨h, -⟩
  · exact ⟨h', h⟩
  · exact absurd h (by decide)
  · exact absurd h (by decide)
  · exact absurd h (by decide)
  · exact absurd h (by decide)
  · exact absurd (congrArg VKey.owner h) (by show ¬ (3 : UInt64) = ~~~0; decide)

theorem exStripedStore_addr : exStripedStore.enc.AddrOK 7 where
  range := rangeOK_of (by decide) (fun e he ho => exStripedStore_intact e he (by rw [ho]; decide))
    (fun e he ho => (exStripedStore_gens e he (by rw [ho]; decide)).1) (by decide +kernel)
  chunks := by
    intro start hk
    refine ⟨exStripedStore_newest (fun e he ho => (exStripedStore_gens e he (by rw [ho]; decide)).2.1 ho) hk, ?_⟩
    obtain ⟨g, hg⟩ := hk
    obtain ⟨rfl, rfl⟩ := exStripedStore_chunks hg
    exact ⟨_, _, exStripedStore_chunk⟩
  disjoint := by
    intro a c ss a' c' ss' h h' hlt
    obtain ⟨x, d, rest, h1, -⟩ := h
    obtain ⟨x', d', rest', h1', -⟩ := h'
    obtain ⟨-, rfl⟩ := exStripedStore_chunks ⟨x, h1⟩
    obtain ⟨-, rfl⟩ := exStripedStore_chunks ⟨x', h1'⟩
    exact absurd hlt (by decide)

/-- The hypotheses of `C95_striped_exact` hold for the second piece of its chunk. -/
example : exRaid0.profile ≠ .linear ∧ 2 ≤ exRaid0.columns exRaid0Stripes.length ∧ 0 < exRaid0.stripeLen.toNat ∧
    (exRaid0Stripes.map StripeRec.devID).Nodup ∧ ¬ (0x1010000 : UInt64).toNat - (0x1000000 : UInt64).toNat < exRaid0.stripeLen.toNat := by
  decide +kernel

theorem exStripedStore_extent : exStripedStore.enc.extentAt 5 257 10 0 (FileExtentItemRec.mk 9 131072 0 0 0 1 0x1000000 131072 0 131072) :=
  ⟨_, _, [], enc_stores.mpr (by simp only [exStripedStore, List.mem_cons]; right; right; right; left; rfl),
    mkItem_holds _ _ (by decide), (List.append_nil _).symm⟩

theorem exStripedStore_key {g off : UInt64} (hk : exStripedStore.enc.hasVersion 5 ⟨257, 108, off⟩ g) : g = 10 ∧ off = 0 := by
  obtain ⟨x, hx⟩ := enc_hasVersion.mp hk
  simp only [exStripedStore, List.mem_cons, List.not_mem_nil, or_false, Prod.mk.injEq, VKey.mk.injEq, Key.mk.injEq] at hx
  rcases hx with ⟨⟨h, -⟩, -⟩ | ⟨⟨h, -⟩, -⟩ | ⟨⟨-, ⟨-, h, -⟩, -⟩, -⟩ | ⟨⟨-, ⟨-, -, h⟩, h'⟩, -⟩ | ⟨⟨-, ⟨h, -, -⟩, -⟩, -⟩ | ⟨h, -⟩
  · exact absurd h (by decide)
  · exact absurd h (by decide)
  · exact absurd h (by decide)
  · exact ⟨h', h⟩
  · exact absurd h (by decide)
  · exact absurd (congrArg VKey.owner h) (by show ¬ (5 : UInt64) = ~~~0; decide)

theorem exStripedStore_extents {g off : UInt64} {f : FileExtentItemRec} (h : exStripedStore.enc.extentAt 5 257 g off f) :
    off = 0 ∧ f = FileExtentItemRec.mk 9 131072 0 0 0 1 0x1000000 131072 0 131072 := by
  obtain ⟨x, d, rest, h1, -⟩ := id h
  obtain ⟨rfl, rfl⟩ := exStripedStore_key ⟨x, h1⟩
  exact ⟨rfl, extentAt_unique exStripedStore_sorted h exStripedStore_extent⟩

theorem exStripedStore_translated : exStripedStore.enc.translated 7 0x1000000 1 0x100000 :=
  Or.inr ⟨by decide, _, _, _, _, exStripedStore_chunk, by decide, by decide, rfl, by decide⟩

theorem exStripedStore_phys {dev phys : UInt64} (h : exStripedStore.enc.translated 7 0x1000000 dev phys) : phys = 0x100000 :=
  (translated_unique (AStore.enc_wf exStripedStore_sorted) (m := []) (enc_stores.mpr (by simp [exStripedStore]))
    exStripedStore_addr h exStripedStore_translated).2

theorem exStripedStore_ok : exStripedStore.enc.FileOK 5 257 10 7 where
  range := rangeOK_of (by decide) (fun e he ho => exStripedStore_intact e he (by rw [ho]; decide))
    (fun e he ho => (exStripedStore_gens e he (by rw [ho]; decide)).1) (by decide +kernel)
  newest off hk := exStripedStore_newest (fun e he ho => (exStripedStore_gens e he (by rw [ho]; decide)).2.2 ho) hk
  intact off hk := by
    obtain ⟨g, hg⟩ := hk
    obtain ⟨rfl, rfl⟩ := exStripedStore_key hg
    exact ⟨_, exStripedStore_extent, by decide, _, _, exStripedStore_translated⟩

theorem exStripedStore_plain : exStripedStore.enc.ExtentsPlain 5 257 10 7 where
  disjoint off f off' f' h h' hlt := by
    obtain ⟨rfl, rfl⟩ := exStripedStore_extents h
    obtain ⟨rfl, rfl⟩ := exStripedStore_extents h'
    exact absurd hlt (by decide)
  plain off f h := by
    obtain ⟨rfl, rfl⟩ := exStripedStore_extents h
    exact ⟨rfl, rfl, rfl, rfl⟩
  small off f h := by
    obtain ⟨rfl, rfl⟩ := exStripedStore_extents h
    decide
  holes off f h := by
    obtain ⟨rfl, rfl⟩ := exStripedStore_extents h
    decide
  addr off f dev phys h hz htr := by
    obtain ⟨rfl, rfl⟩ := exStripedStore_extents h
    rw [exStripedStore_phys htr]; decide

theorem exStripedStore_size : exStripedStore.enc.inodeSizeIs 5 257 131072 :=
  ⟨10, _, exInode 131072, [], exStripedStore_newest (fun e he ho => (exStripedStore_gens e he (by rw [ho]; decide)).2.2 ho)
      (enc_hasKey.mpr ⟨10, _, by simp only [exStripedStore, List.mem_cons]; right; right; left; rfl⟩),
    enc_stores.mpr (by simp only [exStripedStore, List.mem_cons]; right; right; left; rfl),
    by rw [List.append_nil]; exact mkItem_holds _ _ (by decide +kernel), rfl⟩

/-- C96 is false of the code: a file of 128 KiB whose data are striped over two devices is
recovered from the first of them without an error, its second half with bytes of device 1
although they are stored on device 2. -/
theorem C96_striped_wrong :
    exStripedStore.Sorted ∧
    (∀ v, exStripedStore.enc.fileByteOn 5 257 10 7 exDevs 65536 v → v = 2) ∧
    ∃ N, ∀ rf, N ≤ rf → ∃ s',
      recoverFile { quietEnv with dev := fun _ => imageReader (exDevs 1) } rf ⟨exStripedStore.enc, ~~~0⟩
        false 5 257 (ascii "/a") (RecState.start exEmptyHost) = .ok none s' ∧
      ∃ d, s'.fs.readFile (ascii "/a") = some d ∧ d.length = 131072 ∧ d[65536]? = some 1 := by
  refine ⟨exStripedStore_sorted, ?_, ?_⟩
  · intro v hv
    rcases hv with ⟨off, f, hx, hin, hval⟩ | ⟨hno, -⟩
    · obtain ⟨rfl, rfl⟩ := exStripedStore_extents hx
      rcases hval with ⟨h | h, -⟩ | ⟨-, -, hval⟩
      · exact absurd h (by decide)
      · exact absurd h (by decide)
      · obtain ⟨p, hp, hval⟩ := storedByte_in exStripedStore_sorted exStripedStore_addr hval exStripedStore_chunk
          (by decide) (by decide)
        have : p.1 = 2 := by
          have h' : ∀ q ∈ exRaid0.places exRaid0Stripes (0x1000000 + 0 + (65536 - 0) - 0x1000000), q.1 = 2 := by
            decide +kernel
          exact h' p hp
        rw [exDevs_get hval, this]
        rfl
    · exact absurd ⟨by decide, by decide⟩ (hno 0 _ exStripedStore_extent)
  · obtain ⟨N, h⟩ := C58_recovered exStripedStore.enc (AStore.enc_wf exStripedStore_sorted) []
      (enc_stores.mpr (by simp [exStripedStore])) 5 257 10 7 (by decide) exStripedStore_addr exStripedStore_ok
      exStripedStore_plain 131072 exStripedStore_size (by decide)
    refine ⟨N, fun rf hrf => ?_⟩
    obtain ⟨s', hs, d, hd, hl, hb⟩ := h (exDevs 1) rf hrf { quietEnv with dev := fun _ => imageReader (exDevs 1) }
      ⟨fun _ _ => rfl, fun _ => rfl⟩ (by
        intro off f dev phys hx hz htr
        obtain ⟨rfl, rfl⟩ := exStripedStore_extents hx
        rw [exStripedStore_phys htr, exDevs, List.length_replicate]; decide) false (ascii "/a")
      (RecState.start exEmptyHost) rfl (by decide +kernel) (Or.inr (by decide +kernel))
    have hlen : d.length = 131072 := hl
    refine ⟨s', hs, d, hd, hlen, ?_⟩
    have hv := List.getElem?_eq_getElem (l := d) (i := 65536) (by omega)
    rcases hb 65536 _ hv with ⟨off, f, hx, hin, hval⟩ | ⟨hno, -⟩
    · obtain ⟨rfl, rfl⟩ := exStripedStore_extents hx
      rcases hval with ⟨h | h, -⟩ | ⟨-, -, dev, phys, htr, hval⟩
      · exact absurd h (by decide)
      · exact absurd h (by decide)
      · rw [hv, exDevs_get hval]; rfl
    · exact absurd ⟨by decide, by decide⟩ (hno 0 _ exStripedStore_extent)

end Btrfscue
