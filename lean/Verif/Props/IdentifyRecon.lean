import Verif.Props.Identify
import Verif.Props.Recon
import Verif.Props.Uuid
/-!
# C98: identify and then recon

The documented way to use the two commands: the id that identify prints is given to recon
with `--id`, and the block size with `--block-size`.
-/

namespace Btrfscue

section
variable {F : Type} [LinearOrder F]

/-- What the command computes on a roomy image, once the samples `t` are chosen. -/
theorem identify_image_eq (dev : Bytes) (o : IdentifyOptions) (hb : o.blockSize.toNat < 2 ^ 32)
    (hmin : 126 ≤ o.blockSize.toNat) (hlen : dev.length < 2 ^ 63) (hroom : roomy dev.length o.blockSize.toNat)
    (hn : o.numSamples.toNat ≤ 2 ^ 31)
    (fuel : Nat) (rnd : Nat → Nat) (ordS : List UInt64 → List UInt64) (ordH : FSIDHist → FSIDHist)
    (hoS : MapOrder ordS) (ent : UUID → F) (avg : UInt64 → UInt64 → Nat) (t : List UInt64)
    (ht : MakeSampleOffsets fuel rnd ordS (UInt64.ofNat dev.length) o.blockSize o.numSamples = .ok t) :
    (∀ x ∈ t, x.toNat + o.blockSize.toNat ≤ dev.length) ∧
    ∃ h, Counted (t.map (blockAt dev o.blockSize.toNat)) h ∧
      IdentifyFS fuel rnd ordS ordH ent avg (imageReader dev) (some (UInt64.ofNat dev.length)) o () =
        .ok (entries ent avg ordH h o.minOccurrence) () := by
  have hsz : (UInt64.ofNat dev.length).toNat = dev.length := by
    rw [UInt64.toNat_ofNat']; exact Nat.mod_eq_of_lt (by omega)
  have hne : o.blockSize ≠ 0 := by intro hh; rw [hh] at hmin; simp at hmin
  have hchk : CheckDeviceSize (some (UInt64.ofNat dev.length)) o.blockSize = .ok (UInt64.ofNat dev.length) :=
    check_ok _ _ hb (by rw [hsz]; have := hroom.1; omega)
  have hin := C48_samples_inside_partial (UInt64.ofNat dev.length) o.blockSize o.numSamples hb (by omega)
    (by rw [hsz]; exact hlen) (by rw [hsz]; exact hroom) fuel rnd ordS hoS t ht
  rw [hsz] at hin
  have htlen : t.length = o.numSamples.toNat := (samples_spec hb (by omega) hoS ht).2.1
  have hoff : ∀ x ∈ t, x.toNat < 2 ^ 63 := fun x hx => by have := hin x hx; omega
  obtain ⟨hok, -⟩ := identifyLoop_image dev o.blockSize.toNat hmin hlen t (List.replicate o.blockSize.toNat 0) []
    (List.length_replicate ..) hoff
  obtain ⟨h, hc, hrun⟩ := hok hin
  obtain ⟨h', hc', hcount⟩ := collectAll_counted (t.map (blockAt dev o.blockSize.toNat)) [] [] Counted.nil
    (by rw [List.nil_append, List.length_map]; omega) (by
      intro b hb'
      rw [List.mem_map] at hb'
      obtain ⟨x, hx, rfl⟩ := hb'
      have := hin x hx
      rw [blockAt, List.length_take, List.length_drop]; omega)
  rw [hc] at hc'
  simp only [Go.ok.injEq] at hc'
  subst hc'
  rw [List.nil_append] at hcount
  refine ⟨hin, h, hcount, ?_⟩
  unfold IdentifyFS
  simp only [hchk, if_neg hne]
  rw [Cmd.bind_ok (a := t) (s' := ()) (by rw [ht]; rfl), Cmd.bind_ok (a := h) (s' := ()) hrun]
  rfl

/-- A block of the device beyond the first superblock at a multiple of a block size that
divides 64 KiB is one that recon reads. -/
theorem blockAt_scanned {dev : Bytes} {bs : Nat} {x : UInt64} (h0 : 0 < bs) (hd : bs ∣ 65536) (hx : bs ∣ x.toNat)
    (h1 : 65536 < x.toNat) (h2 : x.toNat + bs ≤ dev.length) : blockAt dev bs x ∈ scanBlocks dev bs := by
  obtain ⟨q, hq⟩ := Nat.dvd_sub hx hd
  have hqpos : 0 < q := by
    apply Nat.pos_of_ne_zero
    rintro rfl
    omega
  simp only [scanBlocks, List.mem_map, List.mem_range, blockAt]
  refine ⟨q - 1, ?_, ?_⟩
  · have : q + 1 ≤ (dev.length - 65536) / bs := by
      rw [Nat.le_div_iff_mul_le h0, Nat.succ_mul, Nat.mul_comm]; omega
    omega
  · rw [show q - 1 + 1 = q by omega, ← hq, show 65536 + (x.toNat - 65536) = x.toNat by omega]

/-- Samples are multiples of a block size that divides 64 KiB. -/
theorem sample_dvd {devSize bs : Nat} (hd : bs ∣ 65536) {x : Nat}
    (h : baseSample devSize bs x ∨ ∃ j, j < devSize / bs ∧ x = j * bs) : bs ∣ x := by
  have h64 : bs ∣ 0x4000000 := Nat.dvd_trans hd (by decide)
  have h256 : bs ∣ 0x4000000000 := Nat.dvd_trans hd (by decide)
  rcases h with (⟨i, -, rfl⟩ | ⟨i, -, rfl⟩ | ⟨-, i, -, rfl⟩ | ⟨-, i, -, rfl⟩) | ⟨j, -, rfl⟩
  · exact Nat.dvd_add hd (Nat.dvd_mul_left ..)
  · exact Nat.dvd_add h64 (Nat.dvd_mul_left ..)
  · exact Nat.dvd_add h256 (Nat.dvd_mul_left ..)
  · exact Nat.dvd_add h256 (Nat.dvd_mul_left ..)
  · exact Nat.dvd_mul_left ..

/-- C98, the part that holds: for block sizes that divide 64 KiB. `recon --id` accepts every
id that identify printed, and if the leaves of that file system are sound, `recon` with the
same block size ends and its index has every item of every leaf that identify counted
beyond the first superblock. -/
theorem C98_reported_is_scanned_partial (dev : Bytes) (o : IdentifyOptions) (hdiv : o.blockSize.toNat ∣ 65536)
    (hmin : 126 ≤ o.blockSize.toNat) (hlen : dev.length < 2 ^ 63) (hroom : roomy dev.length o.blockSize.toNat)
    (hn : o.numSamples.toNat ≤ 2 ^ 31)
    (fuel : Nat) (rnd : Nat → Nat) (ordS : List UInt64 → List UInt64) (ordH : FSIDHist → FSIDHist)
    (hoS : MapOrder ordS) (hoH : MapOrder ordH) (ent : UUID → F) (avg : UInt64 → UInt64 → Nat) (t : List UInt64)
    (ht : MakeSampleOffsets fuel rnd ordS (UInt64.ofNat dev.length) o.blockSize o.numSamples = .ok t) :
    ∃ es : List (FSEntry F),
      IdentifyFS fuel rnd ordS ordH ent avg (imageReader dev) (some (UInt64.ofNat dev.length)) o () = .ok es () ∧
      ∀ e ∈ es, UUID.new e.fsid.toText = (e.fsid, false) ∧
        (soundDevice dev o.blockSize e.fsid → ∀ f : DBFile, f.fresh → ∀ fuel', dev.length < fuel' →
          ∃ b, recon fuel' dev o.blockSize e.fsid f = (.db (some b), .done) ∧
            ∀ x ∈ t, 65536 < x.toNat → leafOf e.fsid (blockAt dev o.blockSize.toNat x) →
              ∀ i v y, blockItem (blockAt dev o.blockSize.toNat x) i v y →
                ∃ z, b.stores v z ∧ onDevice dev o.blockSize.toNat e.fsid v z) := by
  have hb : o.blockSize.toNat < 2 ^ 32 := by have := Nat.le_of_dvd (by decide) hdiv; omega
  have hsz : (UInt64.ofNat dev.length).toNat = dev.length := by
    rw [UInt64.toNat_ofNat']; exact Nat.mod_eq_of_lt (by omega)
  obtain ⟨hin, -⟩ := identify_image_eq dev o hb hmin hlen hroom hn fuel rnd ordS ordH hoS ent avg t ht
  obtain ⟨es, hrun, -, hmem, -⟩ := C48_identify_image_partial dev o hb hmin hlen hroom hn fuel rnd ordS ordH hoS hoH
    ent avg t ht
  obtain ⟨-, -, -, hsam⟩ := C47_samples_partial (UInt64.ofNat dev.length) o.blockSize o.numSamples hb (by omega)
    (by rw [hsz]; exact hlen) fuel rnd ordS hoS t ht
  refine ⟨es, hrun, fun e he => ⟨C05_uuid_roundtrip _, fun hs f hf fuel' hfu => ?_⟩⟩
  have hreal := ((hmem e.fsid).mp (List.mem_map_of_mem he)).1
  have hz : UUID.isZero e.fsid = false := by
    have := (realFSID_iff e.fsid).mp hreal
    simp only [Bool.or_eq_false_iff] at this
    exact this.1
  have hargs : ReconArgs dev o.blockSize e.fsid :=
    ⟨by omega, hb, hlen, by have := hroom.1; omega, hz⟩
  obtain ⟨b, h1, h2, -⟩ := C40_all_items_of_matching_leaves dev o.blockSize e.fsid hargs hs f hf fuel' hfu
  refine ⟨b, h1, fun x hx hpos hl i v y hi => h2 v ⟨y, _, ?_, hl, i, hi⟩⟩
  exact blockAt_scanned (by omega) hdiv (sample_dvd hdiv (hsam x hx)) hpos (hin x hx)

/-! ## The block size that identify prints -/

/-- A device made of `n` blocks. -/
def gridDev (n : Nat) (f : Nat → Bytes) : Bytes := ((List.range n).map f).flatten

theorem gridDev_length {bs : Nat} {f : Nat → Bytes} (hf : ∀ j, (f j).length = bs) (n : Nat) :
    (gridDev n f).length = n * bs := by
  induction n with
  | zero => simp [gridDev]
  | succ n ih =>
    simp only [gridDev, List.range_succ, List.map_append, List.map_cons, List.map_nil, List.flatten_append,
      List.length_append] at ih ⊢
    rw [ih, Nat.succ_mul]; simp [hf]

theorem gridDev_block {bs : Nat} {f : Nat → Bytes} (hf : ∀ j, (f j).length = bs) :
    ∀ {n j : Nat}, j < n → ∃ r, (gridDev n f).drop (bs * j) = f j ++ r := by
  intro n
  induction n with
  | zero => intro j h; omega
  | succ n ih =>
    intro j h
    have hs : gridDev (n + 1) f = gridDev n f ++ f n := by
      simp [gridDev, List.range_succ]
    rw [hs]
    by_cases hj : j < n
    · obtain ⟨r, hr⟩ := ih hj
      refine ⟨r ++ f n, ?_⟩
      rw [List.drop_append_of_le_length, hr, List.append_assoc]
      rw [gridDev_length hf, Nat.mul_comm]
      exact Nat.mul_le_mul_right _ (by omega)
    · have : j = n := by omega
      subst this
      refine ⟨[], ?_⟩
      rw [List.drop_left' (by rw [gridDev_length hf, Nat.mul_comm]), List.append_nil]

/-- A 16 KiB leaf with one inode item. -/
def exGuessLeaf (u : UUID) : Bytes :=
  leafImage ⟨⟨List.replicate 32 0, by simp⟩, u, 0, 0, uuidAllZero, 7, 5, 1, 0⟩
    [(⟨256, 1, 0⟩, List.replicate 160 1)] (List.replicate 16098 0)

/-- Where the four leaves are, in blocks. -/
def exGuessAt (j : Nat) : Bool := j = 7 || j = 10 || j = 13 || j = 16

/-- A device of 128 MiB in blocks of 16 KiB, four of them leaves of the file system. -/
def exGuessBlock (u : UUID) (j : Nat) : Bytes :=
  if exGuessAt j then exGuessLeaf u else List.replicate 16384 0

/-- The device. -/
def exGuessDev (u : UUID) : Bytes := gridDev 8192 (exGuessBlock u)

theorem exGuessLeaf_length (u : UUID) : (exGuessLeaf u).length = 16384 := by
  have h1 : (leafPayloads [((⟨256, 1, 0⟩ : Key), List.replicate 160 (1 : UInt8))]).length = 160 := by
    simp [leafPayloads]
  rw [exGuessLeaf, leafImage_length, h1, List.length_replicate]
  rfl

theorem exGuessBlock_length (u : UUID) (j : Nat) : (exGuessBlock u j).length = 16384 := by
  unfold exGuessBlock
  split
  · exact exGuessLeaf_length u
  · exact List.length_replicate ..

theorem exGuessDev_length (u : UUID) : (exGuessDev u).length = 134217728 := by
  rw [exGuessDev, gridDev_length (exGuessBlock_length u)]

theorem exGuess_blockAt (u : UUID) {x : UInt64} {j : Nat} (hx : x.toNat = 16384 * j) (hj : j < 8192) :
    blockAt (exGuessDev u) 16384 x = exGuessBlock u j := by
  obtain ⟨r, hr⟩ := gridDev_block (exGuessBlock_length u) hj
  rw [blockAt, hx, exGuessDev, hr, List.take_left' (exGuessBlock_length u j)]

theorem exGuessLeaf_eq (u : UUID) : ∃ rest, exGuessLeaf u =
    HeaderRec.layout ⟨⟨List.replicate 32 0, by simp⟩, u, 0, 0, uuidAllZero, 7, 5, 1, 0⟩ ++
      ((⟨⟨256, 1, 0⟩, 16123, 160⟩ : ItemRec).layout ++ rest) := by
  refine ⟨List.replicate 16098 0 ++ ([] ++ List.replicate 160 1), ?_⟩
  have e1 : 25 * 1 + 16098 + 160 - 160 = 16123 := by decide
  have e2 : UInt32.ofNat 16123 = 16123 := by decide
  have e3 : UInt32.ofNat 160 = 160 := by decide
  simp only [exGuessLeaf, leafImage, leafItemRecs, leafPayloads, List.flatMap_cons, List.flatMap_nil,
    List.append_nil, List.nil_append, List.length_cons, List.length_nil, List.length_replicate, Nat.zero_add, e1, e2, e3]

theorem exGuessLeaf_take (u : UUID) : ∃ rest, (exGuessLeaf u).take 12288 =
    HeaderRec.layout ⟨⟨List.replicate 32 0, by simp⟩, u, 0, 0, uuidAllZero, 7, 5, 1, 0⟩ ++
      ((⟨⟨256, 1, 0⟩, 16123, 160⟩ : ItemRec).layout ++ rest) := by
  have hil : ∀ r : ItemRec, r.layout.length = 25 := fun r => (C07_Item_decodes r [] []).1
  obtain ⟨rest, h⟩ := exGuessLeaf_eq u
  refine ⟨rest.take (12288 - 101 - 25), ?_⟩
  rw [h, List.take_append, List.take_of_length_le (by rw [headerRec_length]; decide), headerRec_length,
    List.take_append, List.take_of_length_le (by rw [hil]; decide), hil]

theorem exGuessLeaf_leaf (u v : UUID) : leafWith v (exGuessLeaf u) ↔ u = v := by
  obtain ⟨rest, h⟩ := exGuessLeaf_eq u
  rw [h, leafWith_iff]
  simp

theorem exGuessLeaf_offset (u : UUID) : firstOffset (exGuessLeaf u) 16123 := by
  obtain ⟨rest, h⟩ := exGuessLeaf_eq u
  rw [h, firstOffset_iff]
  exact ⟨by simp, rfl⟩

theorem zeroes_leafWith {v : UUID} {n : Nat} (h : leafWith v (List.replicate n 0)) : v.val = List.replicate 16 0 := by
  obtain ⟨hdr, rest, he, h1, -⟩ := h
  have hz : ∀ x ∈ hdr.layout, x = (0 : UInt8) := fun x hx => by
    have : x ∈ List.replicate n (0 : UInt8) := by rw [he]; exact List.mem_append_left _ hx
    exact (List.mem_replicate.mp this).2
  rw [List.eq_replicate_iff]
  refine ⟨v.property, fun x hx => hz x ?_⟩
  rw [← h1] at hx
  simp only [HeaderRec.layout, List.mem_append]
  simp [hx]

theorem exGuessBlock_leaf {u v : UUID} (hv : realFSID v) (j : Nat) :
    leafWith v (exGuessBlock u j) ↔ u = v ∧ exGuessAt j = true := by
  unfold exGuessBlock
  by_cases h : exGuessAt j = true
  · rw [if_pos h, exGuessLeaf_leaf]; simp [h]
  · rw [if_neg h]
    constructor
    · intro hl; exact absurd (zeroes_leafWith hl) hv.1
    · rintro ⟨-, h'⟩; exact absurd h' h

theorem count_filter {t S : List UInt64} (ht : t.Nodup) (hS : S.Nodup) (p : UInt64 → Bool)
    (h : ∀ x, x ∈ t ∧ p x = true ↔ x ∈ S) : (t.filter p).length = S.length := by
  refine List.Perm.length_eq ((List.perm_ext_iff_of_nodup (ht.filter p) hS).mpr fun x => ?_)
  rw [List.mem_filter, h]

theorem exGuess_roomy (u : UUID) : roomy (exGuessDev u).length 16384 := by
  rw [exGuessDev_length]
  refine ⟨by decide, fun h => ?_, fun h => ?_⟩ <;> exact absurd h (by decide)

/-- Every sample is a block of the device. -/
theorem exGuess_sample (u : UUID) {n : UInt64} {fuel : Nat} {rnd : Nat → Nat} {ordS : List UInt64 → List UInt64}
    (hoS : MapOrder ordS) {t : List UInt64}
    (ht : MakeSampleOffsets fuel rnd ordS (UInt64.ofNat (exGuessDev u).length) 16384 n = .ok t) :
    (∀ x ∈ t, ∃ j < 8192, x.toNat = 16384 * j) ∧ t.Nodup ∧
      ∀ x : UInt64, x ∈ ([114688, 163840, 212992, 262144] : List UInt64) → x ∈ t := by
  have hb : (16384 : UInt64).toNat = 16384 := by decide
  rw [exGuessDev_length] at ht
  have hl : (UInt64.ofNat 134217728).toNat = 134217728 := by decide
  obtain ⟨-, h2, h3, h4⟩ := C47_samples_partial (UInt64.ofNat 134217728) 16384 n (by decide) (by decide) (by decide)
    fuel rnd ordS hoS t ht
  rw [hb, hl] at h3 h4
  refine ⟨fun x hx => ?_, h2.imp fun h he => by rw [he] at h; omega, fun x hx => h3 x (Or.inl ?_)⟩
  · rcases h4 x hx with (⟨i, hi, h⟩ | ⟨i, hi, h⟩ | ⟨h, -⟩ | ⟨h, -⟩) | ⟨j, hj, h⟩
    · exact ⟨4 + i, by omega, by omega⟩
    · exact ⟨4096 + (100 + i), by omega, by omega⟩
    · omega
    · omega
    · exact ⟨j, by omega, by omega⟩
  · simp only [List.mem_cons, List.not_mem_nil, or_false] at hx
    rcases hx with rfl | rfl | rfl | rfl
    · exact ⟨3, by decide, by decide⟩
    · exact ⟨6, by decide, by decide⟩
    · exact ⟨9, by decide, by decide⟩
    · exact ⟨12, by decide, by decide⟩

theorem exGuess_leaves (u : UUID) {v : UUID} (hv : realFSID v) {t : List UInt64}
    (ht : ∀ x ∈ t, ∃ j < 8192, x.toNat = 16384 * j) {b : Bytes}
    (hb : b ∈ leavesOf v (t.map (blockAt (exGuessDev u) 16384))) : u = v ∧ b = exGuessLeaf u := by
  classical
  simp only [leavesOf, List.mem_filter, List.mem_map, decide_eq_true_eq] at hb
  obtain ⟨⟨x, hx, rfl⟩, hl⟩ := hb
  obtain ⟨j, hj, hxj⟩ := ht x hx
  rw [exGuess_blockAt u hxj hj] at hl ⊢
  obtain ⟨h1, h2⟩ := (exGuessBlock_leaf hv j).mp hl
  refine ⟨h1, ?_⟩
  rw [exGuessBlock, if_pos h2]

theorem exGuess_count (u : UUID) (hu : realFSID u) {t : List UInt64} (hnd : t.Nodup)
    (ht : ∀ x ∈ t, ∃ j < 8192, x.toNat = 16384 * j)
    (hS : ∀ x : UInt64, x ∈ ([114688, 163840, 212992, 262144] : List UInt64) → x ∈ t) :
    (leavesOf u (t.map (blockAt (exGuessDev u) 16384))).length = 4 := by
  classical
  have := count_filter (S := [114688, 163840, 212992, 262144]) hnd (by decide)
    (fun x => decide (leafWith u (blockAt (exGuessDev u) 16384 x))) (fun x => by
      rw [decide_eq_true_eq]
      constructor
      · rintro ⟨hx, hl⟩
        obtain ⟨j, hj, hxj⟩ := ht x hx
        rw [exGuess_blockAt u hxj hj, exGuessBlock_leaf hu] at hl
        have h2 := hl.2
        simp only [exGuessAt, Bool.or_eq_true, decide_eq_true_eq] at h2
        simp only [List.mem_cons, List.not_mem_nil, or_false, ← UInt64.toNat_inj]
        rcases h2 with ((rfl | rfl) | rfl) | rfl <;> rw [hxj] <;> simp
      · intro hx
        refine ⟨hS x hx, ?_⟩
        simp only [List.mem_cons, List.not_mem_nil, or_false] at hx
        have hj : ∃ j, exGuessAt j = true ∧ j < 8192 ∧ x.toNat = 16384 * j := by
          rcases hx with rfl | rfl | rfl | rfl
          · exact ⟨7, by decide, by decide, by decide⟩
          · exact ⟨10, by decide, by decide, by decide⟩
          · exact ⟨13, by decide, by decide, by decide⟩
          · exact ⟨16, by decide, by decide, by decide⟩
        obtain ⟨j, h1, h2, h3⟩ := hj
        rw [exGuess_blockAt u h3 h2, exGuessBlock_leaf hu]
        exact ⟨rfl, h1⟩)
  unfold leavesOf
  rw [List.filter_map, List.length_map]
  exact this

/-- C98 is false of the code: a device with four leaves of 16 KiB, all near the superblock.
Every run of `identify` with the default options reports the file system with four leaves, but with a
block size of 12 KiB. `recon` with the reported id and the reported block size crashes;
with the block size of the file system it ends normally. -/
theorem C98_reported_block_size_crashes (u : UUID) (hu : realFSID u) (o : IdentifyOptions)
    (ho : o.blockSize = 16384) (hocc : o.minOccurrence = 4) (hn : o.numSamples.toNat ≤ 2 ^ 20)
    (fuel : Nat) (rnd : Nat → Nat) (ordS : List UInt64 → List UInt64) (ordH : FSIDHist → FSIDHist)
    (hoS : MapOrder ordS) (hoH : MapOrder ordH) (ent : UUID → F) (avg : UInt64 → UInt64 → Nat) (ha : AvgOK avg)
    (t : List UInt64)
    (ht : MakeSampleOffsets fuel rnd ordS (UInt64.ofNat (exGuessDev u).length) o.blockSize o.numSamples = .ok t) :
    IdentifyFS fuel rnd ordS ordH ent avg (imageReader (exGuessDev u))
      (some (UInt64.ofNat (exGuessDev u).length)) o () = .ok [⟨u, 4, ent u, 12288⟩] () ∧
    ∀ f : DBFile, f.fresh → ∀ fuel', (exGuessDev u).length < fuel' →
      (recon fuel' (exGuessDev u) 12288 u f).2 = .crash ∧ (recon fuel' (exGuessDev u) 16384 u f).2 = .done := by
  have hbs : (16384 : UInt64).toNat = 16384 := by decide
  have hz : UUID.isZero u = false := by
    have := (realFSID_iff u).mp hu
    simp only [Bool.or_eq_false_iff] at this
    exact this.1
  have hlen := exGuessDev_length u
  constructor
  · obtain ⟨-, h, hc, hrun⟩ := identify_image_eq (exGuessDev u) o (by rw [ho]; decide) (by rw [ho]; decide)
      (by rw [hlen]; decide) (by rw [ho]; exact exGuess_roomy u) (by omega) fuel rnd ordS ordH hoS ent avg t ht
    rw [hrun]
    rw [ho] at ht hc
    rw [hbs] at hc
    obtain ⟨h1, h2, h3⟩ := exGuess_sample u hoS ht
    have h4 := exGuess_count u hu h2 h1 h3
    have htl : t.length ≤ 2 ^ 20 := by
      rw [(samples_spec (by decide) (by decide) hoS ht).2.1]; exact hn
    obtain ⟨-, hnd, hent⟩ := entries_spec ent avg hoH hc.uniq o.minOccurrence
    have hall : ∀ e ∈ entries ent avg ordH h o.minOccurrence, e = ⟨u, 4, ent u, 12288⟩ := by
      intro e he
      obtain ⟨x, hx, -, hxe⟩ := (hent e).mp he
      have hr : realFSID e.fsid ∧ leavesOf e.fsid (t.map (blockAt (exGuessDev u) 16384)) ≠ [] := by
        have := mt (hc.none e.fsid).mpr (by rw [hx]; simp)
        rw [not_or, not_not] at this
        exact this
      have hfu : u = e.fsid := by
        obtain ⟨b, r, hbr⟩ := List.exists_cons_of_ne_nil hr.2
        exact (exGuess_leaves u hr.1 h1 (b := b) (by rw [hbr]; simp)).1
      have hcnt : x.count = 4 := by
        rw [← UInt64.toNat_inj, (hc.some _ _ hx).1, ← hfu, h4]; rfl
      have hguess : e.blockSize = 12288 := by
        obtain ⟨a, hea, -, hav⟩ := guess_entry hc (by rw [List.length_map]; exact htl) ent hoH ha _ e he
        rw [← hfu] at hav
        obtain ⟨s1, s2⟩ := sum_bounds (leavesOf u (t.map (blockAt (exGuessDev u) 16384))).tail (lo := 16123)
          (hi := 16123) (fun b hb => ⟨16123, by
            rw [(exGuess_leaves u hu h1 (List.mem_of_mem_tail hb)).2]; exact exGuessLeaf_offset u, by omega, by omega⟩)
        rw [List.length_tail, h4] at s1 s2
        rw [h4] at hav
        have k1 := (hav 12092 (by decide)).1 (by omega)
        have k2 := (hav 12093 (by decide)).2 (by omega)
        rw [hea, ← UInt32.toNat_inj, round_guess (B := 3) (by omega) (by omega) (by decide)]
        rfl
      obtain ⟨a1, a2, a3, a4⟩ := e
      simp only [FSEntry.mk.injEq] at hxe hguess hfu ⊢
      refine ⟨hfu.symm, ?_, ?_, hguess⟩
      · rw [hxe.2.1]; exact hcnt
      · rw [hxe.2.2.1, hfu]
    have hex : (⟨u, 4, ent u, 12288⟩ : FSEntry F) ∈ entries ent avg ordH h o.minOccurrence := by
      have hsome : ∃ x, h.find u = some x := by
        cases hf : h.find u with
        | some x => exact ⟨x, rfl⟩
        | none =>
          rcases (hc.none u).mp hf with h5 | h5
          · exact absurd hu h5
          · rw [h5] at h4; simp at h4
      obtain ⟨x, hx⟩ := hsome
      have hcnt : x.count = 4 := by
        rw [← UInt64.toNat_inj, (hc.some _ _ hx).1, h4]; rfl
      have hmem : (⟨u, x.count, ent u, blockSizeGuess avg x⟩ : FSEntry F) ∈ entries ent avg ordH h o.minOccurrence :=
        (hent _).mpr ⟨x, hx, by rw [hocc, hcnt]; exact UInt64.le_refl _, rfl⟩
      have := hall _ hmem
      rw [this] at hmem
      exact hmem
    have hone : entries ent avg ordH h o.minOccurrence = [⟨u, 4, ent u, 12288⟩] := by
      cases hes : entries ent avg ordH h o.minOccurrence with
      | nil => rw [hes] at hex; cases hex
      | cons e r =>
        rw [hes] at hall hnd
        cases r with
        | nil => rw [hall e (by simp)]
        | cons e' r =>
          rw [hall e (by simp), hall e' (by simp)] at hnd
          simp at hnd
    rw [hone]
  · intro f hf fuel' hfu
    have a1 : ReconArgs (exGuessDev u) 12288 u :=
      ⟨by decide, by decide, by rw [hlen]; decide, by rw [hlen]; decide, hz⟩
    have a2 : ReconArgs (exGuessDev u) 16384 u :=
      ⟨by decide, by decide, by rw [hlen]; decide, by rw [hlen]; decide, hz⟩
    constructor
    · refine (C42_crash_iff _ _ _ a1 f hf fuel' hfu).1.mpr ⟨(exGuessLeaf u).take 12288, ?_, ?_, ?_⟩
      · have hb2 : (12288 : UInt64).toNat = 12288 := by decide
        rw [hb2]
        simp only [scanBlocks, List.mem_map, List.mem_range]
        refine ⟨3, by rw [hlen]; decide, ?_⟩
        obtain ⟨r, hr⟩ := gridDev_block (exGuessBlock_length u) (show 7 < 8192 by decide)
        have hb7 : exGuessBlock u 7 = exGuessLeaf u := by rw [exGuessBlock, if_pos (by decide)]
        rw [show 65536 + 12288 * (3 + 1) = 16384 * 7 by decide, exGuessDev, hr, hb7, List.take_append_of_le_length]
        rw [exGuessLeaf_length]; decide
      · obtain ⟨rest', he⟩ := exGuessLeaf_take u
        exact ⟨_, _, he, rfl, rfl, by simp⟩
      · intro hs
        have hl : ((exGuessLeaf u).take 12288).length = 12288 := by
          rw [List.length_take, exGuessLeaf_length]; decide
        obtain ⟨rest', he⟩ := exGuessLeaf_take u
        obtain ⟨-, h2⟩ := hs _ _ he 0 (by show 0 < (1 : UInt32).toNat; decide) (by rw [hl]; decide)
        have := h2 ⟨⟨256, 1, 0⟩, 16123, 160⟩ ⟨[], rest', by rw [he]; rfl, rfl, by show 0 < (1 : UInt32).toNat; decide,
          by rw [hl]; decide⟩
        have h3 : ItemRec.stop ⟨⟨256, 1, 0⟩, 16123, 160⟩ ((exGuessLeaf u).take 12288) = 12288 := by
          unfold ItemRec.stop
          rw [hl]
          decide
        rw [h3] at this
        exact absurd this (by decide)
    · refine (C42_crash_iff _ _ _ a2 f hf fuel' hfu).2.mpr fun b hb hl => ?_
      obtain ⟨j, hj⟩ := List.getElem?_of_mem hb
      rw [hbs] at hj
      obtain ⟨h1, h2, h3⟩ := scanBlocks_get (by decide) hj
      have hj2 : j + 5 < 8192 := by rw [hlen] at h3; omega
      obtain ⟨r, hr⟩ := gridDev_block (exGuessBlock_length u) hj2
      have hblk : b = exGuessBlock u (j + 5) := by
        rw [h1, show 65536 + 16384 * (j + 1) = 16384 * (j + 5) by omega, exGuessDev, hr,
          List.take_left' (exGuessBlock_length u _)]
      have hw : leafWith u b := by
        obtain ⟨hdr, rest, e1, e2, e3, -⟩ := hl
        exact ⟨hdr, rest, e1, e2, e3⟩
      rw [hblk, exGuessBlock_leaf hu] at hw
      rw [hblk, exGuessBlock, if_pos hw.2]
      exact leafImage_sound rfl (by
        have := exGuessLeaf_length u
        rw [exGuessLeaf] at this
        rw [this]; decide)

/-- The default options meet the hypotheses of both theorems on this device. -/
example : realFSID (exFsid 1) ∧ IdentifyOptions.numSamples ⟨16384, 0, 1000, 1000000, 4⟩ = 1000 ∧
    (16384 : UInt64).toNat ∣ 65536 ∧ roomy (exGuessDev (exFsid 1)).length 16384 ∧
    ∃ n t, ∀ fuel, n ≤ fuel →
      MakeSampleOffsets fuel (fun k => k) id (UInt64.ofNat (exGuessDev (exFsid 1)).length) 16384 1000 = .ok t := by
  refine ⟨by decide, by decide, by decide, exGuess_roomy _, ?_⟩
  rw [exGuessDev_length]
  exact C47_samples_terminates _ 16384 1000 (by decide) (by decide) (by decide) (by decide) (by decide) _
    (fun j hj => ⟨j, Nat.mod_eq_of_lt hj⟩) id mapOrder_id

end

end Btrfscue
