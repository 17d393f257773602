import Verif.Props.Recon
/-!
# C78–C80: recon on an index that exists already

Interrupted scans, scans of several images, and the option `--append`.
-/

namespace Btrfscue

/-! ## Specification -/

/-- Inserts of items that are in matching leaves of the device, and commits. -/
def fromDevice (dev : Bytes) (bs : UInt64) (id : UUID) (ops : List IxOp) : Prop :=
  ∀ op ∈ ops, op = .commit ∨ ∃ ins, op = .insert ins ∧ onDevice dev bs.toNat id ins.version ins.value

/-- A metadata file left behind by any number of scans of the device each of which was
killed at some point: a scan opens the index and inserts items it found on the device; at
the kill, the file holds what was durable. -/
inductive Interrupted (dev : Bytes) (bs : UInt64) (id : UUID) : DBFile → Prop
  | fresh {f : DBFile} : f.fresh → Interrupted dev bs id f
  | again {f f' : DBFile} {ops : List IxOp} : Interrupted dev bs id f → fromDevice dev bs id ops →
      crashSession f (reconOptions bs id) ops = .ok f' → Interrupted dev bs id f'

/-- Running `recon` with its options on an image. -/
def reconCmd (fuel : Nat) (dev : Bytes) (bs : UInt64) (o : ScanFSOptions) (f : DBFile) : DBFile × CmdEnd :=
  doScanFSOptions fuel (imageReader dev) (some (UInt64.ofNat dev.length)) bs o f

/-! ## Proofs -/

theorem fromDevice.lastValue {dev : Bytes} {bs : UInt64} {id : UUID} {ops : List IxOp} (h : fromDevice dev bs id ops)
    {v : VKey} {x : Bytes} (hl : lastValue ops v = some x) : onDevice dev bs.toNat id v x := by
  obtain ⟨ins, h1, rfl, rfl⟩ := lastValue_mem hl
  rcases h _ h1 with h2 | ⟨i, h2, h3⟩
  · cases h2
  · cases h2; exact h3

theorem fromDevice.spares {dev : Bytes} {bs : UInt64} {id : UUID} {ops : List IxOp} (h : fromDevice dev bs id ops)
    (hsp : sparesDevice dev bs id) : sparesMetadata ops := by
  cases hl : Btrfscue.lastValue ops metadataVersionKey with
  | none => exact hl
  | some x => exact absurd (h.lastValue hl) (hsp x)

theorem fromDevice.append {dev : Bytes} {bs : UInt64} {id : UUID} {a b : List IxOp} (ha : fromDevice dev bs id a)
    (hb : fromDevice dev bs id b) : fromDevice dev bs id (a ++ b) := fun op h =>
  (List.mem_append.mp h).elim (ha op) (hb op)

theorem fromDevice.left {dev : Bytes} {bs : UInt64} {id : UUID} {a b : List IxOp} (h : fromDevice dev bs id (a ++ b)) :
    fromDevice dev bs id a := fun op ho => h op (List.mem_append_left _ ho)

theorem ScanOps.fromDevice {dev : Bytes} {bs : UInt64} {id : UUID} {bl : List Bytes} {ops : List IxOp} {fin : Bool}
    (h : ScanOps id bl ops fin) (hb : ∀ b ∈ bl, b ∈ scanBlocks dev bs.toNat) : fromDevice dev bs id ops := by
  intro op hop
  obtain ⟨ins, i, h1, b, h2, h3, h4⟩ := h.sound op hop
  exact Or.inr ⟨ins, h1, b, hb b h2, h3, i, h4⟩

/-- How an interrupted index opens. -/
theorem Interrupted.opens {dev : Bytes} {bs : UInt64} {id : UUID} (hsp : sparesDevice dev bs id) {f : DBFile}
    (h : Interrupted dev bs id f) : ∃ p f1 ix, fromDevice dev bs id p ∧ Open f (reconOptions bs id) = .ok (f1, .ok ix) ∧
      ix.Inv ((AStore.init (reconOptions bs id)).apply p) ((AStore.init (reconOptions bs id)).apply p) 0 := by
  induction h with
  | fresh hf =>
    obtain ⟨ix, h1, h2, -⟩ := open_fresh (reconOptions bs id) rfl _ hf
    exact ⟨[], _, ix, (fun op ho => by cases ho), h1, h2⟩
  | @again f f' q _ hq hc ih =>
    obtain ⟨p, f1, ix, hp, h1, h2⟩ := ih
    obtain ⟨ix', p', s, h4, h5, h6, -⟩ := Index.Inv.run (ix := ix) q (p := []) (s := []) h2
      (by intro op h; cases h) (Nat.zero_le _)
    simp only [crashSession, h1, Go.ok_bind, h4, Go.pure_eq, Go.ok.injEq] at hc
    rw [h6.2.1] at hc
    rw [List.nil_append, List.nil_append] at h5
    have hp' : fromDevice dev bs id (p ++ p') := hp.append (h5 ▸ hq).left
    obtain ⟨ix1, h7, h8, -⟩ := reopen_rw (o := reconOptions bs id) (o' := reconOptions bs id) (hp'.spares hsp) rfl rfl rfl
    rw [AStore.apply_append] at h7
    rw [hc] at h7
    exact ⟨p ++ p', f', ix1, hp', h7, h8⟩

/-! ## C78 -/

/-- C78: a scan that was killed, any number of times and wherever, can simply be run again:
the index then is the one an undisturbed scan makes, byte for byte. -/
theorem C78_rerun (dev : Bytes) (bs : UInt64) (id : UUID) (h : ReconArgs dev bs id) (hs : soundDevice dev bs id)
    (hsp : sparesDevice dev bs id) (f : DBFile) (hf : Interrupted dev bs id f) (fuel : Nat) (hfu : dev.length < fuel) :
    ∃ f', recon fuel dev bs id f = (f', .done) ∧ recon fuel dev bs id .absent = (f', .done) := by
  obtain ⟨ops, fin, h1, h2⟩ := doScan_image dev id bs h.1 h.2 h.3 h.4 h.5
  have hfin : fin = true := h1.fin_iff.mpr hs
  subst hfin
  have hn := scanBlocks_length_le dev bs.toNat
  obtain ⟨p, f1, ix, hp, h3, h4⟩ := hf.opens hsp
  obtain ⟨ix', h5, h6, -⟩ := open_fresh (reconOptions bs id) rfl .absent (Or.inl rfl)
  refine ⟨_, h2 f _ ix _ h3 h4 fuel (by omega), ?_⟩
  have := h2 _ _ ix' _ h5 h6 fuel (by omega)
  rw [recon, this, ← AStore.apply_append, apply_congr (a := p ++ ops) (b := ops)]
  · rfl
  · intro v
    rw [lastValue_append]
    cases hl : lastValue ops v with
    | some x => rfl
    | none =>
      simp only
      cases hpv : lastValue p v with
      | none => rfl
      | some x =>
        obtain ⟨y, hy⟩ := lastValue_complete h1 (hp.lastValue hpv)
        rw [hl] at hy; cases hy

/-- The part of a scan before block `n`. -/
theorem scan_prefix (r : ReaderAt) (dev : Bytes) (id : UUID) (bs : UInt64) (h : ReconArgs dev bs id) (n : Nat)
    (hn : n ≤ (scanBlocks dev bs.toNat).length)
    (hr : ∀ j b, (scanBlocks dev bs.toNat)[j]? = some b → j < n →
      r (int64OfU64 (UInt64.ofNat (65536 + bs.toNat * (j + 1)))) bs.toNat = (b, none)) :
    ∃ ops fin buf', buf'.length = bs.toNat ∧ ScanOps id ((scanBlocks dev bs.toNat).take n) ops fin ∧
      ∀ ix : Index, ix.Good → ∃ ix', ix'.Good ∧ ix.run ops = .ok (ix', none) ∧
        ∀ fuel, reconLoop insertOrExit r id bs (scanLimit dev bs) (fuel + n) (UInt64.ofNat SuperInfoOffset + bs)
            (List.replicate bs.toNat 0) ix =
          if fin then reconLoop insertOrExit r id bs (scanLimit dev bs) fuel (UInt64.ofNat SuperInfoOffset + bs + bs * UInt64.ofNat n) buf' ix'
          else .crash ix' := by
  have := reconLoop_gen r id bs (scanLimit dev bs) h.1 h.2 ((scanBlocks dev bs.toNat).take n)
    (UInt64.ofNat SuperInfoOffset + bs) (List.replicate bs.toNat 0) List.length_replicate (by
      intro j b hj
      have hjn : j < n := by
        have := (List.getElem?_eq_some_iff.mp hj).1
        rw [List.length_take] at this; omega
      rw [List.getElem?_take_of_lt hjn] at hj
      obtain ⟨h1, h2, -⟩ := scan_reads dev bs h.1 h.3 j b hj
      obtain ⟨-, -, h3⟩ := scanBlocks_get (by have := h.1; omega) hj
      have h4 : bs.toNat * (j + 2) = bs.toNat * (j + 1) + bs.toNat := by
        rw [Nat.mul_add _ j 2, Nat.mul_add _ j 1]; omega
      have h5 : UInt64.ofNat SuperInfoOffset + bs + bs * UInt64.ofNat j = UInt64.ofNat (65536 + bs.toNat * (j + 1)) := by
        have hd := h.3
        rw [← UInt64.toNat_inj, off_toNat bs j (by omega), UInt64.toNat_ofNat', Nat.mod_eq_of_lt (by omega)]
      refine ⟨h1, h2, ?_⟩
      rw [h5]; exact hr j b hj hjn)
  rw [List.length_take, Nat.min_eq_left hn] at this
  exact this

theorem imageReader_block {dev : Bytes} {bs : UInt64} {id : UUID} (h : ReconArgs dev bs id) {j : Nat} {b : Bytes}
    (hj : (scanBlocks dev bs.toNat)[j]? = some b) :
    imageReader dev (int64OfU64 (UInt64.ofNat (65536 + bs.toNat * (j + 1)))) bs.toNat = (b, none) := by
  obtain ⟨-, -, h2⟩ := scan_reads dev bs h.1 h.3 j b hj
  obtain ⟨-, -, h3⟩ := scanBlocks_get (by have := h.1; omega) hj
  have h4 : bs.toNat * (j + 2) = bs.toNat * (j + 1) + bs.toNat := by
    rw [Nat.mul_add _ j 2, Nat.mul_add _ j 1]; omega
  have h5 : UInt64.ofNat SuperInfoOffset + bs + bs * UInt64.ofNat j = UInt64.ofNat (65536 + bs.toNat * (j + 1)) := by
    have hd := h.3
    rw [← UInt64.toNat_inj, off_toNat bs j (by omega), UInt64.toNat_ofNat', Nat.mod_eq_of_lt (by omega)]
  rw [← h5]; exact h2

/-- C78: killing recon after any number of blocks leaves such a file (the run of `recon`
with fuel `n` is its first `n` blocks). -/
theorem C78_killed_between_blocks (dev : Bytes) (bs : UInt64) (id : UUID) (h : ReconArgs dev bs id)
    (hs : soundDevice dev bs id) (hsp : sparesDevice dev bs id) (f : DBFile) (hf : Interrupted dev bs id f)
    (n : Nat) (hn : n ≤ (scanBlocks dev bs.toNat).length) :
    ∃ f', recon n dev bs id f = (f', .hang) ∧ Interrupted dev bs id f' := by
  obtain ⟨ops, fin, buf', -, h1, h2⟩ := scan_prefix (imageReader dev) dev id bs h n hn fun j b hj _ => imageReader_block h hj
  have hfin : fin = true := h1.fin_iff.mpr fun b hb hl => hs b (List.mem_of_mem_take hb) hl
  subst hfin
  obtain ⟨p, f1, ix, hp, h3, h4⟩ := hf.opens hsp
  obtain ⟨ix', -, h5, h6⟩ := h2 ix ⟨_, _, _, h4⟩
  have h6 := h6 0
  rw [Nat.zero_add, if_pos rfl] at h6
  have hsz' : (UInt64.ofNat dev.length).toNat = dev.length := by
    have := h.3
    rw [UInt64.toNat_ofNat']; exact Nat.mod_eq_of_lt (by omega)
  have hb0 : bs ≠ 0 := by rintro rfl; have := h.1; simp at this
  have ho' : Open f { blockSize := bs, fsid := id, generation := ~~~0 } = .ok (f1, .ok ix) := h3
  rw [scanLimit] at h6
  refine ⟨.db ix'.disk, ?_, .again hf (h1.fromDevice fun b hb => List.mem_of_mem_take hb) ?_⟩
  · simp only [recon, doScanFS, h.id_set, Bool.false_eq_true, if_false, check_ok _ bs h.2 (hsz'.symm ▸ h.4), hb0, ho', h6, reconLoop]
  · simp only [crashSession, h3, Go.ok_bind, h5, Go.pure_eq]

/-- C78: so does a scan that ends with an error because block `n` could not be read this
time. -/
theorem C78_stopped_by_read_error (r : ReaderAt) (dev : Bytes) (bs : UInt64) (id : UUID) (h : ReconArgs dev bs id)
    (hs : soundDevice dev bs id) (hsp : sparesDevice dev bs id) (f : DBFile) (hf : Interrupted dev bs id f)
    (n : Nat) (hn : n < (scanBlocks dev bs.toNat).length)
    (hr : ∀ j b, (scanBlocks dev bs.toNat)[j]? = some b → j < n →
      r (int64OfU64 (UInt64.ofNat (65536 + bs.toNat * (j + 1)))) bs.toNat = (b, none))
    (herr : (r (int64OfU64 (UInt64.ofNat (65536 + bs.toNat * (n + 1)))) bs.toNat).2 = some .other)
    (fuel : Nat) (hfu : n < fuel) :
    ∃ f', doScanFS fuel r (some (UInt64.ofNat dev.length)) bs id f = (f', .exit) ∧ Interrupted dev bs id f' := by
  obtain ⟨ops, fin, buf', hbuf', h1, h2⟩ := scan_prefix r dev id bs h n (by omega) hr
  have hfin : fin = true := h1.fin_iff.mpr fun b hb hl => hs b (List.mem_of_mem_take hb) hl
  subst hfin
  obtain ⟨p, f1, ix, hp, h3, h4⟩ := hf.opens hsp
  obtain ⟨ix', -, h5, h6⟩ := h2 ix ⟨_, _, _, h4⟩
  obtain ⟨k, rfl⟩ : ∃ k, fuel = (k + 1) + n := ⟨fuel - n - 1, by omega⟩
  have h6 := h6 (k + 1)
  rw [if_pos rfl] at h6
  have hj : (scanBlocks dev bs.toNat)[n]? = some (scanBlocks dev bs.toNat)[n] := by simp [hn]
  obtain ⟨-, h8, -⟩ := scan_reads dev bs h.1 h.3 n _ hj
  obtain ⟨-, -, h9⟩ := scanBlocks_get (by have := h.1; omega) hj
  have h10 : bs.toNat * (n + 2) = bs.toNat * (n + 1) + bs.toNat := by
    rw [Nat.mul_add _ n 2, Nat.mul_add _ n 1]; omega
  have h11 : UInt64.ofNat SuperInfoOffset + bs + bs * UInt64.ofNat n = UInt64.ofNat (65536 + bs.toNat * (n + 1)) := by
    have hd := h.3
    rw [← UInt64.toNat_inj, off_toNat bs n (by omega), UInt64.toNat_ofNat', Nat.mod_eq_of_lt (by omega)]
  have h12 : reconLoop insertOrExit r id bs (scanLimit dev bs) (k + 1) (UInt64.ofNat SuperInfoOffset + bs + bs * UInt64.ofNat n) buf' ix' =
      .exit ix' := by
    rw [reconLoop, if_pos h8]
    have h13 : (ReadBlockAt r buf' (UInt64.ofNat SuperInfoOffset + bs + bs * UInt64.ofNat n)).2 = some .other := by
      apply readBlockAt_err
      rw [hbuf', h11]; exact herr
    generalize ReadBlockAt r buf' (UInt64.ofNat SuperInfoOffset + bs + bs * UInt64.ofNat n) = q at h13
    obtain ⟨q, e⟩ := q
    simp only at h13
    subst h13
    rfl
  rw [h12] at h6
  have hsz' : (UInt64.ofNat dev.length).toNat = dev.length := by
    have := h.3
    rw [UInt64.toNat_ofNat']; exact Nat.mod_eq_of_lt (by omega)
  have hb0 : bs ≠ 0 := by rintro rfl; have := h.1; simp at this
  have ho' : Open f { blockSize := bs, fsid := id, generation := ~~~0 } = .ok (f1, .ok ix) := h3
  rw [scanLimit] at h6
  refine ⟨.db ix'.disk, ?_, .again hf (h1.fromDevice fun b hb => List.mem_of_mem_take hb) ?_⟩
  · simp only [doScanFS, h.id_set, Bool.false_eq_true, if_false, check_ok _ bs h.2 (hsz'.symm ▸ h.4), hb0, ho', h6]
  · simp only [crashSession, h3, Go.ok_bind, h5, Go.pure_eq]

theorem exRecon_sound : soundDevice exReconDev 4096 uuidAllFs := exRecon_wellFormed.sound exReconArgs

theorem exRecon_spares : sparesDevice exReconDev 4096 uuidAllFs := fun _ hx =>
  absurd (congrArg VKey.owner (exRecon_item hx)) (by decide)

/-- The hypotheses of C78 are met: a scan of the example device killed after 100 blocks,
started again and killed after 7 blocks. -/
example : ∃ f1 f2, recon 100 exReconDev 4096 uuidAllFs .absent = (f1, .hang) ∧
    recon 7 exReconDev 4096 uuidAllFs f1 = (f2, .hang) ∧ Interrupted exReconDev 4096 uuidAllFs f2 := by
  have hn : 100 ≤ (scanBlocks exReconDev (4096 : UInt64).toNat).length := by
    have h1 : exReconDev.length = 65536 + 4096 + (4096 + 2 ^ 27) := by
      rw [exReconDev, oneBlockDevice_length, exReconLeaf_length]
    simp only [scanBlocks, List.length_map, List.length_range, h1]
    decide
  obtain ⟨f1, h1, h2⟩ := C78_killed_between_blocks _ _ _ exReconArgs exRecon_sound exRecon_spares .absent
    (.fresh (Or.inl rfl)) 100 hn
  obtain ⟨f2, h3, h4⟩ := C78_killed_between_blocks _ _ _ exReconArgs exRecon_sound exRecon_spares f1 h2 7 (by omega)
  exact ⟨f1, f2, h1, h3, h4⟩

/-! ## C79 -/

/-- What a scan of an image does to an index, new or not. -/
theorem recon_ops {d : Bytes} {bs : UInt64} {id : UUID} (a : ReconArgs d bs id) (s : soundDevice d bs id) :
    ∃ o, ScanOps id (scanBlocks d bs.toNat) o true ∧
      (∀ f : DBFile, f.fresh → ∀ fuel, d.length < fuel →
        recon fuel d bs id f = (.db (some ((AStore.init (reconOptions bs id)).apply o).enc), .done)) ∧
      ∀ p, sparesMetadata p → ∀ fuel, d.length < fuel →
        recon fuel d bs id (.db (some ((AStore.init (reconOptions bs id)).apply p).enc)) =
          (.db (some ((AStore.init (reconOptions bs id)).apply (p ++ o)).enc), .done) := by
  obtain ⟨o, fin, h1, h2⟩ := doScan_image d id bs a.1 a.2 a.3 a.4 a.5
  have e : fin = true := h1.fin_iff.mpr s
  subst e
  have n := scanBlocks_length_le d bs.toNat
  refine ⟨o, h1, fun f hf fuel hfu => ?_, fun p hp fuel hfu => ?_⟩
  · obtain ⟨ix, h5, h6, -⟩ := open_fresh (reconOptions bs id) rfl f hf
    exact h2 f _ ix _ h5 h6 fuel (by omega)
  · obtain ⟨ix', h7, h8, -⟩ := reopen_rw (o := reconOptions bs id) (o' := reconOptions bs id) hp rfl rfl rfl
    rw [recon, h2 _ _ ix' _ h7 h8 fuel (by omega), AStore.apply_append]
    rfl

theorem ScanOps.onDevice_iff {d : Bytes} {bs : UInt64} {id : UUID} {o : List IxOp}
    (h : ScanOps id (scanBlocks d bs.toNat) o true) (v : VKey) :
    (∃ x, lastValue o v = some x) ↔ ∃ x, onDevice d bs.toNat id v x :=
  ⟨fun ⟨x, hx⟩ => ⟨x, lastValue_scan h hx⟩, fun ⟨_, hx⟩ => lastValue_complete h hx⟩

/-- C79: two images of one file system (say, of its two devices, or of one device at two
times) can be scanned in either order, as long as they do not hold different values under
one version: both orders succeed and leave the same index, byte for byte. It holds every
version found on either image, with a value found there, and nothing else. -/
theorem C79_either_order (d1 d2 : Bytes) (bs : UInt64) (id : UUID) (a1 : ReconArgs d1 bs id) (a2 : ReconArgs d2 bs id)
    (s1 : soundDevice d1 bs id) (s2 : soundDevice d2 bs id) (p1 : sparesDevice d1 bs id) (p2 : sparesDevice d2 bs id)
    (agree : ∀ v x y, onDevice d1 bs.toNat id v x → onDevice d2 bs.toNat id v y → x = y)
    (f : DBFile) (hf : f.fresh) (fuel : Nat) (hf1 : d1.length < fuel) (hf2 : d2.length < fuel) :
    ∃ f1 f2 b, recon fuel d1 bs id f = (f1, .done) ∧ recon fuel d2 bs id f1 = (.db (some b), .done) ∧
      recon fuel d2 bs id f = (f2, .done) ∧ recon fuel d1 bs id f2 = (.db (some b), .done) ∧
      (∀ v, (∃ x, onDevice d1 bs.toNat id v x ∨ onDevice d2 bs.toNat id v x) → ∃ x, b.stores v x) ∧
      (∀ v x, b.stores v x → onDevice d1 bs.toNat id v x ∨ onDevice d2 bs.toNat id v x ∨
        (v = metadataVersionKey ∧ x = newIndexMetadata (reconOptions bs id))) := by
  obtain ⟨o1, h1, h2, h3⟩ := recon_ops a1 s1
  obtain ⟨o2, h4, h5, h6⟩ := recon_ops a2 s2
  have m1 := (h1.fromDevice (dev := d1) fun _ hb => hb).spares p1
  have m2 := (h4.fromDevice (dev := d2) fun _ hb => hb).spares p2
  have he : ∀ v, lastValue (o1 ++ o2) v = lastValue (o2 ++ o1) v := by
    intro v
    rw [lastValue_append, lastValue_append]
    cases e1 : lastValue o1 v with
    | none => cases lastValue o2 v <;> rfl
    | some x =>
      cases e2 : lastValue o2 v with
      | none => rfl
      | some y => simp only [agree v x y (lastValue_scan h1 e1) (lastValue_scan h4 e2)]
  refine ⟨_, _, _, h2 f hf fuel hf1, h6 o1 m1 fuel hf2, h5 f hf fuel hf2, ?_, ?_, ?_⟩
  · rw [h3 o2 m2 fuel hf1, apply_congr he]
  · rintro v ⟨x, hx⟩
    have : ∃ y, lastValue (o1 ++ o2) v = some y := by
      rw [lastValue_append]
      cases e2 : lastValue o2 v with
      | some y => exact ⟨y, rfl⟩
      | none =>
        rcases hx with hx | hx
        · exact lastValue_complete h1 hx
        · obtain ⟨y, hy⟩ := lastValue_complete h4 hx
          rw [e2] at hy; cases hy
    obtain ⟨y, hy⟩ := this
    exact ⟨y, fresh_stores.mpr (Or.inl hy)⟩
  · intro v x hx
    rcases fresh_stores.mp hx with h7 | ⟨-, h7⟩
    · rw [lastValue_append] at h7
      cases e2 : lastValue o2 v with
      | some y =>
        rw [e2] at h7
        simp only [Option.some.injEq] at h7
        subst h7
        exact Or.inr (Or.inl (lastValue_scan h4 e2))
      | none =>
        rw [e2] at h7
        exact Or.inl (lastValue_scan h1 h7)
    · exact Or.inr (Or.inr h7)

/-- C79: where the images disagree about a version, the image scanned last decides. -/
theorem C79_last_scan_wins (d1 d2 : Bytes) (bs : UInt64) (id : UUID) (a1 : ReconArgs d1 bs id) (a2 : ReconArgs d2 bs id)
    (s1 : soundDevice d1 bs id) (s2 : soundDevice d2 bs id) (p1 : sparesDevice d1 bs id)
    (f : DBFile) (hf : f.fresh) (fuel : Nat) (hf1 : d1.length < fuel) (hf2 : d2.length < fuel) :
    ∃ f1 b, recon fuel d1 bs id f = (f1, .done) ∧ recon fuel d2 bs id f1 = (.db (some b), .done) ∧
      ∀ v x, b.stores v x → (∃ y, onDevice d2 bs.toNat id v y) → onDevice d2 bs.toNat id v x := by
  obtain ⟨o1, h1, h2, h3⟩ := recon_ops a1 s1
  obtain ⟨o2, h4, h5, h6⟩ := recon_ops a2 s2
  have m1 := (h1.fromDevice (dev := d1) fun _ hb => hb).spares p1
  refine ⟨_, _, h2 f hf fuel hf1, h6 o1 m1 fuel hf2, ?_⟩
  rintro v x hx ⟨y, hy⟩
  obtain ⟨z, hz⟩ := lastValue_complete h4 hy
  have : lastValue (o1 ++ o2) v = some z := by rw [lastValue_append, hz]
  rcases fresh_stores.mp hx with h7 | ⟨h7, -⟩
  · rw [this] at h7; cases h7; exact lastValue_scan h4 hz
  · rw [this] at h7; cases h7

/-- A second image: all zeroes. -/
def exZeroDev : Bytes := oneBlockDevice 4096 (List.replicate 4096 0) (2 ^ 27)

theorem exZero_args : ReconArgs exZeroDev 4096 uuidAllFs := by
  have h : exZeroDev.length = 65536 + 4096 + (4096 + 2 ^ 27) := by
    rw [exZeroDev, oneBlockDevice_length, List.length_replicate]
  have hb : (4096 : UInt64).toNat = 4096 := by decide
  exact ⟨by rw [hb]; omega, by rw [hb]; omega, by rw [h]; omega, by rw [h, hb]; omega, by decide⟩

theorem exZero_none {b : Bytes} (hb : b ∈ scanBlocks exZeroDev (4096 : UInt64).toNat) : ¬ leafOf uuidAllFs b := by
  rcases oneBlockDevice_blocks (by decide) List.length_replicate hb with rfl | rfl
  · exact zeroes_not_leaf (by decide)
  · exact zeroes_not_leaf (by decide)

theorem exZero_empty (v : VKey) (x : Bytes) : ¬ onDevice exZeroDev (4096 : UInt64).toNat uuidAllFs v x := by
  rintro ⟨b, hb, hl, -⟩
  exact exZero_none hb hl

theorem exZero_sound : soundDevice exZeroDev 4096 uuidAllFs := fun _ hb hl => absurd hl (exZero_none hb)

/-- A third image: the same item with another payload, of a newer generation. -/
def exNewLeaf : Bytes := leafImage { exReconHeader with generation := 8 } [(⟨256, 1, 0⟩, [9, 9, 9])] (List.replicate 3967 0)
def exNewDev : Bytes := oneBlockDevice 4096 exNewLeaf (2 ^ 27)

theorem exNewLeaf_length : exNewLeaf.length = 4096 := by
  rw [exNewLeaf, leafImage_length, List.length_replicate]; rfl

theorem exNew_args : ReconArgs exNewDev 4096 uuidAllFs := by
  have h : exNewDev.length = 65536 + 4096 + (4096 + 2 ^ 27) := by
    rw [exNewDev, oneBlockDevice_length, exNewLeaf_length]
  have hb : (4096 : UInt64).toNat = 4096 := by decide
  exact ⟨by rw [hb]; omega, by rw [hb]; omega, by rw [h]; omega, by rw [h, hb]; omega, by decide⟩

theorem exNew_blocks {b : Bytes} (hb : b ∈ scanBlocks exNewDev (4096 : UInt64).toNat)
    (hl : leafOf uuidAllFs b) : b = exNewLeaf := by
  rcases oneBlockDevice_blocks (by decide) exNewLeaf_length hb with rfl | rfl
  · rfl
  · exact absurd hl (zeroes_not_leaf (by decide))

theorem exNew_sound : soundDevice exNewDev 4096 uuidAllFs :=
  wellFormedDevice.sound exNew_args fun _ hb hl => ⟨_, _, _, exNew_blocks hb hl, rfl⟩

theorem exNew_generation {v : VKey} {x : Bytes} (h : onDevice exNewDev (4096 : UInt64).toNat uuidAllFs v x) :
    v.gen = 8 ∧ v.owner = 5 := by
  obtain ⟨b, hb, hl, i, hdr, r, ⟨pre, post, he, -⟩, rfl, -⟩ := h
  have := exNew_blocks hb hl
  subst this
  have := header_unique (he.symm.trans (leafImage_hdr _ _ _).choose_spec)
  exact ⟨this.2.2.1, this.2.1⟩

/-- The hypotheses of C79 are met by two images with one item each, in different versions. -/
example : ReconArgs exNewDev 4096 uuidAllFs ∧ soundDevice exNewDev 4096 uuidAllFs ∧
    sparesDevice exNewDev 4096 uuidAllFs ∧
    ∀ v x y, onDevice exReconDev (4096 : UInt64).toNat uuidAllFs v x →
      onDevice exNewDev (4096 : UInt64).toNat uuidAllFs v y → x = y := by
  refine ⟨exNew_args, exNew_sound, fun x hx => ?_, fun v x y hx hy => ?_⟩
  · exact absurd (exNew_generation hx).2 (by decide)
  · have h1 := exRecon_item hx
    have h2 := (exNew_generation hy).1
    rw [h1] at h2
    cases h2

/-! ## C80 -/

/-- C80: with `--append`, the versions of the index made earlier are still there
afterwards, with a value found on either image. -/
theorem C80_append_keeps_partial (d1 d2 : Bytes) (bs : UInt64) (id : UUID) (a1 : ReconArgs d1 bs id) (a2 : ReconArgs d2 bs id)
    (s1 : soundDevice d1 bs id) (s2 : soundDevice d2 bs id) (p1 : sparesDevice d1 bs id) (append : Bool)
    (f : DBFile) (hf : f.fresh) (fuel : Nat) (hf1 : d1.length < fuel) (hf2 : d2.length < fuel) :
    ∃ b1 b2, reconCmd fuel d1 bs ⟨id, append⟩ f = (.db (some b1), .done) ∧
      reconCmd fuel d2 bs ⟨id, true⟩ (.db (some b1)) = (.db (some b2), .done) ∧
      ∀ v x, b1.stores v x → ∃ y, b2.stores v y ∧ (y = x ∨ onDevice d2 bs.toNat id v y) := by
  obtain ⟨o1, h1, h2, h3⟩ := recon_ops a1 s1
  obtain ⟨o2, h4, h5, h6⟩ := recon_ops a2 s2
  have m1 := (h1.fromDevice (dev := d1) fun _ hb => hb).spares p1
  refine ⟨_, _, h2 f hf fuel hf1, h6 o1 m1 fuel hf2, ?_⟩
  intro v x hx
  cases e2 : lastValue o2 v with
  | some y =>
    exact ⟨y, fresh_stores.mpr (Or.inl (by rw [lastValue_append, e2])), Or.inr (lastValue_scan h4 e2)⟩
  | none =>
    refine ⟨x, fresh_stores.mpr ?_, Or.inl rfl⟩
    rw [lastValue_append, e2]
    exact fresh_stores.mp hx

/-- C80 (recorded disagreement): without `--append` nothing else happens: the option is
never looked at. -/
theorem C80_option_ignored (fuel : Nat) (dev : Bytes) (bs : UInt64) (id : UUID) (f : DBFile) :
    reconCmd fuel dev bs ⟨id, false⟩ f = reconCmd fuel dev bs ⟨id, true⟩ f := rfl

/-- C80 (recorded disagreement): so a scan without `--append` into a file that holds an
index does not give the index of the image: items of the earlier scan stay in it. -/
theorem C80_stale_items_stay : ∃ f b b',
    reconCmd (2 ^ 28) exReconDev 4096 ⟨uuidAllFs, false⟩ .absent = (f, .done) ∧
    reconCmd (2 ^ 28) exZeroDev 4096 ⟨uuidAllFs, false⟩ f = (.db (some b), .done) ∧
    reconCmd (2 ^ 28) exZeroDev 4096 ⟨uuidAllFs, false⟩ .absent = (.db (some b'), .done) ∧
    (∃ x, b.stores ⟨5, ⟨256, 1, 0⟩, 7⟩ x) ∧ ¬ ∃ x, b'.stores ⟨5, ⟨256, 1, 0⟩, 7⟩ x := by
  have l1 : exReconDev.length < 2 ^ 28 := by
    rw [exReconDev, oneBlockDevice_length, exReconLeaf_length]; decide
  have l2 : exZeroDev.length < 2 ^ 28 := by
    rw [exZeroDev, oneBlockDevice_length, List.length_replicate]; decide
  obtain ⟨b1, b, h1, h2, h3⟩ := C80_append_keeps_partial _ _ _ _ exReconArgs exZero_args exRecon_sound exZero_sound exRecon_spares
    false .absent (Or.inl rfl) _ l1 l2
  obtain ⟨b', h4, -, -, -, -⟩ := C40_all_items_of_matching_leaves _ _ _ exZero_args exZero_sound .absent (Or.inl rfl) _ l2
  refine ⟨_, b, b', h1, h2, h4, ?_, ?_⟩
  · obtain ⟨c, e, hc, -, -, -⟩ := C40_all_items_of_matching_leaves _ _ _ exReconArgs exRecon_sound .absent (Or.inl rfl) _ l1
    have hc1 : c = b1 := by
      have : recon (2 ^ 28) exReconDev 4096 uuidAllFs .absent = (.db (some b1), .done) := h1
      rw [e] at this
      cases this; rfl
    subst hc1
    obtain ⟨r, -, -, h5⟩ := leafImage_item (hdr := exReconHeader) (items := [(⟨256, 1, 0⟩, [1, 2, 3])])
      (gap := List.replicate 3967 0) (i := 0) (k := ⟨256, 1, 0⟩) (d := [1, 2, 3]) rfl (by
        have := exReconLeaf_length; rw [exReconLeaf] at this; rw [this]; decide) rfl
    obtain ⟨x, hx, -⟩ := hc ⟨5, ⟨256, 1, 0⟩, 7⟩ ⟨_, exReconLeaf, oneBlockDevice_mem (by decide) exReconLeaf_length,
      leafImage_leafOf rfl rfl (by decide), 0, h5⟩
    obtain ⟨y, hy, -⟩ := h3 _ x hx
    exact ⟨y, hy⟩
  · rintro ⟨x, hx⟩
    obtain ⟨c, e, h5, h6⟩ := C40_only_items_of_matching_leaves _ _ _ exZero_args .absent (Or.inl rfl) _ l2
    have hc1 : c = b' := by
      have : recon (2 ^ 28) exZeroDev 4096 uuidAllFs .absent = (.db (some b'), .done) := h4
      rw [h5] at this
      cases this; rfl
    subst hc1
    obtain ⟨v, hv, h7⟩ := h6 _ x hx
    have hv := VKey.encode_inj.mp hv
    subst hv
    rcases h7 with h7 | ⟨h7, -⟩
    · exact exZero_empty _ _ h7
    · exact absurd (congrArg VKey.owner h7) (by decide)

end Btrfscue
