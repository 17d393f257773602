import Verif.Props.IndexLookup
/-!
# C25–C30: opening, closing, crashing
-/

namespace Btrfscue

/-! ## C25 -/

/-- Specification: the stored form of the index metadata. -/
def metadataLayout (version : UInt64) (blockSize : UInt32) (fsid : UUID) (gen : UInt64)
    (rest : Bytes) : Bytes :=
  le64 version ++ (le32 blockSize ++ (fsid.val ++ (le64 gen ++ rest)))

/-- Specification: an index with the given stored version, block size and FSID may be
opened with options `o`. -/
def Options.accepts (o : Options) (version : UInt64) (blockSize : UInt32) (fsid : UUID) : Prop :=
  version ≤ 20190809 ∧ (o.allowOldVersion = true ∨ version = 20190809) ∧
    (o.allowOldVersion = true ∨ o.readOnly = true ∨
      (blockSize.toNat = o.blockSize.toNat % 2 ^ 32 ∧ fsid = o.fsid))

theorem metaVersion_layout (v : UInt64) (bs : UInt32) (id : UUID) (g : UInt64) (r : Bytes) :
    metaVersion (metadataLayout v bs id g r) = .ok v := by
  simp [metaVersion, metadataLayout, indexMetadataVersion]
theorem metaBlockSize_layout (v : UInt64) (bs : UInt32) (id : UUID) (g : UInt64) (r : Bytes) :
    metaBlockSize (metadataLayout v bs id g r) = .ok bs := by
  simp [metaBlockSize, metadataLayout, indexMetadataBlockSize, indexMetadataVersion]
theorem metaFSID_layout (v : UInt64) (bs : UInt32) (id : UUID) (g : UInt64) (r : Bytes) :
    metaFSID (metadataLayout v bs id g r) = .ok id := by
  simp [metaFSID, metadataLayout, indexMetadataFSID, indexMetadataBlockSize, indexMetadataVersion]

theorem UInt32.eq_toUInt32_iff (a : UInt32) (b : UInt64) :
    a = b.toUInt32 ↔ a.toNat = b.toNat % 2 ^ 32 := by
  rw [← UInt32.toNat_inj, UInt64.toNat_toUInt32]

/-- C25: opening an existing index succeeds exactly when its version, block size (mod
`2^32`) and FSID are acceptable. Otherwise an error is returned. -/
theorem C25_open_existing (o : Options) (b : Bucket) (v : UInt64) (bs : UInt32) (id : UUID)
    (g : UInt64) (rest : Bytes) (hm : b.get metadataKey = some (metadataLayout v bs id g rest)) :
    (o.accepts v bs id → ∃ ix, Open (.db (some b)) o = .ok (.db (some b), .ok ix)) ∧
    (¬ o.accepts v bs id → ∃ e, Open (.db (some b)) o = .ok (.db (some b), .error e)) := by
  have hN : MetadataVersion = 20190809 := rfl
  have hc : checkUpdateMetadata o (some b) = .ok (
      if !o.allowOldVersion ∧ v < MetadataVersion then .error .tooOld
      else if MetadataVersion < v then .error .incompatible
      else if (o.allowOldVersion || o.readOnly) = true then .ok b
      else if bs ≠ o.blockSize.toUInt32 then .error .blockSizeMismatch
      else if id ≠ o.fsid then .error .fsidMismatch
      else .ok b) := by
    have h0 : ¬ ((some b = none) ∧ o.readOnly = true) := by simp
    simp only [checkUpdateMetadata, if_neg h0, Option.getD_some, hm, metaVersion_layout,
      metaBlockSize_layout, metaFSID_layout, Go.ok_bind, Go.pure_eq]
    repeat' split
    all_goals first | rfl | simp_all
  have hle : v ≤ 20190809 ↔ ¬ MetadataVersion < v := by
    rw [hN, UInt64.le_iff_toNat_le, UInt64.lt_iff_toNat_lt]; omega
  have heq : ¬ MetadataVersion < v → (v = 20190809 ↔ ¬ v < MetadataVersion) := by
    rw [hN, UInt64.lt_iff_toNat_lt, UInt64.lt_iff_toNat_lt, ← UInt64.toNat_inj]; omega
  have hopen : ∀ r : Except IxErr Bucket, checkUpdateMetadata o (some b) = .ok r →
      (∀ b', r = .ok b' → b' = b) →
      (∀ b', r = .ok b' → ∃ ix, Open (.db (some b)) o = .ok (.db (some b), .ok ix)) ∧
      (∀ e, r = .error e → Open (.db (some b)) o = .ok (.db (some b), .error e)) := by
    intro r hr hb
    constructor
    · rintro b' rfl
      obtain rfl := hb b' rfl
      cases hro : o.readOnly with
      | false => exact ⟨_, openDB_rw hro hr⟩
      | true => exact ⟨_, openDB_ro hro hr⟩
    · rintro e rfl; exact openDB_err hr
  obtain ⟨ho1, ho2⟩ := hopen _ hc (by
    intro b' hb'
    repeat' split at hb'
    all_goals first | (cases hb'; rfl) | cases hb')
  constructor
  · rintro ⟨h1, h2, h3⟩
    refine ho1 b ?_
    rw [hle] at h1
    rw [if_neg, if_neg h1]
    · by_cases hx : (o.allowOldVersion || o.readOnly) = true
      · rw [if_pos hx]
      · rw [if_neg hx]
        simp only [Bool.or_eq_true, not_or] at hx
        rcases h3 with h3 | h3 | ⟨h3, h4⟩
        · exact absurd h3 hx.1
        · exact absurd h3 hx.2
        · rw [if_neg (by rw [Ne, Classical.not_not, UInt32.eq_toUInt32_iff]; exact h3),
            if_neg (by simpa using h4)]
    · rintro ⟨h4, h5⟩
      rcases h2 with h2 | h2
      · simp [h2] at h4
      · exact (heq h1).mp h2 h5
  · intro hn
    suffices h : ∃ e, (if !o.allowOldVersion ∧ v < MetadataVersion then .error .tooOld
      else if MetadataVersion < v then .error .incompatible
      else if (o.allowOldVersion || o.readOnly) = true then .ok b
      else if bs ≠ o.blockSize.toUInt32 then .error .blockSizeMismatch
      else if id ≠ o.fsid then .error .fsidMismatch
      else .ok b : Except IxErr Bucket) = .error e by
      obtain ⟨e, he⟩ := h; exact ⟨e, ho2 e he⟩
    by_cases h1 : !o.allowOldVersion ∧ v < MetadataVersion
    · exact ⟨_, if_pos h1⟩
    · rw [if_neg h1]
      by_cases h2 : MetadataVersion < v
      · exact ⟨_, if_pos h2⟩
      · rw [if_neg h2]
        have h3 : ¬ ((o.allowOldVersion || o.readOnly) = true) := by
          intro hx
          refine hn ⟨hle.mpr h2, ?_, ?_⟩
          · rw [heq h2]
            cases ha : o.allowOldVersion
            · right; intro h5; exact h1 ⟨by simp [ha], h5⟩
            · left; rfl
          · cases ha : o.allowOldVersion
            · simp [ha] at hx; simp [hx]
            · simp
        rw [if_neg h3]
        by_cases h4 : bs ≠ o.blockSize.toUInt32
        · exact ⟨_, if_pos h4⟩
        · rw [if_neg h4]
          by_cases h5 : id ≠ o.fsid
          · exact ⟨_, if_pos h5⟩
          · refine absurd ⟨hle.mpr h2, ?_, Or.inr (Or.inr ⟨?_, ?_⟩)⟩ hn
            · rw [heq h2]
              cases ha : o.allowOldVersion
              · right; intro h5; exact h1 ⟨by simp [ha], h5⟩
              · left; rfl
            · rw [Ne, Classical.not_not, UInt32.eq_toUInt32_iff] at h4; exact h4
            · simpa using h5

/-- C25: opening for writing a file that is absent or has no index metadata yet
succeeds and stores metadata with the current version and the given parameters. -/
theorem C25_open_fresh (o : Options) (hro : o.readOnly = false) (f : DBFile) (hf : f.fresh) :
    ∃ ix, Open f o = .ok (.db (some [(metadataVersionKey.encode,
      metadataLayout 20190809 o.blockSize.toUInt32 o.fsid o.generation [])]), .ok ix) := by
  obtain ⟨ix, h, -⟩ := open_fresh o hro f hf
  refine ⟨ix, ?_⟩
  rw [h, newIndexMetadata_eq]
  simp [metadataLayout, metadataKey_encode]

/-- C25: no failed open and no read-only open changes the file. -/
theorem C25_failed_or_readonly_open_pure (f : DBFile) (o : Options) (f' : DBFile)
    (r : Except IxErr Index) (h : Open f o = .ok (f', r)) :
    (∀ e, r = .error e → f' = f) ∧ (o.readOnly = true → f' = f) := by
  have key : ∀ b f' r, openIndex.openDB o b = .ok (f', r) →
      (∀ e, r = .error e → f' = .db b) ∧ (o.readOnly = true → f' = .db b) := by
    intro b f' r h
    simp only [openIndex.openDB, Go.bind_eq_ok] at h
    obtain ⟨x, hx, h⟩ := h
    cases x with
    | error e =>
      simp only [Go.pure_eq, Go.ok.injEq, Prod.mk.injEq] at h
      exact ⟨fun _ _ => h.1.symm, fun _ => h.1.symm⟩
    | ok b' =>
      have he : ∀ disk g, ∃ ix, Index.ensureTx ⟨o.readOnly, disk, none, false, 0, g⟩ (!o.readOnly) =
          (ix, none) := by
        intro disk g
        cases o.readOnly <;> simp [Index.ensureTx, Index.begin]
      obtain ⟨ix, hix⟩ := he (if o.readOnly = true then b else some b') o.generation
      simp only [hix, Go.pure_eq, Go.ok.injEq, Prod.mk.injEq] at h
      obtain ⟨h1, h2⟩ := h
      constructor
      · rintro e rfl; cases h2
      · intro hro; rw [if_pos hro] at h1; exact h1.symm
  cases f with
  | invalid =>
    simp only [Open, openIndex, Go.ok.injEq, Prod.mk.injEq] at h
    exact ⟨fun _ _ => h.1.symm, fun _ => h.1.symm⟩
  | db b => exact key b f' r h
  | absent =>
    cases hro : o.readOnly with
    | true =>
      simp only [Open, openIndex, hro, if_true, Go.ok.injEq, Prod.mk.injEq] at h
      exact ⟨fun _ _ => h.1.symm, fun _ => h.1.symm⟩
    | false =>
      obtain ⟨ix, h2, -⟩ := open_fresh o hro .absent (Or.inl rfl)
      rw [h] at h2
      simp only [Go.ok.injEq, Prod.mk.injEq] at h2
      constructor
      · rintro e rfl; cases h2.2
      · intro h; cases h

/-- C25: the same for `OpenReadOnly`, which fails on missing files, invalid files and
databases without index metadata. -/
theorem C25_open_readonly_pure (f : DBFile) (f' : DBFile) (r : Except IxErr Index)
    (h : OpenReadOnly f = .ok (f', r)) : f' = f := by
  simp only [OpenReadOnly] at h
  split at h
  · simp only [Go.ok.injEq, Prod.mk.injEq] at h; exact h.1.symm
  · exact (C25_failed_or_readonly_open_pure f _ f' r h).2 rfl

theorem C25_open_readonly_needs_index (f : DBFile) (hf : f.fresh ∨ f = .invalid) :
    ∃ e, OpenReadOnly f = .ok (f, .error e) := by
  rcases hf with (rfl | rfl | rfl) | rfl
  · exact ⟨_, rfl⟩
  · exact ⟨.noIndex, by simp [OpenReadOnly, openIndex, openIndex.openDB, checkUpdateMetadata]⟩
  · exact ⟨.noIndex, by
      simp [OpenReadOnly, openIndex, openIndex.openDB, checkUpdateMetadata, Bucket.get]⟩
  · exact ⟨.openFailed, by simp [OpenReadOnly, openIndex]⟩

/-- Both sides of the compatibility test are inhabited; a block size differing by
`2^32` is accepted, and `AllowOldVersion` accepts another FSID. -/
example : exOptions.accepts 20190809 16384 uuidAllFs ∧
    ¬ exOptions.accepts 20190809 4096 uuidAllFs ∧ ¬ exOptions.accepts 20161109 16384 uuidAllFs ∧
    ({ exOptions with blockSize := 2 ^ 32 + 16384 } : Options).accepts 20190809 16384 uuidAllFs ∧
    ({ exOptions with allowOldVersion := true } : Options).accepts 20161109 4096 uuidAllZero := by
  simp only [Options.accepts, exOptions]
  decide

/-! ## C26 -/

/-- C26: metadata of a reopened index. Block sizes below 4 GiB are reported exactly. -/
theorem C26_metadata_roundtrip (f : DBFile) (hf : f.fresh) (o : Options)
    (hro : o.readOnly = false) (ops : List IxOp) (hm : sparesMetadata ops) :
    ∃ f' ix m, writeSession f o ops = .ok (f', none) ∧ OpenReadOnly f' = .ok (f', .ok ix) ∧
      ix.metadata = .ok (some m) ∧ metaVersion m = .ok 20190809 ∧ metaFSID m = .ok o.fsid ∧
      metaGeneration m = .ok o.generation ∧
      ∃ bs, metaBlockSize m = .ok bs ∧ (o.blockSize.toNat < 2 ^ 32 → bs.toNat = o.blockSize.toNat) := by
  refine ⟨_, _, newIndexMetadata o, writeSession_fresh hf o hro ops, openReadOnly_holds hm, ?_,
    newIndexMetadata_version o, newIndexMetadata_fsid o, newIndexMetadata_generation o, _,
    newIndexMetadata_blockSize o, ?_⟩
  · have hg := (get_enc (AStore.apply_sorted (AStore.init_sorted o) ops) _ _).mpr (metadata_mem hm)
    simp only [Index.metadata, Index.view, if_true, Go.ok_bind, metadataKey_encode]
    rw [hg]; rfl
  · intro h
    rw [UInt64.toNat_toUInt32, Nat.mod_eq_of_lt h]

example : exOptions.blockSize.toNat < 2 ^ 32 := by decide

/-! ## C27 -/

/-- C27: stop after any history: what is durable is exactly the effect of a prefix of
it; the lost rest contains no commit and at most 10000 inserts. -/
theorem C27_crash_loses_bounded_suffix (f : DBFile) (hf : f.fresh) (o : Options)
    (hro : o.readOnly = false) (ops : List IxOp) :
    ∃ f' kept lost, crashSession f o ops = .ok f' ∧ ops = kept ++ lost ∧ f'.holds o kept ∧
      (∀ op ∈ lost, op ≠ .commit) ∧ lost.length ≤ 10000 := by
  obtain ⟨f1, ix, ix', p, s, h1, h2, h3, h4, h5, h6, -⟩ := run_fresh hf o hro ops
  refine ⟨.db ix'.disk, p, s, ?_, h3, ?_, ?_, ?_⟩
  · simp only [crashSession, h1, Go.ok_bind, h2, Go.pure_eq]
  · rw [h4.2.1]; exact holds_enc o p
  · rintro op hop rfl
    obtain ⟨i, hi⟩ := h5 _ hop
    cases hi
  · have : insertCount s = s.length := by
      clear h3 h4 h6 h2 h1
      induction s with
      | nil => rfl
      | cons op r ih =>
        obtain ⟨i, rfl⟩ := h5 op (List.mem_cons_self ..)
        simp only [insertCount, List.length_cons]
        rw [ih fun op hop => h5 op (List.mem_cons_of_mem _ hop)]
    omega

/-- C27: the file left by a crash can be opened for writing again with the same
parameters, whatever was lost. -/
theorem C27_reopen_after_crash (f : DBFile) (hf : f.fresh) (o : Options)
    (hro : o.readOnly = false) (ops : List IxOp) (hm : sparesMetadata ops) :
    ∃ f' ix, crashSession f o ops = .ok f' ∧ Open f' o = .ok (f', .ok ix) := by
  obtain ⟨f', kept, lost, h1, h2, h3, -, -⟩ := C27_crash_loses_bounded_suffix f hf o hro ops
  have hk : sparesMetadata kept := by
    rw [sparesMetadata, h2, lastValue_append] at hm
    rw [sparesMetadata]
    cases hl : lastValue lost metadataVersionKey with
    | none => rw [hl] at hm; exact hm
    | some x => rw [hl] at hm; cases hm
  obtain ⟨ix, hix, -⟩ := reopen_rw (o := o) (o' := o) hk hro rfl rfl
  rw [← holds_eq h3] at hix
  exact ⟨f', ix, h1, hix⟩

/-! ## C28 -/

/-- C28: after `Commit` everything done so far is durable, after `Close` too. -/
theorem C28_commit_and_close_durable (f : DBFile) (hf : f.fresh) (o : Options)
    (hro : o.readOnly = false) (ops : List IxOp) :
    (∃ f', crashSession f o (ops ++ [.commit]) = .ok f' ∧ f'.holds o ops) ∧
    (∃ f', writeSession f o ops = .ok (f', none) ∧ f'.holds o ops) := by
  constructor
  · obtain ⟨f', kept, lost, h1, h2, h3, h4, -⟩ :=
      C27_crash_loses_bounded_suffix f hf o hro (ops ++ [.commit])
    have hl : lost = [] := by
      cases hr : lost.reverse with
      | nil => simpa using hr
      | cons x r =>
        have hx : lost = r.reverse ++ [x] := by
          have := congrArg List.reverse hr
          simpa using this
        rw [hx, ← List.append_assoc] at h2
        have := List.append_inj_right' h2 rfl
        simp only [List.cons.injEq, and_true] at this
        exact absurd this.symm (h4 x (by rw [hx]; simp))
    rw [hl, List.append_nil] at h2
    refine ⟨f', h1, ?_⟩
    rw [← h2] at h3
    have hv : ∀ v, lastValue (ops ++ [.commit]) v = lastValue ops v := by
      intro v; rw [lastValue_append]; rfl
    rw [holds_eq h3, apply_congr hv]
    exact holds_enc o ops
  · exact ⟨_, writeSession_fresh hf o hro ops, holds_enc o ops⟩

/-- C28: opening read-only, looking up anything and closing changes nothing. -/
theorem C28_close_readonly (f : DBFile) (f' : DBFile) (ix : Index)
    (h : OpenReadOnly f = .ok (f', .ok ix)) : f' = f ∧ ix.close = .ok f := by
  have hp := C25_open_readonly_pure f f' _ h
  refine ⟨hp, ?_⟩
  subst hp
  simp only [OpenReadOnly] at h
  split at h
  · cases h
  · cases f' with
    | absent => contradiction
    | invalid => simp [openIndex] at h
    | db b =>
      simp only [openIndex, openIndex.openDB, Go.bind_eq_ok] at h
      obtain ⟨x, hx, h⟩ := h
      cases x with
      | error e => simp at h
      | ok b' =>
        simp only [if_true, Bool.not_true, Index.ensureTx, Index.begin, Bool.false_and,
          Go.pure_eq, Bool.false_eq_true, if_false, Go.ok.injEq, Prod.mk.injEq,
          Except.ok.injEq, true_and] at h
        subst h
        rfl

/-- C28: the read-only case is not empty. -/
example : ∃ f' ix, writeSession .absent exOptions exHistory = .ok (f', none) ∧
    OpenReadOnly f' = .ok (f', .ok ix) :=
  ⟨_, _, writeSession_fresh (Or.inl rfl) _ rfl _, openReadOnly_holds (by
    rw [sparesMetadata, lastValue_none_iff]; decide)⟩

/-! ## C29 -/

/-- C29 refuted: after `Commit` of an index with an open transaction (every index that
`Open` returned and every one after an insert), each lookup crashes. -/
theorem C29_lookup_after_commit_crashes (ix : Index) (h : ix.tx ≠ none) (owner : UInt64) (k : Key) :
    ix.commit.1.findItem owner k = .panic ∧ ix.commit.1.metadata = .panic := by
  have hb : ix.commit.1.bucketSet = false := by
    unfold Index.commit
    cases ht : ix.tx with
    | none => exact absurd ht h
    | some t => simp only; split <;> rfl
  simp [Index.findItem, Index.metadata, Index.view, hb]

/-- C29 refuted also without calling `Commit`: after exactly 10001 inserts into a
fresh index the automatic commit leaves it without a bucket. -/
theorem C29_lookup_after_auto_commit_crashes (f : DBFile) (hf : f.fresh) (o : Options)
    (hro : o.readOnly = false) (i : Ins) (owner : UInt64) (k : Key) :
    ∃ f1 ix ix', Open f o = .ok (f1, .ok ix) ∧
      ix.run (List.replicate 10001 (.insert i)) = .ok (ix', none) ∧
      ix'.findItem owner k = .panic := by
  obtain ⟨ix, h1, h2, -⟩ := open_fresh o hro f hf
  have step : ∀ n (ix : Index) (l d : AStore) m, ix.Inv l d m → m + n = 10000 →
      ∃ ix' l', ix.run (List.replicate n (.insert i)) = .ok (ix', none) ∧ ix'.Inv l' d 10000 := by
    intro n
    induction n with
    | zero =>
      intro ix l d m hi hm
      obtain rfl : m = 10000 := by omega
      exact ⟨ix, l, rfl, hi⟩
    | succ n ih =>
      intro ix l d m hi hm
      obtain ⟨ix1, h3, h4, -⟩ := hi.insert i
      rw [if_neg (by omega), if_neg (by omega)] at h4
      obtain ⟨ix', l', h5, h6⟩ := ih ix1 _ _ _ h4 (by omega)
      refine ⟨ix', l', ?_, h6⟩
      rw [List.replicate_succ]
      simp only [Index.run, Index.step, h3, Go.ok_bind]
      exact h5
  obtain ⟨ix1, l1, h3, h4⟩ := step 10000 ix _ _ 0 h2 (by omega)
  obtain ⟨ix2, h5, h6, -⟩ := h4.insert i
  have happ : ∀ (ops : List IxOp) (ix ix1 : Index), ix.run ops = .ok (ix1, none) →
      ix.run (ops ++ [.insert i]) = ix1.run [.insert i] := by
    intro ops
    induction ops with
    | nil => intro ix ix1 h; simp only [Index.run, Go.ok.injEq, Prod.mk.injEq, and_true] at h
             subst h; rfl
    | cons op r ih =>
      intro ix ix1 h
      simp only [Index.run, List.cons_append, Go.bind_eq_ok] at h ⊢
      obtain ⟨⟨ix', e⟩, hs, h⟩ := h
      cases e with
      | none => rw [hs]; exact ih _ _ h
      | some e => simp at h
  refine ⟨_, ix, ix2, h1, ?_, ?_⟩
  · rw [show (10001 : Nat) = 10000 + 1 by rfl, List.replicate_succ', happ _ _ _ h3]
    simp only [Index.run, Index.step, h5, Go.ok_bind]
  · rw [if_pos (by omega), if_pos (by omega)] at h6
    obtain ⟨-, -, -, -, -, h7⟩ := h6
    rcases h7 with ⟨-, -, -, h8⟩ | ⟨h8, -⟩
    · simp [Index.findItem, Index.view, h8]
    · exfalso
      -- after the automatic commit there is no transaction
      have hb : ix2.tx = none := by
        obtain ⟨ix3, he, ⟨r1, -, r3, -, -, -⟩, hv, -⟩ := h4.ensure
        simp only [Index.insertItem, he, itemValue_eq _ _ i.item_len, i.owner_ok, i.gen_ok, hv,
          Go.ok_bind, r3] at h5
        rw [if_pos (by omega)] at h5
        simp only [Go.pure_eq, Go.ok.injEq, Index.commit, if_true, Prod.mk.injEq, and_true] at h5
        rw [← h5]
      rw [hb] at h8; cases h8

/-- C29 (what is proved): after any history followed by an insert that does not hit
the automatic commit, lookups see the whole history. -/
theorem C29_lookup_after_insert_partial (f : DBFile) (hf : f.fresh) (o : Options)
    (hro : o.readOnly = false) (ops : List IxOp) (i : Ins) :
    ∃ f1 ix ix' ix'', Open f o = .ok (f1, .ok ix) ∧ ix.run ops = .ok (ix', none) ∧
      ix'.step (.insert i) = .ok (ix'', none) ∧
      (ix'.txNum < 10000 → ∃ b, ix''.view = .ok ⟨b, o.generation⟩ ∧
        (DBFile.db (some b)).holds o (ops ++ [.insert i])) := by
  obtain ⟨f1, ix, ix', p, s, h1, h2, h3, h4, h5, h6, hg⟩ := run_fresh hf o hro ops
  obtain ⟨ix'', h7, h8, h9⟩ := h4.insert i
  refine ⟨f1, ix, ix', ix'', h1, h2, h7, fun hn => ?_⟩
  rw [h4.2.2.1] at hn
  rw [if_neg (by omega), if_neg (by omega)] at h8
  obtain ⟨-, -, -, -, -, h10⟩ := h8
  rcases h10 with ⟨-, -, h11, -⟩ | ⟨h11, h12⟩
  · omega
  · refine ⟨(((AStore.init o).apply ops).put i.version i.value).enc, by
      simp only [Index.view, h12, if_true, h11, h9, hg], ?_⟩
    have : ((AStore.init o).apply ops).put i.version i.value =
        (AStore.init o).apply (ops ++ [.insert i]) := by rw [AStore.apply_append]; rfl
    rw [this]
    exact holds_enc o _

/-! ## C30 -/

/-- C30 (what is proved): a failing function leaves the durable content unchanged at
that point; a succeeding one makes exactly its result durable. Missing: the changes
of a failing function stay in the transaction (`C30_failed_rawtx_persists`). -/
theorem C30_rawtx_partial (f : DBFile) (hf : f.fresh) (o : Options) (hro : o.readOnly = false)
    (ops : List IxOp) (fn : Bucket → Bucket × Option IxErr) :
    ∃ f1 ix ix' ix'' r, Open f o = .ok (f1, .ok ix) ∧ ix.run ops = .ok (ix', none) ∧
      ix'.rawTx fn = .ok (ix'', r) ∧
      ∃ b, (DBFile.db (some b)).holds o ops ∧ r = (fn b).2 ∧
        (r ≠ none → ix''.disk = ix'.disk) ∧ (r = none → ix''.disk = some (fn b).1) := by
  obtain ⟨f1, ix, ix', p, s, h1, h2, h3, h4, h5, h6, hg⟩ := run_fresh hf o hro ops
  obtain ⟨ix1, h7, h8, h9, h10⟩ := h4.ensure
  have hd : ix1.disk = ix'.disk := by rw [h8.2.1, h4.2.1]
  cases hfn : (fn ((AStore.init o).apply ops).enc).2 with
  | some e =>
    refine ⟨f1, ix, ix', { ix1 with tx := some ⟨true, some (fn ((AStore.init o).apply ops).enc).1⟩ },
      some e, h1, h2, ?_, _, holds_enc o ops, hfn.symm, fun _ => hd, fun h => by cases h⟩
    simp only [Index.rawTx, h7, h9, Go.ok_bind, hfn, Go.pure_eq]
  | none =>
    refine ⟨f1, ix, ix', Index.mk ix1.readOnly (some (fn ((AStore.init o).apply ops).enc).1) none
      false 0 ix1.generation, none, h1, h2, ?_, _, holds_enc o ops, hfn.symm,
      fun h => absurd rfl h, fun _ => rfl⟩
    simp only [Index.rawTx, h7, h9, Go.ok_bind, hfn, Go.pure_eq, Index.commit, if_true]

/-- C30 refuted: the changes of a function that reported failure become durable with
the next commit. -/
theorem C30_failed_rawtx_persists (f : DBFile) (hf : f.fresh) (o : Options)
    (hro : o.readOnly = false) (e : IxErr) (k v : Bytes) :
    ∃ f1 ix ix' b, Open f o = .ok (f1, .ok ix) ∧
      ix.rawTx (fun b => (b.put k v, some e)) = .ok (ix', some e) ∧
      ix'.close = .ok (.db (some (b.put k v))) ∧ (DBFile.db (some b)).holds o [] := by
  obtain ⟨ix, h1, h2, -⟩ := open_fresh o hro f hf
  obtain ⟨ix1, h7, h8, h9, h10⟩ := h2.ensure
  refine ⟨_, ix, { ix1 with tx := some ⟨true, some (Bucket.put (AStore.init o).enc k v)⟩ },
    (AStore.init o).enc, h1, ?_, ?_, holds_enc o []⟩
  · simp only [Index.rawTx, h7, h9, Go.ok_bind, Go.pure_eq]; rfl
  · simp [Index.close, h8.1, Index.commit]

end Btrfscue
