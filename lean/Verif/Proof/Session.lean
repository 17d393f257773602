import Verif.Proof.Open
import Verif.Spec.Session
/-! # Sessions -/

namespace Btrfscue

/-- The decoded content of a fresh index. -/
def AStore.init (o : Options) : AStore := [(metadataVersionKey, newIndexMetadata o)]

theorem AStore.init_sorted (o : Options) : (AStore.init o).Sorted := List.pairwise_singleton _ _

theorem holds_enc (o : Options) (ops : List IxOp) :
    (DBFile.db (some ((AStore.init o).apply ops).enc)).holds o ops := by
  have hs := AStore.apply_sorted (AStore.init_sorted o) ops
  refine ⟨_, rfl, (AStore.enc_wf hs).1, ?_, ?_⟩
  · intro e he
    simp only [AStore.enc, List.mem_map] at he
    obtain ⟨a, -, rfl⟩ := he
    exact ⟨a.1, rfl⟩
  · intro v x
    rw [enc_stores, AStore.mem_apply (AStore.init_sorted o)]
    simp [AStore.init]

/-- A file holding a history is determined by it. -/
theorem holds_eq {f : DBFile} {o : Options} {ops : List IxOp} (h : f.holds o ops) :
    f = .db (some ((AStore.init o).apply ops).enc) := by
  obtain ⟨b, rfl, h1, h2, h3⟩ := h
  have hwf : b.WF := ⟨h1, fun e he => by
    obtain ⟨v, hv⟩ := h2 e he; rw [hv]; exact VKey.encode_length v⟩
  obtain ⟨l, hl, rfl⟩ := hwf.exists_abs
  have hs := AStore.apply_sorted (AStore.init_sorted o) ops
  congr 2
  rw [enc_inj]
  refine hl.ext hs ?_
  rintro ⟨v, x⟩
  rw [← enc_stores, h3, AStore.mem_apply (AStore.init_sorted o)]
  simp [AStore.init]

theorem insertCount_nil : insertCount [] = 0 := rfl

/-- A history on a fresh file: the state it leads to. -/
theorem run_fresh {f : DBFile} (hf : f.fresh) (o : Options) (hro : o.readOnly = false)
    (ops : List IxOp) :
    ∃ f1 ix ix' p s, Open f o = .ok (f1, .ok ix) ∧ ix.run ops = .ok (ix', none) ∧ ops = p ++ s ∧
      ix'.Inv ((AStore.init o).apply ops) ((AStore.init o).apply p) (insertCount s) ∧
      NoCommit s ∧ insertCount s ≤ 10000 ∧ ix'.generation = o.generation := by
  obtain ⟨ix, h1, h2, h3⟩ := open_fresh o hro f hf
  obtain ⟨ix', p, s, h4, h5, h6, h7, h8, -, h9⟩ := Index.Inv.run (ix := ix) (l0 := AStore.init o) ops
    (p := []) (s := []) h2 (by intro op h; cases h) (Nat.zero_le _)
  exact ⟨_, ix, ix', p, s, h1, h4, by simpa using h5, by simpa using h6, h7, h8, h9.trans h3⟩

theorem writeSession_fresh {f : DBFile} (hf : f.fresh) (o : Options) (hro : o.readOnly = false)
    (ops : List IxOp) :
    writeSession f o ops = .ok (.db (some ((AStore.init o).apply ops).enc), none) := by
  obtain ⟨f1, ix, ix', p, s, h1, h2, -, h3, -⟩ := run_fresh hf o hro ops
  simp only [writeSession, h1, Go.ok_bind, h2, h3.close, Go.pure_eq]

theorem metadata_mem {o : Options} {ops : List IxOp} (h : sparesMetadata ops) :
    (metadataVersionKey, newIndexMetadata o) ∈ (AStore.init o).apply ops := by
  rw [AStore.mem_apply (AStore.init_sorted o)]
  exact Or.inr ⟨h, by simp [AStore.init]⟩

/-- Opening the result of a session read-only. -/
theorem openReadOnly_holds {o : Options} {ops : List IxOp} (hm : sparesMetadata ops) :
    OpenReadOnly (.db (some ((AStore.init o).apply ops).enc)) =
      .ok (.db (some ((AStore.init o).apply ops).enc), .ok
      ⟨true, some ((AStore.init o).apply ops).enc,
        some ⟨false, some ((AStore.init o).apply ops).enc⟩, true, 0, ~~~0⟩) :=
  open_ro (AStore.apply_sorted (AStore.init_sorted o) ops) (metadata_mem hm)
    (newIndexMetadata_version o)

/-- Reopening it for writing with the same block size and FSID. -/
theorem reopen_rw {o o' : Options} {ops : List IxOp} (hm : sparesMetadata ops)
    (hro : o'.readOnly = false) (hb : o'.blockSize = o.blockSize) (hf : o'.fsid = o.fsid) :
    ∃ ix, Open (.db (some ((AStore.init o).apply ops).enc)) o' =
        .ok (.db (some ((AStore.init o).apply ops).enc), .ok ix) ∧
      ix.Inv ((AStore.init o).apply ops) ((AStore.init o).apply ops) 0 ∧
      ix.generation = o'.generation := by
  have hs := AStore.apply_sorted (AStore.init_sorted o) ops
  have hg : Bucket.get ((AStore.init o).apply ops).enc metadataKey = some (newIndexMetadata o) := by
    rw [metadataKey_encode]; exact (get_enc hs _ _).mpr (metadata_mem hm)
  have hc : checkUpdateMetadata o' (some ((AStore.init o).apply ops).enc) =
      .ok (.ok ((AStore.init o).apply ops).enc) := by
    simp [checkUpdateMetadata, hg, newIndexMetadata_version, newIndexMetadata_blockSize,
      newIndexMetadata_fsid, hb, hf, UInt64.lt_irrefl]
  refine ⟨_, openDB_rw hro hc, ?_, rfl⟩
  exact ⟨rfl, rfl, rfl, hs, hs, Or.inr ⟨rfl, rfl⟩⟩

theorem lastValue_append (a b : List IxOp) (v : VKey) :
    lastValue (a ++ b) v = match lastValue b v with | some x => some x | none => lastValue a v := by
  induction a with
  | nil => simp only [List.nil_append, lastValue]; cases lastValue b v <;> rfl
  | cons op r ih =>
    cases op with
    | commit => simp only [List.cons_append, lastValue, ih]
    | insert i =>
      simp only [List.cons_append, lastValue, ih]
      cases lastValue b v <;> simp

/-- Two histories with the same last values have the same effect. -/
theorem apply_congr {o : Options} {a b : List IxOp} (h : ∀ v, lastValue a v = lastValue b v) :
    (AStore.init o).apply a = (AStore.init o).apply b := by
  refine (AStore.apply_sorted (AStore.init_sorted o) a).ext
    (AStore.apply_sorted (AStore.init_sorted o) b) ?_
  rintro ⟨v, x⟩
  rw [AStore.mem_apply (AStore.init_sorted o), AStore.mem_apply (AStore.init_sorted o), h]

theorem lastValue_mem {ops : List IxOp} {v : VKey} {x : Bytes} (h : lastValue ops v = some x) :
    ∃ i, IxOp.insert i ∈ ops ∧ i.version = v ∧ i.value = x := by
  induction ops with
  | nil => cases h
  | cons op r ih =>
    cases op with
    | commit =>
      obtain ⟨i, h1, h2⟩ := ih h
      exact ⟨i, List.mem_cons_of_mem _ h1, h2⟩
    | insert i =>
      simp only [lastValue] at h
      cases hr : lastValue r v with
      | some y =>
        rw [hr] at h
        obtain ⟨j, h1, h2⟩ := ih (hr.trans h)
        exact ⟨j, List.mem_cons_of_mem _ h1, h2⟩
      | none =>
        rw [hr] at h
        by_cases hv : i.version = v
        · simp only [hv, if_true, Option.some.injEq] at h
          exact ⟨i, List.mem_cons_self .., hv, h⟩
        · simp [hv] at h

theorem lastValue_none_iff {ops : List IxOp} {v : VKey} :
    lastValue ops v = none ↔ v ∉ versionsOf ops := by
  induction ops with
  | nil => simp [lastValue, versionsOf]
  | cons op r ih =>
    cases op with
    | commit => exact ih
    | insert i =>
      simp only [lastValue, versionsOf, List.mem_cons, not_or]
      cases hr : lastValue r v with
      | some y =>
        have : v ∈ versionsOf r := by
          by_cases hh : v ∈ versionsOf r
          · exact hh
          · rw [ih.mpr hh] at hr; cases hr
        simp [this]
      | none =>
        simp only [← ih, hr, and_true]
        by_cases hv : i.version = v
        · simp [hv]
        · simp [hv, Ne.symm hv]

theorem versionsOf_mem {ops : List IxOp} {i : Ins} (h : IxOp.insert i ∈ ops) :
    i.version ∈ versionsOf ops := by
  induction ops with
  | nil => cases h
  | cons op r ih =>
    rcases List.mem_cons.mp h with rfl | h'
    · simp [versionsOf]
    · cases op with
      | commit => exact ih h'
      | insert j => exact List.mem_cons_of_mem _ (ih h')

/-- With distinct versions, the last value of a version is its only value. -/
theorem lastValue_of_mem {ops : List IxOp} (hd : (versionsOf ops).Nodup) {i : Ins}
    (h : IxOp.insert i ∈ ops) : lastValue ops i.version = some i.value := by
  induction ops with
  | nil => cases h
  | cons op r ih =>
    cases op with
    | commit =>
      rcases List.mem_cons.mp h with h | h
      · cases h
      · exact ih hd h
    | insert j =>
      simp only [versionsOf, List.nodup_cons] at hd
      simp only [lastValue]
      rcases List.mem_cons.mp h with h | h
      · cases h
        rw [lastValue_none_iff.mpr hd.1]; simp
      · rw [ih hd.2 h]

theorem versionsOf_perm {a b : List IxOp} (h : a.Perm b) : (versionsOf a).Perm (versionsOf b) := by
  induction h with
  | nil => exact .nil
  | cons x _ ih => cases x with
    | commit => exact ih
    | insert i => exact .cons _ ih
  | swap x y l =>
    cases x <;> cases y <;> simp only [versionsOf] <;> first | exact .refl _ | exact .swap ..
  | trans _ _ ih1 ih2 => exact ih1.trans ih2

theorem lastValue_perm {a b : List IxOp} (h : a.Perm b) (hd : (versionsOf a).Nodup) (v : VKey) :
    lastValue a v = lastValue b v := by
  have hb : (versionsOf b).Nodup := (versionsOf_perm h).nodup_iff.mp hd
  cases ha : lastValue a v with
  | some x =>
    obtain ⟨i, hi, rfl, rfl⟩ := lastValue_mem ha
    rw [lastValue_of_mem hb (h.mem_iff.mp hi)]
  | none =>
    rw [lastValue_none_iff, (versionsOf_perm h).mem_iff, ← lastValue_none_iff] at ha
    exact ha.symm

end Btrfscue
