import Verif.Proof.History
import Verif.Proof.Bounds
/-! # Opening an index -/

namespace Btrfscue

theorem putAt_mid (p old new rest : Bytes) (off : Nat) (hp : p.length = off)
    (ho : old.length = new.length) : putAt (p ++ (old ++ rest)) off new = p ++ (new ++ rest) := by
  subst hp
  simp only [putAt]
  rw [List.take_left', ← ho, ← List.length_append, ← List.append_assoc, List.drop_left]
  · simp
  · rfl

theorem newIndexMetadata_eq (o : Options) :
    newIndexMetadata o = le64 MetadataVersion ++ (le32 o.blockSize.toUInt32 ++
      (o.fsid.val ++ le64 o.generation)) := by
  have h0 : (List.replicate indexMetadataEnd (0 : UInt8)) =
      [] ++ (List.replicate 8 0 ++ (List.replicate 4 0 ++ (List.replicate 16 0 ++
        List.replicate 8 0))) := by decide
  have e1 := fun rest => putAt_mid [] (List.replicate 8 0) (leBytes 8 MetadataVersion.toNat) rest
    indexMetadataVersion rfl (by simp)
  have e2 := fun rest => putAt_mid (leBytes 8 MetadataVersion.toNat) (List.replicate 4 0)
    (leBytes 4 o.blockSize.toUInt32.toNat) rest indexMetadataBlockSize (by simp [indexMetadataBlockSize, indexMetadataVersion]) (by simp)
  have e3 := fun rest => putAt_mid (leBytes 8 MetadataVersion.toNat ++
    leBytes 4 o.blockSize.toUInt32.toNat) (List.replicate 16 0) o.fsid.val rest indexMetadataFSID
    (by simp [indexMetadataFSID, indexMetadataBlockSize, indexMetadataVersion]) (by simp)
  have e4 := fun rest => putAt_mid ((leBytes 8 MetadataVersion.toNat ++
    leBytes 4 o.blockSize.toUInt32.toNat) ++ o.fsid.val) (List.replicate 8 0)
    (leBytes 8 o.generation.toNat) rest indexMetadataGeneration
    (by simp [indexMetadataGeneration, indexMetadataFSID, indexMetadataBlockSize, indexMetadataVersion]) (by simp)
  simp only [newIndexMetadata, h0]
  rw [e1, List.nil_append, e2, ← List.append_assoc, e3, ← List.append_assoc,
    ← List.append_nil (List.replicate 8 (0 : UInt8)), e4]
  simp [le64, le32]

theorem newIndexMetadata_version (o : Options) : metaVersion (newIndexMetadata o) = .ok MetadataVersion := by
  rw [newIndexMetadata_eq, metaVersion]; simp [indexMetadataVersion]
theorem newIndexMetadata_blockSize (o : Options) :
    metaBlockSize (newIndexMetadata o) = .ok o.blockSize.toUInt32 := by
  rw [newIndexMetadata_eq, metaBlockSize]; simp [indexMetadataBlockSize, indexMetadataVersion]
theorem newIndexMetadata_fsid (o : Options) : metaFSID (newIndexMetadata o) = .ok o.fsid := by
  rw [newIndexMetadata_eq, metaFSID]
  simp [indexMetadataFSID, indexMetadataBlockSize, indexMetadataVersion]
theorem newIndexMetadata_generation (o : Options) :
    metaGeneration (newIndexMetadata o) = .ok o.generation := by
  rw [newIndexMetadata_eq, metaGeneration]
  have := u64at_zero o.generation [] []
  simp only [List.append_nil] at this
  simp [indexMetadataGeneration, indexMetadataFSID, indexMetadataBlockSize, indexMetadataVersion, this]

theorem metadataKey_encode : metadataKey = metadataVersionKey.encode := rfl

/-- The result of a successful read-write open. -/
theorem ensureTx_open (b : Bucket) (ro : Bool) (g : UInt64) :
    Index.ensureTx ⟨ro, some b, none, false, 0, g⟩ (!ro) =
      (⟨ro, some b, some ⟨!ro, some b⟩, true, 0, g⟩, none) := by
  cases ro <;> simp [Index.ensureTx, Index.begin]

theorem openDB_rw {o : Options} (hro : o.readOnly = false) {b : Option Bucket} {b' : Bucket}
    (h : checkUpdateMetadata o b = .ok (.ok b')) :
    openIndex.openDB o b = .ok (.db (some b'), .ok
      ⟨false, some b', some ⟨true, some b'⟩, true, 0, o.generation⟩) := by
  have := ensureTx_open b' false o.generation
  simp only [Bool.not_false] at this
  simp [openIndex.openDB, h, hro, this]

theorem openDB_ro {o : Options} (hro : o.readOnly = true) {b : Bucket} {b' : Bucket}
    (h : checkUpdateMetadata o (some b) = .ok (.ok b')) :
    openIndex.openDB o (some b) = .ok (.db (some b), .ok
      ⟨true, some b, some ⟨false, some b⟩, true, 0, o.generation⟩) := by
  have := ensureTx_open b true o.generation
  simp only [Bool.not_true] at this
  simp [openIndex.openDB, h, hro, this]

theorem openDB_err {o : Options} {b : Option Bucket} {e : IxErr}
    (h : checkUpdateMetadata o b = .ok (.error e)) :
    openIndex.openDB o b = .ok (.db b, .error e) := by
  simp [openIndex.openDB, h]

/-- Opening a fresh file for writing. -/
theorem open_fresh (o : Options) (hro : o.readOnly = false) (f : DBFile)
    (hf : f = .absent ∨ f = .db none ∨ f = .db (some [])) :
    ∃ ix, Open f o = .ok (.db (some [(metadataKey, newIndexMetadata o)]), .ok ix) ∧
      ix.Inv [(metadataVersionKey, newIndexMetadata o)] [(metadataVersionKey, newIndexMetadata o)] 0 ∧
      ix.generation = o.generation := by
  have hc : ∀ b, b = none ∨ b = some [] →
      checkUpdateMetadata o b = .ok (.ok [(metadataKey, newIndexMetadata o)]) := by
    rintro b (rfl | rfl) <;> simp [checkUpdateMetadata, hro, Bucket.get, Bucket.put]
  have hinv : Index.Inv ⟨false, some [(metadataKey, newIndexMetadata o)],
      some ⟨true, some [(metadataKey, newIndexMetadata o)]⟩, true, 0, o.generation⟩
      [(metadataVersionKey, newIndexMetadata o)] [(metadataVersionKey, newIndexMetadata o)] 0 :=
    ⟨rfl, rfl, rfl, List.pairwise_singleton _ _, List.pairwise_singleton _ _, Or.inr ⟨rfl, rfl⟩⟩
  refine ⟨_, ?_, hinv, rfl⟩
  rcases hf with rfl | rfl | rfl
  · simp only [Open, openIndex, hro]
    exact openDB_rw hro (hc none (Or.inl rfl))
  · exact openDB_rw hro (hc none (Or.inl rfl))
  · exact openDB_rw hro (hc _ (Or.inr rfl))

/-- Read-only open of a store with current metadata. -/
theorem open_ro {l : AStore} (h : l.Sorted) {m : Bytes} (hm : (metadataVersionKey, m) ∈ l)
    (hv : metaVersion m = .ok MetadataVersion) :
    OpenReadOnly (.db (some l.enc)) = .ok (.db (some l.enc), .ok
      ⟨true, some l.enc, some ⟨false, some l.enc⟩, true, 0, ~~~0⟩) := by
  simp only [OpenReadOnly, reduceCtorEq, if_false, openIndex]
  rw [openDB_ro (b' := l.enc) rfl]
  have hg : Bucket.get l.enc metadataKey = some m := by
    rw [metadataKey_encode]; exact (get_enc h _ _).mpr hm
  simp [checkUpdateMetadata, hg, hv, UInt64.lt_irrefl]

theorem view_ro (l : AStore) (g : UInt64) :
    Index.view ⟨true, some l.enc, some ⟨false, some l.enc⟩, true, 0, g⟩ = .ok ⟨l.enc, g⟩ := rfl

theorem Index.Inv.close {ix : Index} {l d : AStore} {n : Nat} (h : ix.Inv l d n) :
    ix.close = .ok (.db (some l.enc)) := by
  obtain ⟨ix', hc, hi, -⟩ := h.commit
  simp only [Index.close, h.1, hc]
  simp [hi.2.1]

end Btrfscue
