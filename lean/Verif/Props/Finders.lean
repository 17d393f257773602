import Verif.Proof.MountCrash
import Verif.Model.Commands
/-!
# C20, C32, C52: the lookups and iterators that name an item type, and the names in the mounted top directory
-/

namespace Btrfscue

/-- C20: the lookups for inode items (type 1), extents of files (type 108) and extent items (type 168, in tree 2, by address and
length) give the payload of the newest version of the item with that key, and nothing if there is none. -/
theorem C20_typed_lookups (b : Bucket) (hb : b.WF) (m : Bytes) (hm : b.stores metadataVersionKey m)
    (hex : ∀ v x, b.stores v x → v.owner ≠ ~~~0 → ∃ d, holdsExactly x d) (o : UInt64) (ho : o ≠ ~~~0) (i addr len : UInt64) (d : Bytes) :
    ((Ix.mk b (~~~0)).findInodeItem o i = .ok (some ⟨d, []⟩) ↔ b.nowData o ⟨i, 1, 0⟩ d) ∧
    ((Ix.mk b (~~~0)).findInodeItem o i = .ok none ↔ ∀ d, ¬ b.nowData o ⟨i, 1, 0⟩ d) ∧
    ((Ix.mk b (~~~0)).findFileExtentItem o i = .ok (some ⟨d, []⟩) ↔ b.nowData o ⟨i, 108, 0⟩ d) ∧
    ((Ix.mk b (~~~0)).findFileExtentItem o i = .ok none ↔ ∀ d, ¬ b.nowData o ⟨i, 108, 0⟩ d) ∧
    ((Ix.mk b (~~~0)).findExtentItem addr len = .ok (some ⟨d, []⟩) ↔ b.nowData 2 ⟨addr, 168, len⟩ d) ∧
    ((Ix.mk b (~~~0)).findExtentItem addr len = .ok none ↔ ∀ d, ¬ b.nowData 2 ⟨addr, 168, len⟩ d) := by
  have key : ∀ (o : UInt64) (_ : o ≠ ~~~0) (k : Key),
      ((Ix.mk b (~~~0)).findData o k = .ok (some ⟨d, []⟩) ↔ b.nowData o k d) ∧
      ((Ix.mk b (~~~0)).findData o k = .ok none ↔ ∀ d, ¬ b.nowData o k d) := by
    intro o ho k
    rcases findData_now hb hm ho k (fun g x h => hex _ _ h ho) with ⟨d', h1, h2, h3⟩ | ⟨h1, h2⟩
    · rw [h3]
      refine ⟨⟨fun h => ?_, fun h => ?_⟩, ⟨fun h => (by cases h), fun h => absurd h1 (h d')⟩⟩
      · cases h; exact h1
      · rw [h2 d h]
    · rw [h2]
      exact ⟨⟨fun h => (by cases h), fun h => absurd h (h1 d)⟩, ⟨fun _ => h1, fun _ => rfl⟩⟩
  obtain ⟨h1, h2⟩ := key o ho ⟨i, 1, 0⟩
  obtain ⟨h3, h4⟩ := key o ho ⟨i, 108, 0⟩
  obtain ⟨h5, h6⟩ := key 2 (by decide) ⟨addr, 168, len⟩
  exact ⟨h1, h2, h3, h4, h5, h6⟩

/-- What an iterator goes over, in the order of the offsets: the items of owner `o`, type `t` and object `id` that iterating gets to. -/
def Bucket.goesOver (b : Bucket) (r : Go (Range × Slice)) (o : UInt64) (t : UInt8) (id : UInt64) : Prop :=
  ∃ rd, ∃ its : List (UInt64 × Range × Bytes), r = .ok rd ∧
    Range.Yields rd (its.map fun e => (e.2.1, ⟨e.2.2, []⟩)) ∧ its.Pairwise (fun x y => x.1 < y.1) ∧
    (∀ e ∈ its, e.2.1.rKey = .ok ⟨id, t, e.1⟩) ∧ (∀ off d, (∃ r, (off, r, d) ∈ its) ↔ b.seenData o t id off d)

/-- C32 (in the circumstances of `C32_range_complete_partial`): the iterators for entries of a directory (type 84), extended
attributes (24), extents of a file (108), chunks (228 of 256, in tree 3) and devices (216 of 1, in tree 3) go over the items of
that type and object that iterating gets to, in order. -/
theorem C32_typed_ranges_partial (b : Bucket) (hb : b.WF) (m : Bytes) (hm : b.stores metadataVersionKey m)
    (hex : ∀ v x, b.stores v x → v.owner ≠ ~~~0 → ∃ d, holdsExactly x d) (o : UInt64) (ho : o ≠ ~~~0) (i : UInt64) :
    (b.RangeOK o (KL2 84 i) → b.goesOver ((Ix.mk b (~~~0)).dirItems o i) o 84 i) ∧
    (b.RangeOK o (KL2 24 i) → b.goesOver ((Ix.mk b (~~~0)).xattrItems o i) o 24 i) ∧
    (b.RangeOK o (KL2 108 i) → b.goesOver ((Ix.mk b (~~~0)).fileExtentItems o i) o 108 i) ∧
    (b.RangeOK 3 (KL2 228 256) → b.goesOver (Ix.mk b (~~~0)).chunks 3 228 256) ∧
    (b.RangeOK 3 (KL2 216 1) → b.goesOver (Ix.mk b (~~~0)).devItems 3 216 1) :=
  ⟨fun h => seen_run hb hm h fun v x h1 h2 => hex v x h1 (by rw [h2]; exact ho),
    fun h => seen_run hb hm h fun v x h1 h2 => hex v x h1 (by rw [h2]; exact ho),
    fun h => seen_run hb hm h fun v x h1 h2 => hex v x h1 (by rw [h2]; exact ho),
    fun h => seen_run hb hm h fun v x h1 h2 => hex v x h1 (by rw [h2]; decide),
    fun h => seen_run hb hm h fun v x h1 h2 => hex v x h1 (by rw [h2]; decide)⟩

/-- C52: the top directory of the mounted file system has two names: "rescue", which is the top directory (256) of the main tree (5),
and "metadata", which is the index file. -/
theorem C52_top_names (name : Bytes) :
    (∀ n, mountTop name = some (.rescue n) ↔ name = [114, 101, 115, 99, 117, 101] ∧ n = newRescueNode 5 256) ∧
    (mountTop name = some .metadata ↔ name = [109, 101, 116, 97, 100, 97, 116, 97]) := by
  have h1 : ascii "rescue" = [114, 101, 115, 99, 117, 101] := by decide
  have h2 : ascii "metadata" = [109, 101, 116, 97, 100, 97, 116, 97] := by decide
  unfold mountTop
  rw [h1, h2]
  by_cases hr : name = [114, 101, 115, 99, 117, 101]
  · rw [if_pos hr]
    subst hr
    refine ⟨fun n => ⟨fun h => ?_, fun h => by rw [h.2]; rfl⟩, ⟨fun h => (by cases h), fun h => absurd h (by decide)⟩⟩
    cases h
    exact ⟨rfl, rfl⟩
  · rw [if_neg hr]
    by_cases hm : name = [109, 101, 116, 97, 100, 97, 116, 97]
    · rw [if_pos hm]
      exact ⟨fun n => ⟨fun h => (by cases h), fun h => absurd h.1 hr⟩, ⟨fun _ => hm, fun _ => rfl⟩⟩
    · rw [if_neg hm]
      exact ⟨fun n => ⟨fun h => (by cases h), fun h => absurd h.1 hr⟩, ⟨fun h => (by cases h), fun h => absurd h hm⟩⟩

/-! ## Example -/

/-- An extent item in the extent tree, a device item in the chunk tree. -/
def exFinders : AStore :=
  [(⟨2, ⟨4096, 168, 8192⟩, 7⟩, mkItem ⟨4096, 168, 8192⟩ [1, 2, 3]),
   (⟨3, ⟨1, 216, 1⟩, 7⟩, mkItem ⟨1, 216, 1⟩ [9]),
   (⟨3, ⟨257, 229, 0⟩, 7⟩, mkItem ⟨257, 229, 0⟩ []),
   (metadataVersionKey, [])]

example : (Ix.mk exFinders.enc (~~~0)).findExtentItem 4096 8192 = .ok (some ⟨[1, 2, 3], []⟩) ∧
    (Ix.mk exFinders.enc (~~~0)).findExtentItem 8192 4096 = .ok none ∧
    ((Ix.mk exFinders.enc (~~~0)).devItems.bind fun rd => .ok rd.2.data) = .ok [9] := by decide +kernel

theorem exFinders_exact (e : VKey × Bytes) (he : e ∈ exFinders) (ho : e.1.owner ≠ ~~~0) : ∃ d, holdsExactly e.2 d := by
  simp only [exFinders, List.mem_cons, List.not_mem_nil, or_false] at he
  rcases he with rfl | rfl | rfl | rfl
  · exact ⟨_, mkItem_exactly _ _ (by decide)⟩
  · exact ⟨_, mkItem_exactly _ _ (by decide)⟩
  · exact ⟨_, mkItem_exactly _ _ (by decide)⟩
  · exact absurd rfl ho

/-- The hypotheses are met by that store. -/
example : exFinders.enc.goesOver (Ix.mk exFinders.enc (~~~0)).devItems 3 216 1 ∧ exFinders.enc.nowData 2 ⟨4096, 168, 8192⟩ [1, 2, 3] := by
  have hb := AStore.enc_wf (l := exFinders) (sorted_of_before (by decide +kernel))
  have hm : exFinders.enc.stores metadataVersionKey [] := enc_stores.mpr (by simp [exFinders])
  have hex : ∀ v x, exFinders.enc.stores v x → v.owner ≠ ~~~0 → ∃ d, holdsExactly x d :=
    fun v x hv ho => exFinders_exact _ (enc_stores.mp hv) ho
  refine ⟨(C32_typed_ranges_partial _ hb [] hm hex 5 (by decide) 0).2.2.2.2 ?_, ?_⟩
  · exact rangeOK_of (by decide) (fun e he h => (exFinders_exact e he (by rw [h]; decide)).imp fun _ h => h.holds)
      (fun e he h => (by decide +kernel : ∀ e ∈ exFinders, e.1.owner ≠ ~~~0 → e.1.gen ≠ ~~~0 ∧ e.1.key ≠ KL0) e he (by rw [h]; decide))
      (by decide +kernel)
  · exact (C20_typed_lookups _ hb [] hm hex 5 (by decide) 0 4096 8192 [1, 2, 3]).2.2.2.2.1.mp (by decide +kernel)

end Btrfscue
