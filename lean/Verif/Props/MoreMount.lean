import Verif.Proof.More
import Verif.Props.More
import Verif.Props.LsPathExact
import Verif.Props.SameTree
/-!
# C113 for the mounted file system and for `ls PATH`
-/

namespace Btrfscue

variable {b b' : Bucket}

namespace Bucket.MoreObjects

theorem seenItems (h : b.MoreObjects b') {o d : UInt64} {t : UInt8} {vs : List (UInt64 × Slice)} (hv : b.seenItems o t d vs) (hk : b.hasObject o d) :
    b'.seenItems o t d vs := by
  refine ⟨hv.1, fun off s => ?_⟩
  rw [hv.2]
  exact exists_congr fun g => exists_congr fun x => by rw [h.runVersion_iff hk, h.stores_iff hk]

theorem object_of_seen {o d : UInt64} {t : UInt8} {vs : List (UInt64 × Slice)} (hv : b.seenItems o t d vs) {v : UInt64 × Slice} (hm : v ∈ vs) :
    b.hasObject o d := by
  obtain ⟨g, x, -, h, -⟩ := (hv.2 v.1 v.2).mp hm
  exact ⟨_, _, _, _, h⟩

theorem shownAt (h : b.MoreObjects b') {o d : UInt64} {names : List Bytes} {o' i : UInt64} (hs : b.ShownAt o d names o' i) :
    b'.ShownAt o d names o' i := by
  induction hs with
  | here => exact .here
  | step h1 h2 h3 _ ih =>
    obtain ⟨off, s, k1, -⟩ := id h2
    obtain ⟨g, x, hx⟩ := h3
    exact .step (h.seenItems h1 (object_of_seen h1 k1)) h2 ⟨g, x, h.within _ _ hx⟩ ih

theorem underHash (h : b.MoreObjects b') {o dir : UInt64} (hk : b.hasObject o dir) {name : Bytes} {e : DirItemRec} {d : Slice} :
    b'.underHash o dir name e d ↔ b.underHash o dir name e d :=
  exists_congr fun g => exists_congr fun x => by rw [h.newest_iff hk, h.stores_iff hk]

theorem stepFinds (h : b.MoreObjects b') {o dir : UInt64} {name : Bytes} {last : Bool} {e : DirItemRec} {d : Slice}
    (hs : b.stepFinds o dir name last e d) : b'.stepFinds o dir name last e d := by
  rcases hs with hs | ⟨h1, vs, off, h2, h3, h4⟩
  · obtain ⟨g, x, -, hx, -⟩ := id hs
    exact Or.inl ((h.underHash ⟨_, _, _, _, hx⟩).mpr hs)
  · have hk := object_of_seen h2 h3
    exact Or.inr ⟨fun e' d' hu => h1 e' d' ((h.underHash hk).mp hu), vs, off, h.seenItems h2 hk, h3, h4⟩

theorem pathFinds (h : b.MoreObjects b') {o d : UInt64} {names : List Bytes} {q : Option Bytes} (hs : b.PathFinds o d names q) {p : Bytes}
    (hq : q = some p) : b'.PathFinds o d names (some p) := by
  induction hs with
  | last h1 => exact hq ▸ .last (h.stepFinds h1)
  | step h1 _ ih => exact .step (h.stepFinds h1) (ih hq)
  | missing _ => cases hq

end Bucket.MoreObjects

/-- C113 for the mounted file system: with more in the index, of objects only of which there was nothing before, every
path below `rescue` that led to something leads to the same object. (Both indexes such that directories can
be iterated over.) Missing: newer versions of objects that are there (`C113_mount_refuted`). -/
theorem C113_mount_partial (b b' : Bucket) (hb : b.WF) (hb' : b'.WF) (m m' : Bytes) (hm : b.stores metadataVersionKey m)
    (hm' : b'.stores metadataVersionKey m') (hok : b.DirsOK) (hok' : b'.DirsOK)
    (hfull : ∀ o dir d, o ≠ ~~~0 → b.dirItem o dir d → wholeEntry (Slice.data d))
    (hfull' : ∀ o dir d, o ≠ ~~~0 → b'.dirItem o dir d → wholeEntry (Slice.data d))
    (hin : ∀ o, o ≠ ~~~0 → b.TreeInodesOK o) (hin' : ∀ o, o ≠ ~~~0 → b'.TreeInodesOK o) (h : b.MoreObjects b') (names : List Bytes) :
    ∃ N, ∀ fuel, N ≤ fuel → ∃ r r', mountWalk fuel ⟨b, ~~~0⟩ (ascii "rescue" :: names) = .ok r ∧
      mountWalk fuel ⟨b', ~~~0⟩ (ascii "rescue" :: names) = .ok r' ∧
      ∀ c, r = some c → ∃ c', r' = some c' ∧ c'.owner = c.owner ∧ c'.ixInode = c.ixInode := by
  obtain ⟨N, hN⟩ := C70_walk_exact b hb m hm hok hfull hin names
  obtain ⟨N', hN'⟩ := C70_walk_exact b' hb' m' hm' hok' hfull' hin' names
  refine ⟨N + N', fun fuel hf => ?_⟩
  obtain ⟨r, h1, h2⟩ := hN fuel (by omega)
  obtain ⟨r', h1', h2'⟩ := hN' fuel (by omega)
  exact ⟨r, r', h1, h1', fun c hc => (h2' _ _).mpr (h.shownAt ((h2 _ _).mp ⟨c, hc, rfl, rfl⟩))⟩

/-- C113 for `ls PATH`: likewise, every path that `ls` found is found with more in the index, and leads to the same entry. -/
theorem C113_path_partial (b b' : Bucket) (hb : b.WF) (hb' : b'.WF) (m m' : Bytes) (hm : b.stores metadataVersionKey m)
    (hm' : b'.stores metadataVersionKey m') (hok : b.DirsOK) (hok' : b'.DirsOK)
    (hfull : ∀ o dir d, o ≠ ~~~0 → b.dirItem o dir d → wholeEntry (Slice.data d))
    (hfull' : ∀ o dir d, o ≠ ~~~0 → b'.dirItem o dir d → wholeEntry (Slice.data d)) (h : b.MoreObjects b')
    (o : UInt64) (ho : o ≠ ~~~0) (k : Nat) (n : Bytes) (rest : List Bytes) (hne : n ≠ []) (hs : ∀ x ∈ n :: rest, 47 ∉ x) :
    ∃ N, ∀ fuel, N ≤ fuel → ∃ r r', (Ix.mk b (~~~0)).findDirItemForPath fuel o (List.replicate k 47 ++ joinPath (n :: rest)) = .ok r ∧
      (Ix.mk b' (~~~0)).findDirItemForPath fuel o (List.replicate k 47 ++ joinPath (n :: rest)) = .ok r' ∧
      ∀ d, r = some d → ∃ d', r' = some d' ∧ Slice.data d' = Slice.data d := by
  obtain ⟨N, r, h1, h2⟩ := C39_lookup_exact b hb m hm hok hfull o ho k n rest hne hs
  obtain ⟨N', r', h1', h2'⟩ := C39_lookup_exact b' hb' m' hm' hok' hfull' o ho k n rest hne hs
  refine ⟨N + N', fun fuel hf => ⟨r, r', h1 fuel (by omega), h1' fuel (by omega), fun d hd => ?_⟩⟩
  have := (h2' _).mp (h.pathFinds ((h2 _).mpr rfl) (p := Slice.data d) (by rw [hd]; rfl))
  cases r' with
  | none => cases this
  | some d' => exact ⟨d', rfl, (Option.some.inj this).symm⟩

/-- C113 is false of the mounted file system: "/a" is there with the index `exFewer`, not with `exNewer`, which has
besides all that only a newer version of the entry "s" of the same directory. -/
theorem C113_mount_refuted :
    exFewer.Sorted ∧ exNewer.Sorted ∧ (∀ e ∈ exFewer, e ∈ exNewer) ∧
    (mountWalk 30 ⟨exFewer.enc, ~~~0⟩ [ascii "rescue", [97]] >>= fun r => pure (r.map fun c => (c.owner, c.ixInode))) = .ok (some (5, 257)) ∧
    mountWalk 30 ⟨exNewer.enc, ~~~0⟩ [ascii "rescue", [97]] = .ok none :=
  ⟨sorted_of_before (by decide +kernel), sorted_of_before (by decide +kernel), by decide +kernel, by decide +kernel, by decide +kernel⟩

/-- The hypotheses are met by `exNoFile` and `exSeen`; "/s" leads to the directory 258 with both. -/
example : exNoFile.enc.WF ∧ exNoFile.enc.stores metadataVersionKey [] ∧ exSeen.enc.WF ∧ exSeen.enc.stores metadataVersionKey [] ∧
    exNoFile.enc.DirsOK ∧ exSeen.enc.DirsOK ∧ (∀ o dir d, o ≠ ~~~0 → exNoFile.enc.dirItem o dir d → wholeEntry (Slice.data d)) ∧
    (∀ o dir d, o ≠ ~~~0 → exSeen.enc.dirItem o dir d → wholeEntry (Slice.data d)) ∧
    (∀ o, o ≠ ~~~0 → exNoFile.enc.TreeInodesOK o) ∧ (∀ o, o ≠ ~~~0 → exSeen.enc.TreeInodesOK o) ∧ exNoFile.enc.MoreObjects exSeen.enc ∧
    (mountWalk 30 ⟨exNoFile.enc, ~~~0⟩ [ascii "rescue", [115]] >>= fun r => pure (r.map fun c => (c.owner, c.ixInode))) = .ok (some (5, 258)) ∧
    (mountWalk 30 ⟨exSeen.enc, ~~~0⟩ [ascii "rescue", [115]] >>= fun r => pure (r.map fun c => (c.owner, c.ixInode))) = .ok (some (5, 258)) := by
  have hd : ∀ o dir d, exNoFile.enc.dirItem o dir d → exSeen.enc.dirItem o dir d :=
    fun o dir d ⟨off, g, x, h1, h2⟩ => ⟨off, g, x, exNoFile_more.within _ _ h1, h2⟩
  refine ⟨AStore.enc_wf (sorted_of_before (by decide +kernel)), enc_stores.mpr (by simp [exNoFile]), exSeen_wf, exSeen_meta,
    ⟨fun o ho ⟨g, x, hx⟩ => exSeen_same.dirs.noKL o ho ⟨g, x, exNoFile_more.within _ _ hx⟩, fun o k ho hk ht => ?_,
      fun o dir d loc ho h => exSeen_same.dirs.noMetaTree o dir d loc ho (hd _ _ _ h)⟩, exSeen_same.dirs,
    fun o dir d ho h => exSeen_same.full o dir d ho (hd _ _ _ h), exSeen_same.full, fun o ho ino hk => ?_, exSeen_same.inodes, exNoFile_more,
    by decide +kernel, by decide +kernel⟩
  · obtain ⟨k1, k2, k3⟩ := k
    simp only at ht
    subst ht
    exact exNoFile_ends.dirs _ _ _ hk
  · have hob : exNoFile.enc.hasObject o ino := by
      obtain ⟨g, x, hx⟩ := hk
      exact ⟨_, _, _, _, hx⟩
    obtain ⟨g, x, f, rest, h1, h2, h3⟩ := exSeen_same.inodes o ho ino ((exNoFile_more.hasKey_iff hob).mpr hk)
    exact ⟨g, x, f, rest, (exNoFile_more.newest_iff hob).mp h1, (exNoFile_more.stores_iff hob).mp h2, h3⟩

end Btrfscue
