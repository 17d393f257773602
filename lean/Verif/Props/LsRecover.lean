import Verif.Proof.LsRecover
/-!
# C114: `ls --recursive` lists what recover recovers
-/

namespace Btrfscue

open Cmd

theorem inodeSizeIs_unique {b : Bucket} (hb : b.WF) {o i z z' : UInt64} (h : b.inodeSizeIs o i z) (h' : b.inodeSizeIs o i z') : z = z' := by
  obtain ⟨l, hl, rfl⟩ := hb.exists_abs
  obtain ⟨g, x, f, r, g1, g2, g3, rfl⟩ := h
  obtain ⟨g', x', f', r', g1', g2', g3', rfl⟩ := h'
  have := newest_unique g1 g1'
  subst this
  have := hl.unique (enc_stores.mp g2) (enc_stores.mp g2')
  subst this
  obtain ⟨-, -, -, -, e5, -⟩ := inodeItem_layout_inj (g3.unique g3')
  exact e5

/-- Whatever is recovered is in the listing. -/
theorem recovered_listed {b : Bucket} (hb : b.WF) {m : Bytes} (hm : b.stores metadataVersionKey m)
    (hcr : b.RangeOK 3 (KL2 228 256)) (hci : b.SeenIntact) :
    ∃ N, ∀ rf, N ≤ rf → ∀ env D, Honest env D → (∀ n, env.fails .stat n = false) → ∀ fuel fs dest r,
      EmptyDest fs dest r → LsSameOK b dest → ∀ ft si ts, b.ShownTree ft si 5 256 ts →
        ∀ f, (doRecoverFiles env rf fuel ⟨b, ~~~0⟩ false dest (RecState.start fs)).state.reached f →
        ∀ A i, A ≠ [] → f.down r A = some i → ¬ b.inSubvolume A → ∃ s, HasPath ts A s ∧
          ((s.typ = 2 ∧ f.isDirAt i = true) ∨ (s.typ = 1 ∧ ∃ x, f.inodes[i]? = some (.file x)) ∨
            (s.typ = 7 ∧ ∃ x, f.inodes[i]? = some (.link x))) := by
  obtain ⟨N, h⟩ := seen_sound hb hm hcr hci
  refine ⟨N, fun rf hrf env D hh hst fuel fs dest r he hs ft si ts ht f hf A i hA hi hns => ?_⟩
  have hu := hs.readable
  rcases (h rf hrf env D hh hst fuel fs dest r he hu f hf).1.kind A i hi with
    ⟨⟨o, d, p, h1, h2⟩, h3⟩ | ⟨o, n, x, ⟨q, h1, h2⟩, h3⟩ | ⟨o, n, x, ⟨q, h1, h2⟩, h3⟩
  · obtain ⟨B, k1, k2⟩ := hs.place he.clean he.ok.ne ht ((hu.placed hb hm).mp h1)
    obtain rfl := k1.names h2
    obtain ⟨-, -, -, -, k3⟩ := k2.resolve_left hns
    obtain ⟨s, k4, k5⟩ := k3 hA
    exact ⟨s, k4, Or.inl ⟨k5, h3⟩⟩
  · obtain ⟨B, k1, k2⟩ := hs.object he.clean he.ok.ne ht ((hu.hasEntry hb hm).mp h1)
    obtain rfl := k1.names h2
    obtain ⟨-, s, k4, k5, -⟩ := k2.resolve_left hns
    exact ⟨s, k4, Or.inr (Or.inl ⟨k5, x, h3⟩)⟩
  · obtain ⟨B, k1, k2⟩ := hs.object he.clean he.ok.ne ht ((hu.hasEntry hb hm).mp h1)
    obtain rfl := k1.names h2
    obtain ⟨-, s, k4, k5, -⟩ := k2.resolve_left hns
    exact ⟨s, k4, Or.inr (Or.inr ⟨k5, x, h3⟩)⟩

/-- C114 (what is proved): `ls --recursive` prints a listing such that at every point of a run of
recover to an empty directory — whatever system calls other than stat(2) fail, also if it is stopped
or killed — everything below the destination, outside the directories `subvol_N`, is in the listing
under the same names, as a directory, file or link. Missing: subvolumes, with which `ls` does
something else, see `C88_subvolume_hangs` and C74, and directories that contain themselves (C65). -/
theorem C114_recovered_is_listed_partial (b : Bucket) (hb : b.WF) (m : Bytes) (hm : b.stores metadataVersionKey m)
    (hcr : b.RangeOK 3 (KL2 228 256)) (hci : b.SeenIntact) (srt : Sorter) (hsrt : SortOK srt) (ft : Time → Bytes) (si : Bool) :
    ∃ N, ∀ rf, N ≤ rf → ∀ env D, Honest env D → (∀ n, env.fails .stat n = false) → ∀ fuel fs dest r,
      EmptyDest fs dest r → LsSameOK b dest →
      ∃ M ts, (∀ rf' fuel', M ≤ rf' → M ≤ fuel' →
          doListFiles rf' fuel' srt ft ⟨b, ~~~0⟩ ⟨true, si⟩ [] = .ok (listingText ts, [])) ∧
        ∀ f, (doRecoverFiles env rf fuel ⟨b, ~~~0⟩ false dest (RecState.start fs)).state.reached f →
        ∀ A i, A ≠ [] → f.down r A = some i → ¬ b.inSubvolume A → ∃ s, HasPath ts A s ∧
          ((s.typ = 2 ∧ f.isDirAt i = true) ∨ (s.typ = 1 ∧ ∃ x, f.inodes[i]? = some (.file x)) ∨
            (s.typ = 7 ∧ ∃ x, f.inodes[i]? = some (.link x))) := by
  obtain ⟨N, h⟩ := recovered_listed hb hm hcr hci
  refine ⟨N, fun rf hrf env D hh hst fuel fs dest r he hs => ?_⟩
  obtain ⟨M, ts, ht, hls⟩ := ((C88_recursive_exact b hb m hm hs.dirs hs.full hs.inodes srt hsrt ft si [] (Or.inl rfl)).resolve_left
    fun h => hs.ends h.1).2
  exact ⟨M, ts, hls, h rf hrf env D hh hst fuel fs dest r he hs ft si ts ht⟩

/-- Whatever is in the listing is recovered. -/
theorem listed_recovered {b : Bucket} (hb : b.WF) {m : Bytes} (hm : b.stores metadataVersionKey m)
    (hcr : b.RangeOK 3 (KL2 228 256)) (hci : b.SeenIntact) (hok : b.RecoverOK) :
    ∃ N, ∀ rf, N ≤ rf → ∀ fuel, N ≤ fuel → ∀ env D, Quiet env D → ∀ fs dest r, EmptyDest fs dest r → LsSameOK b dest →
      b.SeenRecoverable D dest → b.OneParent dest →
      ∃ s', doRecoverFiles env rf fuel ⟨b, ~~~0⟩ false dest (RecState.start fs) = .ok () s' ∧ s'.silent ∧
        ∀ ft si ts, b.ShownTree ft si 5 256 ts → ∀ A s, HasPath ts A s → (∀ n ∈ A, usable n ∧ 92 ∉ n) →
          (s.typ = 2 → s'.fs.stat true (pathOf dest A) = some true) ∧
          (s.typ = 1 → ∃ x size, s'.fs.readFile (pathOf dest A) = some x ∧ b.knownSize 5 s.ino size ∧ b.fileSeen 5 s.ino size D x ∧
            (s.size = some (decimal x.length) ∨ s.size = some [63])) ∧
          (s.typ = 7 → ∃ x, s'.fs.readLink (pathOf dest A) = some x ∧ b.targetSeen 5 s.ino x) := by
  obtain ⟨N, h⟩ := C83_recovers_seen b hb m hm hcr hci hok
  refine ⟨N, fun rf hrf fuel hfu env D hq fs dest r he hs hr hone => ?_⟩
  obtain ⟨s', h1, h2, h3, -⟩ := h rf hrf fuel hfu env D hq fs dest r he hs.readable hr
  refine ⟨s', h1, h2, fun ft si ts ht A s hA hAn => ?_⟩
  obtain ⟨d, q, name, e, cols, k1, k2, k3, k4, k5, k6, k7, k8, k9⟩ := hs.listed hA ht .main hAn
  have hty := hs.plain _ _ _ k2
  obtain ⟨p, g1, -, g2⟩ := h3 5 d q k1
  obtain rfl := hone _ _ _ _ g1 k1
  rw [k9]
  refine ⟨fun h2 => ?_, fun ht1 => ?_, fun ht7 => ?_⟩
  · have hd := Bucket.SeenAt.dir k1 k2 (k3.symm.trans h2) hty k7 k8
    obtain ⟨p', g3, g4, -⟩ := h3 _ _ _ hd
    obtain rfl := hone _ _ _ _ g3 hd
    exact g4
  · obtain ⟨x, size, w1, w2, w3⟩ := (g2 name e k2 hty k7 k8).1 (k3.symm.trans ht1)
    rw [← k4] at w2 w3
    refine ⟨x, size, w1, w2, w3, ?_⟩
    have hsz : s.size = cols[4]? := by
      have hl : cols.length = 6 := by
        rcases k5 with ⟨-, rfl⟩ | ⟨f, tm, -, -, rfl⟩ <;> rfl
      unfold Shown.size
      rw [k6]
      cases si with
      | false => simp [hl]
      | true => simp [hl]
    rw [hsz]
    rcases k5 with ⟨-, rfl⟩ | ⟨f, tm, hf, -, rfl⟩
    · exact Or.inr rfl
    · refine Or.inl ?_
      have hf' : b.inodeSizeIs 5 s.ino f.size := by
        obtain ⟨g, y, rest, f1, f2, f3⟩ := hf
        exact ⟨g, y, f, rest, f1, f2, f3, rfl⟩
      cases size with
      | none =>
        obtain ⟨g, y, rest, f1, -⟩ := hf
        exact absurd ⟨g, f1.1⟩ w2
      | some z =>
        have : z = f.size := inodeSizeIs_unique hb w2.1 hf'
        subst this
        rw [w3.1 _ rfl]
        rfl
  · obtain ⟨x, w1, w2⟩ := (g2 name e k2 hty k7 k8).2 (k3.symm.trans ht7)
    rw [← k4] at w2
    exact ⟨x, w1, w2⟩

/-- C114, the other way: when no system call fails, all that is seen can be recovered and every
directory has one place, recovering to an empty directory ends without a warning, and then
everything in the listing that `ls --recursive` prints is there under the same names (if these are
names a directory entry can have, without backslash): a directory for a directory, a link for a
link, a file for a file — of the size that the listing shows, or a question mark is shown. -/
theorem C114_listed_is_recovered_partial (b : Bucket) (hb : b.WF) (m : Bytes) (hm : b.stores metadataVersionKey m)
    (hcr : b.RangeOK 3 (KL2 228 256)) (hci : b.SeenIntact) (hok : b.RecoverOK) (srt : Sorter) (hsrt : SortOK srt) (ft : Time → Bytes)
    (si : Bool) :
    ∃ N, ∀ rf, N ≤ rf → ∀ fuel, N ≤ fuel → ∀ env D, Quiet env D → ∀ fs dest r, EmptyDest fs dest r → LsSameOK b dest →
      b.SeenRecoverable D dest → b.OneParent dest →
      ∃ s' M ts, doRecoverFiles env rf fuel ⟨b, ~~~0⟩ false dest (RecState.start fs) = .ok () s' ∧ s'.silent ∧
        (∀ rf' fuel', M ≤ rf' → M ≤ fuel' →
          doListFiles rf' fuel' srt ft ⟨b, ~~~0⟩ ⟨true, si⟩ [] = .ok (listingText ts, [])) ∧
        ∀ A s, HasPath ts A s → (∀ n ∈ A, usable n ∧ 92 ∉ n) →
          (s.typ = 2 → s'.fs.stat true (pathOf dest A) = some true) ∧
          (s.typ = 1 → ∃ x size, s'.fs.readFile (pathOf dest A) = some x ∧ b.knownSize 5 s.ino size ∧ b.fileSeen 5 s.ino size D x ∧
            (s.size = some (decimal x.length) ∨ s.size = some [63])) ∧
          (s.typ = 7 → ∃ x, s'.fs.readLink (pathOf dest A) = some x ∧ b.targetSeen 5 s.ino x) := by
  obtain ⟨N, h⟩ := listed_recovered hb hm hcr hci hok
  refine ⟨N, fun rf hrf fuel hfu env D hq fs dest r he hs hr hone => ?_⟩
  obtain ⟨M, ts, ht, hls⟩ := ((C88_recursive_exact b hb m hm hs.dirs hs.full hs.inodes srt hsrt ft si [] (Or.inl rfl)).resolve_left
    fun h => hs.ends h.1).2
  obtain ⟨s', h1, h2, h3⟩ := h rf hrf fuel hfu env D hq fs dest r he hs hr hone
  exact ⟨s', M, ts, h1, h2, hls, h3 ft si ts ht⟩

end Btrfscue
