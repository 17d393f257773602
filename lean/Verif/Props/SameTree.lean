import Verif.Proof.SameTree
import Verif.Props.RecoverSeenEx
/-!
# C109: mount and recover show the same tree
-/

namespace Btrfscue

open Cmd

/-- C109: at every point of a run of recover to an empty directory — whatever system calls other
than stat(2) fail, also if it is stopped or killed — everything below the destination, outside the
directories `subvol_N`, can be looked up under the same path below `rescue` in the mounted file
system, and is a directory in one exactly if it is in the other. -/
theorem C109_recovered_is_shown_partial (b : Bucket) (hb : b.WF) (m : Bytes) (hm : b.stores metadataVersionKey m)
    (hcr : b.RangeOK 3 (KL2 228 256)) (hci : b.SeenIntact) :
    ∃ N, ∀ rf, N ≤ rf → ∀ env D, Honest env D → (∀ n, env.fails .stat n = false) → ∀ fuel fs dest r,
      EmptyDest fs dest r → SameOK b dest →
      ∀ f, (doRecoverFiles env rf fuel ⟨b, ~~~0⟩ false dest (RecState.start fs)).state.reached f →
      ∀ mf, b.length < mf → ∀ A i, A ≠ [] → f.down r A = some i → ¬ b.inSubvolume A →
        ∃ c, MountShows mf ⟨b, ~~~0⟩ A (f.isDirAt i) c := by
  obtain ⟨N, h⟩ := seen_sound hb hm hcr hci
  refine ⟨N, fun rf hrf env D hh hst fuel fs dest r he hs f hf mf hmf A i hA hi hns => ?_⟩
  have hu := hs.readable
  rcases (h rf hrf env D hh hst fuel fs dest r he hu f hf).1.kind A i hi with
    ⟨⟨o, d, p, h1, h2⟩, h3⟩ | ⟨o, n, x, ⟨q, h1, h2⟩, h3⟩ | ⟨o, n, x, ⟨q, h1, h2⟩, h3⟩
  · obtain ⟨B, k1, -, k2⟩ := hs.place hb hm he.clean he.ok.ne hmf ((hu.placed hb hm).mp h1)
    obtain rfl := k1.names h2
    obtain ⟨c, k3, -⟩ := (k2 hA).resolve_left hns
    exact ⟨c, h3 ▸ k3⟩
  · obtain ⟨B, k1, k2⟩ := hs.object hb hm he.clean he.ok.ne hmf ((hu.hasEntry hb hm).mp h1)
    obtain rfl := k1.names h2
    obtain ⟨c, k3, -⟩ := k2.resolve_left hns
    have hnd : f.isDirAt i = false := by
      unfold HostFS.isDirAt
      rw [h3]
    rw [hnd]
    exact ⟨c, k3⟩
  · obtain ⟨B, k1, k2⟩ := hs.object hb hm he.clean he.ok.ne hmf ((hu.hasEntry hb hm).mp h1)
    obtain rfl := k1.names h2
    obtain ⟨c, k3, -⟩ := k2.resolve_left hns
    have hnd : f.isDirAt i = false := by
      unfold HostFS.isDirAt
      rw [h3]
    rw [hnd]
    exact ⟨c, k3⟩

/-- C109: and in the end every file there, unless there was a warning about it, has exactly the
contents seen for the object that the mounted file system shows under the same path, every link
its target. -/
theorem C109_recovered_contents_partial (b : Bucket) (hb : b.WF) (m : Bytes) (hm : b.stores metadataVersionKey m)
    (hcr : b.RangeOK 3 (KL2 228 256)) (hci : b.SeenIntact) :
    ∃ N, ∀ rf, N ≤ rf → ∀ env D, Honest env D → (∀ n, env.fails .stat n = false) → ∀ fuel fs dest r,
      EmptyDest fs dest r → SameOK b dest →
      ∀ s', doRecoverFiles env rf fuel ⟨b, ~~~0⟩ false dest (RecState.start fs) = .ok () s' →
      ∀ mf, b.length < mf → ∀ A i, s'.fs.down r A = some i → ¬ b.inSubvolume A → Ev.warn (pathOf dest A) ∉ s'.log →
        (∀ x, s'.fs.inodes[i]? = some (.file x) → ∃ c, MountShows mf ⟨b, ~~~0⟩ A false c ∧
          ∀ size, b.FileReadable c.owner c.ixInode size → size = none ∨ sized b env c.owner c.ixInode →
            b.fileSeen c.owner c.ixInode size D x) ∧
        (∀ x, s'.fs.inodes[i]? = some (.link x) → ∃ c, MountShows mf ⟨b, ~~~0⟩ A false c ∧
          ∀ y, b.targetSeen c.owner c.ixInode y → x = y) := by
  obtain ⟨N, h⟩ := seen_sound hb hm hcr hci
  obtain ⟨N', h'⟩ := C82_contents_seen b hb m hm hcr hci
  refine ⟨N + N', fun rf hrf env D hh hst fuel fs dest r he hs s' hrun mf hmf A i hi hns hwn => ?_⟩
  have hu := hs.readable
  have hD := hu.distinct hb hm
  have hsh := (h rf (by omega) env D hh hst fuel fs dest r he hu s'.fs (by rw [hrun]; exact Or.inl rfl)).1
  have hnamed : ∃ q, Named dest A q := by
    rcases hsh.kind A i hi with ⟨⟨o, d, p, h1, h2⟩, h3⟩ | ⟨o, n, x, ⟨q, h1, h2⟩, h3⟩ | ⟨o, n, x, ⟨q, h1, h2⟩, h3⟩
    exacts [⟨_, h2⟩, ⟨_, h2⟩, ⟨_, h2⟩]
  obtain ⟨q, hq⟩ := hnamed
  obtain rfl := hq.pathOf he.clean he.ok.ne
  have hshow : ∀ {t o n}, b.ObjectAt dest t o n (pathOf dest A) → ∃ c, MountShows mf ⟨b, ~~~0⟩ A (t == 2) c ∧ c.owner = o ∧ c.ixInode = n := by
    intro t o n ho
    obtain ⟨B, k1, k2⟩ := hs.object hb hm he.clean he.ok.ne hmf ho
    obtain rfl := k1.names hq
    exact k2.resolve_left hns
  obtain ⟨c1, c2⟩ := h' rf (by omega) env D hh hst fuel fs dest r he hu s' hrun A i hi hwn
  refine ⟨fun x hx => ?_, fun x hx => ?_⟩
  · obtain ⟨o, n, k1, k2⟩ := c1 x hx
    obtain ⟨c, k3, rfl, rfl⟩ := hshow k1
    exact ⟨c, k3, k2⟩
  · obtain ⟨o, n, k1, k2⟩ := c2 x hx
    obtain ⟨c, k3, rfl, rfl⟩ := hshow k1
    exact ⟨c, k3, k2⟩

/-- C109, the other way: when no system call fails and all that is seen can be recovered, recovering
to an empty directory ends without a warning, and then every directory shown below `rescue`, reached
by names a directory entry can have and without backslash, has been recovered at one of its places;
in it every regular file shown in that directory, with the contents seen for the object shown, and
every link. -/
theorem C109_shown_is_recovered (b : Bucket) (hb : b.WF) (m : Bytes) (hm : b.stores metadataVersionKey m)
    (hcr : b.RangeOK 3 (KL2 228 256)) (hci : b.SeenIntact) (hok : b.RecoverOK) :
    ∃ N, ∀ rf, N ≤ rf → ∀ fuel, N ≤ fuel → ∀ env D, Quiet env D → ∀ fs dest r, EmptyDest fs dest r → SameOK b dest →
      b.SeenRecoverable D dest →
      ∃ s', doRecoverFiles env rf fuel ⟨b, ~~~0⟩ false dest (RecState.start fs) = .ok () s' ∧ s'.silent ∧
        ∀ mf, b.length < mf → ∀ X n, MountDir mf ⟨b, ~~~0⟩ X n → (∀ x ∈ X, usable x ∧ 92 ∉ x) →
        ∃ p, b.SeenAt dest n.owner n.ixInode p ∧ s'.fs.stat true p = some true ∧
          ∀ name n' c isDir a, n.lookup mf ⟨b, ~~~0⟩ name = .ok (n', .ok (c, isDir, a)) → usable name → 92 ∉ name →
            ∃ e, b.entrySeen n.owner n.ixInode name e ∧ isDir = (e.typ == 2) ∧
              (e.typ = 1 → e.location.typ ≠ 132 → ∃ x size, s'.fs.readFile (goJoin p name) = some x ∧ b.knownSize c.owner c.ixInode size ∧
                b.fileSeen c.owner c.ixInode size D x) ∧
              (e.typ = 7 → e.location.typ ≠ 132 → ∃ x, s'.fs.readLink (goJoin p name) = some x ∧ b.targetSeen c.owner c.ixInode x) := by
  obtain ⟨N, h⟩ := C83_recovers_seen b hb m hm hcr hci hok
  refine ⟨N, fun rf hrf fuel hfu env D hq fs dest r he hs hr => ?_⟩
  have hu := hs.readable
  obtain ⟨s', h1, h2, h3, -⟩ := h rf hrf fuel hfu env D hq fs dest r he hu hr
  refine ⟨s', h1, h2, fun mf hmf X n hX hXn => ?_⟩
  obtain ⟨o, d, p0, hn, hp0⟩ := hs.shown hb hm hmf hX hXn
  obtain ⟨p, k1, k2, k3⟩ := h3 o d p0 hp0
  have ho := hn.owner
  have hi := hn.inode
  refine ⟨p, by rw [ho, hi]; exact k1, k2, fun name n' c isDir a hl hun hb' => ?_⟩
  rw [ho, hi]
  rcases seen_lookup hb hm hs.dirs hs.full hs.inodes (k1.ordinary hu) hmf hn name with ⟨-, k, h⟩ | ⟨e, k, c', a', g1, g2, g3, -⟩
  · rw [h] at hl; cases hl
  · rw [g2] at hl
    simp only [Go.ok.injEq, Prod.mk.injEq, Except.ok.injEq] at hl
    obtain ⟨rfl, rfl, rfl, rfl⟩ := hl
    have hco := g3.owner
    have hci' := g3.inode
    unfold target at hco hci'
    refine ⟨e, g1, rfl, fun ht hty => ?_, fun ht hty => ?_⟩
    · rw [if_neg hty] at hco hci'
      rw [hco, hci']
      exact (k3 name e g1 hty hun hb').1 ht
    · rw [if_neg hty] at hco hci'
      rw [hco, hci']
      exact (k3 name e g1 hty hun hb').2 ht

/-- The hypotheses are met by `exSeen` (for the others see the example for C83): "s" is shown as a
directory, with a file "c" in it. -/
theorem exSeen_same : SameOK exSeen.enc (ascii "/d") where
  dirs := by
    refine dirsOK_of (by decide +kernel) exSeen_intact (by decide +kernel) ?_
    intro e he ho ht
    simp only [exSeen, List.mem_cons, List.not_mem_nil, or_false] at he
    rcases he with rfl | rfl | rfl | rfl | rfl | rfl | rfl | rfl | rfl | rfl | rfl | rfl
    all_goals first
      | exact absurd ht (by decide)
      | exact ⟨_, item_data_mk _ _ (by decide), _, entry_location _ _ _, fun h => absurd h (by decide)⟩
  full := by
    refine dirItem_of ?_
    intro e he ho ht
    simp only [exSeen, List.mem_cons, List.not_mem_nil, or_false] at he
    rcases he with rfl | rfl | rfl | rfl | rfl | rfl | rfl | rfl | rfl | rfl | rfl | rfl
    all_goals first
      | exact absurd ht (by decide)
      | exact ⟨_, item_data_mk _ _ (by decide), entry_whole _ _ _ (by decide)⟩
  inodes o _ ino hk := by
    obtain ⟨g', x, hx⟩ := enc_hasKey.mp hk
    have key : ∀ e ∈ exSeen, e.1.key.typ = 1 → e.1.owner = 5 ∧ e.1.gen = 9 ∧ e.2 = mkItem e.1.key (exInode 6).layout ∧
        ∀ e' ∈ exSeen, e'.1.owner = e.1.owner → e'.1.key = e.1.key → e'.1.gen = 9 := by decide +kernel
    obtain ⟨h1, h2, h3, h4⟩ := key _ hx rfl
    simp only at h1 h2 h3 h4
    subst h1 h2
    refine ⟨9, x, exInode 6, [], ⟨enc_hasVersion.mpr ⟨x, hx⟩, fun g hg => ?_⟩, enc_stores.mpr hx, ?_⟩
    · obtain ⟨y, hy⟩ := enc_hasVersion.mp hg
      have := h4 _ hy rfl rfl
      simp only at this
      rw [this]; exact UInt64.le_refl _
    · rw [h3, List.append_nil]
      exact mkItem_holds _ _ (by simp [InodeItemRec.layout, exInode])
  trees o d name e he ht := by
    rcases exSeen_entries he with ⟨-, -, -, rfl⟩ | ⟨-, -, -, rfl⟩ <;> exact absurd ht (by decide)
  present o d name e he := by
    rcases exSeen_entries he with ⟨rfl, -, -, rfl⟩ | ⟨rfl, -, -, rfl⟩
    · exact enc_hasKey.mpr ⟨9, mkItem ⟨258, 1, 0⟩ (exInode 6).layout, by decide +kernel⟩
    · exact enc_hasKey.mpr ⟨9, mkItem ⟨257, 1, 0⟩ (exInode 6).layout, by decide +kernel⟩
  readable := exSeen_readable

example : ∃ c, MountShows 14 ⟨exSeen.enc, ~~~0⟩ [[115], [99]] false c ∧ c.owner = 5 ∧ c.ixInode = 257 := by
  have hs : exSeen.enc.SeenAt (ascii "/d") 5 258 (goJoin (ascii "/d") [115]) :=
    .dir .main exSeen_s rfl (by decide) (by refine ⟨?_, ?_, ?_⟩ <;> decide) (by decide)
  obtain ⟨n, c, a, h1, h2⟩ := exSeen_same.found exSeen_wf exSeen_meta .main (fuel := 14) (by decide +kernel) (nodeOK_fresh _ _ _ _) exSeen_s
  obtain ⟨n', c', a', h3, h4⟩ := exSeen_same.found exSeen_wf exSeen_meta hs (fuel := 14) (by decide +kernel) h2 exSeen_c
  exact ⟨c', ⟨[[115]], [99], c, n', a', rfl, .down (.top mountTop_rescue) h1, h3⟩, h4.owner, h4.inode⟩

/-- `exSeen` without the inode items. -/
def exNoInodes : AStore := exSeen.filter fun e => e.1.key.typ ≠ 1

/-- C109 (and C52) is false of the code when the inode item of something is lost: the mounted file
system lists the directory "s", but looking it up fails — with ENOATTR, so nothing below it can be
reached —, whereas recover recovers it, and the file in it, without a warning. -/
theorem C109_no_inode_refuted :
    exNoInodes.Sorted ∧ exNoInodes.enc.newest 5 ⟨256, 84, (NameHash [115]).toUInt64⟩ 10 ∧
    ((newRescueNode 5 256).openDir 9 id ⟨exNoInodes.enc, ~~~0⟩ >>= fun r => pure r.2) = .ok [([115], true)] ∧
    ((newRescueNode 5 256).lookup 9 ⟨exNoInodes.enc, ~~~0⟩ [115] >>= fun r => pure (r.2.map fun c => c.2.2)) = .ok (.ok (.error .ENOATTR)) ∧
    ∃ s', doRecoverFiles (imageEnv [4, 5, 6, 7]) 30 9 ⟨exNoInodes.enc, ~~~0⟩ false (ascii "/d") (RecState.start exEmptyDir) = .ok () s' ∧
      s'.silent ∧ s'.fs.readFile (ascii "/d/s/c") = some [1, 2, 4, 5, 6, 7] := by
  refine ⟨sorted_of_before (by decide +kernel), newest_of (x := mkItem ⟨256, 84, (NameHash [115]).toUInt64⟩ (exEntry ⟨258, 1, 0⟩ 2 [115]))
    (by decide +kernel) (by decide +kernel), by decide +kernel, by decide +kernel, ?_⟩
  obtain ⟨s, h1, h2⟩ := silent_of (o := doRecoverFiles (imageEnv [4, 5, 6, 7]) 30 9 ⟨exNoInodes.enc, ~~~0⟩ false (ascii "/d")
    (RecState.start exEmptyDir)) (by decide +kernel)
  have h3 : (doRecoverFiles (imageEnv [4, 5, 6, 7]) 30 9 ⟨exNoInodes.enc, ~~~0⟩ false (ascii "/d") (RecState.start exEmptyDir)).state.fs.readFile
      (ascii "/d/s/c") = some [1, 2, 4, 5, 6, 7] := by decide +kernel
  rw [h1] at h3
  exact ⟨s, h1, h2, h3⟩

end Btrfscue
