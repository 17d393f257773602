import Verif.Proof.More
import Verif.Props.RecoverSeenEx
/-!
# C113: more metadata never means fewer files
-/

namespace Btrfscue

open Cmd

/-- What the two runs leave, given what each is known to leave: everything of the first is in the second. -/
theorem more_core {b b' : Bucket} (hb' : b'.WF) {m' : Bytes} (hm' : b'.stores metadataVersionKey m')
    (hcr' : b'.RangeOK 3 (KL2 228 256)) (hci' : b'.SeenIntact) (h : b.MoreObjects b') {D dest : Bytes} {r : Nat}
    (hr' : b'.SeenRecoverable D dest) (hone : b'.OneParent dest) {s s' : HostFS}
    (k3 : ∀ A i, s.down r A = some i →
          (s.isDirAt i = true ∧ ∃ o d, b.SeenAt dest o d (pathOf dest A)) ∨
          (∃ x o n size, s.inodes[i]? = some (.file x) ∧ b.ObjectAt dest 1 o n (pathOf dest A) ∧ b.knownSize o n size ∧
            b.fileSeen o n size D x) ∨
          ∃ x o n, s.inodes[i]? = some (.link x) ∧ b.ObjectAt dest 7 o n (pathOf dest A) ∧ b.targetSeen o n x)
    (l3 : ∀ o d p0, b'.SeenAt dest o d p0 → ∃ p, b'.SeenAt dest o d p ∧ s'.stat true p = some true ∧
        ∀ name e, b'.entrySeen o d name e → e.location.typ ≠ 132 → usable name → 92 ∉ name →
          (e.typ = 1 → ∀ size, b'.FileReadable o e.location.objectID size →
            ∃ x, s'.readFile (goJoin p name) = some x ∧ b'.fileSeen o e.location.objectID size D x) ∧
          (e.typ = 7 → ∀ x, b'.targetSeen o e.location.objectID x → s'.readLink (goJoin p name) = some x)) :
    ∀ A i, s.down r A = some i →
          (s.isDirAt i = true → s'.stat true (pathOf dest A) = some true) ∧
          (∀ x, s.inodes[i]? = some (.file x) → ∃ y, s'.readFile (pathOf dest A) = some y ∧ (x ≠ [] → y = x)) ∧
          (∀ x, s.inodes[i]? = some (.link x) → s'.readLink (pathOf dest A) = some x) := by
  obtain ⟨N4, map, hM⟩ := placeOK hb' hm' hcr' hci'
  intro A i hi
  have hdir := fun o d p (hp : b.SeenAt dest o d p) =>
    have hx := l3 o d p (h.seenAt hp)
    have hw := hx.choose_spec
    (hone o d p hx.choose (h.seenAt hp) hw.1 ▸ hw.2 : s'.stat true p = some true ∧
      ∀ name e, b'.entrySeen o d name e → e.location.typ ≠ 132 → usable name → 92 ∉ name →
        (e.typ = 1 → ∀ size, b'.FileReadable o e.location.objectID size →
          ∃ x, s'.readFile (goJoin p name) = some x ∧ b'.fileSeen o e.location.objectID size D x) ∧
        (e.typ = 7 → ∀ x, b'.targetSeen o e.location.objectID x → s'.readLink (goJoin p name) = some x))
  rcases k3 A i hi with ⟨g1, o, d, g2⟩ | ⟨x, o, n, size, g1, g2, g3, g4⟩ | ⟨x, o, n, g1, g2, g3⟩
  · obtain ⟨es, par, hd⟩ := isDirAt_iff.mp g1
    refine ⟨fun _ => (hdir o d _ g2).1, fun x hx => ?_, fun x hx => ?_⟩
    all_goals rw [hd] at hx; cases hx
  · refine ⟨fun hc => ?_, fun y hy => ?_, fun y hy => ?_⟩
    · obtain ⟨es, par, hd⟩ := isDirAt_iff.mp hc
      rw [hd] at g1; cases g1
    · rw [g1] at hy
      cases hy
      obtain ⟨d, p, name, e, q1, q2, q3, q4, rfl, q6, q7, q8⟩ := g2
      have q9 := h.seenAt q1
      have q10 := h.entrySeen q2
      obtain ⟨-, -, size', hf⟩ := hr'.files o e.location.objectID (goJoin p name) ⟨d, p, name, e, q9, q10, q3, q4, rfl, q6, q7, rfl⟩
      obtain ⟨y, w1, w2⟩ := ((hdir o d p q1).2 name e q10 q4 q6 q7).1 q3 size' hf
      refine ⟨y, q8 ▸ w1, fun hx => ?_⟩
      have hk := object_of_fileSeen g3 g4 hx
      obtain rfl := knownSize_unique hb' hm' hf.range.ordinary hf.size ((h.knownSize_iff hk).mpr g3)
      exact fileSeen_unique hb' hM w2 (h.fileSeen hk g4)
    · rw [g1] at hy; cases hy
  · refine ⟨fun hc => ?_, fun y hy => ?_, fun y hy => ?_⟩
    · obtain ⟨es, par, hd⟩ := isDirAt_iff.mp hc
      rw [hd] at g1; cases g1
    · rw [g1] at hy; cases hy
    · rw [g1] at hy
      cases hy
      obtain ⟨d, p, name, e, q1, q2, q3, q4, rfl, q6, q7, q8⟩ := g2
      have := ((hdir o d p q1).2 name e (h.entrySeen q2) q4 q6 q7).2 q3 x (h.targetSeen g3)
      exact q8 ▸ this

/-- C113: if an index `b'` has, besides all that is in `b`, only items of objects of which `b` has none, both are undamaged, no
system call fails and every directory has one place, then recovering from `b'` recovers everything that
recovering from `b` does: every directory, every link with the same target, every file with the same
contents — except that a file which was empty may now have contents. (That the directories can be read
need only be known of `b'`.) -/
theorem C113_more_is_more_partial (b b' : Bucket) (hb : b.WF) (hb' : b'.WF) (m m' : Bytes) (hm : b.stores metadataVersionKey m)
    (hm' : b'.stores metadataVersionKey m') (hcr : b.RangeOK 3 (KL2 228 256)) (hcr' : b'.RangeOK 3 (KL2 228 256))
    (hci' : b'.SeenIntact) (hok : b.RecoverOK) (hok' : b'.RecoverOK) (h : b.MoreObjects b') :
    ∃ N, ∀ rf, N ≤ rf → ∀ fuel, N ≤ fuel → ∀ env D, Quiet env D → ∀ fs dest r, EmptyDest fs dest r →
      b'.TreeReadable dest → b.SeenRecoverable D dest → b'.SeenRecoverable D dest → b'.OneParent dest →
      ∃ s s', doRecoverFiles env rf fuel ⟨b, ~~~0⟩ false dest (RecState.start fs) = .ok () s ∧ s.silent ∧
        doRecoverFiles env rf fuel ⟨b', ~~~0⟩ false dest (RecState.start fs) = .ok () s' ∧ s'.silent ∧
        ∀ A i, s.fs.down r A = some i →
          (s.fs.isDirAt i = true → s'.fs.stat true (pathOf dest A) = some true) ∧
          (∀ x, s.fs.inodes[i]? = some (.file x) → ∃ y, s'.fs.readFile (pathOf dest A) = some y ∧ (x ≠ [] → y = x)) ∧
          (∀ x, s.fs.inodes[i]? = some (.link x) → s'.fs.readLink (pathOf dest A) = some x) := by
  have hci : b.SeenIntact := fun start g k1 k2 => by
    have hk : b.hasObject 3 256 := ⟨_, _, _, k2⟩
    obtain ⟨c, ss, x, d, r, k1, k2⟩ := hci' start g ((h.runVersion_iff hk).mpr k1) ((h.hasVersion_iff hk).mpr k2)
    exact ⟨c, ss, x, d, r, (h.stores_iff hk).mp k1, k2⟩
  obtain ⟨N1, h1⟩ := C83_recovers_seen b hb m hm hcr hci hok
  obtain ⟨N2, h2⟩ := C83_recovers_seen b' hb' m' hm' hcr' hci' hok'
  obtain ⟨N3, h3⟩ := C81_everything_seen b' hb' m' hm' hcr' hci'
  refine ⟨N1 + N2 + N3, fun rf hrf fuel hfuel env D hq fs dest r he hu' hr hr' hone => ?_⟩
  have hu := h.readable hu' hok hcr
  obtain ⟨s, k1, k2, -, k3⟩ := h1 rf (by omega) fuel (by omega) env D hq fs dest r he hu hr
  obtain ⟨s', l1, l2, -, -⟩ := h2 rf (by omega) fuel (by omega) env D hq fs dest r he hu' hr'
  have l3 := h3 rf (by omega) env D hq.honest (fun n => hq.calls .stat n) fuel fs dest r he hu' s' l1 l2
  refine ⟨s, s', k1, k2, l1, l2, ?_⟩
  refine more_core hb' hm' hcr' hci' h hr' hone k3 fun o d p0 hp => ?_
  obtain ⟨p, q1, q2, q3⟩ := l3 o d p0 hp
  exact ⟨p, q1, q2, fun name e w1 w2 w3 w4 => ⟨fun w5 size w6 => ((q3 name e w1 w2 w3 w4).1 w5 size w6
    (Or.inr (Or.inr fun n => hq.calls .truncate n))), (q3 name e w1 w2 w3 w4).2⟩⟩

/-- A top directory of generation 10 with the files "s" and "a". -/
def exFewer : AStore :=
  [(⟨5, ⟨257, 1, 0⟩, 9⟩, mkItem ⟨257, 1, 0⟩ (exInode 3).layout),
   (⟨5, ⟨258, 1, 0⟩, 9⟩, mkItem ⟨258, 1, 0⟩ (exInode 3).layout),
   (⟨5, ⟨256, 84, (NameHash [115]).toUInt64⟩, 10⟩, mkItem ⟨256, 84, (NameHash [115]).toUInt64⟩ (exEntry ⟨258, 1, 0⟩ 1 [115])),
   (⟨5, ⟨256, 84, (NameHash [97]).toUInt64⟩, 10⟩, mkItem ⟨256, 84, (NameHash [97]).toUInt64⟩ (exEntry ⟨257, 1, 0⟩ 1 [97])),
   (⟨5, ⟨257, 108, 0⟩, 10⟩, mkItem ⟨257, 108, 0⟩ (exInline 3 [1, 2, 3])),
   (⟨5, ⟨258, 108, 0⟩, 10⟩, mkItem ⟨258, 108, 0⟩ (exInline 3 [4, 5, 6])),
   (⟨5, ⟨258, 132, 0⟩, 10⟩, mkItem ⟨258, 132, 0⟩ []),
   (metadataVersionKey, [])]

/-- The same, and a newer version of the entry "s", as if the node it is in had been written again. -/
def exNewer : AStore :=
  [(⟨5, ⟨257, 1, 0⟩, 9⟩, mkItem ⟨257, 1, 0⟩ (exInode 3).layout),
   (⟨5, ⟨258, 1, 0⟩, 9⟩, mkItem ⟨258, 1, 0⟩ (exInode 3).layout),
   (⟨5, ⟨256, 84, (NameHash [115]).toUInt64⟩, 10⟩, mkItem ⟨256, 84, (NameHash [115]).toUInt64⟩ (exEntry ⟨258, 1, 0⟩ 1 [115])),
   (⟨5, ⟨256, 84, (NameHash [115]).toUInt64⟩, 12⟩, mkItem ⟨256, 84, (NameHash [115]).toUInt64⟩ (exEntry ⟨258, 1, 0⟩ 1 [115])),
   (⟨5, ⟨256, 84, (NameHash [97]).toUInt64⟩, 10⟩, mkItem ⟨256, 84, (NameHash [97]).toUInt64⟩ (exEntry ⟨257, 1, 0⟩ 1 [97])),
   (⟨5, ⟨257, 108, 0⟩, 10⟩, mkItem ⟨257, 108, 0⟩ (exInline 3 [1, 2, 3])),
   (⟨5, ⟨258, 108, 0⟩, 10⟩, mkItem ⟨258, 108, 0⟩ (exInline 3 [4, 5, 6])),
   (⟨5, ⟨258, 132, 0⟩, 10⟩, mkItem ⟨258, 132, 0⟩ []),
   (metadataVersionKey, [])]

/-- C113 is false of the code: of two indexes that differ only in that the second has a newer version of one
entry of the top directory too, recovering from the first gives both files, recovering from the second
only the one whose entry is in the newer version; in both cases without a warning. -/
theorem C113_newer_version_loses_files :
    exFewer.enc.WF ∧ exNewer.enc.WF ∧ exFewer.enc.stores metadataVersionKey [] ∧ exNewer.enc.stores metadataVersionKey [] ∧
    exFewer.enc.Within exNewer.enc ∧
    (∃ s, doRecoverFiles quietEnv 30 9 ⟨exFewer.enc, ~~~0⟩ false (ascii "/d") (RecState.start exEmptyDir) = .ok () s ∧ s.silent ∧
      s.fs.readFile (ascii "/d/a") = some [1, 2, 3] ∧ s.fs.readFile (ascii "/d/s") = some [4, 5, 6]) ∧
    ∃ s, doRecoverFiles quietEnv 30 9 ⟨exNewer.enc, ~~~0⟩ false (ascii "/d") (RecState.start exEmptyDir) = .ok () s ∧ s.silent ∧
      s.fs.stat false (ascii "/d/a") = none ∧ s.fs.readFile (ascii "/d/s") = some [4, 5, 6] := by
  refine ⟨AStore.enc_wf (sorted_of_before (by decide +kernel)), AStore.enc_wf (sorted_of_before (by decide +kernel)),
    enc_stores.mpr (by simp [exFewer]), enc_stores.mpr (by simp [exNewer]), fun v x hv => ?_, ?_, ?_⟩
  · have hv := enc_stores.mp hv
    refine enc_stores.mpr ?_
    have : ∀ e ∈ exFewer, e ∈ exNewer := by decide +kernel
    exact this _ hv
  · obtain ⟨s, h1, h2⟩ := silent_of (o := doRecoverFiles quietEnv 30 9 ⟨exFewer.enc, ~~~0⟩ false (ascii "/d")
      (RecState.start exEmptyDir)) (by decide +kernel)
    have h3 : (doRecoverFiles quietEnv 30 9 ⟨exFewer.enc, ~~~0⟩ false (ascii "/d") (RecState.start exEmptyDir)).state.fs.readFile
        (ascii "/d/a") = some [1, 2, 3] := by decide +kernel
    have h4 : (doRecoverFiles quietEnv 30 9 ⟨exFewer.enc, ~~~0⟩ false (ascii "/d") (RecState.start exEmptyDir)).state.fs.readFile
        (ascii "/d/s") = some [4, 5, 6] := by decide +kernel
    rw [h1] at h3 h4
    exact ⟨s, h1, h2, h3, h4⟩
  · obtain ⟨s, h1, h2⟩ := silent_of (o := doRecoverFiles quietEnv 30 9 ⟨exNewer.enc, ~~~0⟩ false (ascii "/d")
      (RecState.start exEmptyDir)) (by decide +kernel)
    have h3 : (doRecoverFiles quietEnv 30 9 ⟨exNewer.enc, ~~~0⟩ false (ascii "/d") (RecState.start exEmptyDir)).state.fs.stat false
        (ascii "/d/a") = none := by decide +kernel
    have h4 : (doRecoverFiles quietEnv 30 9 ⟨exNewer.enc, ~~~0⟩ false (ascii "/d") (RecState.start exEmptyDir)).state.fs.readFile
        (ascii "/d/s") = some [4, 5, 6] := by decide +kernel
    rw [h1] at h3 h4
    exact ⟨s, h1, h2, h3, h4⟩

/-- `exSeen` without the file that is "c". -/
def exNoFile : AStore :=
  [(⟨3, ⟨1, 216, 1⟩, 7⟩, mkItem ⟨1, 216, 1⟩ []),
   (⟨3, ⟨256, 228, 16⟩, 7⟩, exChunk 16 64 1 0),
   (⟨3, ⟨257, 229, 0⟩, 7⟩, mkItem ⟨257, 229, 0⟩ []),
   (⟨5, ⟨258, 1, 0⟩, 9⟩, mkItem ⟨258, 1, 0⟩ (exInode 6).layout),
   (⟨5, ⟨256, 84, (NameHash [115]).toUInt64⟩, 10⟩, mkItem ⟨256, 84, (NameHash [115]).toUInt64⟩ (exEntry ⟨258, 1, 0⟩ 2 [115])),
   (⟨5, ⟨256, 84, (NameHash [97]).toUInt64⟩, 12⟩, mkItem ⟨256, 84, (NameHash [97]).toUInt64⟩ (exEntry ⟨257, 1, 0⟩ 1 [97])),
   (⟨5, ⟨258, 84, (NameHash [99]).toUInt64⟩, 13⟩, mkItem ⟨258, 84, (NameHash [99]).toUInt64⟩ (exEntry ⟨257, 1, 0⟩ 1 [99])),
   (⟨5, ⟨258, 132, 0⟩, 10⟩, mkItem ⟨258, 132, 0⟩ []),
   (metadataVersionKey, [])]

theorem exNoFile_more : exNoFile.enc.MoreObjects exSeen.enc where
  within v x hv := by
    have : ∀ e ∈ exNoFile, e ∈ exSeen := by decide +kernel
    exact enc_stores.mpr (this _ (enc_stores.mp hv))
  objects o id t off g x hk hv := by
    obtain ⟨t', off', g', x', hk⟩ := hk
    have hk := enc_stores.mp hk
    have h1 : ∀ e ∈ exNoFile, ¬ (e.1.owner = 5 ∧ e.1.key.objectID = 257) := by decide +kernel
    have h2 : ∀ e ∈ exSeen, e ∈ exNoFile ∨ (e.1.owner = 5 ∧ e.1.key.objectID = 257) := by decide +kernel
    exact enc_stores.mpr ((h2 _ (enc_stores.mp hv)).resolve_right fun h => h1 _ hk h)
  roots id off g x hv := by
    have : ∀ e ∈ exSeen, e.1.owner ≠ 1 := by decide +kernel
    exact absurd rfl (this _ (enc_stores.mp hv))

theorem exNoFile_range (o : UInt64) (last : Key) (ho : o ≠ ~~~0) (hc : ∃ e ∈ exNoFile, e.1.owner = o ∧ last.before e.1.key) :
    exNoFile.enc.RangeOK o last :=
  rangeOK_of ho (fun e he h => exSeen_intact e ((by decide +kernel : ∀ e ∈ exNoFile, e ∈ exSeen) e he) (h ▸ ho))
    (fun e he h => (by decide +kernel : ∀ e ∈ exNoFile, e.1.owner ≠ ~~~0 → e.1.gen ≠ ~~~0 ∧ e.1.key ≠ KL0) e he (h ▸ ho)) hc

theorem exNoFile_range5 {t : UInt8} (i : UInt64) (ht : t.toNat < 132) : exNoFile.enc.RangeOK 5 (KL2 t i) := by
  refine exNoFile_range _ _ (by decide) ⟨(⟨5, ⟨258, 132, 0⟩, 10⟩, mkItem ⟨258, 132, 0⟩ []), by decide +kernel, rfl, ?_⟩
  simp only [Key.before, Key.fields, KL2, lexLt]
  exact Or.inl ht

theorem exNoFile_ends : exNoFile.enc.RecoverOK where
  dirs o d off hk := by
    obtain ⟨g, x, hx⟩ := enc_hasKey.mp hk
    have : ∀ e ∈ exNoFile, e.1.key.typ = 84 → e.1.owner = 5 := by decide +kernel
    obtain rfl := this _ hx rfl
    exact exNoFile_range5 d (by decide)
  extents o d off hk := by
    obtain ⟨g, x, hx⟩ := enc_hasKey.mp hk
    have : ∀ e ∈ exNoFile, e.1.key.typ ≠ 108 := by decide +kernel
    exact absurd rfl (this _ hx)
  chunks _ _ := exNoFile_range _ _ (by decide) (by decide +kernel)
  subvolumes off hk := by
    obtain ⟨g, x, hx⟩ := enc_hasKey.mp hk
    have : ∀ e ∈ exNoFile, e.1.owner ≠ 1 := by decide +kernel
    exact absurd rfl (this _ hx)

theorem exNoFile_recoverable {D : Bytes} : exNoFile.enc.SeenRecoverable D (ascii "/d") where
  destName := by decide
  dirs o d p hp := by
    rcases (exSeen_places (exNoFile_more.seenAt hp)).2 with ⟨-, rfl⟩ | ⟨-, rfl⟩ <;> decide +kernel
  files o i q h := by
    have h0 : exSeen.enc.ObjectAt (ascii "/d") 1 o i q := by
      obtain ⟨d, p, name, e, h1, h2, h3⟩ := h
      exact ⟨d, p, name, e, exNoFile_more.seenAt h1, exNoFile_more.entrySeen h2, h3⟩
    obtain ⟨h1, h2⟩ := exSeen_object h0
    obtain ⟨-, rfl, rfl⟩ := h1.resolve_left (by decide)
    have hno : ∀ t off, ¬ exNoFile.enc.hasKey 5 ⟨257, t, off⟩ := by
      intro t off hk
      obtain ⟨g, x, hx⟩ := enc_hasKey.mp hk
      have : ∀ e ∈ exNoFile, ¬ (e.1.owner = 5 ∧ e.1.key.objectID = 257) := by decide +kernel
      exact this _ hx ⟨rfl, rfl⟩
    have hp : ∀ off p, ¬ exNoFile.enc.pieceSeen 5 257 off p := fun off p ⟨g, x, d, _, hx, _⟩ => hno _ _ ⟨g, x, hx⟩
    exact ⟨h2, fun off f dev phys h3 => absurd h3 (hp _ _), none, exNoFile_range5 257 (by decide), fun off g _ hv => absurd ⟨g, hv⟩ (hno _ _),
      ⟨fun off p h => absurd h (hp _ _), fun off f h => absurd h (hp _ _), fun off f dev phys h => absurd h (hp _ _)⟩, hno _ _⟩
  links o i q h := by
    have h0 : exSeen.enc.ObjectAt (ascii "/d") 7 o i q := by
      obtain ⟨d, p, name, e, h1, h2, h3⟩ := h
      exact ⟨d, p, name, e, exNoFile_more.seenAt h1, exNoFile_more.entrySeen h2, h3⟩
    rcases (exSeen_object h0).1 with h1 | ⟨h1, -⟩ <;> exact absurd h1 (by decide)

/-- The hypotheses of `C113_more_is_more_partial` are met. The file "c" of the directory "s" is recovered from both, first
empty, then with its contents. -/
example : exNoFile.enc.WF ∧ exNoFile.enc.stores metadataVersionKey [] ∧ exNoFile.enc.RangeOK 3 (KL2 228 256) ∧ exNoFile.enc.RecoverOK ∧
    exNoFile.enc.SeenRecoverable [4, 5, 6, 7] (ascii "/d") ∧ exNoFile.enc.MoreObjects exSeen.enc ∧
    exSeen.enc.WF ∧ exSeen.enc.stores metadataVersionKey [] ∧ exSeen.enc.RangeOK 3 (KL2 228 256) ∧ exSeen.enc.SeenIntact ∧ exSeen.enc.RecoverOK ∧
    exSeen.enc.TreeReadable (ascii "/d") ∧ exSeen.enc.SeenRecoverable [4, 5, 6, 7] (ascii "/d") ∧ exSeen.enc.OneParent (ascii "/d") ∧
    Quiet (imageEnv [4, 5, 6, 7]) [4, 5, 6, 7] ∧ EmptyDest exEmptyDir (ascii "/d") 1 ∧
    (doRecoverFiles (imageEnv [4, 5, 6, 7]) 30 9 ⟨exNoFile.enc, ~~~0⟩ false (ascii "/d") (RecState.start exEmptyDir)).state.fs.readFile
      (ascii "/d/s/c") = some [] ∧
    (doRecoverFiles (imageEnv [4, 5, 6, 7]) 30 9 ⟨exSeen.enc, ~~~0⟩ false (ascii "/d") (RecState.start exEmptyDir)).state.fs.readFile
      (ascii "/d/s/c") = some [1, 2, 4, 5, 6, 7] := by
  refine ⟨AStore.enc_wf (sorted_of_before (by decide +kernel)), enc_stores.mpr (by simp [exNoFile]), exNoFile_range _ _ (by decide) (by decide +kernel),
    exNoFile_ends, exNoFile_recoverable, exNoFile_more, exSeen_wf, exSeen_meta, exSeen_range3, exSeen_chunks, exSeen_ends, exSeen_readable,
    exSeen_recoverable (by decide), fun o d p p' h h' => ?_, ⟨fun _ _ => rfl, fun _ => rfl⟩, exEmptyDir_ok, by decide +kernel, by decide +kernel⟩
  rcases (exSeen_places h).2 with ⟨rfl, rfl⟩ | ⟨rfl, rfl⟩ <;> rcases (exSeen_places h').2 with ⟨hd, rfl⟩ | ⟨hd, rfl⟩
  · rfl
  · exact absurd hd (by decide)
  · exact absurd hd (by decide)
  · rfl

end Btrfscue
