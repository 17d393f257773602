import Verif.Props.PathSame
import Verif.Props.MountImage
import Verif.Props.LsRecoverEx
/-!
# C115: examples and refutations
-/

namespace Btrfscue

theorem exAll_slice {o dir off g : UInt64} {x : Bytes} {d : Slice} {name : Bytes} {e : DirItemRec}
    (h1 : exAll.enc.stores ⟨o, ⟨dir, 84, off⟩, g⟩ x) (h2 : Item.data ⟨x, []⟩ = .ok d) (h3 : startsEntry (Slice.data d) name e) :
    (o, dir, name, e.typ, e.location) ∈ exAllEntries ∧ off = (NameHash name).toUInt64 := by
  obtain ⟨n, t, loc, k1, k2, k3⟩ := exAll_entry_of _ (enc_stores.mp h1) rfl
  simp only at k1 k2 k3
  have hn := exAllEntries_short _ k1
  simp only at hn
  rw [k2, item_data_mk _ _ (by simp [exEntry, DirItemRec.layout]; omega)] at h2
  obtain rfl := Go.ok.inj h2
  have h4 : startsEntry (Slice.data ⟨exEntry loc t n, []⟩) n ⟨loc, 7, 0, UInt16.ofNat n.length, t⟩ :=
    ⟨[], by simp [exEntry], by rw [UInt16.toNat_ofNat']; omega⟩
  obtain ⟨rfl, rfl⟩ := startsEntry_unique h3 h4
  exact ⟨k1, k3⟩

theorem exAll_pathSame : exAll.enc.PathSameOK where
  dirs := by
    refine dirsOK_of (by decide +kernel) exAll_intact (by decide +kernel) fun e he ho ht => ?_
    obtain ⟨n, t, loc, k1, k2, k3⟩ := exAll_entry_of e he ht
    have hn := exAllEntries_short _ k1
    simp only at hn
    refine ⟨_, by rw [k2]; exact item_data_mk _ _ (by simp [exEntry, DirItemRec.layout]; omega), _, entry_location _ _ _, fun _ => ?_⟩
    have : ∀ x ∈ exAllEntries, x.2.2.2.2.objectID ≠ ~~~0 := by decide
    exact this _ k1
  full := by
    refine dirItem_of fun e he ho ht => ?_
    obtain ⟨n, t, loc, k1, k2, k3⟩ := exAll_entry_of e he ht
    have hn := exAllEntries_short _ k1
    simp only at hn
    exact ⟨_, by rw [k2]; exact item_data_mk _ _ (by simp [exEntry, DirItemRec.layout]; omega), entry_whole _ _ _ hn⟩
  inodes o ho ino hk := by
    obtain ⟨f, g, x, rest, h⟩ := exAll_mountable.inodes o ho ino hk
    exact ⟨g, x, f, rest, h⟩
  hashed o dir name e d vs ho hu hv := by
    obtain ⟨g, x, h1, h2, h3, h4⟩ := hu
    refine ⟨(NameHash name).toUInt64, (hv.2 _ _).mpr ⟨g, x, ?_, h2, h3⟩⟩
    obtain ⟨g', hg'⟩ := exAll_undamaged.dirs o dir
    have hkey : exAll.enc.hasKey o ⟨dir, 84, (NameHash name).toUInt64⟩ := ⟨g, x, h2⟩
    obtain rfl := newest_unique h1 (hg' _ hkey).1
    have hmin : ∃ off0, exAll.enc.hasKey o ⟨dir, 84, off0⟩ ∧ ∀ off', exAll.enc.hasKey o ⟨dir, 84, off'⟩ → off0 ≤ off' := by
      have key : ∀ y ∈ exAllEntries, ∃ z ∈ exAllEntries, z.1 = y.1 ∧ z.2.1 = y.2.1 ∧
          ∀ w ∈ exAllEntries, w.1 = y.1 → w.2.1 = y.2.1 → (NameHash z.2.2.1).toUInt64 ≤ (NameHash w.2.2.1).toUInt64 := by decide +kernel
      obtain ⟨⟨zo, zd, zn, zt, zl⟩, z1, z2, z3, z4⟩ := key _ (exAll_slice h2 h3 h4).1
      simp only at z2 z3 z4
      subst z2 z3
      obtain ⟨e', he', -, -⟩ := entry_of_mem z1
      obtain ⟨gz, xz, pz, w1, w2, -⟩ := (exAll_undamaged.entry (AStore.enc_wf exAll_sorted)).mp he'
      refine ⟨(NameHash zn).toUInt64, ⟨gz, xz, w2⟩, fun off' hk => ?_⟩
      obtain ⟨g2, x2, hx2⟩ := enc_hasKey.mp hk
      obtain ⟨n, t, loc, k1, k2, k3⟩ := exAll_entry_of _ hx2 rfl
      simp only at k1 k3
      have hz := z4 (_, _, n, t, loc) k1 rfl rfl
      simp only at hz
      rw [k3]
      exact hz
    obtain ⟨off0, m1, m2⟩ := hmin
    exact ⟨⟨off0, (hg' _ m1).1, m2⟩, fun off' hk _ => (hg' _ hk).1.1⟩
  single o dir vs name off d e off' d' e' ho hv h1 h2 h3 h4 := by
    obtain ⟨g, x, -, k1, k2⟩ := (hv.2 _ _).mp h1
    obtain ⟨g', x', -, k1', k2'⟩ := (hv.2 _ _).mp h3
    rw [(exAll_slice k1 k2 h2).2, (exAll_slice k1' k2' h4).2]
  present o dir vs name off d e ho hv h1 h2 := by
    obtain ⟨g, x, -, k1, k2⟩ := (hv.2 _ _).mp h1
    have : ∀ x ∈ exAllEntries, ∃ y ∈ exAll, y.1.owner = (target x.1 x.2.2.2.2).1 ∧ y.1.key = ⟨(target x.1 x.2.2.2.2).2, 1, 0⟩ := by decide +kernel
    obtain ⟨⟨⟨yo, yk, yg⟩, yx⟩, w1, w2, w3⟩ := this _ (exAll_slice k1 k2 h2).1
    simp only at w2 w3
    subst w2 w3
    exact enc_hasKey.mpr ⟨_, _, w1⟩
  plain o dir vs name off d e ho hv h1 h2 ht off' hk := by
    obtain ⟨g, x, -, k1, k2⟩ := (hv.2 _ _).mp h1
    obtain ⟨g', x', hx⟩ := enc_hasKey.mp hk
    have : ∀ x ∈ exAllEntries, x.2.2.2.1 ≠ 2 → ∀ y ∈ exAll, y.1.key.typ = 84 → ¬ (y.1.owner = (target x.1 x.2.2.2.2).1 ∧ y.1.key.objectID = (target x.1 x.2.2.2.2).2) := by
      decide +kernel
    exact this _ (exAll_slice k1 k2 h2).1 ht _ hx rfl ⟨rfl, rfl⟩

/-- The hypotheses of C115 are met by `exAll`, where "/b/c" is the link 259, both for `ls` and in the mounted file
system, and "/x" is nothing. -/
example : exAll.enc.WF ∧ exAll.enc.stores metadataVersionKey [] ∧ exAll.enc.PathSameOK ∧ goClean (ascii "/b//c") ≠ [47] ∧
    doListFiles 30 9 lsInsertSort (fun _ => [84]) ⟨exAll.enc, ~~~0⟩ ⟨false, true⟩ [ascii "/b//c"] =
      .ok (ascii "259\tlrw-r--r--\t1\t1000\t100\t5\tT\tc\n", []) ∧
    (mountWalk 30 ⟨exAll.enc, ~~~0⟩ [ascii "rescue", [98], [99]] >>= fun r => pure (r.map fun c => (c.owner, c.ixInode))) = .ok (some (5, 259)) ∧
    mountWalk 30 ⟨exAll.enc, ~~~0⟩ [ascii "rescue", [120]] = .ok none :=
  ⟨AStore.enc_wf exAll_sorted, enc_stores.mpr (by decide +kernel), exAll_pathSame, by decide +kernel, by decide +kernel, by decide +kernel,
    by decide +kernel⟩

/-- C115 is false of the code where the entries of a directory are of several generations: `ls` shows
the file "/a" of `exSeen`, in the mounted file system there is nothing of that name. -/
theorem C115_refuted :
    exSeen.Sorted ∧
    doListFiles 9 9 lsInsertSort (fun _ => [84]) ⟨exSeen.enc, ~~~0⟩ ⟨false, false⟩ [ascii "/a"] =
      .ok (ascii "-rw-r--r--\t1\t1000\t100\t6\tT\ta\n", []) ∧
    mountWalk 30 ⟨exSeen.enc, ~~~0⟩ [ascii "rescue", [97]] = .ok none :=
  ⟨exSeen_sorted, by decide +kernel, by decide +kernel⟩

/-- C115 is false of the code for what is in a subvolume: the mounted file system shows, under "/s/f" of `exAll`, a
file of the subvolume 256 of 3 bytes; `ls` prints the size of another file, the one with the same
number in the main tree. -/
theorem C115_subvolume_refuted :
    exAll.Sorted ∧
    (mountWalk 30 ⟨exAll.enc, ~~~0⟩ [ascii "rescue", [115], [102]] >>= fun r => pure (r.map fun c => (c.owner, c.ixInode))) = .ok (some (256, 257)) ∧
    exAll.enc.stores ⟨256, ⟨257, 1, 0⟩, 11⟩ (mkItem ⟨257, 1, 0⟩ (exInode 3).layout) ∧
    doListFiles 30 9 lsInsertSort (fun _ => [84]) ⟨exAll.enc, ~~~0⟩ ⟨false, true⟩ [ascii "/s/f"] =
      .ok (ascii "257\t-rw-r--r--\t1\t1000\t100\t5\tT\tf\n", []) :=
  ⟨exAll_sorted, by decide +kernel, enc_stores.mpr (by decide +kernel), by decide +kernel⟩

end Btrfscue
