import Verif.Props.RaidWrong
import Verif.Props.RescueOpen
/-!
# C119: what the mounted file system shows comes from the devices that hold it
-/

namespace Btrfscue

/-- C119 (the part that holds): a file whose data lie in chunks with profile SINGLE, DUP or RAID1, with the first stripe on the
device given to mount, shows the bytes the file system has for it, in every read inside one of its extents. Missing: data on
other devices (`C119_other_device_refuted`), striped data (`C119_striped_refuted`), and reads that cross extents (C50). -/
theorem C119_one_device_partial (b : Bucket) (hb : b.WF) (m : Bytes) (hm : b.stores metadataVersionKey m)
    (owner ino g gc dev : UInt64) (ha : b.AddrOK gc) (hf : b.FileOK owner ino g gc) (hp : b.ExtentsPlain owner ino g gc)
    (hne : ∃ off, b.hasKey owner ⟨ino, 108, off⟩) (h1 : b.OnOneDevice owner ino g gc dev)
    (devs : UInt64 → Bytes) (hD : (devs dev).length < 2 ^ 63)
    (hdev : ∀ off f dev' phys, b.extentAt owner ino g off f → f.diskByteNr ≠ 0 → b.translated gc f.diskByteNr dev' phys →
      (phys + f.offset).toNat + f.numBytes.toNat ≤ (devs dev).length) :
    ∃ N ext, (∀ fuel, N ≤ fuel → ∃ c', (newRescueNode owner ino).open fuel ⟨b, ~~~0⟩ none = .ok (c', .ok (.extents ext))) ∧
      ∀ off f, b.extentAt owner ino g off f → ∀ (buf : Bytes) (p : Nat), buf ≠ [] → off.toNat ≤ p →
        p + buf.length ≤ off.toNat + f.numBytes.toNat →
        ∃ d, extentFileRead (some (imageReader (devs dev))) ext buf p = .ok (.ok d) ∧ d.length = buf.length ∧
          ∀ i v, d[i]? = some v → b.fileByteOn owner ino g gc devs (p + i) v := by
  obtain ⟨N, ext, k1, k2⟩ := C71_mounted_read_partial b hb m hm owner ino g gc ha hf hne (devs dev) hD hp.disjoint hp.small hdev
  refine ⟨N, ext, k1, fun off f hat buf p hbuf hp1 hp2 => ?_⟩
  obtain ⟨d, e1, e2, e3⟩ := k2 off f hat buf p hbuf hp1 hp2
  refine ⟨d, e1, e2, fun i v hv => fileByte_true hb hm ha h1 (Or.inl ⟨off, f, hat, ?_, ?_⟩)⟩
  · have := (List.getElem?_eq_some_iff.mp hv).1
    exact ⟨by omega, by omega⟩
  · rcases e3 i v hv with ⟨z, rfl⟩ | ⟨nz, h⟩
    · exact Or.inl ⟨Or.inl z, rfl⟩
    · exact Or.inr ⟨nz, hp.plain _ _ hat, h⟩

/-- The only byte the file system has at position 0 of the file of `exFileStore`. -/
theorem exFileStore_byte0 {v : UInt8} (hv : exFileStore.enc.fileByteOn 5 257 10 7 exDevs 0 v) : v = 1 := C96_other_device_silent.2.2.1 v hv

/-- C119 is false of the code: mounted from the image of device 2, a file whose data are on device 1 shows the bytes of device 2,
without an error. -/
theorem C119_other_device_refuted :
    exFileStore.Sorted ∧ exFileStore.enc.OnOneDevice 5 257 10 7 1 ∧
    (∀ v, exFileStore.enc.fileByteOn 5 257 10 7 exDevs 0 v → v = 1) ∧
    ∃ N ext, (∀ fuel, N ≤ fuel → ∃ c', (newRescueNode 5 257).open fuel ⟨exFileStore.enc, ~~~0⟩ none = .ok (c', .ok (.extents ext))) ∧
      extentFileRead (some (imageReader (exDevs 2))) ext [0] 0 = .ok (.ok [2]) := by
  refine ⟨exFileStore_sorted, exFileStore_one, fun v => exFileStore_byte0, ?_⟩
  have hat : exFileStore.enc.extentAt 5 257 10 0 _ := ⟨_, _, [], enc_stores.mpr (by
    simp only [exFileStore, List.mem_cons]; right; right; right; right; right; left; rfl), mkItem_holds _ _ (by decide), (List.append_nil _).symm⟩
  obtain ⟨N, ext, k1, k2⟩ := C71_mounted_read_partial exFileStore.enc (AStore.enc_wf exFileStore_sorted) []
    (enc_stores.mpr (by simp [exFileStore])) 5 257 10 7 exFileStore_addr exFileStore_ok
    ⟨0, enc_hasKey.mpr ⟨10, _, by simp only [exFileStore, List.mem_cons]; right; right; right; right; right; left; rfl⟩⟩
    (exDevs 2) (by rw [exDevs, List.length_replicate]; decide) exFileStore_plain.disjoint exFileStore_plain.small (by
      intro off f dev phys hx hz htr
      rcases exFileStore_extents hx with ⟨rfl, rfl⟩ | ⟨rfl, rfl⟩
      · rw [exFileStore_phys htr, exDevs, List.length_replicate]; decide
      · exact absurd rfl hz)
  refine ⟨N, ext, k1, ?_⟩
  obtain ⟨d, e1, e2, e3⟩ := k2 0 _ hat [0] 0 (by decide) (by decide) (by decide)
  refine Eq.trans (by simpa using e1) ?_
  obtain ⟨v, rfl⟩ := List.length_eq_one_iff.mp e2
  rcases e3 0 v rfl with ⟨h, -⟩ | ⟨-, dev, phys, -, h⟩
  · exact absurd h (by decide)
  · rw [exDevs_get h]; rfl

/-- C119 is false of the code: a file of 128 KiB striped over two devices shows, mounted from the first of them, bytes of device 1 in
its second half although they are stored on device 2. -/
theorem C119_striped_refuted :
    exStripedStore.Sorted ∧
    (∀ v, exStripedStore.enc.fileByteOn 5 257 10 7 exDevs 65536 v → v = 2) ∧
    ∃ N ext, (∀ fuel, N ≤ fuel → ∃ c', (newRescueNode 5 257).open fuel ⟨exStripedStore.enc, ~~~0⟩ none = .ok (c', .ok (.extents ext))) ∧
      extentFileRead (some (imageReader (exDevs 1))) ext [0] 65536 = .ok (.ok [1]) := by
  refine ⟨exStripedStore_sorted, C96_striped_wrong.2.1, ?_⟩
  obtain ⟨N, ext, k1, k2⟩ := C71_mounted_read_partial exStripedStore.enc (AStore.enc_wf exStripedStore_sorted) []
    (enc_stores.mpr (by simp [exStripedStore])) 5 257 10 7 exStripedStore_addr exStripedStore_ok
    ⟨0, enc_hasKey.mpr ⟨10, _, by simp only [exStripedStore, List.mem_cons]; right; right; right; left; rfl⟩⟩
    (exDevs 1) (by rw [exDevs, List.length_replicate]; decide) exStripedStore_plain.disjoint exStripedStore_plain.small (by
      intro off f dev phys hx hz htr
      obtain ⟨rfl, rfl⟩ := exStripedStore_extents hx
      rw [exStripedStore_phys htr, exDevs, List.length_replicate]; decide)
  refine ⟨N, ext, k1, ?_⟩
  obtain ⟨d, e1, e2, e3⟩ := k2 0 _ exStripedStore_extent [0] 65536 (by decide) (by decide) (by decide)
  refine Eq.trans (by simpa using e1) ?_
  obtain ⟨v, rfl⟩ := List.length_eq_one_iff.mp e2
  rcases e3 0 v rfl with ⟨h, -⟩ | ⟨-, dev, phys, -, h⟩
  · exact absurd h (by decide)
  · rw [exDevs_get h]; rfl

/-- The hypotheses of `C119_one_device_partial` are met: the file of `exFileStore`, mounted from device 1. -/
example : ∃ N ext, (∀ fuel, N ≤ fuel → ∃ c', (newRescueNode 5 257).open fuel ⟨exFileStore.enc, ~~~0⟩ none = .ok (c', .ok (.extents ext))) ∧
    ∀ off f, exFileStore.enc.extentAt 5 257 10 off f → ∀ (buf : Bytes) (p : Nat), buf ≠ [] → off.toNat ≤ p →
      p + buf.length ≤ off.toNat + f.numBytes.toNat →
      ∃ d, extentFileRead (some (imageReader (exDevs 1))) ext buf p = .ok (.ok d) ∧ d.length = buf.length ∧
        ∀ i v, d[i]? = some v → exFileStore.enc.fileByteOn 5 257 10 7 exDevs (p + i) v :=
  C119_one_device_partial exFileStore.enc (AStore.enc_wf exFileStore_sorted) []
    (enc_stores.mpr (by simp [exFileStore])) 5 257 10 7 1 exFileStore_addr exFileStore_ok exFileStore_plain
    ⟨0, enc_hasKey.mpr ⟨10, _, by simp only [exFileStore, List.mem_cons]; right; right; right; right; right; left; rfl⟩⟩
    exFileStore_one exDevs (by rw [exDevs, List.length_replicate]; decide) (by
      intro off f dev phys hx hz htr
      rcases exFileStore_extents hx with ⟨rfl, rfl⟩ | ⟨rfl, rfl⟩
      · rw [exFileStore_phys htr, exDevs, List.length_replicate]; decide
      · exact absurd rfl hz)

end Btrfscue
