import Verif.Props.SameTree
import Verif.Props.AgreeExact
import Verif.Model.MountSession
/-!
# C109: the mounted file system and a recovery show the same bytes
-/

namespace Btrfscue

open Cmd

/-- In a file none of whose extents is inline, the byte the pieces give is the byte the extents
give. -/
theorem fileSeenByte_raw {b : Bucket} (hb : b.WF) {o ino : UInt64} (hi : b.ExtentsIntact o ino) {D : Bytes} {i : Nat} {v : UInt8}
    (h : b.fileSeenByte o ino D i v) : b.seenByte o ino D i v := by
  obtain ⟨l, hl, rfl⟩ := hb.exists_abs
  have hall : ∀ off p, l.enc.pieceSeen o ino off p → ∃ f, p = .raw f ∧ l.enc.extentSeen o ino off f := by
    intro off p h
    obtain ⟨g, x, d, h1, h2, -, -⟩ := id h
    obtain ⟨f, k1, k2, -⟩ := hi off g h1 ⟨x, h2⟩
    have := pieceSeen_unique hl h (extentSeen_piece.mpr ⟨⟨g, h1, k1⟩, k2⟩)
    exact ⟨f, this, g, h1, k1⟩
  have hraw : ∀ off f, l.enc.extentSeen o ino off f → l.enc.pieceSeen o ino off (.raw f) := by
    intro off f h
    obtain ⟨g, h1, h2⟩ := h
    obtain ⟨y, d, r, h3, -⟩ := id h2
    obtain ⟨f', k1, k2, -⟩ := hi off g h1 ⟨y, h3⟩
    obtain rfl := extentAt_unique hl h2 k1
    exact extentSeen_piece.mpr ⟨⟨g, h1, k1⟩, k2⟩
  rcases h with ⟨off, p, h1, h2, h3, h4⟩ | ⟨h1, h2⟩
  · obtain ⟨f, rfl, h5⟩ := hall off p h1
    exact Or.inl ⟨off, f, h5, h2, fun off' f' k1 k2 => h3 off' _ (hraw off' f' k1) k2, h4⟩
  · exact Or.inr ⟨fun off f k1 k2 => h1 off _ (hraw off f k1) k2, h2⟩

/-- A mounted file none of whose extents is inline opens, and what is read of it — by reads that do
not cross a gap — is what the file's bytes are taken to be. -/
theorem seen_read {b : Bucket} (hb : b.WF) {m : Bytes} (hm : b.stores metadataVersionKey m) {owner ino : UInt64}
    (hrange : b.RangeOK owner (KL2 108 ino)) (hchunks : b.RangeOK 3 (KL2 228 256))
    (hseen : b.SeenIntact) (hin : b.ExtentsIntact owner ino)
    (hsmall : ∀ off f, b.extentSeen owner ino off f → off.toNat + f.numBytes.toNat < 2 ^ 63) (hdis : b.SeenDisjoint owner ino)
    (hne : ∃ off, b.hasKey owner ⟨ino, 108, off⟩) :
    ∃ N ext, (∀ fuel, N ≤ fuel → ∃ c', (newRescueNode owner ino).open fuel ⟨b, ~~~0⟩ none = .ok (c', .ok (.extents ext))) ∧
      ∀ (D : Bytes), D.length < 2 ^ 63 → b.SeenOnDevice owner ino D → ∀ size d, b.fileSeen owner ino size D d →
      ∀ (buf : Bytes) (p : Nat), buf ≠ [] → p + buf.length < 2 ^ 63 → Gapless ext p buf.length →
        ∃ x, extentFileRead (some (imageReader D)) ext buf p = .ok (.ok x) ∧ x.length ≤ buf.length ∧
          (∀ i v, x[i]? = some v → p + i < d.length → d[p + i]? = some v) ∧
          ∀ off f, b.extentSeen owner ino off f → f.at off p → min buf.length (off.toNat + f.numBytes.toNat - p) ≤ x.length := by
  obtain ⟨N1, map1, hM⟩ := placeOK hb hm hchunks hseen
  obtain ⟨N2, map, ext, h1, h2, h3⟩ := C71_open_exact b hb m hm owner ino hrange hchunks hseen hin hne
  refine ⟨N2, ext, fun fuel hf => ?_, fun D hD hon size d hfs => ?_⟩
  · obtain ⟨c', h, -⟩ := h1 fuel (by omega) none (Or.inl rfl)
    exact ⟨c', h⟩
  have hok : ExtentsOK D ext := by
    refine ⟨hD, fun e he => ?_, ?_, fun e he hz => ?_⟩
    · obtain ⟨f, phys, e1, e2, e3, e4, e5⟩ := (h3 e).mp he
      unfold ExtentMapEntry.fileEnd
      rw [e3]; exact hsmall _ _ e1
    · refine List.Pairwise.imp_of_mem ?_ h2
      intro x y hx hy hlt
      obtain ⟨f, phys, e1, e2, e3, e4, e5⟩ := (h3 x).mp hx
      obtain ⟨f', phys', e1', e2', e3', e4', e5'⟩ := (h3 y).mp hy
      unfold ExtentMapEntry.fileEnd
      rw [e3]; exact hdis.disjoint _ _ _ _ e1 e1' hlt
    · obtain ⟨f, phys, e1, e2, e3, e4, e5⟩ := (h3 e).mp he
      rw [e5, e3]
      rw [e4] at hz
      exact hon _ _ _ _ e1 hz (hdis.filled _ _ e1) e2
  intro buf p hbuf hpb hgap
  obtain ⟨x, k1, k2, k3, k4⟩ := C50_read_prefix_partial D ext buf p hok hgap hpb hbuf
  have hplace : ∀ off f, b.extentSeen owner ino off f → ∃ dv ph, b.placed f.diskByteNr dv ph := by
    intro off f hs
    obtain ⟨g1, r1, r2⟩ := hs
    obtain ⟨y, dd, rr, q1, -⟩ := id r2
    obtain ⟨f', w1, -, w3⟩ := hin off g1 r1 ⟨y, q1⟩
    obtain ⟨l, hl0, rfl⟩ := hb.exists_abs
    obtain rfl := extentAt_unique hl0 r2 w1
    exact placed_total w3
  refine ⟨x, k1, k2, fun i v hv hi => ?_, fun off f hs hat => ?_⟩
  · have hv' := List.getElem?_eq_getElem hi
    rw [hv']
    congr 1
    have hA := fileSeenByte_raw hb hin (hfs.2.2 _ _ hv')
    rcases k3 i v hv with ⟨e, he, hcov, hval⟩ | ⟨hno, rfl⟩
    · obtain ⟨f, phys, e1, e2, e3, e4, e5⟩ := (h3 e).mp he
      unfold ExtentMapEntry.covers ExtentMapEntry.fileEnd at hcov
      rw [e3] at hcov
      rcases hA with ⟨off, g, a1, a2, a3, a4⟩ | ⟨a1, -⟩
      · have hle := a3 _ _ e1 hcov
        have hoff : off = e.fileOffset := by
          rw [UInt64.le_iff_toNat_le] at hle
          apply UInt64.toNat_inj.mp
          rcases Nat.lt_or_ge e.fileOffset.toNat off.toNat with h | h
          · have := hdis.disjoint _ _ _ _ e1 a1 (UInt64.lt_iff_toNat_lt.mpr h)
            have := hcov.2
            have := a2.1
            omega
          · omega
        subst hoff
        have hfg : g = f := by
          obtain ⟨l, hl0, rfl⟩ := hb.exists_abs
          obtain ⟨g1, r1, r2⟩ := a1
          obtain ⟨g2, r3, r4⟩ := e1
          obtain rfl := runVersion_gen r1 r3
          exact extentAt_unique hl0 r2 r4
        subst hfg
        rw [e4, e5] at hval
        rcases hval with ⟨z, rfl⟩ | ⟨nz, hval⟩ <;> rcases a4 with ⟨z', a4⟩ | ⟨nz', dv, ph, a4, a5⟩
        · exact a4
        · exact absurd z nz'
        · exact absurd z' nz
        · obtain ⟨-, rfl⟩ := hM.unique a4 e2
          rw [hval] at a5
          exact (Option.some.inj a5).symm
      · exact absurd hcov (a1 _ _ e1)
    · rcases hA with ⟨off, g, a1, a2, -, -⟩ | ⟨-, a2⟩
      · obtain ⟨dv, ph, hpl⟩ := hplace off g a1
        have he := (h3 ⟨off, g.numBytes, ph + g.offset, g.diskByteNr, dv⟩).mpr ⟨g, ph, a1, hpl, rfl, rfl, rfl⟩
        exact absurd a2 (hno _ he)
      · exact a2
  · obtain ⟨dv, ph, hpl⟩ := hplace off f hs
    have he := (h3 ⟨off, f.numBytes, ph + f.offset, f.diskByteNr, dv⟩).mpr ⟨f, ph, hs, hpl, rfl, rfl, rfl⟩
    exact k4 _ he hat

/-- A mounted file whose first piece is data in an item opens as a file of these data. -/
theorem inline_open {b : Bucket} (hb : b.WF) {m : Bytes} (hm : b.stores metadataVersionKey m) {owner ino off0 : UInt64} {data : Bytes}
    (hrange : b.RangeOK owner (KL2 108 ino)) (hp : b.pieceSeen owner ino off0 (.inline data))
    (honly : ∀ off, b.hasKey owner ⟨ino, 108, off⟩ → off0 ≤ off) (fuel : Nat) (cache : Option (List StripeMapEntry)) :
    (newRescueNode owner ino).open fuel ⟨b, ~~~0⟩ cache = .ok (cache, .ok (.data data)) := by
  obtain ⟨l, hl, rfl⟩ := hb.exists_abs
  obtain ⟨rd, items, hr, hy, hpw, hs⟩ := rangeAll_run hl ⟨m, hm⟩ hrange
  obtain ⟨g, x, d, r1, r2, r3, f, rest, r4, r5, r6⟩ := hp
  obtain ⟨⟨sd, st⟩, h8, h9⟩ := r3.data
  simp only at h9
  subst h9; subst r4
  have hmem : ((⟨owner, ⟨ino, 108, off0⟩, g⟩, x), ⟨f.layout ++ (data ++ rest), st⟩) ∈ items :=
    (hs _ _ _).mpr ⟨off0, g, r1, rfl, r2, h8⟩
  have hhead : items.head? = some ((⟨owner, ⟨ino, 108, off0⟩, g⟩, x), ⟨f.layout ++ (data ++ rest), st⟩) := by
    cases items with
    | nil => cases hmem
    | cons e t =>
      rcases List.mem_cons.mp hmem with h | h
      · rw [h]; rfl
      · have hlt := (List.pairwise_cons.mp hpw).1 _ h
        obtain ⟨⟨w, y⟩, s⟩ := e
        obtain ⟨off, g', k1, rfl, k3, -⟩ := (hs _ _ _).mp List.mem_cons_self
        obtain rfl := runVersion_gen r1 k1
        have hle := honly off ⟨g, y, k3⟩
        exfalso
        simp only at hlt
        rw [VKey.num_lt_iff] at hlt
        rw [UInt64.le_iff_toNat_le] at hle
        have h1 : off.toNat < off0.toNat := by
          simpa [VKey.before, VKey.fields, Key.fields, lexLt] using hlt
        omega
  rcases yields_head hy with ⟨h, -⟩ | ⟨t, h1, h2⟩
  · cases items with
    | nil => cases hmem
    | cons e t => cases h
  · cases items with
    | nil => cases hmem
    | cons e t' =>
      simp only [List.head?_cons, Option.some.injEq] at hhead
      subst hhead
      simp only [List.map_cons, List.cons.injEq] at h1
      obtain ⟨i1, i2⟩ := inline_data f data rest st r5 r6
      have hr' : (Ix.mk l.enc (~~~0)).fileExtentItems (newRescueNode owner ino).owner (newRescueNode owner ino).ixInode = .ok rd := hr
      unfold RescueNode.open
      rw [hr']
      simp only [Go.ok_bind, h2, Bool.not_true, Bool.false_eq_true, if_false]
      rw [← h1.1]
      simp only [i1, i2, Go.ok_bind, if_true, Go.pure_eq]

/-- C109, contents: when a recovery into an empty destination has ended, every recovered regular file
it did not warn about can be looked up in the mount under the same path. If none of its extents is
inline, the mounted file opens, and whatever is read of it (by reads that do not cross a gap) are
bytes of the recovered file, up to the end of the extent the read starts in at least. If its only
piece is data in an item, the mounted file is one of these data, and they are those of the recovered
file, up to its size. Missing: see `C109_recovered_is_shown_partial`; reads across gaps and short
devices (C50), files with data in an item and other extents (`C109_inline_and_more_refuted`). -/
theorem C109_bytes_partial (b : Bucket) (hb : b.WF) (m : Bytes) (hm : b.stores metadataVersionKey m)
    (hcr : b.RangeOK 3 (KL2 228 256)) (hci : b.SeenIntact) :
    ∃ N, ∀ rf, N ≤ rf → ∀ env D, D.length < 2 ^ 63 → Honest env D → (∀ n, env.fails .stat n = false) → ∀ fuel fs dest r,
      EmptyDest fs dest r → SameOK b dest →
      ∀ s', doRecoverFiles env rf fuel ⟨b, ~~~0⟩ false dest (RecState.start fs) = .ok () s' →
      ∀ mf, b.length < mf → ∀ A i x, s'.fs.down r A = some i → ¬ b.inSubvolume A → Ev.warn (pathOf dest A) ∉ s'.log →
        s'.fs.inodes[i]? = some (.file x) → ∃ c, MountShows mf ⟨b, ~~~0⟩ A false c ∧
          ∀ size, b.FileReadable c.owner c.ixInode size → size = none ∨ sized b env c.owner c.ixInode →
            ((∃ off, b.hasKey c.owner ⟨c.ixInode, 108, off⟩) → b.ExtentsIntact c.owner c.ixInode →
              b.SeenDisjoint c.owner c.ixInode → b.SeenOnDevice c.owner c.ixInode D →
              ∃ M ext, (∀ of, M ≤ of → ∃ c', c.open of ⟨b, ~~~0⟩ none = .ok (c', .ok (.extents ext))) ∧
                ∀ (buf : Bytes) (p : Nat), buf ≠ [] → p + buf.length < 2 ^ 63 → Gapless ext p buf.length →
                  ∃ y, extentFileRead (some (imageReader D)) ext buf p = .ok (.ok y) ∧ y.length ≤ buf.length ∧
                    (∀ j v, y[j]? = some v → p + j < x.length → x[p + j]? = some v) ∧
                    ∀ off f, b.extentSeen c.owner c.ixInode off f → f.at off p →
                      min buf.length (off.toNat + f.numBytes.toNat - p) ≤ y.length) ∧
            (∀ data, b.pieceSeen c.owner c.ixInode 0 (.inline data) → (∀ off, b.hasKey c.owner ⟨c.ixInode, 108, off⟩ → off = 0) →
              (∀ of cache, c.open of ⟨b, ~~~0⟩ cache = .ok (cache, .ok (.data data))) ∧
              ∀ j, j < data.length → j < x.length → x[j]? = data[j]?) := by
  obtain ⟨N, h⟩ := C109_recovered_contents_partial b hb m hm hcr hci
  refine ⟨N, fun rf hrf env D hD hh hst fuel fs dest r he hs s' hrun mf hmf A i x hi hns hwn hx => ?_⟩
  obtain ⟨c, h1, h2⟩ := (h rf hrf env D hh hst fuel fs dest r he hs s' hrun mf hmf A i hi hns hwn).1 x hx
  refine ⟨c, h1, fun size hfr hsz => ⟨fun hne hin hdis hon => ?_, fun data hp honly => ⟨fun of cache => ?_, fun j hj hjx => ?_⟩⟩⟩
  · obtain ⟨M, ext, k1, k2⟩ := seen_read hb hm hfr.range hcr hci hin (fun off f k => by
      obtain ⟨g, r1, r2⟩ := k
      obtain ⟨y, dd, rr, q1, -⟩ := id r2
      obtain ⟨f', w1, w2, w3⟩ := hin off g r1 ⟨y, q1⟩
      obtain ⟨l, hl0, rfl⟩ := hb.exists_abs
      obtain rfl := extentAt_unique hl0 r2 w1
      exact hfr.fit.small off (.raw f) (extentSeen_piece.mpr ⟨⟨g, r1, w1⟩, w2⟩)) hdis hne
    exact ⟨M, ext, k1, fun buf p hbuf hpb hgap => k2 D hD hon size x (h2 size hfr hsz) buf p hbuf hpb hgap⟩
  · exact inline_open hb hm hfr.range hp (fun off k => by rw [honly off k]; exact UInt64.le_refl _) of cache
  · have hv := List.getElem?_eq_getElem hjx
    have hz : (0 : UInt64).toNat = 0 := rfl
    rcases (h2 size hfr hsz).2.2 j _ hv with ⟨off, p, a1, a2, a3, a4⟩ | ⟨a1, -⟩
    · obtain ⟨g, y, d, r1, r2, -⟩ := id a1
      obtain rfl := honly off ⟨g, y, r2⟩
      obtain ⟨l, hl0, rfl⟩ := hb.exists_abs
      obtain rfl := pieceSeen_unique hl0 a1 hp
      simp only [Bucket.pieceByte, hz, Nat.sub_zero] at a4
      rw [hv, a4]
    · exact absurd ⟨by omega, by simp only [Piece.size, hz]; omega⟩ (a1 0 _ hp)

/-- C109 refuted where a file has data in an item and more: the mount shows the data in the item
only, recovering takes all. -/
theorem C109_inline_and_more_refuted :
    (newRescueNode 5 257).open 9 ⟨exMixedPieces.enc, ~~~0⟩ none = .ok (none, .ok (.data [1, 2, 3])) ∧
    ∃ s', recoverFile (imageEnv [4, 5, 6, 7]) 9 ⟨exMixedPieces.enc, ~~~0⟩ false 5 257 (ascii "/d/f") (RecState.start exEmptyDir) = .ok none s' ∧
      s'.fs.readFile (ascii "/d/f") = some [1, 2, 4, 5, 6, 7] := by
  refine ⟨by decide +kernel, ?_⟩
  have h3 : (match recoverFile (imageEnv [4, 5, 6, 7]) 9 ⟨exMixedPieces.enc, ~~~0⟩ false 5 257 (ascii "/d/f") (RecState.start exEmptyDir) with
    | .ok none s => s.fs.readFile (ascii "/d/f") == some [1, 2, 4, 5, 6, 7]
    | _ => false) = true := by decide +kernel
  cases hrun : recoverFile (imageEnv [4, 5, 6, 7]) 9 ⟨exMixedPieces.enc, ~~~0⟩ false 5 257 (ascii "/d/f") (RecState.start exEmptyDir) with
  | ok e s =>
    rw [hrun] at h3
    cases e with
    | none => exact ⟨s, rfl, by simpa using h3⟩
    | some _ => cases h3
  | exit s => rw [hrun] at h3; cases h3
  | crash s => rw [hrun] at h3; cases h3
  | hang s => rw [hrun] at h3; cases h3

end Btrfscue
