import Verif.Props.ContentTrue
import Verif.Props.RescueFile
/-!
# C86: mount and recover agree on files, damaged or not
-/

namespace Btrfscue

open Cmd

/-- C86, for extents and chunks of any generations, compressed, preallocated or not: if recover writes
the file without reporting an error, then the mounted file opens, and what a read from it returns
is what recover wrote, at each position inside the file — for reads that do not touch gaps
between the extents the program sees; a read returns at least everything up to the end of the
extent it starts in. -/
theorem C86_agree_exact (b : Bucket) (hb : b.WF) (m : Bytes) (hm : b.stores metadataVersionKey m)
    (owner ino : UInt64) (ho : owner ≠ ~~~0) (hrange : b.RangeOK owner (KL2 108 ino)) (hchunks : b.RangeOK 3 (KL2 228 256))
    (hseen : b.SeenIntact) (hin : b.ExtentsIntact owner ino) (hp : b.ExtentsFit owner ino) (hdis : b.SeenDisjoint owner ino)
    (hne : ∃ off, b.hasKey owner ⟨ino, 108, off⟩) (size : Option UInt64) (hsz : b.knownSize owner ino size) :
    ∃ N ext, (∀ fuel, N ≤ fuel → ∃ c', (newRescueNode owner ino).open fuel ⟨b, ~~~0⟩ none = .ok (c', .ok (.extents ext))) ∧
      ∀ (D : Bytes) (rf : Nat), D.length < 2 ^ 63 → N ≤ rf → ∀ env, Honest env D →
      ∀ (clobber : Bool) (target : Bytes) (s s' : RecState), s.cache = none → clobber = true ∨ s.fs.stat true target = none →
      recoverFile env rf ⟨b, ~~~0⟩ clobber owner ino target s = .ok none s' →
      ∃ d, s'.fs.readFile target = some d ∧ ∀ (buf : Bytes) (p : Nat), buf ≠ [] → p + buf.length < 2 ^ 63 → Gapless ext p buf.length →
        ∃ x, extentFileRead (some (imageReader D)) ext buf p = .ok (.ok x) ∧ x.length ≤ buf.length ∧
          (∀ i v, x[i]? = some v → p + i < d.length → d[p + i]? = some v) ∧
          ∀ off f, b.extentSeen owner ino off f → f.at off p → min buf.length (off.toNat + f.numBytes.toNat - p) ≤ x.length := by
  obtain ⟨N1, map1, hM⟩ := placeOK hb hm hchunks hseen
  obtain ⟨N2, map, ext, h1, h2, h3⟩ := C71_open_exact b hb m hm owner ino hrange hchunks hseen hin hne
  refine ⟨max (max N1 N2) (b.length + 1), ext, fun fuel hf => ?_, fun D rf hD hrf env hh clobber target s s' hc hcl hrun => ?_⟩
  · obtain ⟨c', h, -⟩ := h1 fuel (by omega) none (Or.inl rfl)
    exact ⟨c', h⟩
  have hw := file_exact hb hm ho hrange hin hp hsz hM D rf (by omega) (by omega) env hh clobber target s (Or.inl hc)
  unfold wp at hw
  rw [hrun] at hw
  rcases hw.1 rfl with ⟨c1, c2, -⟩ | ⟨hcont, hon⟩
  · rcases hcl with h | h
    · rw [h] at c1; cases c1
    · exact absurd h c2
  obtain ⟨d, hd, hl, hl', hby⟩ := hcont (Or.inr (Or.inl hne))
  have hok : ExtentsOK D ext := by
    refine ⟨hD, fun e he => ?_, ?_, fun e he hz => ?_⟩
    · obtain ⟨f, phys, e1, e2, e3, e4, e5⟩ := (h3 e).mp he
      unfold ExtentMapEntry.fileEnd
      rw [e3]; exact hp.small _ _ e1
    · refine List.Pairwise.imp_of_mem ?_ h2
      intro x y hx hy hlt
      obtain ⟨f, phys, e1, e2, e3, e4, e5⟩ := (h3 x).mp hx
      obtain ⟨f', phys', e1', e2', e3', e4', e5'⟩ := (h3 y).mp hy
      unfold ExtentMapEntry.fileEnd
      rw [e3]; exact hdis.disjoint _ _ _ _ e1 e1' hlt
    · obtain ⟨f, phys, e1, e2, e3, e4, e5⟩ := (h3 e).mp he
      rw [e5, e3]
      rw [e4] at hz
      exact hon _ _ _ _ e1 hz (hdis.filled _ _ e1) e2
  refine ⟨d, hd, fun buf p hbuf hpb hgap => ?_⟩
  obtain ⟨x, k1, k2, k3, k4⟩ := C50_read_prefix_partial D ext buf p hok hgap hpb hbuf
  refine ⟨x, k1, k2, fun i v hv hi => ?_, fun off f hs hat => ?_⟩
  · have hv' := List.getElem?_eq_getElem hi
    rw [hv']
    congr 1
    have hA := hby _ _ hv'
    rcases k3 i v hv with ⟨e, he, hcov, hval⟩ | ⟨hno, rfl⟩
    · obtain ⟨f, phys, e1, e2, e3, e4, e5⟩ := (h3 e).mp he
      unfold ExtentMapEntry.covers ExtentMapEntry.fileEnd at hcov
      rw [e3] at hcov
      rcases hA with ⟨off, g, a1, a2, a3, a4⟩ | ⟨a1, -⟩
      · have hle := a3 _ _ e1 hcov
        have hoff : off = e.fileOffset := by
          rw [UInt64.le_iff_toNat_le] at hle
          apply UInt64.toNat_inj.mp
          rcases Nat.lt_or_ge e.fileOffset.toNat off.toNat with h | h
          · have := hdis.disjoint _ _ _ _ e1 a1 (UInt64.lt_iff_toNat_lt.mpr h)
            have := hcov.2
            have := a2.1
            omega
          · omega
        subst hoff
        have hfg : g = f := by
          obtain ⟨l, hl0, rfl⟩ := hb.exists_abs
          obtain ⟨g1, r1, r2⟩ := a1
          obtain ⟨g2, r3, r4⟩ := e1
          obtain rfl := runVersion_gen r1 r3
          exact extentAt_unique hl0 r2 r4
        subst hfg
        rw [e4, e5] at hval
        rcases hval with ⟨z, rfl⟩ | ⟨nz, hval⟩ <;> rcases a4 with ⟨z', a4⟩ | ⟨nz', dv, ph, a4, a5⟩
        · exact a4
        · exact absurd z nz'
        · exact absurd z' nz
        · obtain ⟨-, rfl⟩ := hM.unique a4 e2
          rw [hval] at a5
          exact (Option.some.inj a5).symm
      · exact absurd hcov (a1 _ _ e1)
    · rcases hA with ⟨off, g, a1, a2, -, -⟩ | ⟨-, a2⟩
      · obtain ⟨dv, ph, hpl⟩ := placed_total (b := b) (dbn := g.diskByteNr) (by
          obtain ⟨g1, r1, r2⟩ := a1
          obtain ⟨y, dd, rr, q1, -⟩ := id r2
          obtain ⟨f', w1, -, w3⟩ := hin off g1 r1 ⟨y, q1⟩
          obtain ⟨l, hl0, rfl⟩ := hb.exists_abs
          obtain rfl := extentAt_unique hl0 r2 w1
          exact w3)
        have he := (h3 ⟨off, g.numBytes, ph + g.offset, g.diskByteNr, dv⟩).mpr ⟨g, ph, a1, hpl, rfl, rfl, rfl⟩
        exact absurd a2 (hno _ he)
      · exact a2
  · obtain ⟨dv, ph, hpl⟩ := placed_total (b := b) (dbn := f.diskByteNr) (by
      obtain ⟨g1, r1, r2⟩ := hs
      obtain ⟨y, dd, rr, q1, -⟩ := id r2
      obtain ⟨f', w1, -, w3⟩ := hin off g1 r1 ⟨y, q1⟩
      obtain ⟨l, hl0, rfl⟩ := hb.exists_abs
      obtain rfl := extentAt_unique hl0 r2 w1
      exact w3)
    have he := (h3 ⟨off, f.numBytes, ph + f.offset, f.diskByteNr, dv⟩).mpr ⟨f, ph, hs, hpl, rfl, rfl, rfl⟩
    exact k4 _ he hat

/-- The hypotheses are met by `exTwoExtents 11`; for the others see `exTwo_ok`, `exTwo_fit` and
`exTwo_size`. -/
example : (exTwoExtents 11).enc.SeenDisjoint 5 257 where
  disjoint off f off' f' h h' hlt := by
    obtain ⟨rfl, rfl⟩ := exTwo_extent h
    obtain ⟨rfl, rfl⟩ := exTwo_extent h'
    exact absurd hlt (by decide)
  filled off f h := by obtain ⟨rfl, rfl⟩ := exTwo_extent h; decide

end Btrfscue
