import Verif.Spec.Repair
import Verif.Proof.ClobberRun
import Verif.Props.Resume
/-!
# C103: recovering over what broken-off runs left
-/

namespace Btrfscue

open Cmd

theorem LeftBy.base {ix : Ix} {dest : Bytes} {fs f : HostFS} {r : Nat} (he : EmptyDest fs dest r) (hD : ix.Distinct dest)
    (h : LeftBy ix dest fs f) : Base ix fs dest r f := by
  induction h with
  | none => exact Base.start he hD
  | run _ hst hg ih => exact Base.run hst hD he ih _ _ hg

/-- C82: the same, for any number of runs to a directory that was empty before the first, with or
without `--clobber`, whatever the device delivers and with whatever errors other than that of
stat(2); each run may have been broken off at any point. -/
theorem C82_only_listed_always (ix : Ix) (dest : Bytes) (fs f : HostFS) (r : Nat) (he : EmptyDest fs dest r) (hD : ix.Distinct dest)
    (h : LeftBy ix dest fs f) : f.OnlyListed ix dest r :=
  sound_only he.clean he.ok.ne (h.base he hD).shape

/-- One file. -/
theorem wp_file_anew {b : Bucket} (hb : b.WF) {m : Bytes} (hm : b.stores metadataVersionKey m) {gc : UInt64} (ha : b.AddrOK gc)
    {N0 : Nat} {map : List StripeMapEntry} (hM : MapOK b gc N0 map) {rf : Nat} (h1 : N0 ≤ rf) (h2 : b.length < rf) (h3 : 2 ≤ rf)
    {env : Env} {D : Bytes} (hh : Honest env D) {o i : UInt64} {q : Bytes} {s : RecState} (hc : CacheOK rf ⟨b, ~~~0⟩ s) :
    wp (recoverFile env rf ⟨b, ~~~0⟩ true o i q) (fun e t => e = none → fileFate b gc D env t o i q) (fun _ => True) s := by
  have hc' : s.cache = none ∨ s.cache = some map := by
    rcases hc with hc | ⟨map', hc, h⟩
    · exact Or.inl hc
    · rw [hM.built rf h1] at hc
      cases hc
      exact Or.inr h
  have key : ∀ _ : b.recoverable gc o i ∧ sized b env o i, wp (recoverFile env rf ⟨b, ~~~0⟩ true o i q)
      (fun e t => e = none → ∃ x, t.fs.readFile q = some x ∧ b.contentIs gc D o i x) (fun _ => True) s := by
    rintro ⟨⟨ho, size, hsz, hlt, ⟨g, hf, hp⟩ | ⟨g, start, data, hi⟩⟩, hs⟩
    · refine wp_mono (file_uniform hb hm ho ha hf hp hsz hlt hM D rf h1 h2 env hh true q s hc') (fun e t h he => ?_) fun _ _ => trivial
      rcases h.1 he with ⟨h, -⟩ | ⟨h, -⟩
      · cases h
      · obtain ⟨d, k1, k2, k3⟩ := h hs
        exact ⟨d, k1, size, hsz, k2, Or.inl ⟨g, hf, k3⟩⟩
    · refine wp_mono (inline_uniform hb hm ho hi hsz hlt h3 env true q s) (fun e t h he => ?_) fun _ _ => trivial
      rcases h.1 he with ⟨h, -⟩ | ⟨d, k1, k2, k3⟩
      · cases h
      · exact ⟨d, k1, size, hsz, k2, Or.inr ⟨g, start, data, hi, k3⟩⟩
  refine wp_mono (wp_all key) (fun e t h he => ?_) fun _ h => h
  exact fun h1 h2 => h ⟨h1, h2⟩ he

/-- One link. -/
theorem wp_link_anew {b : Bucket} (hb : b.WF) {m : Bytes} (hm : b.stores metadataVersionKey m) {rf : Nat}
    {env : Env} {o i : UInt64} {q : Bytes} {s : RecState} :
    wp (recoverSymlink env rf ⟨b, ~~~0⟩ true o i q) (fun e t => e = none → linkFate b t o i q) (fun _ => True) s := by
  refine wp_mono wp_recoverSymlink (fun e t h he => ?_) fun _ h => h
  rcases h he with ⟨h, -⟩ | ⟨e, x, h1, h2, h3⟩
  · cases h
  · rintro y ⟨ho, g, z, f, rest, k1, k2, k3, k4, k5⟩
    obtain ⟨t', ht'⟩ := findData_newest hb hm ho k1 k2 k3
    have hi : (Ix.mk b (~~~0)).findFileExtentItem o i = .ok (some ⟨f.layout ++ (y ++ rest), t'⟩) := ht'
    obtain ⟨g1, g2⟩ := C12_inline_data f y rest t' k4 k5
    rw [hi] at h1
    cases h1
    have := h3 g2
    rw [g1] at this
    cases this
    exact h2

/-- C103: whatever runs of recover, to a directory that was empty before the first, have left — with or without `--clobber`,
broken off at any point, with whatever errors —, a run with `--clobber` that ends without a warning
makes everything right: every directory that has a place in the destination is at one of its places
`p`, and for every regular file listed in it that can be recovered, `p/name` has the contents stored
for it; every link has the target stored for it. (A file without extents: if truncate(2) does not
fail in that last run.) -/
theorem C103_clobber_repairs_partial (b : Bucket) (hb : b.WF) (m : Bytes) (hm : b.stores metadataVersionKey m) (gc : UInt64) (ha : b.AddrOK gc) :
    ∃ N, ∀ rf, N ≤ rf → ∀ env D, Honest env D → (∀ n, env.fails .stat n = false) → ∀ fuel fs dest r,
      EmptyDest fs dest r → (Ix.mk b (~~~0)).Distinct dest → ∀ f, LeftBy ⟨b, ~~~0⟩ dest fs f →
      ∀ s', doRecoverFiles env rf fuel ⟨b, ~~~0⟩ true dest (RecState.start f) = .ok () s' → s'.silent →
      s'.fs.OnlyListed ⟨b, ~~~0⟩ dest r ∧
      ∀ o d p0, (Ix.mk b (~~~0)).Placed dest o d p0 → ∃ p, (Ix.mk b (~~~0)).Placed dest o d p ∧ s'.fs.stat true p = some true ∧
        ∀ di name t loc, (Ix.mk b (~~~0)).lists o d di → di.says name t loc → loc.typ ≠ 132 → usable name → 92 ∉ name →
          (t = 1 → b.recoverable gc o loc.objectID → sized b env o loc.objectID →
            ∃ x, s'.fs.readFile (goJoin p name) = some x ∧ b.contentIs gc D o loc.objectID x) ∧
          (t = 7 → ∀ x, b.targetIs o loc.objectID x → s'.fs.readLink (goJoin p name) = some x) := by
  obtain ⟨N, map, hM⟩ := mapOK hb hm ha.range ha.chunks ha.disjoint
  refine ⟨N + b.length + 2, fun rf hrf env D hh hst fuel fs dest r he hD f hf s' hrun hsil => ?_⟩
  have hok := he.ok
  have hF : LocalFates ⟨b, ~~~0⟩ fs dest r (fileFate b gc D env) (linkFate b) := by
    refine ⟨fun s t A Q o i p hE hA hs ht hQ ho h hr hsz => ?_, fun s t A Q o i p hE hA hs ht hQ ho h x hx => ?_⟩
    · obtain ⟨x, h1, h2⟩ := h hr hsz
      exact ⟨x, readFile_others hD hok hs ht ho hQ hE hA h1, h2⟩
    · exact readLink_others hD hok hs ht ho hQ hE hA (h x hx)
  have hw := wpE_iff.mp <| (clobRun (rf := rf) (clobber := true) hst hD he hF
    (fun o i q s _ hc => wp_file_anew hb hm ha hM (by omega) (by omega) (by omega) hh hc)
    (fun o i q s _ _ => wp_link_anew hb hm)).all fuel (ClobInv.start (rf := rf) (hf.base he hD))
  unfold wp at hw
  rw [hrun] at hw
  obtain ⟨h1, h2, h3⟩ := hw
  refine ⟨sound_only he.clean he.ok.ne h1.inv.base.shape, fun o d p0 hp0 => ?_⟩
  have hdone : ∀ o d p, Ev.enter o d p ∈ s'.log → _ := fun o d p hx =>
    ((h1.dirs o d p hx).resolve_left (by intro h; cases h)).resolve_left (hsil p)
  have hent : ∀ o d p0, (Ix.mk b (~~~0)).Placed dest o d p0 → ∃ p, Ev.enter o d p ∈ s'.log := by
    intro o d p0 hp
    induction hp with
    | main => exact h2
    | subvolume h =>
      obtain ⟨rd, x, k, g1, g2, g3, rfl⟩ := h
      exact h3 rd x k g1 g2 g3
    | @dir o d p di name loc _ hl hsay hty hu hb' ih =>
      obtain ⟨p', hp'⟩ := ih
      obtain ⟨⟨-, dis, hdis⟩, h⟩ := hdone _ _ _ hp'
      exact (h di name (met_of hdis hl hsay.1 hu hb')).dir true false loc
          (isDir_eq.mpr ⟨2, hsay.2.1, rfl⟩) (isSub_eq.mpr ⟨loc, hsay.2.2, beq_eq_false_iff_ne.mpr hty⟩) hsay.2.2 rfl
    | @tree o d p di name t loc _ hl hsay hty hu hb' ih =>
      obtain ⟨p', hp'⟩ := ih
      obtain ⟨⟨-, dis, hdis⟩, h⟩ := hdone _ _ _ hp'
      exact (h di name (met_of hdis hl hsay.1 hu hb')).dir (t == FtDir) true loc
          (isDir_eq.mpr ⟨t, hsay.2.1, rfl⟩) (isSub_eq.mpr ⟨loc, hsay.2.2, by rw [hty]; rfl⟩) hsay.2.2 (by simp)
  obtain ⟨p, hp⟩ := hent o d p0 hp0
  obtain ⟨⟨hdir, dis, hdis⟩, hent⟩ := hdone o d p hp
  refine ⟨p, h1.inv.once.2 o d p hp, hdir, fun di name t loc hl hsay hty hu hb' => ?_⟩
  have hd := hent di name (met_of hdis hl hsay.1 hu hb')
  refine ⟨fun ht => ?_, fun ht => ?_⟩
  · subst ht
    exact ((hd.file _ (leads_of hsay (by decide) hty)).resolve_right (hsil _)).2.resolve_right (hsil _)
  · subst ht
    exact ((hd.link _ (leads_of hsay (by decide) hty)).resolve_right (hsil _)).2.resolve_right (hsil _)

/-- The hypotheses on the index and the destination are those of C81 (met by `exWhole`, see there). A first run is broken off
when the file "a" had been created, but not yet written; a second, with `--clobber`, when it had removed
the link "c" that the one in between had made. The last makes both right. -/
example : ∃ f g, LeftBy ⟨exWhole.enc, ~~~0⟩ (ascii "/d") exEmptyDir f ∧ f.readFile (ascii "/d/a") = some [] ∧
    LeftBy ⟨exWhole.enc, ~~~0⟩ (ascii "/d") exEmptyDir g ∧ g.readLink (ascii "/d/b/c") = none ∧ g.stat true (ascii "/d/b") = some true ∧
    (∃ s, doRecoverFiles quietEnv 30 9 ⟨exWhole.enc, ~~~0⟩ true (ascii "/d") (RecState.start f) = .ok () s ∧ s.silent ∧
      s.fs.readFile (ascii "/d/a") = some [1, 2, 3, 0, 0] ∧ s.fs.readLink (ascii "/d/b/c") = some [46, 46]) ∧
    ∃ s, doRecoverFiles quietEnv 30 9 ⟨exWhole.enc, ~~~0⟩ true (ascii "/d") (RecState.start g) = .ok () s ∧ s.silent ∧
      s.fs.readFile (ascii "/d/a") = some [1, 2, 3, 0, 0] ∧ s.fs.readLink (ascii "/d/b/c") = some [46, 46] := by
  have h : ∃ f ∈ (doRecoverFiles quietEnv 30 9 ⟨exWhole.enc, ~~~0⟩ false (ascii "/d") (RecState.start exEmptyDir)).history,
      f.readFile (ascii "/d/a") = some [] ∧
      (doRecoverFiles quietEnv 30 9 ⟨exWhole.enc, ~~~0⟩ true (ascii "/d") (RecState.start f)).silentOk = true ∧
      (doRecoverFiles quietEnv 30 9 ⟨exWhole.enc, ~~~0⟩ true (ascii "/d") (RecState.start f)).state.fs.readFile (ascii "/d/a") = some [1, 2, 3, 0, 0] ∧
      (doRecoverFiles quietEnv 30 9 ⟨exWhole.enc, ~~~0⟩ true (ascii "/d") (RecState.start f)).state.fs.readLink (ascii "/d/b/c") = some [46, 46] := by
    decide +kernel
  have hg : ∃ k ∈ (doRecoverFiles quietEnv 30 9 ⟨exWhole.enc, ~~~0⟩ false (ascii "/d") (RecState.start exEmptyDir)).history,
      ∃ f ∈ (doRecoverFiles quietEnv 30 9 ⟨exWhole.enc, ~~~0⟩ true (ascii "/d") (RecState.start k)).history,
      k.readLink (ascii "/d/b/c") = some [46, 46] ∧ f.readLink (ascii "/d/b/c") = none ∧ f.stat true (ascii "/d/b") = some true ∧
      (doRecoverFiles quietEnv 30 9 ⟨exWhole.enc, ~~~0⟩ true (ascii "/d") (RecState.start f)).silentOk = true ∧
      (doRecoverFiles quietEnv 30 9 ⟨exWhole.enc, ~~~0⟩ true (ascii "/d") (RecState.start f)).state.fs.readFile (ascii "/d/a") = some [1, 2, 3, 0, 0] ∧
      (doRecoverFiles quietEnv 30 9 ⟨exWhole.enc, ~~~0⟩ true (ascii "/d") (RecState.start f)).state.fs.readLink (ascii "/d/b/c") = some [46, 46] := by
    decide +kernel
  obtain ⟨f, h0, h1, h3, h4, h5⟩ := h
  obtain ⟨k, g0, g, g1, -, g2, g3, g4, g5, g6⟩ := hg
  obtain ⟨s, k1, k2⟩ := silent_of h3
  obtain ⟨t, l1, l2⟩ := silent_of g4
  rw [k1] at h4 h5
  rw [l1] at g5 g6
  exact ⟨f, g, .run .none (fun _ => rfl) (reached_iff.mpr h0), h1,
    .run (.run .none (fun _ => rfl) (reached_iff.mpr g0)) (fun _ => rfl) (reached_iff.mpr g1), g2, g3, ⟨s, k1, k2, h4, h5⟩, t, l1, l2, g5, g6⟩

end Btrfscue
