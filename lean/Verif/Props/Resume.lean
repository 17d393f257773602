import Verif.Props.RecoverWhole
import Verif.Props.Again
import Verif.Props.Refuted
import Verif.Props.RecoverWholeEx
/-!
# C101, C102: a run of recover that is broken off
-/

namespace Btrfscue

open Cmd

theorem reached_preserved {env : Env} (hst : ∀ n, env.fails .stat n = false) (rf fuel : Nat) (ix : Ix) (dest : Bytes) (fs f : HostFS)
    (hf : (doRecoverFiles env rf fuel ix false dest (RecState.start fs)).state.reached f) : Preserved fs f := by
  have h := ((Kept.inv (fs0 := fs) hst rf ix).all fuel (dest := dest) trivial fun _ => trivial).state
    (s := RecState.start fs) ⟨Preserved.refl _, fun f hf => by cases hf⟩
  rcases hf with rfl | hf
  · exact h.1
  · exact h.2 f hf

/-- What is done has its contents. -/
theorem done_at {b : Bucket} {gc : UInt64} {D : Bytes} {env : Env} {fs f : HostFS} {dest : Bytes} {r : Nat} (hD : (Ix.mk b (~~~0)).Distinct dest)
    (he : EmptyDest fs dest r) (hs : Shape ⟨b, ~~~0⟩ dest r f) (hg : Grown fs f) {A : List Bytes} {i : Nat} (hi : f.down r A = some i)
    {s : RecState} (hfs : s.fs = f) (hw : Ev.warn (pathOf dest A) ∉ s.log)
    (hd : ∀ p, Named dest A p → (∀ o n, EntryAt ⟨b, ~~~0⟩ dest 1 o n A → fileFate b gc D env s o n p ∨ Ev.warn p ∈ s.log) ∧
      (∀ o n, EntryAt ⟨b, ~~~0⟩ dest 7 o n A → linkFate b s o n p ∨ Ev.warn p ∈ s.log)) :
    (∀ x, f.inodes[i]? = some (.file x) → ∃ o n, (Ix.mk b (~~~0)).HasEntry dest 1 o n (pathOf dest A) ∧
      (b.recoverable gc o n → sized b env o n → b.contentIs gc D o n x)) ∧
    (∀ x, f.inodes[i]? = some (.link x) → ∃ o n, (Ix.mk b (~~~0)).HasEntry dest 7 o n (pathOf dest A) ∧
      ∀ y, b.targetIs o n y → x = y) := by
  subst hfs
  have hres : ∀ {t : UInt8} {o n : UInt64} {q : Bytes} {follow : Bool} {j : Nat} {e}, EntryAt ⟨b, ~~~0⟩ dest t o n A → Named dest A q →
      t = 1 ∨ follow = false → s.fs.resolve follow q = .found j e → j = i := by
    intro t o n q follow j e h1 h2 h3 h4
    rcases hs.resolve_entry hD he.ok hg h1 h2 h3 with ⟨h, -⟩ | h
    · rw [h4] at h; cases h
    · have := h.found j e h4
      rw [hi] at this
      cases this; rfl
  refine ⟨fun x hx => ?_, fun x hx => ?_⟩
  · rcases hs.kind A i hi with ⟨-, h3⟩ | ⟨o, n, y, ⟨q, h1, h2⟩, h3⟩ | ⟨o, n, y, -, h3⟩
    · obtain ⟨es, par, h3⟩ := isDirAt_iff.mp h3
      rw [hx] at h3; cases h3
    · have hq := h2.pathOf he.clean he.ok.ne
      refine ⟨o, n, hq ▸ h1, fun hrec hsz => ?_⟩
      obtain ⟨z, k1, k2⟩ := (((hd q h2).1 o n ⟨q, h1, h2⟩).resolve_right (hq ▸ hw)) hrec hsz
      unfold HostFS.readFile at k1
      cases hr : s.fs.resolve true q with
      | fail => rw [hr] at k1; cases k1
      | missing _ _ _ => rw [hr] at k1; cases k1
      | found j e =>
        rw [hr] at k1
        simp only at k1
        rw [hres ⟨q, h1, h2⟩ h2 (Or.inl rfl) hr, hx] at k1
        cases k1
        exact k2
    · rw [hx] at h3; cases h3
  · rcases hs.kind A i hi with ⟨-, h3⟩ | ⟨o, n, y, -, h3⟩ | ⟨o, n, y, ⟨q, h1, h2⟩, h3⟩
    · obtain ⟨es, par, h3⟩ := isDirAt_iff.mp h3
      rw [hx] at h3; cases h3
    · rw [hx] at h3; cases h3
    · have hq := h2.pathOf he.clean he.ok.ne
      refine ⟨o, n, hq ▸ h1, fun y hy => ?_⟩
      have k1 := (((hd q h2).2 o n ⟨q, h1, h2⟩).resolve_right (hq ▸ hw)) y hy
      unfold HostFS.readLink at k1
      cases hr : s.fs.resolve false q with
      | fail => rw [hr] at k1; cases k1
      | missing _ _ _ => rw [hr] at k1; cases k1
      | found j e =>
        rw [hr] at k1
        simp only at k1
        rw [hres ⟨q, h1, h2⟩ h2 (Or.inr rfl) hr, hx] at k1
        simpa using k1

/-! ## C101 -/

/-- C101: when recovering to an empty directory, at every point of the run — that is, wherever it is
broken off —, of all files and links there are below the destination there is at most one (at the
path `pathOf dest A0`) that is not done: all others have the contents and targets stored for them,
or there is a warning about them. (If the file is one that can be recovered; and has an extent, or
truncate(2) does not fail.) -/
theorem C101_all_but_one_partial (b : Bucket) (hb : b.WF) (m : Bytes) (hm : b.stores metadataVersionKey m) (gc : UInt64) (ha : b.AddrOK gc) :
    ∃ N, ∀ rf, N ≤ rf → ∀ env D, Honest env D → (∀ n, env.fails .stat n = false) → ∀ fuel fs dest r,
      EmptyDest fs dest r → (Ix.mk b (~~~0)).Distinct dest →
      ∀ s', s' = (doRecoverFiles env rf fuel ⟨b, ~~~0⟩ false dest (RecState.start fs)).state → ∀ f, s'.reached f →
      ∃ A0, ∀ A i, f.down r A = some i → A ≠ A0 → Ev.warn (pathOf dest A) ∉ s'.log →
        (∀ x, f.inodes[i]? = some (.file x) → ∃ o n, (Ix.mk b (~~~0)).HasEntry dest 1 o n (pathOf dest A) ∧
          (b.recoverable gc o n → sized b env o n → b.contentIs gc D o n x)) ∧
        (∀ x, f.inodes[i]? = some (.link x) → ∃ o n, (Ix.mk b (~~~0)).HasEntry dest 7 o n (pathOf dest A) ∧
          ∀ y, b.targetIs o n y → x = y) := by
  obtain ⟨N, h⟩ := whole_sound hb hm ha
  refine ⟨N, fun rf hrf env D hh hst fuel fs dest r he hD s' hs' f hf => ?_⟩
  subst hs'
  obtain ⟨h1, A0, h2⟩ := h rf hrf env D hh hst fuel fs dest r he hD f hf
  have hg := (reached_preserved hst rf fuel ⟨b, ~~~0⟩ dest fs f hf).grown
  exact ⟨A0, fun A i hi hne hw => done_at hD he h1 hg hi 
    (s := { (doRecoverFiles env rf fuel ⟨b, ~~~0⟩ false dest (RecState.start fs)).state with fs := f }) rfl hw fun p hp => h2 A i hi hne p hp⟩

/-! ## C102 -/

/-- C102: a run to an empty directory is broken off, at any point `f`; then recover is run again, and ends
without a warning. Then there is at most one path, `pathOf dest A0`, such that every regular file
listed in a directory that has a place in the destination, and that can be recovered, has the
contents stored for it, unless it is at that path or the first run had warned about it; the same
for links. And what there was at the point `f` is as it was. -/
theorem C102_finished_partial (b : Bucket) (hb : b.WF) (m : Bytes) (hm : b.stores metadataVersionKey m) (gc : UInt64) (ha : b.AddrOK gc) :
    ∃ N, ∀ rf, N ≤ rf → ∀ D env env', Honest env D → Honest env' D → (∀ n, env.fails .stat n = false) → (∀ n, env'.fails .stat n = false) →
      ∀ fuel fuel' fs dest r, EmptyDest fs dest r → (Ix.mk b (~~~0)).Distinct dest →
      ∀ s, s = (doRecoverFiles env rf fuel ⟨b, ~~~0⟩ false dest (RecState.start fs)).state → ∀ f, s.reached f →
      ∀ s', doRecoverFiles env' rf fuel' ⟨b, ~~~0⟩ false dest (RecState.start f) = .ok () s' → s'.silent →
      Untouched f s'.fs ∧ s'.fs.OnlyListed ⟨b, ~~~0⟩ dest r ∧ ∃ A0,
      ∀ o d p0, (Ix.mk b (~~~0)).Placed dest o d p0 → ∃ p, (Ix.mk b (~~~0)).Placed dest o d p ∧ s'.fs.stat true p = some true ∧
        ∀ di name t loc, (Ix.mk b (~~~0)).lists o d di → di.says name t loc → loc.typ ≠ 132 → usable name → 92 ∉ name →
          goJoin p name ≠ pathOf dest A0 → Ev.warn (goJoin p name) ∉ s.log →
          (t = 1 → b.recoverable gc o loc.objectID → sized b env o loc.objectID → sized b env' o loc.objectID →
            ∃ x, s'.fs.readFile (goJoin p name) = some x ∧ b.contentIs gc D o loc.objectID x) ∧
          (t = 7 → ∀ x, b.targetIs o loc.objectID x → s'.fs.readLink (goJoin p name) = some x) := by
  obtain ⟨N1, h1⟩ := whole_sound hb hm ha
  obtain ⟨N2, h2⟩ := whole_again hb hm ha
  refine ⟨N1 + N2, fun rf hrf D env env' hh hh' hst hst' fuel fuel' fs dest r he hD s hs f hf s' hrun hsil => ?_⟩
  subst hs
  obtain ⟨hshape, A0, hbut⟩ := h1 rf (by omega) env D hh hst fuel fs dest r he hD f hf
  have hpres := reached_preserved hst rf fuel ⟨b, ~~~0⟩ dest fs f hf
  have hun : Untouched f s'.fs := (C56_existing_untouched_partial env' hst' rf fuel' ⟨b, ~~~0⟩ dest f s'.fs (by rw [hrun]; exact Or.inl rfl))
  have hst0 : WholeInv ⟨b, ~~~0⟩ fs dest r rf
      (fun t o i q => (∃ A i, Named dest A q ∧ f.down r A = some i) ∨ fileFate b gc D env' t o i q)
      (fun t o i q => (∃ A i, Named dest A q ∧ f.down r A = some i) ∨ linkFate b t o i q) (RecState.start f) :=
    ⟨⟨⟨rfl, List.nodup_nil⟩, fun o d p hx => by cases hx⟩, Or.inl rfl, hshape, hpres, fun f hf => (by cases hf),
      fun A i hi p hp => ⟨fun _ _ _ => Or.inl (Or.inl ⟨A, i, hp, hi⟩), fun _ _ _ => Or.inl (Or.inl ⟨A, i, hp, hi⟩)⟩, fun f hf => (by cases hf)⟩
  have hw := h2 rf (by omega) env' D hh' hst' fuel' fs dest r he.ok hD (fun q => ∃ A i, Named dest A q ∧ f.down r A = some i) f hst0
  unfold wp at hw
  rw [hrun] at hw
  obtain ⟨h1, h2, h3⟩ := hw
  refine ⟨hun, sound_only he.clean he.ok.ne h1.inv.shape, A0, fun o d p0 hp0 => ?_⟩
  have hdone : ∀ o d p, Ev.enter o d p ∈ s'.log → _ := fun o d p hx =>
    ((h1.dirs o d p hx).resolve_left (by intro h; cases h)).resolve_left (hsil p)
  have hent : ∀ o d p0, (Ix.mk b (~~~0)).Placed dest o d p0 → ∃ p, Ev.enter o d p ∈ s'.log := by
    intro o d p0 hp
    induction hp with
    | main => exact h2
    | subvolume h =>
      obtain ⟨rd, x, k, g1, g2, g3, rfl⟩ := h
      exact h3 rd x k g1 g2 g3
    | @dir o d p di name loc _ hl hsay hty hu hb' ih =>
      obtain ⟨p', hp'⟩ := ih
      obtain ⟨⟨-, dis, hdis⟩, h⟩ := hdone _ _ _ hp'
      exact (h di name (met_of hdis hl hsay.1 hu hb')).dir true false loc
          (isDir_eq.mpr ⟨2, hsay.2.1, rfl⟩) (isSub_eq.mpr ⟨loc, hsay.2.2, beq_eq_false_iff_ne.mpr hty⟩) hsay.2.2 rfl
    | @tree o d p di name t loc _ hl hsay hty hu hb' ih =>
      obtain ⟨p', hp'⟩ := ih
      obtain ⟨⟨-, dis, hdis⟩, h⟩ := hdone _ _ _ hp'
      exact (h di name (met_of hdis hl hsay.1 hu hb')).dir (t == FtDir) true loc
          (isDir_eq.mpr ⟨t, hsay.2.1, rfl⟩) (isSub_eq.mpr ⟨loc, hsay.2.2, by rw [hty]; rfl⟩) hsay.2.2 (by simp)
  obtain ⟨p, hp⟩ := hent o d p0 hp0
  obtain ⟨⟨hdir, dis, hdis⟩, hent⟩ := hdone o d p hp
  have hpl := h1.inv.once.2 o d p hp
  refine ⟨p, hpl, hdir, fun di name t loc hl hsay hty hu hb' hne hnw => ?_⟩
  have hm := met_of hdis hl hsay.1 hu hb'
  have hd := hent di name hm
  have hold : ∀ {t : UInt8} {A : List Bytes} {i : Nat}, (hl : Leads di t loc.objectID) → Named dest A (goJoin p name) → f.down r A = some i →
      A ≠ A0 ∧ EntryAt ⟨b, ~~~0⟩ dest t o loc.objectID A := by
    intro t A i hl hA hi
    refine ⟨fun hc => hne (hc ▸ hA.pathOf he.clean he.ok.ne), ?_⟩
    obtain ⟨A', hA', hE⟩ := hm.entryAt hD he.clean he.ok.ne hpl hl
    exact ⟨_, hE.choose_spec.1, by rw [hE.choose_spec.2.path hA']; exact hA⟩
  refine ⟨fun ht hrec hsz hsz' => ?_, fun ht x hx => ?_⟩
  · subst ht
    rcases (hd.file _ (leads_of hsay (by decide) hty)).resolve_right (hsil _) with ⟨A, i, hA, hi⟩ | h
    · obtain ⟨k1, k2⟩ := hold (leads_of hsay (by decide) hty) hA hi
      obtain ⟨x, g1, g2⟩ := (((hbut A i hi k1 _ hA).1 o _ k2).resolve_right hnw) hrec hsz
      exact ⟨x, hun.files _ _ g1, g2⟩
    · exact h hrec hsz'
  · subst ht
    rcases (hd.link _ (leads_of hsay (by decide) hty)).resolve_right (hsil _) with ⟨A, i, hA, hi⟩ | h
    · obtain ⟨k1, k2⟩ := hold (leads_of hsay (by decide) hty) hA hi
      exact hun.links _ _ ((((hbut A i hi k1 _ hA).2 o _ k2).resolve_right hnw) x hx)
    · exact h x hx

/-- The example of `C81_read_error_is_silent`. -/
def exResume : AStore := exOneExtent 4 ⟨9, 4, 0, 0, 0, 1, 16, 4, 0, 4⟩

/-- All file systems there were, the last first. -/
def Out.history (o : Out RecState Unit) : List HostFS := o.state.fs :: o.state.past

theorem reached_iff {s : RecState} {f : HostFS} : s.reached f ↔ f ∈ s.fs :: s.past := by
  rw [List.mem_cons]; rfl

/-- C102 is false of the code: a run is broken off after the file "a" was created and before it was
written; the next run prints no warning and leaves the empty file. With `--clobber` it would have
the right contents; and the first run, had it not been broken off. -/
theorem C102_truncated_stays :
    ∃ f, (exWholeRun (imageEnv [1, 2, 3, 4]) exResume).state.reached f ∧ f.readFile (ascii "/d/a") = some [] ∧
      (exWholeRun (imageEnv [1, 2, 3, 4]) exResume).state.fs.readFile (ascii "/d/a") = some [1, 2, 3, 4] ∧
      (∃ s, doRecoverFiles (imageEnv [1, 2, 3, 4]) 9 9 ⟨exResume.enc, ~~~0⟩ false (ascii "/d") (RecState.start f) = .ok () s ∧ s.silent ∧
        s.fs.readFile (ascii "/d/a") = some []) ∧
      ∃ s, doRecoverFiles (imageEnv [1, 2, 3, 4]) 9 9 ⟨exResume.enc, ~~~0⟩ true (ascii "/d") (RecState.start f) = .ok () s ∧ s.silent ∧
        s.fs.readFile (ascii "/d/a") = some [1, 2, 3, 4] := by
  have h : ∃ f ∈ (exWholeRun (imageEnv [1, 2, 3, 4]) exResume).history, f.readFile (ascii "/d/a") = some [] ∧
      (exWholeRun (imageEnv [1, 2, 3, 4]) exResume).state.fs.readFile (ascii "/d/a") = some [1, 2, 3, 4] ∧
      ((doRecoverFiles (imageEnv [1, 2, 3, 4]) 9 9 ⟨exResume.enc, ~~~0⟩ false (ascii "/d") (RecState.start f)).silentOk = true ∧
        (doRecoverFiles (imageEnv [1, 2, 3, 4]) 9 9 ⟨exResume.enc, ~~~0⟩ false (ascii "/d") (RecState.start f)).state.fs.readFile (ascii "/d/a") =
          some []) ∧
      (doRecoverFiles (imageEnv [1, 2, 3, 4]) 9 9 ⟨exResume.enc, ~~~0⟩ true (ascii "/d") (RecState.start f)).silentOk = true ∧
        (doRecoverFiles (imageEnv [1, 2, 3, 4]) 9 9 ⟨exResume.enc, ~~~0⟩ true (ascii "/d") (RecState.start f)).state.fs.readFile (ascii "/d/a") =
          some [1, 2, 3, 4] := by decide +kernel
  obtain ⟨f, h0, h1, h2, ⟨h3, h4⟩, h5, h6⟩ := h
  refine ⟨f, reached_iff.mpr h0, h1, h2, ?_, ?_⟩
  · obtain ⟨s, k1, k2⟩ := silent_of h3
    rw [k1] at h4
    exact ⟨s, k1, k2, h4⟩
  · obtain ⟨s, k1, k2⟩ := silent_of h5
    rw [k1] at h6
    exact ⟨s, k1, k2, h6⟩

/-- The hypotheses of C101 and C102 are those of C81 (met by `exWhole`, see there). A run of it is broken
off when the directory "b" was not yet there; the next run ends without a warning, and everything is there. -/
example : ∃ f, (doRecoverFiles quietEnv 30 9 ⟨exWhole.enc, ~~~0⟩ false (ascii "/d") (RecState.start exEmptyDir)).state.reached f ∧
    f.readFile (ascii "/d/a") = some [1, 2, 3, 0, 0] ∧ f.stat true (ascii "/d/b") = none ∧
    ∃ s, doRecoverFiles quietEnv 30 9 ⟨exWhole.enc, ~~~0⟩ false (ascii "/d") (RecState.start f) = .ok () s ∧ s.silent ∧
      s.fs.readFile (ascii "/d/a") = some [1, 2, 3, 0, 0] ∧ s.fs.readLink (ascii "/d/b/c") = some [46, 46] := by
  have h : ∃ f ∈ (doRecoverFiles quietEnv 30 9 ⟨exWhole.enc, ~~~0⟩ false (ascii "/d") (RecState.start exEmptyDir)).history,
      f.readFile (ascii "/d/a") = some [1, 2, 3, 0, 0] ∧ f.stat true (ascii "/d/b") = none ∧
      (doRecoverFiles quietEnv 30 9 ⟨exWhole.enc, ~~~0⟩ false (ascii "/d") (RecState.start f)).silentOk = true ∧
      (doRecoverFiles quietEnv 30 9 ⟨exWhole.enc, ~~~0⟩ false (ascii "/d") (RecState.start f)).state.fs.readFile (ascii "/d/a") = some [1, 2, 3, 0, 0] ∧
      (doRecoverFiles quietEnv 30 9 ⟨exWhole.enc, ~~~0⟩ false (ascii "/d") (RecState.start f)).state.fs.readLink (ascii "/d/b/c") = some [46, 46] := by
    decide +kernel
  obtain ⟨f, h0, h1, h2, h3, h4, h5⟩ := h
  obtain ⟨s, k1, k2⟩ := silent_of h3
  rw [k1] at h4 h5
  exact ⟨f, reached_iff.mpr h0, h1, h2, s, k1, k2, h4, h5⟩

/-- The hypotheses of C100 are met: a silent run; the second changes nothing. -/
example : ∃ s1, doRecoverFiles quietEnv 30 9 ⟨exWhole.enc, ~~~0⟩ false (ascii "/d") (RecState.start exEmptyDir) = .ok () s1 ∧ s1.silent ∧
    s1.fs.readFile (ascii "/d/a") = some [1, 2, 3, 0, 0] ∧
    ∃ s2, doRecoverFiles quietEnv 30 9 ⟨exWhole.enc, ~~~0⟩ false (ascii "/d") (RecState.start s1.fs) = .ok () s2 ∧ s2.silent ∧
      ∀ f, s2.reached f → f = s1.fs := by
  obtain ⟨s, h1, h2⟩ := silent_of (o := doRecoverFiles quietEnv 30 9 ⟨exWhole.enc, ~~~0⟩ false (ascii "/d")
    (RecState.start exEmptyDir)) (by decide +kernel)
  have h3 : (doRecoverFiles quietEnv 30 9 ⟨exWhole.enc, ~~~0⟩ false (ascii "/d") (RecState.start exEmptyDir)).state.fs.readFile
      (ascii "/d/a") = some [1, 2, 3, 0, 0] := by decide +kernel
  rw [h1] at h3
  exact ⟨s, h1, h2, h3, C100_second_run_changes_nothing quietEnv quietEnv (fun _ => rfl) (fun _ => rfl) 30 9 _ _ _ _ h1 h2⟩

end Btrfscue
