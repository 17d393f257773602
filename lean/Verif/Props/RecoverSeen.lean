import Verif.Proof.SeenTree
import Verif.Props.PieceExact
import Verif.Props.RecoverAll
/-!
# C81, C82, C83: what recovering to an empty directory does, whatever the generations
-/

namespace Btrfscue

open Cmd

/-- What becomes of files. -/
def seenFate (b : Bucket) (D : Bytes) (env : Env) : Fate := fun t o i q =>
  ∀ size, b.FileReadable o i size → size = none ∨ sized b env o i → ∃ x, t.fs.readFile q = some x ∧ b.fileSeen o i size D x

/-- What becomes of links. -/
def targetFate (b : Bucket) : Fate := fun t o i q => ∀ x, b.targetSeen o i x → t.fs.readLink q = some x

theorem seen_fates (b : Bucket) (D : Bytes) (env : Env) : Fates (seenFate b D env) (targetFate b) where
  file s t o i p hw h size hr hs := by
    obtain ⟨x, h1, h2⟩ := h size hr hs
    exact ⟨x, hw.fs.untouched.files _ _ h1, h2⟩
  link s t o i p hw h x hx := hw.fs.untouched.links _ _ (h x hx)

theorem PlaceOK.cache {b : Bucket} {N : Nat} {map : List StripeMapEntry} (hM : PlaceOK b N map) {rf : Nat} (h1 : N ≤ rf) {s : RecState}
    (hc : CacheOK rf ⟨b, ~~~0⟩ s) : s.cache = none ∨ s.cache = some map := by
  rcases hc with hc | ⟨map', hc, h⟩
  · exact Or.inl hc
  · rw [hM.built rf h1] at hc
    cases hc
    exact Or.inr h

/-- One file. -/
theorem wp_file_seen {b : Bucket} (hb : b.WF) {m : Bytes} (hm : b.stores metadataVersionKey m)
    {N0 : Nat} {map : List StripeMapEntry} (hM : PlaceOK b N0 map) {rf : Nat} (h1 : N0 ≤ rf) (h2 : b.length < rf)
    {env : Env} {D : Bytes} (hh : Honest env D) {o i : UInt64} {q : Bytes} {s : RecState} (hc : CacheOK rf ⟨b, ~~~0⟩ s) :
    wp (recoverFile env rf ⟨b, ~~~0⟩ false o i q)
      (fun e t => e = none → (s.fs.stat true q ≠ none ∧ t.fs = s.fs) ∨ seenFate b D env t o i q) (fun _ => True) s := by
  by_cases hx : ∃ size, b.FileReadable o i size
  · obtain ⟨size, hx⟩ := hx
    refine wp_mono (file_pieces hb hm hx hM D rf h1 h2 env hh false q s (hM.cache h1 hc)) (fun e t h he => ?_) fun _ _ => trivial
    rcases h.1 he with ⟨-, h⟩ | ⟨h, -⟩
    · exact Or.inl h
    · refine Or.inr fun size' hr' hs' => ?_
      have hsz : size' = size := by
        have k1 := hx.size
        have k2 := hr'.size
        cases size with
        | none =>
          cases size' with
          | none => rfl
          | some z =>
            obtain ⟨⟨g, x, f, r, k, -⟩, -⟩ := k2
            exact absurd ⟨g, k.1⟩ k1
        | some y =>
          cases size' with
          | none =>
            obtain ⟨⟨g, x, f, r, k, -⟩, -⟩ := k1
            exact absurd ⟨g, k.1⟩ k2
          | some z =>
            obtain ⟨l, hl, rfl⟩ := hb.exists_abs
            have e1 := inodeSize_known (AStore.enc_wf hl) hm hx.range.ordinary hx.size
            have e2 := inodeSize_known (AStore.enc_wf hl) hm hx.range.ordinary hr'.size
            rw [e1] at e2
            cases e2
            rfl
      subst hsz
      exact h hs'
  · unfold wp
    cases recoverFile env rf ⟨b, ~~~0⟩ false o i q s with
    | ok e t => exact fun _ => Or.inr fun size h => absurd ⟨size, h⟩ hx
    | exit t => trivial
    | crash t => trivial
    | hang t => trivial

/-- One link. -/
theorem wp_link_seen {b : Bucket} (hb : b.WF) {m : Bytes} (hm : b.stores metadataVersionKey m) {rf : Nat}
    {env : Env} {o i : UInt64} {q : Bytes} {s : RecState} :
    wp (recoverSymlink env rf ⟨b, ~~~0⟩ false o i q)
      (fun e t => e = none → (s.fs.stat false q ≠ none ∧ t.fs = s.fs) ∨ targetFate b t o i q) (fun _ => True) s := by
  refine wp_mono wp_recoverSymlink (fun e t h he => ?_) fun _ h => h
  rcases h he with ⟨-, h1, h2⟩ | ⟨e, x, h1, h2, h3⟩
  · exact Or.inl ⟨h2, h1⟩
  · right
    rintro y ⟨ho, g, z, d, k1, k2, k3, f, rest, rfl, k4, k5⟩
    obtain ⟨t', ht'⟩ := findData_newest hb hm ho k1 k2 k3
    have hi : (Ix.mk b (~~~0)).findFileExtentItem o i = .ok (some ⟨f.layout ++ (y ++ rest), t'⟩) := ht'
    obtain ⟨g1, g2⟩ := inline_data f y rest t' k4 k5
    rw [hi] at h1
    cases h1
    have := h3 g2
    rw [g1] at this
    cases this
    exact h2

/-- The run. -/
theorem seen_core {b : Bucket} (hb : b.WF) {m : Bytes} (hm : b.stores metadataVersionKey m)
    (hcr : b.RangeOK 3 (KL2 228 256)) (hci : b.SeenIntact) :
    ∃ N, ∀ rf, N ≤ rf → ∀ env D, Honest env D → (∀ n, env.fails .stat n = false) → ∀ fuel fs dest r,
      EmptyDest fs dest r → b.TreeReadable dest →
      wp (doRecoverFiles env rf fuel ⟨b, ~~~0⟩ false dest) (fun _ t =>
        Step rf ⟨b, ~~~0⟩ (WholeInv ⟨b, ~~~0⟩ fs dest r rf (seenFate b D env) (targetFate b)) (Went Preserved)
          (seenFate b D env) (targetFate b) (RecState.start fs) t ∧
        (∃ p', Ev.enter 5 256 p' ∈ t.log) ∧
        ∀ rd x k, (Ix.mk b (~~~0)).subvolumes = .ok rd → Range.Visits rd x → x.1.rKey = .ok k →
          ∃ p', Ev.enter k.objectID 256 p' ∈ t.log) (Sound ⟨b, ~~~0⟩ dest r (seenFate b D env) (targetFate b)) (RecState.start fs) := by
  obtain ⟨N, map, hM⟩ := placeOK hb hm hcr hci
  refine ⟨N + b.length + 2, fun rf hrf env D hh hst fuel fs dest r he hu => ?_⟩
  have hD := hu.distinct hb hm
  exact wpE_iff.mp <| (wholeRun hst hD he.ok (seen_fates b D env)
    (fun o i q s _ hc => wp_file_seen hb hm hM (by omega) (by omega) hh hc)
    (fun o i q s _ _ => wp_link_seen hb hm)).all fuel (WholeInv.start he hD)

/-- At every point of it. -/
theorem seen_sound {b : Bucket} (hb : b.WF) {m : Bytes} (hm : b.stores metadataVersionKey m)
    (hcr : b.RangeOK 3 (KL2 228 256)) (hci : b.SeenIntact) :
    ∃ N, ∀ rf, N ≤ rf → ∀ env D, Honest env D → (∀ n, env.fails .stat n = false) → ∀ fuel fs dest r,
      EmptyDest fs dest r → b.TreeReadable dest →
      Sound ⟨b, ~~~0⟩ dest r (seenFate b D env) (targetFate b)
        (doRecoverFiles env rf fuel ⟨b, ~~~0⟩ false dest (RecState.start fs)).state := by
  obtain ⟨N, h⟩ := seen_core hb hm hcr hci
  refine ⟨N, fun rf hrf env D hh hst fuel fs dest r he hD => ?_⟩
  have hw := h rf hrf env D hh hst fuel fs dest r he hD
  unfold wp at hw
  cases hrun : doRecoverFiles env rf fuel ⟨b, ~~~0⟩ false dest (RecState.start fs) with
  | ok u s => rw [hrun] at hw; exact hw.1.inv.sound
  | exit s => rw [hrun] at hw; exact hw
  | crash s => rw [hrun] at hw; exact hw
  | hang s => rw [hrun] at hw; exact hw

/-- C82, for an index of any generations: when recovering to an empty directory, at every point of
the run — also if it stops early, or is killed — everything below the destination is at the place
of something seen in the index: a directory where one is seen, a file where one is, a link where
one is. -/
theorem C82_only_seen (b : Bucket) (hb : b.WF) (m : Bytes) (hm : b.stores metadataVersionKey m)
    (hcr : b.RangeOK 3 (KL2 228 256)) (hci : b.SeenIntact) :
    ∃ N, ∀ rf, N ≤ rf → ∀ env D, Honest env D → (∀ n, env.fails .stat n = false) → ∀ fuel fs dest r,
      EmptyDest fs dest r → b.TreeReadable dest →
      ∀ f, (doRecoverFiles env rf fuel ⟨b, ~~~0⟩ false dest (RecState.start fs)).state.reached f →
      ∀ A i, f.down r A = some i →
        (f.isDirAt i = true ∧ ∃ o d, b.SeenAt dest o d (pathOf dest A)) ∨
        (∃ x o n, f.inodes[i]? = some (.file x) ∧ b.ObjectAt dest 1 o n (pathOf dest A)) ∨
        ∃ x o n, f.inodes[i]? = some (.link x) ∧ b.ObjectAt dest 7 o n (pathOf dest A) := by
  obtain ⟨N, h⟩ := seen_sound hb hm hcr hci
  refine ⟨N, fun rf hrf env D hh hst fuel fs dest r he hu f hf A i hi => ?_⟩
  rcases sound_only he.clean he.ok.ne (h rf hrf env D hh hst fuel fs dest r he hu f hf).1 A i hi with
    ⟨h1, o, d, h2⟩ | ⟨x, o, n, h1, h2⟩ | ⟨x, o, n, h1, h2⟩
  · exact Or.inl ⟨h1, o, d, (hu.placed hb hm).mp h2⟩
  · exact Or.inr (Or.inl ⟨x, o, n, h1, (hu.hasEntry hb hm).mp h2⟩)
  · exact Or.inr (Or.inr ⟨x, o, n, h1, (hu.hasEntry hb hm).mp h2⟩)

/-- C82, for an index of any generations: and in the end every file there has exactly the contents
seen for it, every link the target, or there was a warning about it. (If the file can be read; and
has an extent or no inode item, or truncate(2) does not fail.) -/
theorem C82_contents_seen (b : Bucket) (hb : b.WF) (m : Bytes) (hm : b.stores metadataVersionKey m)
    (hcr : b.RangeOK 3 (KL2 228 256)) (hci : b.SeenIntact) :
    ∃ N, ∀ rf, N ≤ rf → ∀ env D, Honest env D → (∀ n, env.fails .stat n = false) → ∀ fuel fs dest r,
      EmptyDest fs dest r → b.TreeReadable dest →
      ∀ s', doRecoverFiles env rf fuel ⟨b, ~~~0⟩ false dest (RecState.start fs) = .ok () s' →
      ∀ A i, s'.fs.down r A = some i → Ev.warn (pathOf dest A) ∉ s'.log →
        (∀ x, s'.fs.inodes[i]? = some (.file x) → ∃ o n, b.ObjectAt dest 1 o n (pathOf dest A) ∧
          ∀ size, b.FileReadable o n size → size = none ∨ sized b env o n → b.fileSeen o n size D x) ∧
        (∀ x, s'.fs.inodes[i]? = some (.link x) → ∃ o n, b.ObjectAt dest 7 o n (pathOf dest A) ∧
          ∀ y, b.targetSeen o n y → x = y) := by
  obtain ⟨N, h⟩ := seen_core hb hm hcr hci
  refine ⟨N, fun rf hrf env D hh hst fuel fs dest r he hu s' hrun A i hi hw' => ?_⟩
  have hD := hu.distinct hb hm
  have hw := h rf hrf env D hh hst fuel fs dest r he hu
  unfold wp at hw
  rw [hrun] at hw
  have hinv := hw.1.inv
  have hres : ∀ {t : UInt8} {o n : UInt64} {q : Bytes} {follow : Bool} {j : Nat} {e}, EntryAt ⟨b, ~~~0⟩ dest t o n A → Named dest A q →
      t = 1 ∨ follow = false → s'.fs.resolve follow q = .found j e → j = i := by
    intro t o n q follow j e h1 h2 h3 h4
    rcases hinv.shape.resolve_entry hD he.ok hinv.kept.grown h1 h2 h3 with ⟨h, -⟩ | h
    · rw [h4] at h; cases h
    · have := h.found j e h4
      rw [hi] at this
      cases this; rfl
  refine ⟨fun x hx => ?_, fun x hx => ?_⟩
  · rcases hinv.shape.kind A i hi with ⟨-, h3⟩ | ⟨o, n, y, ⟨q, h1, h2⟩, h3⟩ | ⟨o, n, y, -, h3⟩
    · obtain ⟨es, par, h3⟩ := isDirAt_iff.mp h3
      rw [hx] at h3; cases h3
    · have hq := h2.pathOf he.clean he.ok.ne
      refine ⟨o, n, (hu.hasEntry hb hm).mp (hq ▸ h1), fun size hrec hsz => ?_⟩
      obtain ⟨z, k1, k2⟩ := (((hinv.done A i hi q h2).1 o n ⟨q, h1, h2⟩).resolve_right (hq ▸ hw')) size hrec hsz
      unfold HostFS.readFile at k1
      cases hr : s'.fs.resolve true q with
      | fail => rw [hr] at k1; cases k1
      | missing _ _ _ => rw [hr] at k1; cases k1
      | found j e =>
        rw [hr] at k1
        simp only at k1
        rw [hres ⟨q, h1, h2⟩ h2 (Or.inl rfl) hr, hx] at k1
        cases k1
        exact k2
    · rw [hx] at h3; cases h3
  · rcases hinv.shape.kind A i hi with ⟨-, h3⟩ | ⟨o, n, y, -, h3⟩ | ⟨o, n, y, ⟨q, h1, h2⟩, h3⟩
    · obtain ⟨es, par, h3⟩ := isDirAt_iff.mp h3
      rw [hx] at h3; cases h3
    · rw [hx] at h3; cases h3
    · have hq := h2.pathOf he.clean he.ok.ne
      refine ⟨o, n, (hu.hasEntry hb hm).mp (hq ▸ h1), fun y hy => ?_⟩
      have k1 := (((hinv.done A i hi q h2).2 o n ⟨q, h1, h2⟩).resolve_right (hq ▸ hw')) y hy
      unfold HostFS.readLink at k1
      cases hr : s'.fs.resolve false q with
      | fail => rw [hr] at k1; cases k1
      | missing _ _ _ => rw [hr] at k1; cases k1
      | found j e =>
        rw [hr] at k1
        simp only at k1
        rw [hres ⟨q, h1, h2⟩ h2 (Or.inr rfl) hr, hx] at k1
        simpa using k1

/-- C81, for an index of any generations: recovering to an empty directory, if it ends without a
warning, recovers everything that is seen: every directory is at one of its places `p`, and for
every regular file seen in it that can be read `p/name` has exactly the contents seen for it, every
link its target. -/
theorem C81_everything_seen (b : Bucket) (hb : b.WF) (m : Bytes) (hm : b.stores metadataVersionKey m)
    (hcr : b.RangeOK 3 (KL2 228 256)) (hci : b.SeenIntact) :
    ∃ N, ∀ rf, N ≤ rf → ∀ env D, Honest env D → (∀ n, env.fails .stat n = false) → ∀ fuel fs dest r,
      EmptyDest fs dest r → b.TreeReadable dest →
      ∀ s', doRecoverFiles env rf fuel ⟨b, ~~~0⟩ false dest (RecState.start fs) = .ok () s' → s'.silent →
      ∀ o d p0, b.SeenAt dest o d p0 → ∃ p, b.SeenAt dest o d p ∧ s'.fs.stat true p = some true ∧
        ∀ name e, b.entrySeen o d name e → e.location.typ ≠ 132 → usable name → 92 ∉ name →
          (e.typ = 1 → ∀ size, b.FileReadable o e.location.objectID size → size = none ∨ sized b env o e.location.objectID →
            ∃ x, s'.fs.readFile (goJoin p name) = some x ∧ b.fileSeen o e.location.objectID size D x) ∧
          (e.typ = 7 → ∀ x, b.targetSeen o e.location.objectID x → s'.fs.readLink (goJoin p name) = some x) := by
  obtain ⟨N, h⟩ := seen_core hb hm hcr hci
  refine ⟨N, fun rf hrf env D hh hst fuel fs dest r he hu s' hrun hsil o d p0 hp0 => ?_⟩
  have hw := h rf hrf env D hh hst fuel fs dest r he hu
  unfold wp at hw
  rw [hrun] at hw
  obtain ⟨h1, h2, h3⟩ := hw
  have hdone : ∀ o d p, Ev.enter o d p ∈ s'.log → _ := fun o d p hx =>
    ((h1.dirs o d p hx).resolve_left (by intro h; cases h)).resolve_left (hsil p)
  have hent : ∀ o d p0, (Ix.mk b (~~~0)).Placed dest o d p0 → ∃ p, Ev.enter o d p ∈ s'.log := by
    intro o d p0 hp
    induction hp with
    | main => exact h2
    | subvolume h =>
      obtain ⟨rd, x, k, g1, g2, g3, rfl⟩ := h
      exact h3 rd x k g1 g2 g3
    | @dir o d p di name loc _ hl hsay hty hu hb' ih =>
      obtain ⟨p', hp'⟩ := ih
      obtain ⟨⟨-, dis, hdis⟩, h⟩ := hdone _ _ _ hp'
      exact (h di name (met_of hdis hl hsay.1 hu hb')).dir true false loc
          (isDir_eq.mpr ⟨2, hsay.2.1, rfl⟩) (isSub_eq.mpr ⟨loc, hsay.2.2, beq_eq_false_iff_ne.mpr hty⟩) hsay.2.2 rfl
    | @tree o d p di name t loc _ hl hsay hty hu hb' ih =>
      obtain ⟨p', hp'⟩ := ih
      obtain ⟨⟨-, dis, hdis⟩, h⟩ := hdone _ _ _ hp'
      exact (h di name (met_of hdis hl hsay.1 hu hb')).dir (t == FtDir) true loc
          (isDir_eq.mpr ⟨t, hsay.2.1, rfl⟩) (isSub_eq.mpr ⟨loc, hsay.2.2, by rw [hty]; rfl⟩) hsay.2.2 (by simp)
  obtain ⟨p, hp⟩ := hent o d p0 ((hu.placed hb hm).mpr hp0)
  obtain ⟨⟨hdir, dis, hdis⟩, hent⟩ := hdone o d p hp
  have hpl := (hu.placed hb hm).mp (h1.inv.once.2 o d p hp)
  refine ⟨p, hpl, hdir, fun name e hen hty hn hb' => ?_⟩
  obtain ⟨di, hl, hsay⟩ := (hu.lists hb hm hpl (hpl.ordinary hu)).2 _ _ hen
  have hd := hent di name (met_of hdis hl hsay.1 hn hb')
  refine ⟨fun ht => ?_, fun ht => ?_⟩
  · rw [ht] at hsay
    exact (hd.file _ (leads_of hsay (by decide) hty)).resolve_right (hsil _)
  · rw [ht] at hsay
    exact (hd.link _ (leads_of hsay (by decide) hty)).resolve_right (hsil _)

/-- The run ends, without a warning. -/
theorem seen_all_core {b : Bucket} (hb : b.WF) {m : Bytes} (hm : b.stores metadataVersionKey m)
    (hcr : b.RangeOK 3 (KL2 228 256)) (hci : b.SeenIntact) (hok : b.RecoverOK) :
    ∃ N, ∀ rf, N ≤ rf → ∀ fuel, N ≤ fuel → ∀ env D, Quiet env D → ∀ fs dest r, EmptyDest fs dest r → b.TreeReadable dest →
      b.SeenRecoverable D dest →
      ∃ s', doRecoverFiles env rf fuel ⟨b, ~~~0⟩ false dest (RecState.start fs) = .ok () s' ∧ s'.silent := by
  obtain ⟨N0, map, hM⟩ := placeOK hb hm hcr hci
  obtain ⟨N1, hend⟩ := C60_terminates_stored_partial b hb m hm hok (~~~0)
  refine ⟨N0 + N1 + b.length + 2, fun rf hrf fuel hfuel env D hq fs dest r he hu hr => ?_⟩
  have hD := hu.distinct hb hm
  have hrun := (quietRun (rf := rf) (env := env) hq.calls hD he.ok (seen_fates b D env) (hu.noCrash hb hm rf)
    (fun o d p h => hr.dirs _ _ _ ((hu.placed hb hm).mp h))
    (fun t o i q ht h => by
      have h' := (hu.hasEntry hb hm).mp h
      rcases ht with rfl | rfl
      · exact (hr.files _ _ _ h').1
      · exact (hr.links _ _ _ h').1)
    (fun o i q s h hc => by
      obtain ⟨-, hon, size, hf⟩ := hr.files _ _ _ ((hu.hasEntry hb hm).mp h)
      have h0 := file_pieces hb hm hf hM D rf (by omega) (by omega) env hq.honest false q s (hM.cache (by omega) hc)
      exact wp_mono (wp_and (wp_file_seen hb hm hM (by omega) (by omega) hq.honest hc) h0) (fun e t h => ⟨h.1, h.2.2 hq hon⟩) (fun _ h => h.2))
    (fun o i q s _ _ => wp_link_seen hb hm)
    (fun o i q s h hs => by
      obtain ⟨-, x, ⟨ho, g, y, d, k1, k2, k3, f, rest, rfl, k4, k5⟩, k6⟩ := hr.links _ _ _ ((hu.hasEntry hb hm).mp h)
      by_cases hst : s.fs.stat false q = none
      · obtain ⟨f', hf'⟩ := (hs.resolve_left fun h => h hst) x k6
        obtain ⟨s', hs', -⟩ := C62_link_made b hb m hm o _ ho g y f x rest k1 k2 k3 (by have := k6.2.2; omega) (by have := k6.2.2; omega) env hq.calls rf false _ s f' hf'
        unfold wp
        rw [hs']
      · unfold recoverSymlink
        rw [wp_bind]
        unfold wp
        rw [sysLstat_run hq.calls]
        simp only
        cases hx : s.fs.stat false q with
        | none => exact absurd hx hst
        | some v => exact rfl)).all fuel
      (show WholeInv ⟨b, ~~~0⟩ fs dest r rf (seenFate b D env) (targetFate b) (RecState.start fs) ∧ (RecState.start fs).silent from
        ⟨WholeInv.start he hD, fun p hp => by cases hp⟩)
  have hnh := hend rf (by omega) fuel (by omega) env false dest fs
  unfold wpE at hrun
  cases hc : doRecoverFiles env rf fuel ⟨b, ~~~0⟩ false dest (RecState.start fs) with
  | ok u s' =>
    rw [hc] at hrun
    exact ⟨s', rfl, hrun.1.inv.2⟩
  | exit s' => rw [hc] at hrun; cases hrun
  | crash s' => rw [hc] at hrun; cases hrun
  | hang s' => exact absurd hc (hnh s')

/-- C83, for an index of any generations: recovering to an empty directory, when no system call
fails and all that is seen can be recovered, ends, prints no warning, and what is below the
destination then is exactly what is seen in the index: every directory seen is at one of its
places, with every file seen in it — its contents exactly the bytes of its extents as iterating
gets to them — and every link with its target; and there is nothing else. -/
theorem C83_recovers_seen (b : Bucket) (hb : b.WF) (m : Bytes) (hm : b.stores metadataVersionKey m)
    (hcr : b.RangeOK 3 (KL2 228 256)) (hci : b.SeenIntact) (hok : b.RecoverOK) :
    ∃ N, ∀ rf, N ≤ rf → ∀ fuel, N ≤ fuel → ∀ env D, Quiet env D → ∀ fs dest r, EmptyDest fs dest r → b.TreeReadable dest →
      b.SeenRecoverable D dest →
      ∃ s', doRecoverFiles env rf fuel ⟨b, ~~~0⟩ false dest (RecState.start fs) = .ok () s' ∧ s'.silent ∧
        (∀ o d p0, b.SeenAt dest o d p0 → ∃ p, b.SeenAt dest o d p ∧ s'.fs.stat true p = some true ∧
          ∀ name e, b.entrySeen o d name e → e.location.typ ≠ 132 → usable name → 92 ∉ name →
            (e.typ = 1 → ∃ x size, s'.fs.readFile (goJoin p name) = some x ∧ b.knownSize o e.location.objectID size ∧
              b.fileSeen o e.location.objectID size D x) ∧
            (e.typ = 7 → ∃ x, s'.fs.readLink (goJoin p name) = some x ∧ b.targetSeen o e.location.objectID x)) ∧
        ∀ A i, s'.fs.down r A = some i →
          (s'.fs.isDirAt i = true ∧ ∃ o d, b.SeenAt dest o d (pathOf dest A)) ∨
          (∃ x o n size, s'.fs.inodes[i]? = some (.file x) ∧ b.ObjectAt dest 1 o n (pathOf dest A) ∧ b.knownSize o n size ∧
            b.fileSeen o n size D x) ∨
          ∃ x o n, s'.fs.inodes[i]? = some (.link x) ∧ b.ObjectAt dest 7 o n (pathOf dest A) ∧ b.targetSeen o n x := by
  obtain ⟨N, hN⟩ := seen_all_core hb hm hcr hci hok
  obtain ⟨N', hN'⟩ := C81_everything_seen b hb m hm hcr hci
  obtain ⟨N2, hN2⟩ := C82_only_seen b hb m hm hcr hci
  obtain ⟨N3, hN3⟩ := C82_contents_seen b hb m hm hcr hci
  refine ⟨N + N' + N2 + N3, fun rf hrf fuel hfuel env D hq fs dest r he hu hr => ?_⟩
  obtain ⟨s', hs', hsil⟩ := hN rf (by omega) fuel (by omega) env D hq fs dest r he hu hr
  refine ⟨s', hs', hsil, fun o d p0 hp0 => ?_, fun A i hi => ?_⟩
  · obtain ⟨p, h1, h2, h3⟩ := hN' rf (by omega) env D hq.honest (fun n => hq.calls .stat n) fuel fs dest r he hu s' hs' hsil o d p0 hp0
    refine ⟨p, h1, h2, fun name e hen hty hn hb' => ?_⟩
    obtain ⟨g1, g2⟩ := h3 name e hen hty hn hb'
    refine ⟨fun ht => ?_, fun ht => ?_⟩
    · obtain ⟨-, -, size, hf⟩ := hr.files o e.location.objectID (goJoin p name) ⟨d, p, name, e, h1, hen, ht, hty, rfl, hn, hb', rfl⟩
      obtain ⟨x, k1, k2⟩ := g1 ht size hf (Or.inr (Or.inr fun n => hq.calls .truncate n))
      exact ⟨x, size, k1, hf.size, k2⟩
    · obtain ⟨-, x, hx, -⟩ := hr.links o e.location.objectID (goJoin p name) ⟨d, p, name, e, h1, hen, ht, hty, rfl, hn, hb', rfl⟩
      exact ⟨x, g2 ht x hx, hx⟩
  · have hfs : (doRecoverFiles env rf fuel ⟨b, ~~~0⟩ false dest (RecState.start fs)).state.reached s'.fs := by
      rw [hs']
      exact Or.inl rfl
    obtain ⟨c1, c2⟩ := hN3 rf (by omega) env D hq.honest (fun n => hq.calls .stat n) fuel fs dest r he hu s' hs' A i hi (hsil _)
    rcases hN2 rf (by omega) env D hq.honest (fun n => hq.calls .stat n) fuel fs dest r he hu s'.fs hfs A i hi with h | ⟨x, o, n, h1, h2⟩ | ⟨x, o, n, h1, h2⟩
    · exact Or.inl h
    · obtain ⟨o', n', k1, k2⟩ := c1 x h1
      obtain ⟨-, -, size, hf⟩ := hr.files _ _ _ k1
      exact Or.inr (Or.inl ⟨x, o', n', size, h1, k1, hf.size, k2 size hf (Or.inr (Or.inr fun n => hq.calls .truncate n))⟩)
    · obtain ⟨o', n', k1, k2⟩ := c2 x h1
      obtain ⟨-, y, hy, -⟩ := hr.links _ _ _ k1
      obtain rfl := k2 y hy
      exact Or.inr (Or.inr ⟨x, o', n', h1, k1, hy⟩)

end Btrfscue
