import Verif.Props.Repair
import Verif.Props.RecoverSeen
import Verif.Props.RecoverSeenEx
/-!
# C101, C102, C103: runs that are broken off, whatever the generations
-/

namespace Btrfscue

open Cmd

/-- What there is at a place is the file or link of an entry, and is what is read there. -/
theorem entry_at {ix : Ix} {fs f : HostFS} {dest : Bytes} {r : Nat} (hD : ix.Distinct dest)
    (he : EmptyDest fs dest r) (hs : Shape ix dest r f) (hg : Grown fs f) {A : List Bytes} {i : Nat} (hi : f.down r A = some i) :
    (∀ x, f.inodes[i]? = some (.file x) → ∃ o n q, EntryAt ix dest 1 o n A ∧ Named dest A q ∧ q = pathOf dest A ∧
      ix.HasEntry dest 1 o n (pathOf dest A) ∧ ∀ z, f.readFile q = some z → z = x) ∧
    (∀ x, f.inodes[i]? = some (.link x) → ∃ o n q, EntryAt ix dest 7 o n A ∧ Named dest A q ∧ q = pathOf dest A ∧
      ix.HasEntry dest 7 o n (pathOf dest A) ∧ ∀ z, f.readLink q = some z → z = x) := by
  have hres : ∀ {t : UInt8} {o n : UInt64} {q : Bytes} {follow : Bool} {j : Nat} {e}, EntryAt ix dest t o n A → Named dest A q →
      t = 1 ∨ follow = false → f.resolve follow q = .found j e → j = i := by
    intro t o n q follow j e h1 h2 h3 h4
    rcases hs.resolve_entry hD he.ok hg h1 h2 h3 with ⟨h, -⟩ | h
    · rw [h4] at h; cases h
    · have := h.found j e h4
      rw [hi] at this
      cases this; rfl
  refine ⟨fun x hx => ?_, fun x hx => ?_⟩
  · rcases hs.kind A i hi with ⟨-, h3⟩ | ⟨o, n, y, ⟨q, h1, h2⟩, h3⟩ | ⟨o, n, y, -, h3⟩
    · obtain ⟨es, par, h3⟩ := isDirAt_iff.mp h3
      rw [hx] at h3; cases h3
    · have hq := h2.pathOf he.clean he.ok.ne
      refine ⟨o, n, q, ⟨q, h1, h2⟩, h2, hq, hq ▸ h1, fun z k1 => ?_⟩
      unfold HostFS.readFile at k1
      cases hr : f.resolve true q with
      | fail => rw [hr] at k1; cases k1
      | missing _ _ _ => rw [hr] at k1; cases k1
      | found j e =>
        rw [hr] at k1
        simp only at k1
        rw [hres ⟨q, h1, h2⟩ h2 (Or.inl rfl) hr, hx] at k1
        cases k1
        rfl
    · rw [hx] at h3; cases h3
  · rcases hs.kind A i hi with ⟨-, h3⟩ | ⟨o, n, y, -, h3⟩ | ⟨o, n, y, ⟨q, h1, h2⟩, h3⟩
    · obtain ⟨es, par, h3⟩ := isDirAt_iff.mp h3
      rw [hx] at h3; cases h3
    · rw [hx] at h3; cases h3
    · have hq := h2.pathOf he.clean he.ok.ne
      refine ⟨o, n, q, ⟨q, h1, h2⟩, h2, hq, hq ▸ h1, fun z k1 => ?_⟩
      unfold HostFS.readLink at k1
      cases hr : f.resolve false q with
      | fail => rw [hr] at k1; cases k1
      | missing _ _ _ => rw [hr] at k1; cases k1
      | found j e =>
        rw [hr] at k1
        simp only at k1
        rw [hres ⟨q, h1, h2⟩ h2 (Or.inr rfl) hr, hx] at k1
        simpa using k1.symm

/-- C101, for an index of any generations: when recovering to an empty directory, at every point of
the run — that is, wherever it is broken off —, of all files and links there are below the
destination there is at most one (at the path `pathOf dest A0`) that is not done: all others have
exactly the contents and targets seen for them, or there is a warning about them. (If the file can
be read; and has an extent or no inode item, or truncate(2) does not fail.) -/
theorem C101_all_but_one_seen (b : Bucket) (hb : b.WF) (m : Bytes) (hm : b.stores metadataVersionKey m)
    (hcr : b.RangeOK 3 (KL2 228 256)) (hci : b.SeenIntact) :
    ∃ N, ∀ rf, N ≤ rf → ∀ env D, Honest env D → (∀ n, env.fails .stat n = false) → ∀ fuel fs dest r,
      EmptyDest fs dest r → b.TreeReadable dest →
      ∀ s', s' = (doRecoverFiles env rf fuel ⟨b, ~~~0⟩ false dest (RecState.start fs)).state → ∀ f, s'.reached f →
      ∃ A0, ∀ A i, f.down r A = some i → A ≠ A0 → Ev.warn (pathOf dest A) ∉ s'.log →
        (∀ x, f.inodes[i]? = some (.file x) → ∃ o n, b.ObjectAt dest 1 o n (pathOf dest A) ∧
          ∀ size, b.FileReadable o n size → size = none ∨ sized b env o n → b.fileSeen o n size D x) ∧
        (∀ x, f.inodes[i]? = some (.link x) → ∃ o n, b.ObjectAt dest 7 o n (pathOf dest A) ∧
          ∀ y, b.targetSeen o n y → x = y) := by
  obtain ⟨N, h⟩ := seen_sound hb hm hcr hci
  refine ⟨N, fun rf hrf env D hh hst fuel fs dest r he hu s' hs' f hf => ?_⟩
  subst hs'
  have hD := hu.distinct hb hm
  obtain ⟨h1, A0, h2⟩ := h rf hrf env D hh hst fuel fs dest r he hu f hf
  have hg := (reached_preserved hst rf fuel ⟨b, ~~~0⟩ dest fs f hf).grown
  refine ⟨A0, fun A i hi hne hw => ?_⟩
  obtain ⟨k1, k2⟩ := entry_at hD he h1 hg hi
  refine ⟨fun x hx => ?_, fun x hx => ?_⟩
  · obtain ⟨o, n, q, g1, g2, rfl, g4, g5⟩ := k1 x hx
    refine ⟨o, n, (hu.hasEntry hb hm).mp g4, fun size hr hsz => ?_⟩
    obtain ⟨z, l1, l2⟩ := (((h2 A i hi hne _ g2).1 o n g1).resolve_right hw) size hr hsz
    rw [← g5 z l1]
    exact l2
  · obtain ⟨o, n, q, g1, g2, rfl, g4, g5⟩ := k2 x hx
    refine ⟨o, n, (hu.hasEntry hb hm).mp g4, fun y hy => ?_⟩
    exact (g5 y ((((h2 A i hi hne _ g2).2 o n g1).resolve_right hw) y hy)).symm

/-- A run over what broken-off runs have left. -/
theorem seen_again {b : Bucket} (hb : b.WF) {m : Bytes} (hm : b.stores metadataVersionKey m)
    (hcr : b.RangeOK 3 (KL2 228 256)) (hci : b.SeenIntact) :
    ∃ N, ∀ rf, N ≤ rf → ∀ env D, Honest env D → (∀ n, env.fails .stat n = false) → ∀ fuel fs dest r,
      DestOK fs dest r → (Ix.mk b (~~~0)).Distinct dest → ∀ (W : Bytes → Prop) (f : HostFS),
      WholeInv ⟨b, ~~~0⟩ fs dest r rf (fun t o i q => W q ∨ seenFate b D env t o i q) (fun t o i q => W q ∨ targetFate b t o i q)
        (RecState.start f) →
      wp (doRecoverFiles env rf fuel ⟨b, ~~~0⟩ false dest) (fun _ t =>
        Step rf ⟨b, ~~~0⟩ (WholeInv ⟨b, ~~~0⟩ fs dest r rf (fun t o i q => W q ∨ seenFate b D env t o i q)
            (fun t o i q => W q ∨ targetFate b t o i q)) (Went Preserved)
          (fun t o i q => W q ∨ seenFate b D env t o i q) (fun t o i q => W q ∨ targetFate b t o i q) (RecState.start f) t ∧
        (∃ p', Ev.enter 5 256 p' ∈ t.log) ∧
        ∀ rd x k, (Ix.mk b (~~~0)).subvolumes = .ok rd → Range.Visits rd x → x.1.rKey = .ok k →
          ∃ p', Ev.enter k.objectID 256 p' ∈ t.log)
        (Sound ⟨b, ~~~0⟩ dest r (fun t o i q => W q ∨ seenFate b D env t o i q) (fun t o i q => W q ∨ targetFate b t o i q))
        (RecState.start f) := by
  obtain ⟨N, map, hM⟩ := placeOK hb hm hcr hci
  refine ⟨N + b.length + 2, fun rf hrf env D hh hst fuel fs dest r hok hD W f hstart => ?_⟩
  have hF : Fates (fun t o i q => W q ∨ seenFate b D env t o i q) (fun t o i q => W q ∨ targetFate b t o i q) :=
    ⟨fun s t o i p hw h => h.imp id ((seen_fates b D env).file s t o i p hw), fun s t o i p hw h => h.imp id ((seen_fates b D env).link s t o i p hw)⟩
  exact wpE_iff.mp <| (wholeRun hst hD hok hF
    (fun o i q s _ hc => wp_mono (wp_file_seen hb hm hM (by omega) (by omega) hh hc)
      (fun e t h he => (h he).imp id Or.inr) fun _ h => h)
    (fun o i q s _ _ => wp_mono (wp_link_seen hb hm) (fun e t h he => (h he).imp id Or.inr) fun _ h => h)).all fuel hstart

/-- C102, for an index of any generations: a run to an empty directory is broken off, at any point
`f`; then recover is run again, and ends without a warning. Then there is at most one path, `pathOf
dest A0`, such that every regular file seen in a directory that has a place in the destination, and
that can be read, has exactly the contents seen for it, unless it is at that path or the first run
had warned about it; the same for links. And what there was at the point `f` is as it was. -/
theorem C102_finished_seen (b : Bucket) (hb : b.WF) (m : Bytes) (hm : b.stores metadataVersionKey m)
    (hcr : b.RangeOK 3 (KL2 228 256)) (hci : b.SeenIntact) :
    ∃ N, ∀ rf, N ≤ rf → ∀ D env env', Honest env D → Honest env' D → (∀ n, env.fails .stat n = false) → (∀ n, env'.fails .stat n = false) →
      ∀ fuel fuel' fs dest r, EmptyDest fs dest r → b.TreeReadable dest →
      ∀ s, s = (doRecoverFiles env rf fuel ⟨b, ~~~0⟩ false dest (RecState.start fs)).state → ∀ f, s.reached f →
      ∀ s', doRecoverFiles env' rf fuel' ⟨b, ~~~0⟩ false dest (RecState.start f) = .ok () s' → s'.silent →
      Untouched f s'.fs ∧ ∃ A0,
      ∀ o d p0, b.SeenAt dest o d p0 → ∃ p, b.SeenAt dest o d p ∧ s'.fs.stat true p = some true ∧
        ∀ name e, b.entrySeen o d name e → e.location.typ ≠ 132 → usable name → 92 ∉ name →
          goJoin p name ≠ pathOf dest A0 → Ev.warn (goJoin p name) ∉ s.log →
          (e.typ = 1 → ∀ size, b.FileReadable o e.location.objectID size →
            size = none ∨ (sized b env o e.location.objectID ∧ sized b env' o e.location.objectID) →
            ∃ x, s'.fs.readFile (goJoin p name) = some x ∧ b.fileSeen o e.location.objectID size D x) ∧
          (e.typ = 7 → ∀ x, b.targetSeen o e.location.objectID x → s'.fs.readLink (goJoin p name) = some x) := by
  obtain ⟨N1, h1⟩ := seen_sound hb hm hcr hci
  obtain ⟨N2, h2⟩ := seen_again hb hm hcr hci
  refine ⟨N1 + N2, fun rf hrf D env env' hh hh' hst hst' fuel fuel' fs dest r he hu s hs f hf s' hrun hsil => ?_⟩
  subst hs
  have hD := hu.distinct hb hm
  obtain ⟨hshape, A0, hbut⟩ := h1 rf (by omega) env D hh hst fuel fs dest r he hu f hf
  have hpres := reached_preserved hst rf fuel ⟨b, ~~~0⟩ dest fs f hf
  have hun : Untouched f s'.fs := (C56_existing_untouched_partial env' hst' rf fuel' ⟨b, ~~~0⟩ dest f s'.fs (by rw [hrun]; exact Or.inl rfl))
  have hst0 : WholeInv ⟨b, ~~~0⟩ fs dest r rf
      (fun t o i q => (∃ A i, Named dest A q ∧ f.down r A = some i) ∨ seenFate b D env' t o i q)
      (fun t o i q => (∃ A i, Named dest A q ∧ f.down r A = some i) ∨ targetFate b t o i q) (RecState.start f) :=
    ⟨⟨⟨rfl, List.nodup_nil⟩, fun o d p hx => by cases hx⟩, Or.inl rfl, hshape, hpres, fun f hf => (by cases hf),
      fun A i hi p hp => ⟨fun _ _ _ => Or.inl (Or.inl ⟨A, i, hp, hi⟩), fun _ _ _ => Or.inl (Or.inl ⟨A, i, hp, hi⟩)⟩, fun f hf => (by cases hf)⟩
  have hw := h2 rf (by omega) env' D hh' hst' fuel' fs dest r he.ok hD (fun q => ∃ A i, Named dest A q ∧ f.down r A = some i) f hst0
  unfold wp at hw
  rw [hrun] at hw
  obtain ⟨h1, h2, h3⟩ := hw
  refine ⟨hun, A0, fun o d p0 hp0 => ?_⟩
  have hdone : ∀ o d p, Ev.enter o d p ∈ s'.log → _ := fun o d p hx =>
    ((h1.dirs o d p hx).resolve_left (by intro h; cases h)).resolve_left (hsil p)
  have hent : ∀ o d p0, (Ix.mk b (~~~0)).Placed dest o d p0 → ∃ p, Ev.enter o d p ∈ s'.log := by
    intro o d p0 hp
    induction hp with
    | main => exact h2
    | subvolume h =>
      obtain ⟨rd, x, k, g1, g2, g3, rfl⟩ := h
      exact h3 rd x k g1 g2 g3
    | @dir o d p di name loc _ hl hsay hty hu hb' ih =>
      obtain ⟨p', hp'⟩ := ih
      obtain ⟨⟨-, dis, hdis⟩, h⟩ := hdone _ _ _ hp'
      exact (h di name (met_of hdis hl hsay.1 hu hb')).dir true false loc
          (isDir_eq.mpr ⟨2, hsay.2.1, rfl⟩) (isSub_eq.mpr ⟨loc, hsay.2.2, beq_eq_false_iff_ne.mpr hty⟩) hsay.2.2 rfl
    | @tree o d p di name t loc _ hl hsay hty hu hb' ih =>
      obtain ⟨p', hp'⟩ := ih
      obtain ⟨⟨-, dis, hdis⟩, h⟩ := hdone _ _ _ hp'
      exact (h di name (met_of hdis hl hsay.1 hu hb')).dir (t == FtDir) true loc
          (isDir_eq.mpr ⟨t, hsay.2.1, rfl⟩) (isSub_eq.mpr ⟨loc, hsay.2.2, by rw [hty]; rfl⟩) hsay.2.2 (by simp)
  obtain ⟨p, hp⟩ := hent o d p0 ((hu.placed hb hm).mpr hp0)
  obtain ⟨⟨hdir, dis, hdis⟩, hent⟩ := hdone o d p hp
  have hpl := h1.inv.once.2 o d p hp
  have hpl' := (hu.placed hb hm).mp hpl
  refine ⟨p, hpl', hdir, fun name e hen hty hn hb' hne hnw => ?_⟩
  obtain ⟨di, hl, hsay⟩ := (hu.lists hb hm hpl' (hpl'.ordinary hu)).2 _ _ hen
  have hm' := met_of hdis hl hsay.1 hn hb'
  have hd := hent di name hm'
  have hold : ∀ {t : UInt8} {A : List Bytes} {i : Nat}, (hl : Leads di t e.location.objectID) → Named dest A (goJoin p name) → f.down r A = some i →
      A ≠ A0 ∧ EntryAt ⟨b, ~~~0⟩ dest t o e.location.objectID A := by
    intro t A i hl hA hi
    refine ⟨fun hc => hne (hc ▸ hA.pathOf he.clean he.ok.ne), ?_⟩
    obtain ⟨A', hA', hE⟩ := hm'.entryAt hD he.clean he.ok.ne hpl hl
    exact ⟨_, hE.choose_spec.1, by rw [hE.choose_spec.2.path hA']; exact hA⟩
  refine ⟨fun ht size hrec hsz => ?_, fun ht x hx => ?_⟩
  · rw [ht] at hsay
    rcases (hd.file _ (leads_of hsay (by decide) hty)).resolve_right (hsil _) with ⟨A, i, hA, hi⟩ | h
    · obtain ⟨k1, k2⟩ := hold (leads_of hsay (by decide) hty) hA hi
      obtain ⟨x, g1, g2⟩ := (((hbut A i hi k1 _ hA).1 o _ k2).resolve_right hnw) size hrec (hsz.imp id And.left)
      exact ⟨x, hun.files _ _ g1, g2⟩
    · exact h size hrec (hsz.imp id And.right)
  · rw [ht] at hsay
    rcases (hd.link _ (leads_of hsay (by decide) hty)).resolve_right (hsil _) with ⟨A, i, hA, hi⟩ | h
    · obtain ⟨k1, k2⟩ := hold (leads_of hsay (by decide) hty) hA hi
      exact hun.links _ _ ((((hbut A i hi k1 _ hA).2 o _ k2).resolve_right hnw) x hx)
    · exact h x hx

/-- One file, with `--clobber`. -/
theorem wp_file_seen_anew {b : Bucket} (hb : b.WF) {m : Bytes} (hm : b.stores metadataVersionKey m)
    {N0 : Nat} {map : List StripeMapEntry} (hM : PlaceOK b N0 map) {rf : Nat} (h1 : N0 ≤ rf) (h2 : b.length < rf)
    {env : Env} {D : Bytes} (hh : Honest env D) {o i : UInt64} {q : Bytes} {s : RecState} (hc : CacheOK rf ⟨b, ~~~0⟩ s) :
    wp (recoverFile env rf ⟨b, ~~~0⟩ true o i q) (fun e t => e = none → seenFate b D env t o i q) (fun _ => True) s := by
  have key : ∀ h : ∃ size, b.FileReadable o i size ∧ (size = none ∨ sized b env o i), wp (recoverFile env rf ⟨b, ~~~0⟩ true o i q)
      (fun e t => e = none → ∃ x, t.fs.readFile q = some x ∧ b.fileSeen o i h.choose D x) (fun _ => True) s := by
    intro h
    have hx := h.choose_spec
    refine wp_mono (file_pieces hb hm hx.1 hM D rf h1 h2 env hh true q s (hM.cache h1 hc)) (fun e t h he => ?_) fun _ _ => trivial
    rcases h.1 he with ⟨h, -⟩ | ⟨h, -⟩
    · cases h
    · exact h hx.2
  refine wp_mono (wp_all key) (fun e t h he size hr hs => ?_) fun _ h => h
  have hex : ∃ size, b.FileReadable o i size ∧ (size = none ∨ sized b env o i) := ⟨size, hr, hs⟩
  have hsz : size = hex.choose := by
    have k1 := hex.choose_spec.1
    generalize hex.choose = size' at k1
    have k2 := hr.size
    have k3 := k1.size
    cases size with
    | none =>
      cases size' with
      | none => rfl
      | some z =>
        obtain ⟨⟨g, x, f, r, k, -⟩, -⟩ := k3
        exact absurd ⟨g, k.1⟩ k2
    | some y =>
      cases size' with
      | none =>
        obtain ⟨⟨g, x, f, r, k, -⟩, -⟩ := k2
        exact absurd ⟨g, k.1⟩ k3
      | some z =>
        obtain ⟨l, hl, rfl⟩ := hb.exists_abs
        have e1 := inodeSize_known (AStore.enc_wf hl) hm k1.range.ordinary k1.size
        have e2 := inodeSize_known (AStore.enc_wf hl) hm k1.range.ordinary hr.size
        rw [e1] at e2
        cases e2
        rfl
  have := h hex he
  rw [← hsz] at this
  exact this

/-- One link, with `--clobber`. -/
theorem wp_link_seen_anew {b : Bucket} (hb : b.WF) {m : Bytes} (hm : b.stores metadataVersionKey m) {rf : Nat}
    {env : Env} {o i : UInt64} {q : Bytes} {s : RecState} :
    wp (recoverSymlink env rf ⟨b, ~~~0⟩ true o i q) (fun e t => e = none → targetFate b t o i q) (fun _ => True) s := by
  refine wp_mono wp_recoverSymlink (fun e t h he => ?_) fun _ h => h
  rcases h he with ⟨h, -⟩ | ⟨e, x, h1, h2, h3⟩
  · cases h
  · rintro y ⟨ho, g, z, d, k1, k2, k3, f, rest, rfl, k4, k5⟩
    obtain ⟨t', ht'⟩ := findData_newest hb hm ho k1 k2 k3
    have hi : (Ix.mk b (~~~0)).findFileExtentItem o i = .ok (some ⟨f.layout ++ (y ++ rest), t'⟩) := ht'
    obtain ⟨g1, g2⟩ := inline_data f y rest t' k4 k5
    rw [hi] at h1
    cases h1
    have := h3 g2
    rw [g1] at this
    cases this
    exact h2

/-- C103, for an index of any generations: whatever runs of recover, to a directory that was empty
before the first, have left — with or without `--clobber`, broken off at any point, with whatever
errors —, a run with `--clobber` that ends without a warning makes everything right: every
directory seen is at one of its places `p`, for every regular file seen in it that can be read
`p/name` has exactly the contents seen for it, and every link has its target. And there is nothing
that is not seen. (If the file has an extent or no inode item, or truncate(2) does not fail in that
last run.) -/
theorem C103_clobber_repairs_seen (b : Bucket) (hb : b.WF) (m : Bytes) (hm : b.stores metadataVersionKey m)
    (hcr : b.RangeOK 3 (KL2 228 256)) (hci : b.SeenIntact) :
    ∃ N, ∀ rf, N ≤ rf → ∀ env D, Honest env D → (∀ n, env.fails .stat n = false) → ∀ fuel fs dest r,
      EmptyDest fs dest r → b.TreeReadable dest → ∀ f, LeftBy ⟨b, ~~~0⟩ dest fs f →
      ∀ s', doRecoverFiles env rf fuel ⟨b, ~~~0⟩ true dest (RecState.start f) = .ok () s' → s'.silent →
      (∀ A i, s'.fs.down r A = some i →
        (s'.fs.isDirAt i = true ∧ ∃ o d, b.SeenAt dest o d (pathOf dest A)) ∨
        (∃ x o n, s'.fs.inodes[i]? = some (.file x) ∧ b.ObjectAt dest 1 o n (pathOf dest A)) ∨
        ∃ x o n, s'.fs.inodes[i]? = some (.link x) ∧ b.ObjectAt dest 7 o n (pathOf dest A)) ∧
      ∀ o d p0, b.SeenAt dest o d p0 → ∃ p, b.SeenAt dest o d p ∧ s'.fs.stat true p = some true ∧
        ∀ name e, b.entrySeen o d name e → e.location.typ ≠ 132 → usable name → 92 ∉ name →
          (e.typ = 1 → ∀ size, b.FileReadable o e.location.objectID size → size = none ∨ sized b env o e.location.objectID →
            ∃ x, s'.fs.readFile (goJoin p name) = some x ∧ b.fileSeen o e.location.objectID size D x) ∧
          (e.typ = 7 → ∀ x, b.targetSeen o e.location.objectID x → s'.fs.readLink (goJoin p name) = some x) := by
  obtain ⟨N, map, hM⟩ := placeOK hb hm hcr hci
  refine ⟨N + b.length + 2, fun rf hrf env D hh hst fuel fs dest r he hu f hf s' hrun hsil => ?_⟩
  have hok := he.ok
  have hD := hu.distinct hb hm
  have hF : LocalFates ⟨b, ~~~0⟩ fs dest r (seenFate b D env) (targetFate b) := by
    refine ⟨fun s t A Q o i p hE hA hs ht hQ ho h size hr hsz => ?_, fun s t A Q o i p hE hA hs ht hQ ho h x hx => ?_⟩
    · obtain ⟨x, h1, h2⟩ := h size hr hsz
      exact ⟨x, readFile_others hD hok hs ht ho hQ hE hA h1, h2⟩
    · exact readLink_others hD hok hs ht ho hQ hE hA (h x hx)
  have hw := wpE_iff.mp <| (clobRun (rf := rf) (clobber := true) hst hD he hF
    (fun o i q s _ hc => wp_file_seen_anew hb hm hM (by omega) (by omega) hh hc)
    (fun o i q s _ _ => wp_link_seen_anew hb hm)).all fuel (ClobInv.start (rf := rf) (hf.base he hD))
  unfold wp at hw
  rw [hrun] at hw
  obtain ⟨h1, h2, h3⟩ := hw
  refine ⟨fun A i hi => ?_, fun o d p0 hp0 => ?_⟩
  · rcases sound_only he.clean he.ok.ne h1.inv.base.shape A i hi with ⟨h1, o, d, h2⟩ | ⟨x, o, n, h1, h2⟩ | ⟨x, o, n, h1, h2⟩
    · exact Or.inl ⟨h1, o, d, (hu.placed hb hm).mp h2⟩
    · exact Or.inr (Or.inl ⟨x, o, n, h1, (hu.hasEntry hb hm).mp h2⟩)
    · exact Or.inr (Or.inr ⟨x, o, n, h1, (hu.hasEntry hb hm).mp h2⟩)
  have hdone : ∀ o d p, Ev.enter o d p ∈ s'.log → _ := fun o d p hx =>
    ((h1.dirs o d p hx).resolve_left (by intro h; cases h)).resolve_left (hsil p)
  have hent : ∀ o d p0, (Ix.mk b (~~~0)).Placed dest o d p0 → ∃ p, Ev.enter o d p ∈ s'.log := by
    intro o d p0 hp
    induction hp with
    | main => exact h2
    | subvolume h =>
      obtain ⟨rd, x, k, g1, g2, g3, rfl⟩ := h
      exact h3 rd x k g1 g2 g3
    | @dir o d p di name loc _ hl hsay hty hu hb' ih =>
      obtain ⟨p', hp'⟩ := ih
      obtain ⟨⟨-, dis, hdis⟩, h⟩ := hdone _ _ _ hp'
      exact (h di name (met_of hdis hl hsay.1 hu hb')).dir true false loc
          (isDir_eq.mpr ⟨2, hsay.2.1, rfl⟩) (isSub_eq.mpr ⟨loc, hsay.2.2, beq_eq_false_iff_ne.mpr hty⟩) hsay.2.2 rfl
    | @tree o d p di name t loc _ hl hsay hty hu hb' ih =>
      obtain ⟨p', hp'⟩ := ih
      obtain ⟨⟨-, dis, hdis⟩, h⟩ := hdone _ _ _ hp'
      exact (h di name (met_of hdis hl hsay.1 hu hb')).dir (t == FtDir) true loc
          (isDir_eq.mpr ⟨t, hsay.2.1, rfl⟩) (isSub_eq.mpr ⟨loc, hsay.2.2, by rw [hty]; rfl⟩) hsay.2.2 (by simp)
  obtain ⟨p, hp⟩ := hent o d p0 ((hu.placed hb hm).mpr hp0)
  obtain ⟨⟨hdir, dis, hdis⟩, hent⟩ := hdone o d p hp
  have hpl := (hu.placed hb hm).mp (h1.inv.once.2 o d p hp)
  refine ⟨p, hpl, hdir, fun name e hen hty hn hb' => ?_⟩
  obtain ⟨di, hl, hsay⟩ := (hu.lists hb hm hpl (hpl.ordinary hu)).2 _ _ hen
  have hd := hent di name (met_of hdis hl hsay.1 hn hb')
  refine ⟨fun ht => ?_, fun ht => ?_⟩
  · rw [ht] at hsay
    exact ((hd.file _ (leads_of hsay (by decide) hty)).resolve_right (hsil _)).2.resolve_right (hsil _)
  · rw [ht] at hsay
    exact ((hd.link _ (leads_of hsay (by decide) hty)).resolve_right (hsil _)).2.resolve_right (hsil _)

/-- The hypotheses on the index, the device and the destination are those of C83 (met by `exSeen`, an
index with directories of two generations, see there). A run is broken off when the file "c" had its inline
part and not yet the rest. That point is the one the next run does not get past: without a warning it
leaves the file as it is; one with `--clobber` makes it right. -/
example : ∃ f, (doRecoverFiles (imageEnv [4, 5, 6, 7]) 30 9 ⟨exSeen.enc, ~~~0⟩ false (ascii "/d") (RecState.start exEmptyDir)).state.reached f ∧
    LeftBy ⟨exSeen.enc, ~~~0⟩ (ascii "/d") exEmptyDir f ∧ f.readFile (ascii "/d/s/c") = some [1, 2, 3] ∧
    (∃ s, doRecoverFiles (imageEnv [4, 5, 6, 7]) 30 9 ⟨exSeen.enc, ~~~0⟩ false (ascii "/d") (RecState.start f) = .ok () s ∧ s.silent ∧
      s.fs.readFile (ascii "/d/s/c") = some [1, 2, 3]) ∧
    ∃ s, doRecoverFiles (imageEnv [4, 5, 6, 7]) 30 9 ⟨exSeen.enc, ~~~0⟩ true (ascii "/d") (RecState.start f) = .ok () s ∧ s.silent ∧
      s.fs.readFile (ascii "/d/s/c") = some [1, 2, 4, 5, 6, 7] := by
  have h : ∃ f ∈ (doRecoverFiles (imageEnv [4, 5, 6, 7]) 30 9 ⟨exSeen.enc, ~~~0⟩ false (ascii "/d") (RecState.start exEmptyDir)).history,
      f.readFile (ascii "/d/s/c") = some [1, 2, 3] ∧
      (doRecoverFiles (imageEnv [4, 5, 6, 7]) 30 9 ⟨exSeen.enc, ~~~0⟩ false (ascii "/d") (RecState.start f)).silentOk = true ∧
      (doRecoverFiles (imageEnv [4, 5, 6, 7]) 30 9 ⟨exSeen.enc, ~~~0⟩ false (ascii "/d") (RecState.start f)).state.fs.readFile (ascii "/d/s/c") =
        some [1, 2, 3] ∧
      (doRecoverFiles (imageEnv [4, 5, 6, 7]) 30 9 ⟨exSeen.enc, ~~~0⟩ true (ascii "/d") (RecState.start f)).silentOk = true ∧
      (doRecoverFiles (imageEnv [4, 5, 6, 7]) 30 9 ⟨exSeen.enc, ~~~0⟩ true (ascii "/d") (RecState.start f)).state.fs.readFile (ascii "/d/s/c") =
        some [1, 2, 4, 5, 6, 7] := by decide +kernel
  obtain ⟨f, h0, h1, h3, h4, h5, h6⟩ := h
  obtain ⟨s, k1, k2⟩ := silent_of h3
  obtain ⟨t, l1, l2⟩ := silent_of h5
  rw [k1] at h4
  rw [l1] at h6
  exact ⟨f, reached_iff.mpr h0, .run .none (fun _ => rfl) (reached_iff.mpr h0), h1, ⟨s, k1, k2, h4⟩, t, l1, l2, h6⟩

end Btrfscue
