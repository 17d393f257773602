import Verif.Proof.WholeRun
import Verif.Props.RecoverInline
/-!
# C81, C82: recovering to an empty directory
-/

namespace Btrfscue

open Cmd

theorem wp_all {σ α : Type} {ι : Prop} {c : Cmd σ α} {Q : ι → α → σ → Prop} {s : σ} (h : ∀ x, wp c (Q x) (fun _ => True) s) :
    wp c (fun a t => ∀ x, Q x a t) (fun _ => True) s := by
  unfold wp at h ⊢
  cases hc : c s with
  | ok a t => intro x; have := h x; rw [hc] at this; exact this
  | exit t => trivial
  | crash t => trivial
  | hang t => trivial

theorem Named.pathOf {dest : Bytes} {A : List Bytes} {q : Bytes} (h : Named dest A q) (hd : goClean dest = dest) (hne : dest ≠ []) :
    q = pathOf dest A := by
  have key : ∀ A : List Bytes, (∀ n ∈ A, Plain n) → Named dest A (Btrfscue.pathOf dest A) := by
    intro A
    induction A using List.reverseRecOn with
    | nil => exact fun _ => .refl hd hne
    | append_singleton A n ih =>
      intro hA
      have := (ih fun m hm => hA m (by simp [hm])).join (hA n (by simp))
      unfold Btrfscue.pathOf at this ⊢
      rw [List.foldl_append]
      exact this
  exact h.path (key A h.plain)

/-- What becomes of files. -/
def fileFate (b : Bucket) (gc : UInt64) (D : Bytes) (env : Env) : Fate := fun t o i q =>
  b.recoverable gc o i → sized b env o i → ∃ x, t.fs.readFile q = some x ∧ b.contentIs gc D o i x

/-- What becomes of links. -/
def linkFate (b : Bucket) : Fate := fun t o i q => ∀ x, b.targetIs o i x → t.fs.readLink q = some x

theorem fates (b : Bucket) (gc : UInt64) (D : Bytes) (env : Env) : Fates (fileFate b gc D env) (linkFate b) where
  file s t o i p hw h hr hs := by
    obtain ⟨x, h1, h2⟩ := h hr hs
    exact ⟨x, hw.fs.untouched.files _ _ h1, h2⟩
  link s t o i p hw h x hx := hw.fs.untouched.links _ _ (h x hx)

/-- One file. -/
theorem wp_file_fate {b : Bucket} (hb : b.WF) {m : Bytes} (hm : b.stores metadataVersionKey m) {gc : UInt64} (ha : b.AddrOK gc)
    {N0 : Nat} {map : List StripeMapEntry} (hM : MapOK b gc N0 map) {rf : Nat} (h1 : N0 ≤ rf) (h2 : b.length < rf) (h3 : 2 ≤ rf)
    {env : Env} {D : Bytes} (hh : Honest env D) {o i : UInt64} {q : Bytes} {s : RecState} (hc : CacheOK rf ⟨b, ~~~0⟩ s) :
    wp (recoverFile env rf ⟨b, ~~~0⟩ false o i q)
      (fun e t => e = none → (s.fs.stat true q ≠ none ∧ t.fs = s.fs) ∨ fileFate b gc D env t o i q) (fun _ => True) s := by
  have hc' : s.cache = none ∨ s.cache = some map := by
    rcases hc with hc | ⟨map', hc, h⟩
    · exact Or.inl hc
    · rw [hM.built rf h1] at hc
      cases hc
      exact Or.inr h
  have key : ∀ _ : b.recoverable gc o i ∧ sized b env o i, wp (recoverFile env rf ⟨b, ~~~0⟩ false o i q)
      (fun e t => e = none → (s.fs.stat true q ≠ none ∧ t.fs = s.fs) ∨ ∃ x, t.fs.readFile q = some x ∧ b.contentIs gc D o i x)
      (fun _ => True) s := by
    rintro ⟨⟨ho, size, hsz, hlt, ⟨g, hf, hp⟩ | ⟨g, start, data, hi⟩⟩, hs⟩
    · refine wp_mono (file_uniform hb hm ho ha hf hp hsz hlt hM D rf h1 h2 env hh false q s hc') (fun e t h he => ?_) fun _ _ => trivial
      rcases h.1 he with ⟨-, h⟩ | ⟨h, -⟩
      · exact Or.inl h
      · obtain ⟨d, k1, k2, k3⟩ := h hs
        exact Or.inr ⟨d, k1, size, hsz, k2, Or.inl ⟨g, hf, k3⟩⟩
    · refine wp_mono (inline_uniform hb hm ho hi hsz hlt h3 env false q s) (fun e t h he => ?_) fun _ _ => trivial
      rcases h.1 he with ⟨-, h⟩ | ⟨d, k1, k2, k3⟩
      · exact Or.inl h
      · exact Or.inr ⟨d, k1, size, hsz, k2, Or.inr ⟨g, start, data, hi, k3⟩⟩
  refine wp_mono (wp_all key) (fun e t h he => ?_) fun _ h => h
  by_cases hx : b.recoverable gc o i ∧ sized b env o i
  · exact (h hx he).imp id fun h _ _ => h
  · exact Or.inr fun h1 h2 => absurd ⟨h1, h2⟩ hx

/-- One link. -/
theorem wp_link_fate {b : Bucket} (hb : b.WF) {m : Bytes} (hm : b.stores metadataVersionKey m) {rf : Nat}
    {env : Env} {o i : UInt64} {q : Bytes} {s : RecState} :
    wp (recoverSymlink env rf ⟨b, ~~~0⟩ false o i q)
      (fun e t => e = none → (s.fs.stat false q ≠ none ∧ t.fs = s.fs) ∨ linkFate b t o i q) (fun _ => True) s := by
  refine wp_mono wp_recoverSymlink (fun e t h he => ?_) fun _ h => h
  rcases h he with ⟨-, h1, h2⟩ | ⟨e, x, h1, h2, h3⟩
  · exact Or.inl ⟨h2, h1⟩
  · right
    rintro y ⟨ho, g, z, f, rest, k1, k2, k3, k4, k5⟩
    obtain ⟨t', ht'⟩ := findData_newest hb hm ho k1 k2 k3
    have hi : (Ix.mk b (~~~0)).findFileExtentItem o i = .ok (some ⟨f.layout ++ (y ++ rest), t'⟩) := ht'
    obtain ⟨g1, g2⟩ := C12_inline_data f y rest t' k4 k5
    rw [hi] at h1
    cases h1
    have := h3 g2
    rw [g1] at this
    cases this
    exact h2

/-- The run, begun where an earlier run was broken off, with `fs` the file system before. -/
theorem whole_again {b : Bucket} (hb : b.WF) {m : Bytes} (hm : b.stores metadataVersionKey m) {gc : UInt64} (ha : b.AddrOK gc) :
    ∃ N, ∀ rf, N ≤ rf → ∀ env D, Honest env D → (∀ n, env.fails .stat n = false) → ∀ fuel fs dest r,
      DestOK fs dest r → (Ix.mk b (~~~0)).Distinct dest → ∀ (W : Bytes → Prop) (f : HostFS),
      WholeInv ⟨b, ~~~0⟩ fs dest r rf (fun t o i q => W q ∨ fileFate b gc D env t o i q) (fun t o i q => W q ∨ linkFate b t o i q)
        (RecState.start f) →
      wp (doRecoverFiles env rf fuel ⟨b, ~~~0⟩ false dest) (fun _ t =>
        Step rf ⟨b, ~~~0⟩ (WholeInv ⟨b, ~~~0⟩ fs dest r rf (fun t o i q => W q ∨ fileFate b gc D env t o i q)
            (fun t o i q => W q ∨ linkFate b t o i q)) (Went Preserved)
          (fun t o i q => W q ∨ fileFate b gc D env t o i q) (fun t o i q => W q ∨ linkFate b t o i q) (RecState.start f) t ∧
        (∃ p', Ev.enter 5 256 p' ∈ t.log) ∧
        ∀ rd x k, (Ix.mk b (~~~0)).subvolumes = .ok rd → Range.Visits rd x → x.1.rKey = .ok k →
          ∃ p', Ev.enter k.objectID 256 p' ∈ t.log)
        (Sound ⟨b, ~~~0⟩ dest r (fun t o i q => W q ∨ fileFate b gc D env t o i q) (fun t o i q => W q ∨ linkFate b t o i q))
        (RecState.start f) := by
  obtain ⟨N, map, hM⟩ := mapOK hb hm ha.range ha.chunks ha.disjoint
  refine ⟨N + b.length + 2, fun rf hrf env D hh hst fuel fs dest r hok hD W f hstart => ?_⟩
  have hF : Fates (fun t o i q => W q ∨ fileFate b gc D env t o i q) (fun t o i q => W q ∨ linkFate b t o i q) :=
    ⟨fun s t o i p hw h => h.imp id ((fates b gc D env).file s t o i p hw), fun s t o i p hw h => h.imp id ((fates b gc D env).link s t o i p hw)⟩
  exact wpE_iff.mp <| (wholeRun hst hD hok hF
    (fun o i q s _ hc => wp_mono (wp_file_fate hb hm ha hM (by omega) (by omega) (by omega) hh hc)
      (fun e t h he => (h he).imp id Or.inr) fun _ h => h)
    (fun o i q s _ _ => wp_mono (wp_link_fate hb hm) (fun e t h he => (h he).imp id Or.inr) fun _ h => h)).all fuel hstart

/-- The run. -/
theorem whole_core {b : Bucket} (hb : b.WF) {m : Bytes} (hm : b.stores metadataVersionKey m) {gc : UInt64} (ha : b.AddrOK gc) :
    ∃ N, ∀ rf, N ≤ rf → ∀ env D, Honest env D → (∀ n, env.fails .stat n = false) → ∀ fuel fs dest r,
      EmptyDest fs dest r → (Ix.mk b (~~~0)).Distinct dest →
      wp (doRecoverFiles env rf fuel ⟨b, ~~~0⟩ false dest) (fun _ t =>
        Step rf ⟨b, ~~~0⟩ (WholeInv ⟨b, ~~~0⟩ fs dest r rf (fileFate b gc D env) (linkFate b)) (Went Preserved)
          (fileFate b gc D env) (linkFate b) (RecState.start fs) t ∧
        (∃ p', Ev.enter 5 256 p' ∈ t.log) ∧
        ∀ rd x k, (Ix.mk b (~~~0)).subvolumes = .ok rd → Range.Visits rd x → x.1.rKey = .ok k →
          ∃ p', Ev.enter k.objectID 256 p' ∈ t.log) (Sound ⟨b, ~~~0⟩ dest r (fileFate b gc D env) (linkFate b)) (RecState.start fs) := by
  obtain ⟨N, map, hM⟩ := mapOK hb hm ha.range ha.chunks ha.disjoint
  refine ⟨N + b.length + 2, fun rf hrf env D hh hst fuel fs dest r he hD => ?_⟩
  exact wpE_iff.mp <| (wholeRun hst hD he.ok (fates b gc D env)
    (fun o i q s _ hc => wp_file_fate hb hm ha hM (by omega) (by omega) (by omega) hh hc)
    (fun o i q s _ _ => wp_link_fate hb hm)).all fuel (WholeInv.start he hD)

/-- At every point of it. -/
theorem whole_sound {b : Bucket} (hb : b.WF) {m : Bytes} (hm : b.stores metadataVersionKey m) {gc : UInt64} (ha : b.AddrOK gc) :
    ∃ N, ∀ rf, N ≤ rf → ∀ env D, Honest env D → (∀ n, env.fails .stat n = false) → ∀ fuel fs dest r,
      EmptyDest fs dest r → (Ix.mk b (~~~0)).Distinct dest →
      Sound ⟨b, ~~~0⟩ dest r (fileFate b gc D env) (linkFate b)
        (doRecoverFiles env rf fuel ⟨b, ~~~0⟩ false dest (RecState.start fs)).state := by
  obtain ⟨N, h⟩ := whole_core hb hm ha
  refine ⟨N, fun rf hrf env D hh hst fuel fs dest r he hD => ?_⟩
  have hw := h rf hrf env D hh hst fuel fs dest r he hD
  unfold wp at hw
  cases hrun : doRecoverFiles env rf fuel ⟨b, ~~~0⟩ false dest (RecState.start fs) with
  | ok u s => rw [hrun] at hw; exact hw.1.inv.sound
  | exit s => rw [hrun] at hw; exact hw
  | crash s => rw [hrun] at hw; exact hw
  | hang s => rw [hrun] at hw; exact hw

theorem sound_only {ix : Ix} {dest : Bytes} {r : Nat} {f : HostFS} (hd : goClean dest = dest) (hne : dest ≠ []) (h : Shape ix dest r f) :
    f.OnlyListed ix dest r := by
  intro A i hi
  rcases h.kind A i hi with ⟨⟨o, d, p, h1, h2⟩, h3⟩ | ⟨o, n, x, ⟨q, h1, h2⟩, h3⟩ | ⟨o, n, x, ⟨q, h1, h2⟩, h3⟩
  · rw [← h2.pathOf hd hne]
    exact Or.inl ⟨h3, o, d, h1⟩
  · rw [← h2.pathOf hd hne]
    exact Or.inr (Or.inl ⟨x, o, n, h3, h1⟩)
  · rw [← h2.pathOf hd hne]
    exact Or.inr (Or.inr ⟨x, o, n, h3, h1⟩)

/-! ## C82 -/

/-- C82: when recovering to an empty directory, at every point of the run — also if it
stops early, or is killed — everything below the destination is at the place of something
that is listed in the index: directories, files and links where there are such. Whatever
system calls other than stat(2) fail and whatever the device delivers, as long as its only
error is its end. -/
theorem C82_only_listed (b : Bucket) (hb : b.WF) (m : Bytes) (hm : b.stores metadataVersionKey m) (gc : UInt64) (ha : b.AddrOK gc) :
    ∃ N, ∀ rf, N ≤ rf → ∀ env D, Honest env D → (∀ n, env.fails .stat n = false) → ∀ fuel fs dest r,
      EmptyDest fs dest r → (Ix.mk b (~~~0)).Distinct dest →
      ∀ f, (doRecoverFiles env rf fuel ⟨b, ~~~0⟩ false dest (RecState.start fs)).state.reached f →
        f.OnlyListed ⟨b, ~~~0⟩ dest r := by
  obtain ⟨N, h⟩ := whole_sound hb hm ha
  exact ⟨N, fun rf hrf env D hh hst fuel fs dest r he hD f hf => sound_only he.clean he.ok.ne (h rf hrf env D hh hst fuel fs dest r he hD f hf).1⟩

/-- C82: and in the end every file there has the contents stored for it, every link the
target stored for it, or there was a warning about it. (If the file is one that can be
recovered; and has an extent, or truncate(2) does not fail.) -/
theorem C82_contents_partial (b : Bucket) (hb : b.WF) (m : Bytes) (hm : b.stores metadataVersionKey m) (gc : UInt64) (ha : b.AddrOK gc) :
    ∃ N, ∀ rf, N ≤ rf → ∀ env D, Honest env D → (∀ n, env.fails .stat n = false) → ∀ fuel fs dest r,
      EmptyDest fs dest r → (Ix.mk b (~~~0)).Distinct dest →
      ∀ s', doRecoverFiles env rf fuel ⟨b, ~~~0⟩ false dest (RecState.start fs) = .ok () s' →
      ∀ A i, s'.fs.down r A = some i → Ev.warn (pathOf dest A) ∉ s'.log → 
        (∀ x, s'.fs.inodes[i]? = some (.file x) → ∃ o n, (Ix.mk b (~~~0)).HasEntry dest 1 o n (pathOf dest A) ∧
          (b.recoverable gc o n → sized b env o n → b.contentIs gc D o n x)) ∧
        (∀ x, s'.fs.inodes[i]? = some (.link x) → ∃ o n, (Ix.mk b (~~~0)).HasEntry dest 7 o n (pathOf dest A) ∧
          ∀ y, b.targetIs o n y → x = y) := by
  obtain ⟨N, h⟩ := whole_core hb hm ha
  refine ⟨N, fun rf hrf env D hh hst fuel fs dest r he hD s' hrun A i hi hw' => ?_⟩
  have hw := h rf hrf env D hh hst fuel fs dest r he hD
  unfold wp at hw
  rw [hrun] at hw
  have hinv := hw.1.inv
  have hres : ∀ {t : UInt8} {o n : UInt64} {q : Bytes} {follow : Bool} {j : Nat} {e}, EntryAt ⟨b, ~~~0⟩ dest t o n A → Named dest A q →
      t = 1 ∨ follow = false → s'.fs.resolve follow q = .found j e → j = i := by
    intro t o n q follow j e h1 h2 h3 h4
    rcases hinv.shape.resolve_entry hD he.ok hinv.kept.grown h1 h2 h3 with ⟨h, -⟩ | h
    · rw [h4] at h; cases h
    · have := h.found j e h4
      rw [hi] at this
      cases this; rfl
  refine ⟨fun x hx => ?_, fun x hx => ?_⟩
  · rcases hinv.shape.kind A i hi with ⟨-, h3⟩ | ⟨o, n, y, ⟨q, h1, h2⟩, h3⟩ | ⟨o, n, y, -, h3⟩
    · obtain ⟨es, par, h3⟩ := isDirAt_iff.mp h3
      rw [hx] at h3; cases h3
    · have hq := h2.pathOf he.clean he.ok.ne
      refine ⟨o, n, hq ▸ h1, fun hrec hsz => ?_⟩
      obtain ⟨z, k1, k2⟩ := (((hinv.done A i hi q h2).1 o n ⟨q, h1, h2⟩).resolve_right (hq ▸ hw')) hrec hsz
      unfold HostFS.readFile at k1
      cases hr : s'.fs.resolve true q with
      | fail => rw [hr] at k1; cases k1
      | missing _ _ _ => rw [hr] at k1; cases k1
      | found j e =>
        rw [hr] at k1
        simp only at k1
        rw [hres ⟨q, h1, h2⟩ h2 (Or.inl rfl) hr, hx] at k1
        cases k1
        exact k2
    · rw [hx] at h3; cases h3
  · rcases hinv.shape.kind A i hi with ⟨-, h3⟩ | ⟨o, n, y, -, h3⟩ | ⟨o, n, y, ⟨q, h1, h2⟩, h3⟩
    · obtain ⟨es, par, h3⟩ := isDirAt_iff.mp h3
      rw [hx] at h3; cases h3
    · rw [hx] at h3; cases h3
    · have hq := h2.pathOf he.clean he.ok.ne
      refine ⟨o, n, hq ▸ h1, fun y hy => ?_⟩
      have k1 := (((hinv.done A i hi q h2).2 o n ⟨q, h1, h2⟩).resolve_right (hq ▸ hw')) y hy
      unfold HostFS.readLink at k1
      cases hr : s'.fs.resolve false q with
      | fail => rw [hr] at k1; cases k1
      | missing _ _ _ => rw [hr] at k1; cases k1
      | found j e =>
        rw [hr] at k1
        simp only at k1
        rw [hres ⟨q, h1, h2⟩ h2 (Or.inr rfl) hr, hx] at k1
        simpa using k1

/-! ## C81 -/

/-- C81: recovering to an empty directory, if it ends without a warning, recovers everything:
every directory that has a place in the destination — in whatever tree, however deep —
is at one of its places `p`, and for every regular file listed in it that can be recovered,
`p/name` has the contents stored for it; every link has the target stored for it. This
holds whatever system calls other than stat(2) fail, and whatever parts of the image the
device delivers, as long as its only error is its end. Missing: names with a backslash
(`C61_backslash_skipped`), files that `C58` does not cover. -/
theorem C81_everything_partial (b : Bucket) (hb : b.WF) (m : Bytes) (hm : b.stores metadataVersionKey m) (gc : UInt64) (ha : b.AddrOK gc) :
    ∃ N, ∀ rf, N ≤ rf → ∀ env D, Honest env D → (∀ n, env.fails .stat n = false) → ∀ fuel fs dest r,
      EmptyDest fs dest r → (Ix.mk b (~~~0)).Distinct dest →
      ∀ s', doRecoverFiles env rf fuel ⟨b, ~~~0⟩ false dest (RecState.start fs) = .ok () s' → s'.silent →
      ∀ o d p0, (Ix.mk b (~~~0)).Placed dest o d p0 → ∃ p, (Ix.mk b (~~~0)).Placed dest o d p ∧ s'.fs.stat true p = some true ∧
        ∀ di name t loc, (Ix.mk b (~~~0)).lists o d di → di.says name t loc → loc.typ ≠ 132 → usable name → 92 ∉ name →
          (t = 1 → b.recoverable gc o loc.objectID → sized b env o loc.objectID →
            ∃ x, s'.fs.readFile (goJoin p name) = some x ∧ b.contentIs gc D o loc.objectID x) ∧
          (t = 7 → ∀ x, b.targetIs o loc.objectID x → s'.fs.readLink (goJoin p name) = some x) := by
  obtain ⟨N, h⟩ := whole_core hb hm ha
  refine ⟨N, fun rf hrf env D hh hst fuel fs dest r he hD s' hrun hsil o d p0 hp0 => ?_⟩
  have hw := h rf hrf env D hh hst fuel fs dest r he hD
  unfold wp at hw
  rw [hrun] at hw
  obtain ⟨h1, h2, h3⟩ := hw
  have hdone : ∀ o d p, Ev.enter o d p ∈ s'.log → _ := fun o d p hx =>
    ((h1.dirs o d p hx).resolve_left (by intro h; cases h)).resolve_left (hsil p)
  have hent : ∀ o d p0, (Ix.mk b (~~~0)).Placed dest o d p0 → ∃ p, Ev.enter o d p ∈ s'.log := by
    intro o d p0 hp
    induction hp with
    | main => exact h2
    | subvolume h =>
      obtain ⟨rd, x, k, g1, g2, g3, rfl⟩ := h
      exact h3 rd x k g1 g2 g3
    | @dir o d p di name loc _ hl hsay hty hu hb' ih =>
      obtain ⟨p', hp'⟩ := ih
      obtain ⟨⟨-, dis, hdis⟩, h⟩ := hdone _ _ _ hp'
      exact (h di name (met_of hdis hl hsay.1 hu hb')).dir true false loc
          (isDir_eq.mpr ⟨2, hsay.2.1, rfl⟩) (isSub_eq.mpr ⟨loc, hsay.2.2, beq_eq_false_iff_ne.mpr hty⟩) hsay.2.2 rfl
    | @tree o d p di name t loc _ hl hsay hty hu hb' ih =>
      obtain ⟨p', hp'⟩ := ih
      obtain ⟨⟨-, dis, hdis⟩, h⟩ := hdone _ _ _ hp'
      exact (h di name (met_of hdis hl hsay.1 hu hb')).dir (t == FtDir) true loc
          (isDir_eq.mpr ⟨t, hsay.2.1, rfl⟩) (isSub_eq.mpr ⟨loc, hsay.2.2, by rw [hty]; rfl⟩) hsay.2.2 (by simp)
  obtain ⟨p, hp⟩ := hent o d p0 hp0
  obtain ⟨⟨hdir, dis, hdis⟩, hent⟩ := hdone o d p hp
  refine ⟨p, h1.inv.once.2 o d p hp, hdir, fun di name t loc hl hsay hty hu hb' => ?_⟩
  have hd := hent di name (met_of hdis hl hsay.1 hu hb')
  refine ⟨fun ht => ?_, fun ht => ?_⟩
  · subst ht
    exact (hd.file _ (leads_of hsay (by decide) hty)).resolve_right (hsil _)
  · subst ht
    exact (hd.link _ (leads_of hsay (by decide) hty)).resolve_right (hsil _)

end Btrfscue
