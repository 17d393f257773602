import Verif.Proof.RecoverCrash
import Verif.Props.MountCrash
import Verif.Proof.NoExit
import Verif.Proof.Again
/-!
# C118: which damage a run of recover survives
-/

namespace Btrfscue

open Cmd

attribute [local irreducible] Cmd.wp

/-- What the system calls of a run do not change. -/
structure OpInv (rf : Nat) (ix : Ix) (I : RecState → Prop) : Prop where
  calls : ∀ s n, I s → I { s with calls := n }
  cache : ∀ s l c r, ix.physical rf s.cache l = .ok (c, r) → I s → I { s with cache := c }
  fs : ∀ s f q, I s → I { s with fs := f, past := q }
  op : ∀ s k p, I s → I { s with log := .op k p :: s.log }

namespace OpInv
variable {rf : Nat} {ix : Ix} {I : RecState → Prop} {env : Env}

theorem note (h : OpInv rf ix I) (k : Sys) (p : Bytes) : Keeps I (note (.op k p)) := Keeps.modify fun _ hs => h.op _ _ _ hs

theorem applyFS (h : OpInv rf ix I) (r : Option HostFS) : Keeps I (applyFS r) := by
  cases r with
  | none => exact Keeps.pure
  | some f => exact Keeps.bind (Keeps.modify fun s hs => h.fs _ _ _ hs) fun _ => Keeps.pure

theorem mkdir (h : OpInv rf ix I) (p : Bytes) : Keeps I (sysMkdir env p) :=
  Keeps.bind (h.note _ _) fun _ => Keeps.bind (Keeps.tick h.calls) fun _ => Keeps.ite (fun _ => Keeps.pure) fun _ =>
    Keeps.bind Keeps.get fun _ => h.applyFS _

theorem remove (h : OpInv rf ix I) (p : Bytes) : Keeps I (sysRemove env p) :=
  Keeps.bind (h.note _ _) fun _ => Keeps.bind (Keeps.tick h.calls) fun _ => Keeps.ite (fun _ => Keeps.pure) fun _ =>
    Keeps.bind Keeps.get fun _ => h.applyFS _

theorem symlink (h : OpInv rf ix I) (t p : Bytes) : Keeps I (sysSymlink env t p) :=
  Keeps.bind (h.note _ _) fun _ => Keeps.bind (Keeps.tick h.calls) fun _ => Keeps.ite (fun _ => Keeps.pure) fun _ =>
    Keeps.bind Keeps.get fun _ => h.applyFS _

theorem openFile (h : OpInv rf ix I) (p : Bytes) : Keeps I (sysOpen env p) := by
  refine Keeps.bind (h.note _ _) fun _ => Keeps.bind (Keeps.tick h.calls) fun _ => Keeps.ite (fun _ => Keeps.pure) fun _ =>
    Keeps.bind Keeps.get fun s => ?_
  cases s.fs.openTrunc p with
  | none => exact Keeps.pure
  | some x => exact Keeps.bind (Keeps.modify fun s hs => h.fs _ _ _ hs) fun _ => Keeps.pure

theorem write (h : OpInv rf ix I) (fd : Nat) (b : Bytes) (off : Int) : Keeps I (sysWrite env fd b off) := by
  unfold sysWrite
  refine Keeps.ite (fun _ => Keeps.pure) fun _ => Keeps.ite (fun _ => Keeps.pure) fun _ => ?_
  refine Keeps.bind Keeps.get fun _ => Keeps.bind (Keeps.tick h.calls) fun _ => Keeps.ite (fun _ => ?_) fun _ =>
    Keeps.ite (fun _ => Keeps.pure) fun _ => Keeps.bind Keeps.get fun _ => h.applyFS _
  exact Keeps.bind Keeps.get fun _ => Keeps.bind (h.applyFS _) fun _ => Keeps.pure

theorem truncate (h : OpInv rf ix I) (fd : Nat) (n : Int) : Keeps I (sysTruncate env fd n) :=
  Keeps.bind (Keeps.tick h.calls) fun _ => Keeps.ite (fun _ => Keeps.pure) fun _ =>
    Keeps.ite (fun _ => Keeps.pure) fun _ => Keeps.bind Keeps.get fun _ => h.applyFS _

theorem fileInv (h : OpInv rf ix I) (clobber : Bool) : FileInv env rf ix clobber I (fun _ => True) (fun _ => True) where
  calls := h.calls
  cache := h.cache
  openFile p s _ hs _ := wp_mono (h.openFile p s hs) (fun r t ht => ⟨ht, fun _ _ => trivial⟩) fun _ h => h
  write fd b off _ := h.write fd b off
  truncate fd n _ := h.truncate fd n

theorem mkdirAll (h : OpInv rf ix I) (p : Bytes) : Keeps I (mkdirAll env p) := Keeps.mkdirAll h.calls fun _ => h.mkdir _

theorem link (h : OpInv rf ix I) (clobber : Bool) (o i : UInt64) (p : Bytes) : Keeps I (recoverSymlink env rf ix clobber o i p) :=
  Keeps.recoverSymlink h.calls rf ix h.cache (fun _ => h.remove p) (fun t => h.symlink t p) o i

/-- A property that is also kept when a directory is entered and when there is a warning is kept by the run. -/
theorem recInv (h : OpInv rf ix I) (clobber : Bool) (hw : ∀ s p, I s → I { s with log := .warn p :: s.log })
    (hv : ∀ s o d p, I s → I { s with visited := (o, d) :: s.visited, log := .enter o d p :: s.log }) :
    RecInv env rf ix clobber I (fun _ => True) (fun _ => True) (fun _ => True) where
  toFileInv := h.fileInv clobber
  warn := hw
  visit s o d p _ hs _ := hv s o d p hs
  mkdirAll p _ := h.mkdirAll p
  link o i p _ _ _ _ := h.link clobber o i p
  items _ _ _ _ _ _ := trivial
  join _ _ _ _ _ _ _ := trivial

end OpInv

section
variable {b : Bucket} {C : Option (List StripeMapEntry) → Prop} {env : Env} {rf : Nat}

/-- A damaged directory was entered, or one of the tree with the greatest id. -/
def Blamed (b : Bucket) (G : UInt64 → Prop) (s : RecState) : Prop :=
  ∃ o d, (o, d) ∈ s.entered ∧ G o ∧ (o = ~~~0 ∨ b.dirBad o d)

theorem entered_keeps (hc : ∀ c, C c → ∀ l c' r, (Ix.mk b (~~~0)).physical rf c l = .ok (c', r) → C c') (clobber : Bool) (o d : UInt64) :
    RecInv env rf ⟨b, ~~~0⟩ clobber (fun s => (o, d) ∈ s.entered ∧ C s.cache) (fun _ => True) (fun _ => True) (fun _ => True) := by
  refine OpInv.recInv ⟨fun _ _ h => h, fun s l c r hp h => ⟨h.1, hc _ h.2 l c r hp⟩, fun _ _ _ h => h, fun _ _ _ h => h⟩ clobber
    (fun _ _ h => h) fun s o' d' p h => ⟨?_, h.2⟩
  exact List.mem_cons_of_mem _ h.1

theorem Safe.dir (hb : b.WF) {m : Bytes} (hm : b.stores metadataVersionKey m) (hr : b.Runnable) (hph : PhysOK b C rf)
    (hc : ∀ c, C c → ∀ l c' r, (Ix.mk b (~~~0)).physical rf c l = .ok (c', r) → C c') (clobber : Bool)
    {G : UInt64 → Prop} (hG : ∀ o d off x e n, G o → b.seenData o 84 d off x → namedBy x e n → e.location.typ = 132 → G e.location.objectID) :
    ∀ (fuel : Nat) (o d : UInt64) (p : Bytes), G o → Safe C (Blamed b G) (recoverDir env rf ⟨b, ~~~0⟩ clobber fuel o d p) := by
  intro fuel
  induction fuel with
  | zero => exact fun _ _ _ _ => Safe.hang
  | succ fuel ih =>
    intro o d p hg s hs
    unfold recoverDir
    refine nc_get ?_
    by_cases hv : s.visited.contains (o, d) = true
    · rw [if_pos hv]; exact hs
    · rw [if_neg hv]
      refine nc_modify (nc_modify ?_)
      show nc _ _ _ ({ s with visited := (o, d) :: s.visited, log := .enter o d p :: s.log } : RecState)
      generalize hs1 : ({ s with visited := (o, d) :: s.visited, log := .enter o d p :: s.log } : RecState) = s1
      have hin : (o, d) ∈ s1.entered ∧ C s1.cache := by
        subst hs1
        exact ⟨List.mem_cons_self, hs⟩
      by_cases hbad : o = ~~~0 ∨ b.dirBad o d
      · have hI := entered_keeps (env := env) (b := b) (rf := rf) (C := C) hc clobber o d
        refine nc_mono (nc_of_wp (K := fun t => (o, d) ∈ t.entered ∧ C t.cache) (Q := fun _ t => (o, d) ∈ t.entered ∧ C t.cache) ?_)
          (fun _ t h => h.2) fun t h => ⟨o, d, h.1, hg, hbad⟩
        refine (show Keeps (fun t => (o, d) ∈ t.entered ∧ C t.cache) _ from ?_) s1 hin
        refine Keeps.bind (hI.mkdirAll p trivial) fun ok => Keeps.ite (fun _ => ?_) fun _ => Keeps.pure
        refine Keeps.bind Keeps.lift fun dis => ?_
        exact Keeps.bind (hI.entries (fun o d p _ => hI.recoverDir fuel o d p trivial) o trivial dis fun _ _ => trivial) fun _ => Keeps.pure
      · refine (show Safe C (Blamed b G) _ from ?_) s1 hin.2
        have ho : o ≠ ~~~0 := fun h => hbad (Or.inl h)
        have hbad : ¬ b.dirBad o d := fun h => hbad (Or.inr h)
        obtain ⟨rd, its, h1, h2, h3, h4⟩ := seen_any hb hm ho hr.exact (t := 84) (by decide) (id := d) (hr.ranges.dirs o d)
        refine Safe.bind Safe.mkdirAll fun ok => Safe.ite (fun _ => ?_) fun _ => Safe.pure
        cases hx : readDirItems rf ⟨b, ~~~0⟩ o d with
        | panic => exact absurd hx (readDirItems_any h1 h2 rf).1
        | hang => exact fun _ _ => trivial
        | ok dis =>
          refine Safe.ok_bind (Safe.bind (Safe.entries hb hm hr hph hg (fun off x e n => hG o d off x e n hg) ho hbad clobber p ih dis ?_) fun _ => Safe.pure)
          intro di hdi
          rw [(readDirItems_any h1 h2 rf).2 dis hx] at hdi
          obtain ⟨⟨off, r, x⟩, he, rfl⟩ := List.mem_map.mp hdi
          exact ⟨off, x, rfl, (h4 off x).mp ⟨r, he⟩⟩

theorem Safe.run (hb : b.WF) {m : Bytes} (hm : b.stores metadataVersionKey m) (hr : b.Runnable) (hseen : b.SeenIntact)
    {G : UInt64 → Prop} (hG : ∀ o d off x e n, G o → b.seenData o 84 d off x → namedBy x e n → e.location.typ = 132 → G e.location.objectID)
    (h0 : ∀ o, o ≠ ~~~0 → G o) :
    ∃ N, ∀ rf, N ≤ rf → ∀ (fuel : Nat) (env : Env) (clobber : Bool) (dest : Bytes) (fs : HostFS) (s' : RecState),
      doRecoverFiles env rf fuel ⟨b, ~~~0⟩ clobber dest (RecState.start fs) = .crash s' → Blamed b G s' := by
  obtain ⟨N, map, hN⟩ := phys_any hb hm hr.chunks hseen
  refine ⟨N, fun rf hrf fuel env clobber dest fs s' hcr => ?_⟩
  have hph : PhysOK b (fun c => c = none ∨ c = some map) rf := by
    intro hex c hc a
    obtain ⟨x, hx⟩ := (hN rf hrf c hc a).2 hex
    exact ⟨_, x, hx, Or.inr rfl⟩
  have hdir := Safe.dir (env := env) hb hm hr hph (fun c hc l c' r h => Or.inr ((hN rf hrf c hc l).1 c' r h)) clobber hG fuel
  have hall : Safe (fun c => c = none ∨ c = some map) (Blamed b G) (doRecoverFiles env rf fuel ⟨b, ~~~0⟩ clobber dest) := by
    unfold doRecoverFiles
    refine Safe.bind Safe.mkdirAll fun ok => Safe.ite (fun _ => ?_) fun _ => fun _ _ => trivial
    refine Safe.bind (hdir _ _ _ (h0 5 (by decide))) fun e => Safe.bind Ends.report.safe fun _ => ?_
    obtain ⟨rd, its, h1, h2, h3⟩ := range_any hb hm (o := 1) (by decide) hr.exact (first := KF 132 256) (last := KL2 132 LastFreeObjectID)
      (KL2_before (t := 132) (by decide)) (by
        rintro ⟨i, t, off⟩ hk k1 k2
        simp only [KF] at k1 k2
        subst k1; subst k2
        exact hr.ranges.subvolumes off hk)
    refine Safe.lift_bind (show (Ix.mk b (~~~0)).subvolumes = .ok rd from h1) ?_
    refine Safe.bind (Safe.rangeLoopRec h2 (fun e he => ?_) rf) fun _ => Safe.pure
    obtain ⟨k, k0, g, hk, k1, k2, k3⟩ := h3 e he
    unfold recoverSubvol
    refine Safe.lift_bind hk (Safe.bind Ends.get.safe fun s => Safe.ite (fun _ => Safe.pure) fun _ => ?_)
    exact Safe.bind (hdir _ _ _ (h0 _ (subvol_id k1 k2 k3))) fun e => Safe.bind Ends.report.safe fun _ => Safe.pure
  have := hall (RecState.start fs) (Or.inl rfl)
  unfold nc at this
  rw [hcr] at this
  exact this

/-- C118, in every environment: if a run of recover crashes, then a chunk item is damaged, or a directory was entered that has a
damaged entry or leads to a file or link with damaged items, or one of the tree with the greatest id (under which the index
keeps data of its own). -/
theorem C118_crash_cause (b : Bucket) (hb : b.WF) (m : Bytes) (hm : b.stores metadataVersionKey m) (hr : b.Runnable) :
    ∃ N, ∀ rf, N ≤ rf → ∀ (fuel : Nat) (env : Env) (clobber : Bool) (dest : Bytes) (fs : HostFS) (s' : RecState),
      doRecoverFiles env rf fuel ⟨b, ~~~0⟩ clobber dest (RecState.start fs) = .crash s' →
      ¬ b.SeenIntact ∨ ∃ o d, (o, d) ∈ s'.entered ∧ (o = ~~~0 ∨ b.dirBad o d) := by
  by_cases hseen : b.SeenIntact
  swap
  · exact ⟨0, fun _ _ _ _ _ _ _ _ _ => Or.inl hseen⟩
  obtain ⟨N, h⟩ := Safe.run hb hm hr hseen (G := fun _ => True) (fun _ _ _ _ _ _ _ _ _ _ => trivial) fun _ _ => trivial
  refine ⟨N, fun rf hrf fuel env clobber dest fs s' hcr => Or.inr ?_⟩
  obtain ⟨o, d, h1, -, h2⟩ := h rf hrf fuel env clobber dest fs s' hcr
  exact ⟨o, d, h1, h2⟩

/-- C118 (what is proved): if every chunk item is whole, all entries seen have their names, all files and links they lead to have
whole items, and no entry leads to the tree with the greatest id, then a run of recover ends without a crash in every
environment: it returns, or exits as it cannot make the destination. Missing: damaged items (`C118_torn_entry_ends`,
`C118_one_torn_entry_refuted`). -/
theorem C118_whole_items_partial (b : Bucket) (hb : b.WF) (m : Bytes) (hm : b.stores metadataVersionKey m) (hr : b.Runnable)
    (hchunks : b.SeenIntact) (hgood : ∀ o d, ¬ b.dirBad o d)
    (htrees : ∀ o d off x e n, b.seenData o 84 d off x → namedBy x e n → e.location.typ = 132 → e.location.objectID ≠ ~~~0) :
    ∃ N, ∀ rf ≥ N, ∀ fuel ≥ N, ∀ (env : Env) (clobber : Bool) (dest : Bytes) (fs : HostFS), ∃ s',
      doRecoverFiles env rf fuel ⟨b, ~~~0⟩ clobber dest (RecState.start fs) = .ok () s' ∨
      doRecoverFiles env rf fuel ⟨b, ~~~0⟩ clobber dest (RecState.start fs) = .exit s' := by
  obtain ⟨N1, h1⟩ := Safe.run hb hm hr hchunks (G := fun o => o ≠ ~~~0)
    (fun o d off x e n _ h1 h2 h3 => htrees o d off x e n h1 h2 h3) fun _ h => h
  obtain ⟨N2, h2⟩ := C60_terminates_stored_partial b hb m hm hr.ranges (~~~0)
  refine ⟨max N1 N2, fun rf hrf fuel hf env clobber dest fs => ?_⟩
  cases hx : doRecoverFiles env rf fuel ⟨b, ~~~0⟩ clobber dest (RecState.start fs) with
  | ok a s' => exact ⟨s', Or.inl rfl⟩
  | exit s' => exact ⟨s', Or.inr rfl⟩
  | hang s' => exact absurd hx (h2 rf (by omega) fuel (by omega) env clobber dest fs s')
  | crash s' =>
    obtain ⟨o, d, -, h3, h4⟩ := h1 rf (by omega) fuel env clobber dest fs s' hx
    exact h4.elim (fun h => absurd h h3) fun h => absurd h (hgood o d)

/-! ## What does not survive -/

/-- All that was entered was warned about, or has only entries with names, but for what is in `P`. -/
def Readable (b : Bucket) (P : List (UInt64 × UInt64 × Bytes)) (s : RecState) : Prop :=
  ∀ o d p, Ev.enter o d p ∈ s.log → (o, d, p) ∈ P ∨ Ev.warn p ∈ s.log ∨ (o ≠ ~~~0 → ∀ off x, b.seenData o 84 d off x → named x)

variable {P : List (UInt64 × UInt64 × Bytes)}

theorem Readable.opInv : OpInv rf ⟨b, ~~~0⟩ (Readable b P) where
  calls _ _ h := h
  cache _ _ _ _ _ h := h
  fs _ _ _ h := h
  op s k q h := by
    intro o d p he
    rcases List.mem_cons.mp he with he | he
    · cases he
    · exact (h o d p he).imp_right fun h => h.imp_left (List.mem_cons_of_mem _)

theorem Readable.warn {s : RecState} (h : Readable b P s) (q : Bytes) : Readable b P { s with log := .warn q :: s.log } := by
  intro o d p he
  rcases List.mem_cons.mp he with he | he
  · cases he
  · exact (h o d p he).imp_right fun h => h.imp_left (List.mem_cons_of_mem _)

/-- After `recoverDir` and its report. -/
theorem wp_told {x : Rec (Option RecErr)} {o d : UInt64} {p : Bytes} {s : RecState}
    (h : wp x (fun r t => (r = none → Readable b P t) ∧ (r ≠ none → Readable b ((o, d, p) :: P) t)) (fun _ => True) s) :
    wp (x >>= fun e => report p e) (fun _ t => Readable b P t) (fun _ => True) s := by
  rw [wp_bind]
  refine wp_mono h (fun r t ht => ?_) fun _ h => h
  cases r with
  | none => exact wp_pure.mpr (ht.1 rfl)
  | some e =>
    have := ht.2 (by simp)
    refine wp_modify.mpr ?_
    intro o' d' p' he
    rcases List.mem_cons.mp he with he | he
    · cases he
    · rcases this o' d' p' he with h | h | h
      · rcases List.mem_cons.mp h with h | h
        · simp only [Prod.mk.injEq] at h
          obtain ⟨rfl, rfl, rfl⟩ := h
          exact Or.inr (Or.inl List.mem_cons_self)
        · exact Or.inl h
      · exact Or.inr (Or.inl (List.mem_cons_of_mem _ h))
      · exact Or.inr (Or.inr h)

theorem Keeps.run {α : Type} {I : RecState → Prop} {c : Rec α} (h : Keeps I c) {s : RecState} (hs : I s) :
    wp c (fun _ t => I t) (fun _ => True) s := wp_mono (h s hs) (fun _ _ h => h) fun _ _ => trivial

theorem readable_entries {clobber : Bool} {rec : UInt64 → UInt64 → Bytes → Rec (Option RecErr)}
    (hrec : ∀ P o d p s, Readable b P s → wp (rec o d p) (fun r t => (r = none → Readable b P t) ∧ (r ≠ none → Readable b ((o, d, p) :: P) t)) (fun _ => True) s)
    (o : UInt64) (dest : Bytes) (P : List (UInt64 × UInt64 × Bytes)) : ∀ (dis : List DirItem) (s : RecState), Readable b P s →
      wp (recoverEntries rec env rf ⟨b, ~~~0⟩ clobber o dest dis)
        (fun _ t => Readable b P t ∧ ∀ di ∈ dis, ∃ n, DirItem.name di = .ok n) (fun _ => True) s := by
  have hI : OpInv rf ⟨b, ~~~0⟩ (Readable b P) := Readable.opInv
  have hrep : ∀ {c : Rec (Option RecErr)} {q : Bytes} {s : RecState}, Readable b P s → Keeps (Readable b P) c →
      wp (c >>= fun e => report q e) (fun _ t => Readable b P t) (fun _ => True) s := by
    intro c q s hs hc
    refine Keeps.run (Keeps.bind hc fun e => ?_) hs
    cases e with
    | none => exact Keeps.pure
    | some _ => exact Keeps.modify fun s hs => hs.warn q
  intro dis
  induction dis with
  | nil => exact fun s hs => wp_pure.mpr ⟨hs, fun _ h => by cases h⟩
  | cons di r ih =>
    intro s hs
    unfold recoverEntries
    rw [wp_bind]
    have h1 : wp (recoverEntry rec env rf ⟨b, ~~~0⟩ clobber o dest di)
        (fun _ t => Readable b P t ∧ ∃ n, DirItem.name di = .ok n) (fun _ => True) s := by
      unfold recoverEntry
      rw [wp_bind]
      refine wp_lift_of (fun name hname => ?_) trivial
      have h2 : wp (if skipName name then pure () else recoverNamed rec env rf ⟨b, ~~~0⟩ clobber o (goJoin dest name) di)
          (fun _ t => Readable b P t) (fun _ => True) s := by
        by_cases hsk : skipName name = true
        · rw [if_pos hsk]; exact wp_pure.mpr hs
        · rw [if_neg hsk]
          unfold recoverNamed
          rw [wp_bind]
          refine wp_lift_of (fun isDir _ => wp_bind.mpr <| wp_lift_of (fun isSub _ => wp_bind.mpr <| wp_lift_of (fun loc _ =>
            wp_bind.mpr <| wp_lift_of (fun t ht => ?_) trivial) trivial) trivial) trivial
          by_cases hd : (isDir || isSub) = true
          · rw [if_pos hd]
            exact wp_told (hrec P _ _ _ s hs)
          · rw [if_neg hd]
            by_cases h1 : t = FtRegFile
            · rw [if_pos h1]
              exact hrep hs ((hI.fileInv clobber).file _ _ trivial)
            · rw [if_neg h1]
              by_cases h2 : t = FtSymlink
              · rw [if_pos h2]
                exact hrep hs (hI.link clobber _ _ _)
              · rw [if_neg h2]; exact wp_pure.mpr hs
      exact wp_mono h2 (fun _ t ht => ⟨ht, name, hname⟩) fun _ _ => trivial
    refine wp_mono h1 (fun _ t ht => ?_) fun _ _ => trivial
    refine wp_mono (ih t ht.1) (fun _ u hu => ⟨hu.1, fun x hx => ?_⟩) fun _ _ => trivial
    rcases List.mem_cons.mp hx with rfl | hx
    · exact ht.2
    · exact hu.2 x hx

theorem readable_dir (hb : b.WF) {m : Bytes} (hm : b.stores metadataVersionKey m) (hr : b.Runnable) (clobber : Bool) :
    ∀ (fuel : Nat) (P : List (UInt64 × UInt64 × Bytes)) (o d : UInt64) (p : Bytes) (s : RecState), Readable b P s →
      wp (recoverDir env rf ⟨b, ~~~0⟩ clobber fuel o d p)
        (fun r t => (r = none → Readable b P t) ∧ (r ≠ none → Readable b ((o, d, p) :: P) t)) (fun _ => True) s := by
  intro fuel
  induction fuel with
  | zero => exact fun _ _ _ _ _ _ => wp_hang.mpr trivial
  | succ fuel ih =>
    intro P o d p s hs
    unfold recoverDir
    rw [wp_bind, wp_get]
    by_cases hv : s.visited.contains (o, d) = true
    · rw [if_pos hv]; exact wp_pure.mpr ⟨fun _ => hs, fun h => absurd rfl h⟩
    · rw [if_neg hv, wp_bind, wp_modify, wp_bind]
      unfold note
      rw [wp_modify]
      have hin : Readable b ((o, d, p) :: P) { s with visited := (o, d) :: s.visited, log := .enter o d p :: s.log } := by
        intro o' d' p' he
        rcases List.mem_cons.mp he with he | he
        · cases he; exact Or.inl List.mem_cons_self
        · exact (hs o' d' p' he).imp (List.mem_cons_of_mem _) fun h => h.imp_left (List.mem_cons_of_mem _)
      rw [wp_bind]
      refine wp_mono (Keeps.run (Readable.opInv (rf := rf).mkdirAll p) hin) (fun ok t ht => ?_) fun _ _ => trivial
      cases ok with
      | false => exact wp_pure.mpr ⟨fun h => (by cases h), fun _ => ht⟩
      | true =>
        simp only [if_true]
        rw [wp_bind]
        refine wp_lift_of (fun dis hdis => ?_) trivial
        rw [wp_bind]
        refine wp_mono (readable_entries ih o p _ dis t ht) (fun _ u hu => wp_pure.mpr ⟨fun _ => ?_, fun h => absurd rfl h⟩) fun _ _ => trivial
        intro o' d' p' he
        rcases hu.1 o' d' p' he with h | h
        · rcases List.mem_cons.mp h with h | h
          · simp only [Prod.mk.injEq] at h
            obtain ⟨rfl, rfl, rfl⟩ := h
            refine Or.inr (Or.inr fun ho off x hx => ?_)
            obtain ⟨rd, its, h1, h2, h3, h4⟩ := seen_any hb hm ho hr.exact (t := 84) (by decide) (id := d') (hr.ranges.dirs o' d')
            obtain ⟨r, hm⟩ := (h4 off x).mpr hx
            have := hu.2 ⟨x, []⟩ (by
              rw [(readDirItems_any h1 h2 rf).2 dis hdis]
              exact List.mem_map.mpr ⟨_, hm, rfl⟩)
            obtain ⟨n, hn⟩ := this
            by_contra hc
            rw [not_named hc] at hn
            cases hn
          · exact Or.inl h
        · exact Or.inr h

theorem readable_run (hb : b.WF) {m : Bytes} (hm : b.stores metadataVersionKey m) (hr : b.Runnable) (clobber : Bool)
    (fuel : Nat) (dest : Bytes) (fs : HostFS) :
    wp (doRecoverFiles env rf fuel ⟨b, ~~~0⟩ clobber dest) (fun _ t => Readable b [] t) (fun _ => True) (RecState.start fs) := by
  have h0 : Readable b [] (RecState.start fs) := by
    intro o d p he
    cases he
  have hI : OpInv rf ⟨b, ~~~0⟩ (Readable b []) := Readable.opInv
  unfold doRecoverFiles
  rw [wp_bind]
  refine wp_mono (Keeps.run (hI.mkdirAll (env := env) dest) h0) (fun ok t ht => ?_) fun _ _ => trivial
  cases ok with
  | false => exact wp_exit.mpr trivial
  | true =>
    simp only [if_true]
    have hd : ∀ o d p s, Readable b [] s →
        wp (recoverDir env rf ⟨b, ~~~0⟩ clobber fuel o d p >>= fun e => report p e) (fun _ t => Readable b [] t) (fun _ => True) s :=
      fun o d p s hs => wp_told (readable_dir hb hm hr clobber fuel [] o d p s hs)
    have hsub : ∀ r x s, Readable b [] s →
        wp (recoverSubvol env rf fuel ⟨b, ~~~0⟩ clobber dest r x) (fun _ t => Readable b [] t) (fun _ => True) s := by
      intro r x s hs
      unfold recoverSubvol
      rw [wp_bind]
      refine wp_lift_of (fun k _ => ?_) trivial
      rw [wp_bind, wp_get]
      by_cases hv : s.visited.contains (k.objectID, FirstFreeObjectID) = true
      · rw [if_pos hv]; exact wp_pure.mpr hs
      · rw [if_neg hv]
        have := hd k.objectID FirstFreeObjectID (subvolDest dest k.objectID) s hs
        rw [wp_bind] at this ⊢
        refine wp_mono this (fun e u hu => ?_) fun _ h => h
        rw [wp_bind]
        exact wp_mono hu (fun _ _ h => wp_pure.mpr h) fun _ h => h
    have hloop : ∀ (n : Nat) rd s, Readable b [] s →
        wp (rangeLoopRec (recoverSubvol env rf fuel ⟨b, ~~~0⟩ clobber dest) n rd) (fun _ t => Readable b [] t) (fun _ => True) s := by
      intro n
      induction n with
      | zero => exact fun _ _ _ => wp_hang.mpr trivial
      | succ n ih =>
        intro rd s hs
        unfold rangeLoopRec
        by_cases hn : rd.1.hasNext = true
        · rw [if_pos hn, wp_bind]
          refine wp_mono (hsub _ _ s hs) (fun r t ht => ?_) fun _ h => h
          cases r with
          | some e => exact wp_pure.mpr ht
          | none =>
            rw [wp_bind]
            exact wp_lift_of (fun rd' _ => ih rd' t ht) trivial
        · rw [if_neg hn]; exact wp_pure.mpr hs
    have h1 := hd FSTreeObjectID FirstFreeObjectID dest t ht
    rw [wp_bind] at h1 ⊢
    refine wp_mono h1 (fun e u hu => ?_) fun _ h => h
    rw [wp_bind]
    refine wp_mono hu (fun _ v hv => ?_) fun _ h => h
    rw [wp_bind]
    refine wp_lift_of (fun rd _ => ?_) trivial
    rw [wp_bind]
    exact wp_mono (hloop _ _ _ hv) (fun _ _ h => wp_pure.mpr h) fun _ h => h

/-- C118, in every environment: whatever directory a run of recover that returns has entered, it has warned about it, or
all its entries have their names. -/
theorem C118_returned_readable (b : Bucket) (hb : b.WF) (m : Bytes) (hm : b.stores metadataVersionKey m) (hr : b.Runnable)
    (rf fuel : Nat) (env : Env) (clobber : Bool) (dest : Bytes) (fs : HostFS) (s' : RecState)
    (hrun : doRecoverFiles env rf fuel ⟨b, ~~~0⟩ clobber dest (RecState.start fs) = .ok () s')
    (o d : UInt64) (p : Bytes) (hin : Ev.enter o d p ∈ s'.log) :
    Ev.warn p ∈ s'.log ∨ (o ≠ ~~~0 → ∀ off x, b.seenData o 84 d off x → named x) := by
  rcases wp_ok (readable_run hb hm hr clobber fuel dest fs) hrun o d p hin with h | h
  · cases h
  · exact h

theorem top_entered (clobber : Bool) (fuel : Nat) (dest : Bytes) (ix : Ix) (fs : HostFS) :
    wp (doRecoverFiles env rf fuel ix clobber dest) (fun _ t => Ev.enter 5 256 dest ∈ t.log) (fun _ => True) (RecState.start fs) := by
  have hI : OpInv rf ix (fun s => s.visited = []) := ⟨fun _ _ h => h, fun _ _ _ _ _ h => h, fun _ _ _ h => h, fun _ _ _ h => h⟩
  have hK : RecInv env rf ix clobber (fun s => Ev.enter 5 256 dest ∈ s.log) (fun _ => True) (fun _ => True) (fun _ => True) := by
    have h0 : OpInv rf ix (fun s => Ev.enter 5 256 dest ∈ s.log) :=
      ⟨fun _ _ h => h, fun _ _ _ _ _ h => h, fun _ _ _ h => h, fun _ _ _ h => List.mem_cons_of_mem _ h⟩
    refine h0.recInv clobber (fun s p h => ?_) fun s o' d' p h => ?_
    · exact List.mem_cons_of_mem _ h
    · exact List.mem_cons_of_mem _ h
  unfold doRecoverFiles
  rw [wp_bind]
  refine wp_mono (Keeps.run (hI.mkdirAll (env := env) dest) rfl) (fun ok t ht => ?_) fun _ _ => trivial
  cases ok with
  | false => exact wp_exit.mpr trivial
  | true =>
    simp only [if_true]
    have hrest : ∀ e, Keeps (fun s => Ev.enter 5 256 dest ∈ s.log) (do
        report dest e
        let rd ← lift ix.subvolumes
        let _ ← rangeLoopRec (recoverSubvol env rf fuel ix clobber dest) rf rd
        return ()) := by
      intro e
      refine Keeps.bind (hK.report _ _) fun _ => Keeps.bind Keeps.lift fun rd => ?_
      refine Keeps.bind (Keeps.rangeLoopRec (fun r e => ?_) _ _) fun _ => Keeps.pure
      unfold recoverSubvol
      refine Keeps.bind Keeps.lift fun k => Keeps.bind Keeps.get fun s => Keeps.ite (fun _ => Keeps.pure) fun _ => ?_
      exact Keeps.bind (hK.recoverDir _ _ _ _ trivial) fun e => Keeps.bind (hK.report _ _) fun _ => Keeps.pure
    rw [wp_bind]
    refine wp_mono (Q := fun _ t => Ev.enter 5 256 dest ∈ t.log) (E := fun _ => True) ?_ (fun e u hu => Keeps.run (hrest e) hu) fun _ h => h
    cases fuel with
    | zero => exact wp_hang.mpr trivial
    | succ fuel =>
      unfold recoverDir
      rw [wp_bind, wp_get]
      have hv : ¬ t.visited.contains (FSTreeObjectID, FirstFreeObjectID) = true := by rw [ht]; decide
      rw [if_neg hv, wp_bind, wp_modify, wp_bind]
      unfold note
      rw [wp_modify]
      refine Keeps.run (I := fun s => Ev.enter 5 256 dest ∈ s.log) ?_ (List.mem_cons_self)
      refine Keeps.bind (hK.mkdirAll dest trivial) fun ok => Keeps.ite (fun _ => ?_) fun _ => Keeps.pure
      refine Keeps.bind Keeps.lift fun dis => ?_
      exact Keeps.bind (hK.entries (fun o d p _ => hK.recoverDir fuel o d p trivial) _ trivial dis fun _ _ => trivial) fun _ => Keeps.pure

/-- C118, in every environment: if an entry of the top directory is cut off before the end of its name, then a run of
recover crashes, or it could not make the destination and says so, or warns about it. -/
theorem C118_torn_entry_ends (b : Bucket) (hb : b.WF) (m : Bytes) (hm : b.stores metadataVersionKey m) (hr : b.Runnable)
    (off : UInt64) (x : Bytes) (hx : b.seenData 5 84 256 off x) (htorn : ¬ named x) :
    ∃ N, ∀ rf ≥ N, ∀ fuel ≥ N, ∀ (env : Env) (clobber : Bool) (dest : Bytes) (fs : HostFS), ∃ s',
      doRecoverFiles env rf fuel ⟨b, ~~~0⟩ clobber dest (RecState.start fs) = .crash s' ∨
      doRecoverFiles env rf fuel ⟨b, ~~~0⟩ clobber dest (RecState.start fs) = .exit s' ∨
      (doRecoverFiles env rf fuel ⟨b, ~~~0⟩ clobber dest (RecState.start fs) = .ok () s' ∧ Ev.warn dest ∈ s'.log) := by
  obtain ⟨N, h2⟩ := C60_terminates_stored_partial b hb m hm hr.ranges (~~~0)
  refine ⟨N, fun rf hrf fuel hf env clobber dest fs => ?_⟩
  cases hrun : doRecoverFiles env rf fuel ⟨b, ~~~0⟩ clobber dest (RecState.start fs) with
  | crash s' => exact ⟨s', Or.inl rfl⟩
  | exit s' => exact ⟨s', Or.inr (Or.inl rfl)⟩
  | hang s' => exact absurd hrun (h2 rf hrf fuel hf env clobber dest fs s')
  | ok a s' =>
    refine ⟨s', Or.inr (Or.inr ⟨rfl, ?_⟩)⟩
    have hin := wp_ok (top_entered clobber fuel dest ⟨b, ~~~0⟩ fs) hrun
    rcases C118_returned_readable b hb m hm hr rf fuel env clobber dest fs s' hrun _ _ _ hin with h | h
    · exact h
    · exact absurd (h (by decide) off x hx) htorn

/-- `MkdirAll` of a directory that exists. -/
theorem mkdirAll_there (hst : ∀ n, env.fails .stat n = false) {p : Bytes} {s : RecState} (h : s.fs.stat true p = some true) :
    ∃ n, mkdirAll env p s = .ok true { s with calls := n } := by
  refine ⟨s.calls + 1, ?_⟩
  unfold mkdirAll
  generalize p.length = n
  unfold mkdirAllAux
  have : sysStat env p s = .ok (some true) { s with calls := s.calls + 1 } := by
    simp only [sysStat, bind_def, tick, hst, Bool.false_eq_true, if_false, get_run, pure_run, h]
  rw [bind_ok this]
  rfl

theorem wp_of_ok {σ α : Type} {c : Cmd σ α} {Q : α → σ → Prop} {E : σ → Prop} {s t : σ} {a : α} (h : c s = .ok a t) (hq : Q a t) :
    wp c Q E s := by
  unfold wp
  rw [h]
  exact hq

/-- C118, where the destination is a directory that exists: if an entry of the top directory is cut off before the end of its
name, then a run of recover crashes. -/
theorem C118_torn_entry_crashes (b : Bucket) (hb : b.WF) (m : Bytes) (hm : b.stores metadataVersionKey m) (hr : b.Runnable)
    (off : UInt64) (x : Bytes) (hx : b.seenData 5 84 256 off x) (htorn : ¬ named x) :
    ∃ N, ∀ rf ≥ N, ∀ fuel ≥ N, ∀ (env : Env) (clobber : Bool) (dest : Bytes) (fs : HostFS),
      (∀ n, env.fails .stat n = false) → fs.stat true dest = some true →
      ∃ s', doRecoverFiles env rf fuel ⟨b, ~~~0⟩ clobber dest (RecState.start fs) = .crash s' := by
  obtain ⟨N, h2⟩ := C60_terminates_stored_partial b hb m hm hr.ranges (~~~0)
  refine ⟨N, fun rf hrf fuel hf env clobber dest fs hst hd => ?_⟩
  obtain ⟨n, hmk⟩ := mkdirAll_there (s := RecState.start fs) hst hd
  cases hrun : doRecoverFiles env rf fuel ⟨b, ~~~0⟩ clobber dest (RecState.start fs) with
  | crash s' => exact ⟨s', rfl⟩
  | exit s' =>
    rw [doRecoverFiles_exit, hmk] at hrun
    cases hrun
  | hang s' => exact absurd hrun (h2 rf hrf fuel hf env clobber dest fs s')
  | ok a s' =>
    exfalso
    refine wp_ok (Q := fun _ _ => False) (E := fun _ => True) ?_ hrun
    unfold doRecoverFiles
    rw [wp_bind]
    refine wp_of_ok hmk ?_
    simp only [if_true]
    rw [wp_bind]
    refine wp_mono (Q := fun _ _ => False) (E := fun _ => True) ?_ (fun _ _ h => h.elim) fun _ h => h
    cases fuel with
    | zero => exact wp_hang.mpr trivial
    | succ fuel =>
      unfold recoverDir
      rw [wp_bind, wp_get, if_neg (show ¬ ((RecState.start fs).visited.contains (FSTreeObjectID, FirstFreeObjectID) = true) from by
        show ¬ (([] : List (UInt64 × UInt64)).contains (FSTreeObjectID, FirstFreeObjectID) = true)
        decide), wp_bind, wp_modify, wp_bind]
      unfold note
      rw [wp_modify, wp_bind]
      have hin : Readable b [(5, 256, dest)] { RecState.start fs with calls := n, visited := [(5, 256)], log := [.enter 5 256 dest] } := by
        intro o' d' p' he
        rcases List.mem_cons.mp he with he | he
        · cases he; exact Or.inl List.mem_cons_self
        · cases he
      refine (show wp _ _ _ ({ RecState.start fs with calls := n, visited := [(5, 256)], log := [.enter 5 256 dest] } : RecState) from ?_)
      obtain ⟨n', hmk'⟩ := mkdirAll_there (env := env)
        (s := { RecState.start fs with calls := n, visited := [(5, 256)], log := [.enter 5 256 dest] }) hst hd
      refine wp_of_ok hmk' ?_
      simp only [if_true]
      rw [wp_bind]
      refine wp_lift_of (fun dis hdis => ?_) trivial
      rw [wp_bind]
      refine wp_mono (readable_entries (readable_dir hb hm hr clobber fuel) 5 dest _ dis _ hin) (fun _ u hu => ?_) fun _ _ => trivial
      obtain ⟨rd, its, h1, h2, h3, h4⟩ := seen_any hb hm (o := 5) (by decide) hr.exact (t := 84) (by decide) (id := 256) (hr.ranges.dirs 5 256)
      obtain ⟨r, hmem⟩ := (h4 off x).mpr hx
      obtain ⟨nm, hn⟩ := hu.2 ⟨x, []⟩ (by
        rw [(readDirItems_any h1 h2 rf).2 dis hdis]
        exact List.mem_map.mpr ⟨_, hmem, rfl⟩)
      rw [not_named htorn] at hn
      cases hn

end

/-! ## Examples -/

theorem exTornDir_runnable : exTornDir.enc.Runnable where
  exact v x hv ho := exTornDir_exact _ (enc_stores.mp hv) ho
  ranges := {
    dirs := fun o id off h => by
      obtain ⟨g, x, hx⟩ := enc_hasKey.mp h
      have : ∀ e ∈ exTornDir, e.1.key.typ = 84 → e.1.owner = 5 ∧ e.1.key.objectID = 256 := by decide +kernel
      obtain ⟨h1, h2⟩ := this _ hx rfl
      simp only at h1 h2
      subst h1; subst h2
      exact exTornDir_range _ _ (by decide) (by decide +kernel)
    extents := fun o id off h => by
      obtain ⟨g, x, hx⟩ := enc_hasKey.mp h
      exact absurd rfl ((by decide +kernel : ∀ e ∈ exTornDir, e.1.key.typ ≠ 108) _ hx)
    chunks := fun off h => by
      obtain ⟨g, x, hx⟩ := enc_hasKey.mp h
      exact absurd rfl ((by decide +kernel : ∀ e ∈ exTornDir, e.1.key.typ ≠ 228) _ hx)
    subvolumes := fun off h => by
      obtain ⟨g, x, hx⟩ := enc_hasKey.mp h
      exact absurd rfl ((by decide +kernel : ∀ e ∈ exTornDir, e.1.owner ≠ 1) _ hx) }
  chunks := exTornDir_range _ _ (by decide) (by decide +kernel)

/-- C118 is false of the code: with one entry of the top directory cut off, also of an otherwise whole file system and on a
host where nothing fails, a run of recover ends in a crash. -/
theorem C118_one_torn_entry_refuted : ∃ N, ∀ rf ≥ N, ∀ fuel ≥ N, ∀ (clobber : Bool), ∃ s',
    doRecoverFiles quietEnv rf fuel ⟨exTornDir.enc, ~~~0⟩ clobber (ascii "/") (RecState.start exEmptyHost) = .crash s' := by
  obtain ⟨N, h⟩ := C118_torn_entry_crashes exTornDir.enc (AStore.enc_wf exTornDir_sorted) [] (enc_stores.mpr (by simp [exTornDir]))
    exTornDir_runnable 2 [9, 9] exTornDir_seen short_not_named
  exact ⟨N, fun rf hrf fuel hf clobber => h rf hrf fuel hf quietEnv clobber (ascii "/") exEmptyHost (fun _ => rfl) (by decide +kernel)⟩

/-- The cause of that crash, as in `C118_crash_cause`: the hypotheses hold, a run does crash, and the top directory is damaged. -/
example : ∃ N, ∀ rf ≥ N, ∀ fuel ≥ N, ∃ s', doRecoverFiles quietEnv rf fuel ⟨exTornDir.enc, ~~~0⟩ false (ascii "/") (RecState.start exEmptyHost) = .crash s' ∧
    (¬ exTornDir.enc.SeenIntact ∨ ∃ o d, (o, d) ∈ s'.entered ∧ (o = ~~~0 ∨ exTornDir.enc.dirBad o d)) := by
  obtain ⟨N1, h1⟩ := C118_one_torn_entry_refuted
  obtain ⟨N2, h2⟩ := C118_crash_cause exTornDir.enc (AStore.enc_wf exTornDir_sorted) [] (enc_stores.mpr (by simp [exTornDir])) exTornDir_runnable
  refine ⟨max N1 N2, fun rf hrf fuel hf => ?_⟩
  obtain ⟨s', h⟩ := h1 rf (by omega) fuel (by omega) false
  exact ⟨s', h, h2 rf (by omega) fuel quietEnv false (ascii "/") exEmptyHost s' h⟩

/-- The store `exTornDir` without the damaged entry, and with an inode item for the file "a". -/
def exFineDir : AStore :=
  [(⟨3, ⟨1, 216, 1⟩, 7⟩, mkItem ⟨1, 216, 1⟩ []),
   (⟨3, ⟨257, 229, 0⟩, 7⟩, mkItem ⟨257, 229, 0⟩ []),
   (⟨5, ⟨257, 1, 0⟩, 10⟩, mkItem ⟨257, 1, 0⟩ (List.replicate 16 0 ++ (le64 4 ++ []))),
   (⟨5, ⟨256, 84, 1⟩, 10⟩, mkItem ⟨256, 84, 1⟩ (exEntry ⟨257, 1, 0⟩ 1 [97])),
   (⟨5, ⟨258, 132, 0⟩, 10⟩, mkItem ⟨258, 132, 0⟩ []),
   (metadataVersionKey, [])]

theorem exFineDir_sorted : exFineDir.Sorted := sorted_of_before (by decide +kernel)

theorem exFineDir_exact (e : VKey × Bytes) (he : e ∈ exFineDir) (ho : e.1.owner ≠ ~~~0) : ∃ d, holdsExactly e.2 d := by
  simp only [exFineDir, List.mem_cons, List.not_mem_nil, or_false] at he
  rcases he with rfl | rfl | rfl | rfl | rfl | rfl
  · exact ⟨_, mkItem_exactly _ _ (by decide)⟩
  · exact ⟨_, mkItem_exactly _ _ (by decide)⟩
  · exact ⟨_, mkItem_exactly _ _ (by decide +kernel)⟩
  · exact ⟨_, mkItem_exactly _ _ (by decide +kernel)⟩
  · exact ⟨_, mkItem_exactly _ _ (by decide)⟩
  · exact absurd rfl ho

theorem exFineDir_range (o : UInt64) (last : Key) (ho : o ≠ ~~~0) (hc : ∃ e ∈ exFineDir, e.1.owner = o ∧ last.before e.1.key) :
    exFineDir.enc.RangeOK o last :=
  rangeOK_of ho (fun e he h => (exFineDir_exact e he (h ▸ ho)).imp fun _ h => h.holds)
    (fun e he h => (by decide +kernel : ∀ e ∈ exFineDir, e.1.owner ≠ ~~~0 → e.1.gen ≠ ~~~0 ∧ e.1.key ≠ KL0) e he (h ▸ ho)) hc

theorem exFineDir_runnable : exFineDir.enc.Runnable where
  exact v x hv ho := exFineDir_exact _ (enc_stores.mp hv) ho
  ranges := {
    dirs := fun o id off h => by
      obtain ⟨g, x, hx⟩ := enc_hasKey.mp h
      have : ∀ e ∈ exFineDir, e.1.key.typ = 84 → e.1.owner = 5 ∧ e.1.key.objectID = 256 := by decide +kernel
      obtain ⟨h1, h2⟩ := this _ hx rfl
      simp only at h1 h2
      subst h1; subst h2
      exact exFineDir_range _ _ (by decide) (by decide +kernel)
    extents := fun o id off h => by
      obtain ⟨g, x, hx⟩ := enc_hasKey.mp h
      exact absurd rfl ((by decide +kernel : ∀ e ∈ exFineDir, e.1.key.typ ≠ 108) _ hx)
    chunks := fun off h => by
      obtain ⟨g, x, hx⟩ := enc_hasKey.mp h
      exact absurd rfl ((by decide +kernel : ∀ e ∈ exFineDir, e.1.key.typ ≠ 228) _ hx)
    subvolumes := fun off h => by
      obtain ⟨g, x, hx⟩ := enc_hasKey.mp h
      exact absurd rfl ((by decide +kernel : ∀ e ∈ exFineDir, e.1.owner ≠ 1) _ hx) }
  chunks := exFineDir_range _ _ (by decide) (by decide +kernel)

/-- The only entry there is. -/
theorem exFineDir_entry {o d off : UInt64} {x : Bytes} (h : exFineDir.enc.seenData o 84 d off x) :
    o = 5 ∧ namedBy x ⟨⟨257, 1, 0⟩, 7, 0, 1, 1⟩ [97] := by
  obtain ⟨g, y, -, h2, h3⟩ := h
  have : ∀ e ∈ exFineDir, e.1.key.typ = 84 → e = (⟨5, ⟨256, 84, 1⟩, 10⟩, mkItem ⟨256, 84, 1⟩ (exEntry ⟨257, 1, 0⟩ 1 [97])) := by decide +kernel
  have h' := this _ (enc_stores.mp h2) rfl
  simp only [Prod.mk.injEq, VKey.mk.injEq, Key.mk.injEq] at h'
  obtain ⟨⟨rfl, ⟨-, -, rfl⟩, rfl⟩, rfl⟩ := h'
  obtain rfl := h3.holds.unique (mkItem_exactly _ (exEntry ⟨257, 1, 0⟩ 1 [97]) (by decide +kernel)).holds
  exact ⟨rfl, [], by decide +kernel, by decide +kernel⟩

theorem exFineDir_good (o d : UInt64) : ¬ exFineDir.enc.dirBad o d := by
  rintro ⟨off, x, h1, h2⟩
  obtain ⟨rfl, hn⟩ := exFineDir_entry h1
  rcases h2 with h2 | ⟨e, n, he, -, h2⟩
  · exact h2 ⟨_, _, hn⟩
  · obtain ⟨-, hl, -⟩ := he.unique hn
    rcases h2 with ⟨-, h2⟩ | ⟨-, d, ⟨g, y, -, h4, -⟩, -⟩
    · rw [hl] at h2
      rcases h2 with ⟨d, ⟨g, y, -, h4, h5⟩, h6⟩ | ⟨off, d, ⟨g, y, -, h4, -⟩, -⟩
      · have h7 : ∀ e ∈ exFineDir, e.1.owner = 5 → e.1.key = ⟨257, 1, 0⟩ →
            e.2 = mkItem ⟨257, 1, 0⟩ (List.replicate 16 0 ++ (le64 4 ++ [])) := by decide +kernel
        have h8 := h7 _ (enc_stores.mp h4) rfl rfl
        simp only at h8
        subst h8
        obtain rfl := h5.holds.unique (mkItem_exactly _ (List.replicate 16 0 ++ (le64 4 ++ [])) (by decide)).holds
        exact h6 ⟨_, _, _, rfl, rfl, by decide⟩
      · exact absurd rfl ((by decide +kernel : ∀ e ∈ exFineDir, e.1.key.typ ≠ 108) _ (enc_stores.mp h4))
    · exact absurd rfl ((by decide +kernel : ∀ e ∈ exFineDir, e.1.key.typ ≠ 108) _ (enc_stores.mp h4))

/-- A store whose items are whole: the hypotheses of `C118_whole_items_partial` are met, and runs of recover return. -/
example : ∃ N, ∀ rf ≥ N, ∀ fuel ≥ N, ∀ (env : Env) (clobber : Bool) (dest : Bytes) (fs : HostFS), ∃ s',
    doRecoverFiles env rf fuel ⟨exFineDir.enc, ~~~0⟩ clobber dest (RecState.start fs) = .ok () s' ∨
    doRecoverFiles env rf fuel ⟨exFineDir.enc, ~~~0⟩ clobber dest (RecState.start fs) = .exit s' := by
  refine C118_whole_items_partial exFineDir.enc (AStore.enc_wf exFineDir_sorted) [] (enc_stores.mpr (by simp [exFineDir])) exFineDir_runnable
    ?_ exFineDir_good ?_
  · rintro start g - ⟨x, hx⟩
    exact absurd rfl ((by decide +kernel : ∀ e ∈ exFineDir, e.1.key.typ ≠ 228) _ (enc_stores.mp hx))
  · intro o d off x e n h1 h2 h3
    obtain ⟨-, h4⟩ := exFineDir_entry h1
    rw [(h2.unique h4).2.1] at h3
    exact absurd h3 (by decide)

end Btrfscue
