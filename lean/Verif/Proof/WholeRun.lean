import Verif.Proof.Whole
/-!
# A run that recovers to an empty destination
-/

namespace Btrfscue

open Cmd

/-- Everything that is there is done. -/
def DoneAll (ix : Ix) (dest : Bytes) (r : Nat) (FD LD : Fate) (s : RecState) : Prop :=
  ∀ A i, s.fs.down r A = some i → ∀ p, Named dest A p →
    (∀ o n, EntryAt ix dest 1 o n A → FD s o n p ∨ Ev.warn p ∈ s.log) ∧
    (∀ o n, EntryAt ix dest 7 o n A → LD s o n p ∨ Ev.warn p ∈ s.log)

/-- Everything that there was in `f`, but for what was at `A0`, was done. -/
def DoneBut (ix : Ix) (dest : Bytes) (r : Nat) (FD LD : Fate) (A0 : List Bytes) (f : HostFS) (s : RecState) : Prop :=
  ∀ A i, f.down r A = some i → A ≠ A0 → ∀ p, Named dest A p →
    (∀ o n, EntryAt ix dest 1 o n A → FD { s with fs := f } o n p ∨ Ev.warn p ∈ s.log) ∧
    (∀ o n, EntryAt ix dest 7 o n A → LD { s with fs := f } o n p ∨ Ev.warn p ∈ s.log)

/-- At every point so far, everything was where it belongs, and all but one thing was done. -/
def Sound (ix : Ix) (dest : Bytes) (r : Nat) (FD LD : Fate) (s : RecState) : Prop :=
  ∀ f, s.reached f → Shape ix dest r f ∧ ∃ A0, DoneBut ix dest r FD LD A0 f s

/-- The invariant of the run. -/
structure WholeInv (ix : Ix) (fs : HostFS) (dest : Bytes) (r rf : Nat) (FD LD : Fate) (s : RecState) : Prop where
  once : PlacedOnce ix dest s
  cache : CacheOK rf ix s
  shape : Shape ix dest r s.fs
  kept : Preserved fs s.fs
  past : ∀ f ∈ s.past, Shape ix dest r f
  done : DoneAll ix dest r FD LD s
  but : ∀ f ∈ s.past, ∃ A0, DoneBut ix dest r FD LD A0 f s

section
variable {ix : Ix} {fs : HostFS} {dest : Bytes} {r rf : Nat} {FD LD : Fate} {env : Env}

/-- How the steps of the run may change what is there. -/
structure Fates (FD LD : Fate) : Prop where
  file : ∀ s t o i p, Went Preserved s t → FD s o i p → FD t o i p
  link : ∀ s t o i p, Went Preserved s t → LD s o i p → LD t o i p

theorem WholeInv.sound {s : RecState} (h : WholeInv ix fs dest r rf FD LD s) : Sound ix dest r FD LD s := by
  rintro f (rfl | hf)
  · exact ⟨h.shape, [], fun A i hi _ p hp => h.done A i hi p hp⟩
  · exact ⟨h.past f hf, h.but f hf⟩

theorem DoneAll.mono (hF : Fates FD LD) {s t : RecState} (h : DoneAll ix dest r FD LD s) (hw : Went Preserved s t)
    {A : List Bytes} {i : Nat} (hi : s.fs.down r A = some i) {p : Bytes} (hp : Named dest A p) :
    (∀ o n, EntryAt ix dest 1 o n A → FD t o n p ∨ Ev.warn p ∈ t.log) ∧
    (∀ o n, EntryAt ix dest 7 o n A → LD t o n p ∨ Ev.warn p ∈ t.log) := by
  obtain ⟨h1, h2⟩ := h A i hi p hp
  exact ⟨fun o n he => (h1 o n he).imp (hF.file _ _ _ _ _ hw) (hw.logs _),
    fun o n he => (h2 o n he).imp (hF.link _ _ _ _ _ hw) (hw.logs _)⟩

theorem DoneBut.mono (hF : Fates FD LD) {s t : RecState} {f : HostFS} {A0 : List Bytes} (h : DoneBut ix dest r FD LD A0 f s)
    (hl : ∀ e ∈ s.log, e ∈ t.log) : DoneBut ix dest r FD LD A0 f t := by
  intro A i hi hne p hp
  obtain ⟨h1, h2⟩ := h A i hi hne p hp
  have hw : Went Preserved { s with fs := f } { t with fs := f } := ⟨hl, Preserved.refl _⟩
  exact ⟨fun o n he => (h1 o n he).imp (hF.file _ _ _ _ _ hw) (hl _), fun o n he => (h2 o n he).imp (hF.link _ _ _ _ _ hw) (hl _)⟩

/-- While one thing is added, all others stay done. -/
theorem Within.doneBut (hF : Fates FD LD) {Q : List Bytes → Prop} {A : List Bytes} (hQ : ∀ B, Q B → B = A ∨
      (∀ o n, ¬ EntryAt ix dest 1 o n B) ∧ ∀ o n, ¬ EntryAt ix dest 7 o n B) {s t : RecState} (hs : WholeInv ix fs dest r rf FD LD s)
    (h : Within ix fs dest r rf Q s t) (hl : ∀ e ∈ s.log, e ∈ t.log) :
    (∀ f ∈ t.past, ∃ A0, DoneBut ix dest r FD LD A0 f t) ∧ DoneBut ix dest r FD LD A t.fs t := by
  have key : ∀ f, Adds r Q s.fs f → Preserved s.fs f → DoneBut ix dest r FD LD A f t := by
    intro f hadd hpr B i hB hne p hp
    rcases hadd B i hB with hB | hB
    · obtain ⟨h1, h2⟩ := hs.done B i hB p hp
      have hw : Went Preserved s { t with fs := f } := ⟨hl, hpr⟩
      exact ⟨fun o n he => (h1 o n he).imp (hF.file _ _ _ _ _ hw) (hl _), fun o n he => (h2 o n he).imp (hF.link _ _ _ _ _ hw) (hl _)⟩
    · rcases hQ B hB with h | ⟨h1, h2⟩
      · exact absurd h hne
      · exact ⟨fun o n he => absurd he (h1 o n), fun o n he => absurd he (h2 o n)⟩
  refine ⟨fun f hf => ?_, key _ h.adds h.pres⟩
  rcases h.since f hf with hf | ⟨h1, h2⟩
  · obtain ⟨A0, h0⟩ := hs.but f hf
    exact ⟨A0, h0.mono hF hl⟩
  · exact ⟨A, key f h1 h2⟩

theorem Within.sound (hF : Fates FD LD) {Q : List Bytes → Prop} {A : List Bytes} (hQ : ∀ B, Q B → B = A ∨
      (∀ o n, ¬ EntryAt ix dest 1 o n B) ∧ ∀ o n, ¬ EntryAt ix dest 7 o n B) {s t : RecState} (hs : WholeInv ix fs dest r rf FD LD s)
    (h : Within ix fs dest r rf Q s t) (hl : ∀ e ∈ s.log, e ∈ t.log) : Sound ix dest r FD LD t := by
  obtain ⟨h1, h2⟩ := h.doneBut hF hQ hs hl
  rintro f (rfl | hf)
  · exact ⟨h.shape, A, h2⟩
  · exact ⟨h.past f hf, h1 f hf⟩

/-- The log does not matter to the rest. -/
theorem WholeInv.log (hF : Fates FD LD) {s t : RecState} (h : WholeInv ix fs dest r rf FD LD s) (ho : PlacedOnce ix dest t)
    (hc : t.cache = s.cache) (hfs : t.fs = s.fs) (hpa : t.past = s.past) (hw : Went Preserved s t) : WholeInv ix fs dest r rf FD LD t where
  once := ho
  cache := by have := h.cache; unfold CacheOK at this ⊢; rw [hc]; exact this
  shape := by rw [hfs]; exact h.shape
  kept := by rw [hfs]; exact h.kept
  past := by rw [hpa]; exact h.past
  done A i hi p hp := by rw [hfs] at hi; exact h.done.mono hF hw hi hp
  but := by
    rw [hpa]
    intro f hf
    obtain ⟨A0, h0⟩ := h.but f hf
    exact ⟨A0, h0.mono hF hw.logs⟩

theorem WholeInv.warn (hF : Fates FD LD) {s : RecState} (h : WholeInv ix fs dest r rf FD LD s) (p : Bytes) :
    WholeInv ix fs dest r rf FD LD { s with log := .warn p :: s.log } ∧ Went Preserved s { s with log := .warn p :: s.log } := by
  have hw : Went Preserved s { s with log := .warn p :: s.log } := ⟨fun x hx => List.mem_cons_of_mem _ hx, Preserved.refl _⟩
  refine ⟨h.log hF ⟨h.once.1, fun o d p' hx => ?_⟩ rfl rfl rfl hw, hw⟩
  rcases List.mem_cons.mp hx with hx | hx
  · cases hx
  · exact h.once.2 o d p' hx

/-- An entry that is met in a directory has its place there. -/
theorem Met.entryAt (hD : ix.Distinct dest) (hd : goClean dest = dest) (hne : dest ≠ []) {o d : UInt64} {p n : Bytes} {di : DirItem}
    {t : UInt8} {i : UInt64} (hp : ix.Placed dest o d p) (hm : Met rf ix o d di n) (hl : Leads di t i) :
    ∃ A, Named dest A (goJoin p n) ∧ EntryAt ix dest t o i A := by
  obtain ⟨X, hX⟩ := hp.named hD hd hne
  obtain ⟨dis, h1, h2⟩ := hm.listed
  have hls := (readDirItems_lists h1 di).mp h2
  obtain ⟨hu, hb⟩ := skipName_false.mp hm.kept
  obtain ⟨k, hk, rfl⟩ := hl.loc
  have hsay : DirItem.says di n t k := ⟨hm.name, hl.typ, hk⟩
  have hN := hX.join (usable_plain hu (hD.nonempty _ _ _ _ _ _ _ hp hls hsay))
  refine ⟨_, hN, _, ⟨d, p, di, n, k, hp, hls, hsay, fun hc => ?_, rfl, hu, hb, rfl⟩, hN⟩
  obtain ⟨k', hk', h3⟩ := isSub_eq.mp hl.sub
  rw [hk] at hk'
  cases hk'
  rw [hc] at h3
  cases h3

attribute [local irreducible] Cmd.wp

/-- One file or link, and the report about it. -/
theorem wp_entry_report {c : Rec (Option RecErr)} {p : Bytes} {s : RecState} {A : List Bytes} {D : RecState → Prop}
    (hF : Fates FD LD) (hs : WholeInv ix fs dest r rf FD LD s) (hp : Named dest A p)
    (ho : Keeps Once c) (hst : Keeps (Stayed Preserved s) c) (hin : Keeps (Within ix fs dest r rf (· = A) s) c)
    (hD : wp c (fun e t => e = none → (s.fs.down r A ≠ none ∧ t.fs = s.fs) ∨ D t) (fun _ => True) s)
    (hskip : s.fs.down r A ≠ none → ∀ t, Went Preserved s t → D t ∨ Ev.warn p ∈ t.log)
    (hdone : ∀ t, D t ∨ Ev.warn p ∈ t.log → (∀ o n, EntryAt ix dest 1 o n A → FD t o n p ∨ Ev.warn p ∈ t.log) ∧
      (∀ o n, EntryAt ix dest 7 o n A → LD t o n p ∨ Ev.warn p ∈ t.log)) :
    wp (c >>= report p) (fun _ t => WholeInv ix fs dest r rf FD LD t ∧ Went Preserved s t ∧ t.dests = s.dests ∧
      (D t ∨ Ev.warn p ∈ t.log)) (Sound ix dest r FD LD) s := by
  have hR := FSRel.ofPreserved
  have key : ∀ t, PlacedOnce ix dest t → Went Preserved s t → Within ix fs dest r rf (· = A) s t → t.dests = s.dests →
      (D t ∨ Ev.warn p ∈ t.log) → WholeInv ix fs dest r rf FD LD t ∧ Went Preserved s t ∧ t.dests = s.dests ∧
      (D t ∨ Ev.warn p ∈ t.log) := by
    intro t h1 h2 h3 h4 h5
    refine ⟨⟨h1, h3.cache, h3.shape, hs.kept.trans h2.fs, h3.past, fun B i hB q hq => ?_,
      (h3.doneBut (A := A) hF (fun B hB => Or.inl hB) hs h2.logs).1⟩, h2, h4, h5⟩
    rcases h3.adds B i hB with hB | rfl
    · exact hs.done.mono hF h2 hB hq
    · rw [hq.path hp]
      exact hdone t h5
  rw [wp_bind]
  refine wp_mono (wp_and (wp_and (ho s hs.once.1) (hst s (hR.stayed_refl s)))
    (wp_and (hin s (Within.refl hs.shape hs.kept.grown hs.cache hs.past)) hD)) ?_ fun _ h => h.2.1.sound (A := A) hF (fun B hB => Or.inl hB) hs h.1.2.1.logs
  rintro e t ⟨⟨h1, h2⟩, h3, h4⟩
  have hpo := hs.once.stayed h1 h2
  cases e with
  | none =>
    refine wp_pure' (key t hpo h2.1 h3 h2.2 ?_)
    rcases h4 rfl with ⟨h4, -⟩ | h4
    · exact hskip h4 t h2.1
    · exact Or.inl h4
  | some e =>
    have hw : Went Preserved t { t with log := .warn p :: t.log } := ⟨fun x hx => List.mem_cons_of_mem _ hx, hR.refl _⟩
    unfold report note
    rw [wp_modify]
    refine key _ ⟨h1, fun o d p' hx => ?_⟩ (hR.went_trans h2.1 hw) ⟨h3.shape, h3.grown, h3.adds, h3.cache, h3.past, h3.pres, h3.since⟩ h2.2 (Or.inr List.mem_cons_self)
    rcases List.mem_cons.mp hx with hx | hx
    · cases hx
    · exact hpo.2 o d p' hx

/-- The run. -/
theorem wholeRun (hst : ∀ n, env.fails .stat n = false) (hD : ix.Distinct dest) (hok : DestOK fs dest r) (hF : Fates FD LD)
    (hfile : ∀ o i q s, ix.HasEntry dest 1 o i q → CacheOK rf ix s → wp (recoverFile env rf ix false o i q)
      (fun e t => e = none → (s.fs.stat true q ≠ none ∧ t.fs = s.fs) ∨ FD t o i q) (fun _ => True) s)
    (hlink : ∀ o i q s, ix.HasEntry dest 7 o i q → CacheOK rf ix s → wp (recoverSymlink env rf ix false o i q)
      (fun e t => e = none → (s.fs.stat false q ≠ none ∧ t.fs = s.fs) ∨ LD t o i q) (fun _ => True) s) :
    RunInv env rf ix false dest (WholeInv ix fs dest r rf FD LD) (fun _ => Sound ix dest r FD LD) (Went Preserved) FD LD where
  hang _ h := h.sound
  crash _ h _ := h.sound
  refl := FSRel.ofPreserved.went_refl
  trans _ _ _ h1 h2 := FSRel.ofPreserved.went_trans h1 h2
  logs _ _ h := h.logs
  once s h := h.once.1.1
  placed s h := h.once.2
  visit s o d p h hp hv := by
    have hw : Went Preserved s { s with visited := (o, d) :: s.visited, log := .enter o d p :: s.log } :=
      ⟨fun x hx => List.mem_cons_of_mem _ hx, Preserved.refl _⟩
    refine ⟨h.log hF ⟨(Once.inv env rf ix false).visit s o d p trivial h.once.1 hv, fun o' d' p' hx => ?_⟩ rfl rfl rfl hw, hw⟩
    rcases List.mem_cons.mp hx with hx | hx
    · cases hx; exact hp
    · exact h.once.2 o' d' p' hx
  mkdirAll o d p s hp hs := by
    obtain ⟨A, hA⟩ := hp.named hD hok.clean hok.ne
    have hwn := WayNames.of_target hok.clean hA.ne hA.clean hA.rooted hA.plain hA.parts
    have hQ : ∀ B, DirAt ix dest B → B = [] ∨ (∀ o n, ¬ EntryAt ix dest 1 o n B) ∧ ∀ o n, ¬ EntryAt ix dest 7 o n B := fun B hB =>
      Or.inr ⟨fun o n he => absurd hB (he.not_dir hD hok.clean hok.ne (by decide)),
        fun o n he => absurd hB (he.not_dir hD hok.clean hok.ne (by decide))⟩
    refine wpE_of (wp_and (wp_and ((Once.inv env rf ix false).mkdirAll p trivial s hs.once.1)
      (FSRel.ofPreserved.mkdirAll p s (FSRel.ofPreserved.stayed_refl s)))
      (Within.mkdirAll hst hD hok _ A p ⟨o, d, p, hp, hA⟩ hwn s (Within.refl (rf := rf) hs.shape hs.kept.grown hs.cache hs.past))) ?_
      fun _ _ h => h.2.sound (A := []) hF hQ hs h.1.2.1.logs
    rintro - t ⟨⟨h1, h2⟩, h3⟩
    have hwi : WholeInv ix fs dest r rf FD LD t := by
      refine ⟨hs.once.stayed h1 h2, h3.cache, h3.shape, hs.kept.trans h2.1.fs, h3.past, fun B i hB q hq => ?_,
        (h3.doneBut (A := []) hF hQ hs h2.1.logs).1⟩
      rcases h3.adds B i hB with hB | hB
      · exact hs.done.mono hF h2.1 hB hq
      · exact ⟨fun o n he => absurd hB (he.not_dir hD hok.clean hok.ne (by decide)),
          fun o n he => absurd hB (he.not_dir hD hok.clean hok.ne (by decide))⟩
    exact ⟨hwi, h2.1, h2.2, fun _ => ⟨(hwi.warn hF p).1, (hwi.warn hF p).2, hwi.sound⟩⟩
  file s o d p di n i hs he _ hm hi := by
    obtain ⟨A, hA, hE⟩ := hm.entryAt hD hok.clean hok.ne (hs.once.2 o d p he) hi
    have hH : ix.HasEntry dest 1 o i (goJoin p n) := by
      obtain ⟨q, hq, hqA⟩ := hE
      rw [hA.path hqA]; exact hq
    refine wpE_iff.mpr <| wp_entry_report hF hs hA ((Once.inv env rf ix false).file o i trivial)
      ((FSRel.ofPreserved.fileInv (Or.inr ⟨rfl, hst⟩)).file o i trivial) ((Within.fileInv hst hD hok hE).file o i hA) ?_ ?_ ?_
    · refine wp_mono (hfile o i _ s hH hs.cache) (fun e t h hen => (h hen).imp (fun h => ⟨?_, h.2⟩) id) fun _ h => h
      obtain ⟨j, hj⟩ := hs.shape.stat_entry hD hok hs.kept.grown hE hA (Or.inl rfl) h.1
      rw [hj]; simp
    · intro hne t hw
      cases hj : s.fs.down r A with
      | none => exact absurd hj hne
      | some j => exact (hs.done.mono hF hw hj hA).1 o i hE
    · intro t ht
      refine ⟨fun o' n' h => ?_, fun o' n' h => ?_⟩
      · obtain ⟨-, rfl, rfl⟩ := hE.unique hD hok.clean hok.ne h
        exact ht
      · exact absurd (hE.unique hD hok.clean hok.ne h).1 (by decide)
  link s o d p di n i hs he _ hm hi := by
    obtain ⟨A, hA, hE⟩ := hm.entryAt hD hok.clean hok.ne (hs.once.2 o d p he) hi
    have hH : ix.HasEntry dest 7 o i (goJoin p n) := by
      obtain ⟨q, hq, hqA⟩ := hE
      rw [hA.path hqA]; exact hq
    refine wpE_iff.mpr <| wp_entry_report hF hs hA ((Once.inv env rf ix false).link o i (goJoin p n) di trivial trivial hi.typ)
      (FSRel.ofPreserved.link rf ix o i _) (Within.link hD hok hE hA o i) ?_ ?_ ?_
    · refine wp_mono (hlink o i _ s hH hs.cache) (fun e t h hen => (h hen).imp (fun h => ⟨?_, h.2⟩) id) fun _ h => h
      obtain ⟨j, hj⟩ := hs.shape.stat_entry hD hok hs.kept.grown hE hA (Or.inr rfl) h.1
      rw [hj]; simp
    · intro hne t hw
      cases hj : s.fs.down r A with
      | none => exact absurd hj hne
      | some j => exact (hs.done.mono hF hw hj hA).2 o i hE
    · intro t ht
      refine ⟨fun o' n' h => ?_, fun o' n' h => ?_⟩
      · exact absurd (hE.unique hD hok.clean hok.ne h).1 (by decide)
      · obtain ⟨-, rfl, rfl⟩ := hE.unique hD hok.clean hok.ne h
        exact ht
  dmono _ _ _ _ _ _ h := stat_dir_grown h.fs.grown
  fmono := hF.file
  lmono := hF.link

/-- The beginning. -/
theorem WholeInv.start (he : EmptyDest fs dest r) (hD : ix.Distinct dest) : WholeInv ix fs dest r rf FD LD (RecState.start fs) := by
  have hdown : ∀ A i, fs.down r A = some i → A = [] ∧ i = r := by
    intro A i h
    obtain ⟨par, hp⟩ := he.empty
    cases A with
    | nil => cases h; exact ⟨rfl, rfl⟩
    | cons c A =>
      exfalso
      have : fs.down r (c :: A) = (fs.child r c).bind fun i => fs.down i A := by
        have := down_append fs A [c] r
        simpa [HostFS.down] using this
      rw [this, child_dir hp] at h
      cases h
  obtain ⟨par, hp⟩ := he.empty
  refine ⟨⟨⟨rfl, List.nodup_nil⟩, fun o d p hx => by cases hx⟩, Or.inl rfl, ⟨?_, fun A i h => ?_⟩, Preserved.refl _, fun f hf => (by cases hf), fun A i h p hA => ?_,
    fun f hf => (by cases hf)⟩
  · refine ⟨fun A B i h1 h2 => ?_, fun A i h => ?_⟩
    · rw [(hdown A i h1).1, (hdown B i h2).1]
    · obtain ⟨rfl, rfl⟩ := hdown A i h
      exact (List.getElem?_eq_some_iff.mp hp).1
  · obtain ⟨rfl, rfl⟩ := hdown A i h
    exact Or.inl ⟨⟨_, _, _, .main, .refl he.clean he.ok.ne⟩, isDirAt_iff.mpr ⟨_, _, hp⟩⟩
  · obtain ⟨rfl, rfl⟩ := hdown A i h
    exact ⟨fun o n h => absurd rfl (h.ne hD he.ok), fun o n h => absurd rfl (h.ne hD he.ok)⟩

end

end Btrfscue
