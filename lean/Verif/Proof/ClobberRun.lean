import Verif.Proof.Clobber
/-!
# A run that recovers over what earlier runs left
-/

namespace Btrfscue

open Cmd

/-- The invariant of the run. -/
structure ClobInv (ix : Ix) (fs : HostFS) (dest : Bytes) (r rf : Nat) (s : RecState) : Prop where
  once : PlacedOnce ix dest s
  cache : CacheOK rf ix s
  base : Base ix fs dest r s.fs
  past : ∀ f ∈ s.past, Base ix fs dest r f

/-- What was done stays done. -/
structure Stays (ix : Ix) (dest : Bytes) (FD LD : Fate) (s t : RecState) : Prop where
  logs : ∀ e ∈ s.log, e ∈ t.log
  dirs : ∀ o d p, ix.Placed dest o d p → s.fs.stat true p = some true → t.fs.stat true p = some true
  files : ∀ o i p, ix.HasEntry dest 1 o i p → FD s o i p ∨ Ev.warn p ∈ s.log → FD t o i p ∨ Ev.warn p ∈ t.log
  links : ∀ o i p, ix.HasEntry dest 7 o i p → LD s o i p ∨ Ev.warn p ∈ s.log → LD t o i p ∨ Ev.warn p ∈ t.log

/-- What becomes of a file or link depends only on what is there, and is not undone by what happens elsewhere. -/
structure LocalFates (ix : Ix) (fs : HostFS) (dest : Bytes) (r : Nat) (FD LD : Fate) : Prop where
  file : ∀ s t A Q o i p, EntryAt ix dest 1 o i A → Named dest A p → Base ix fs dest r s.fs → Base ix fs dest r t.fs → ¬ Q A →
    Others r Q s.fs t.fs → FD s o i p → FD t o i p
  link : ∀ s t A Q o i p, EntryAt ix dest 7 o i A → Named dest A p → Base ix fs dest r s.fs → Base ix fs dest r t.fs → ¬ Q A →
    Others r Q s.fs t.fs → LD s o i p → LD t o i p

section
variable {ix : Ix} {fs : HostFS} {dest : Bytes} {r rf : Nat} {FD LD : Fate} {env : Env}

theorem Ix.HasEntry.at (hD : ix.Distinct dest) (hok : DestOK fs dest r) {t : UInt8} {o i : UInt64} {q : Bytes}
    (h : ix.HasEntry dest t o i q) : ∃ A, EntryAt ix dest t o i A ∧ Named dest A q := by
  have h' := h
  obtain ⟨d, p, di, n, loc, h1, h2, h3, h4, h5, h6, h7, rfl⟩ := h
  obtain ⟨X, hX⟩ := h1.named hD hok.clean hok.ne
  have hN := hX.join (usable_plain h6 (hD.nonempty _ _ _ _ _ _ _ h1 h2 h3))
  exact ⟨_, ⟨_, h', hN⟩, hN⟩

theorem Between.inv {Q : List Bytes → Prop} {s t : RecState} (hs : ClobInv ix fs dest r rf s) (h : Between ix fs dest r rf Q s t) (ho : Once t) :
    ClobInv ix fs dest r rf t :=
  ⟨⟨ho, fun o d p hx => hs.once.2 o d p (by rw [← RecState.mem_dests, ← h.dests, RecState.mem_dests]; exact hx)⟩, h.cache, h.base, h.past⟩

/-- Changes at `Q` only: what is elsewhere stays done. -/
theorem Between.stays (hD : ix.Distinct dest) (hok : DestOK fs dest r) (hF : LocalFates ix fs dest r FD LD) {Q : List Bytes → Prop} {s t : RecState}
    (hs : ClobInv ix fs dest r rf s) (h : Between ix fs dest r rf Q s t) (hdir : ∀ A, DirAt ix dest A → ¬ Q A)
    (hfile : ∀ A, Q A → ∀ o i p, EntryAt ix dest 1 o i A → Named dest A p → FD t o i p ∨ Ev.warn p ∈ t.log)
    (hlink : ∀ A, Q A → ∀ o i p, EntryAt ix dest 7 o i A → Named dest A p → LD t o i p ∨ Ev.warn p ∈ t.log) :
    Stays ix dest FD LD s t where
  logs := h.logs
  dirs o d p hp hx := by
    obtain ⟨A, hA⟩ := hp.named hD hok.clean hok.ne
    have hA' : DirAt ix dest A := ⟨o, d, p, hp, hA⟩
    exact stat_others hD hok hs.base h.base h.others (hdir A hA') hA' hA hx
  files o i p hp hx := by
    obtain ⟨A, hE, hA⟩ := hp.at hD hok
    rcases hx with hx | hx
    · by_cases hQ : Q A
      · exact hfile A hQ o i p hE hA
      · exact Or.inl (hF.file s t A Q o i p hE hA hs.base h.base hQ h.others hx)
    · exact Or.inr (h.logs _ hx)
  links o i p hp hx := by
    obtain ⟨A, hE, hA⟩ := hp.at hD hok
    rcases hx with hx | hx
    · by_cases hQ : Q A
      · exact hlink A hQ o i p hE hA
      · exact Or.inl (hF.link s t A Q o i p hE hA hs.base h.base hQ h.others hx)
    · exact Or.inr (h.logs _ hx)

theorem ClobInv.warn (hD : ix.Distinct dest) (hok : DestOK fs dest r) (hF : LocalFates ix fs dest r FD LD) {s : RecState}
    (h : ClobInv ix fs dest r rf s) (p : Bytes) :
    ClobInv ix fs dest r rf { s with log := .warn p :: s.log } ∧ Stays ix dest FD LD s { s with log := .warn p :: s.log } := by
  have hb : Between ix fs dest r rf (fun _ => False) s { s with log := .warn p :: s.log } :=
    ⟨h.base, h.cache, h.past, Others.refl _ _ _, fun x hx => List.mem_cons_of_mem _ hx, rfl⟩
  exact ⟨hb.inv h h.once.1, hb.stays hD hok hF h (fun _ _ h => h) (fun _ h => h.elim) fun _ h => h.elim⟩

/-- The states the run has been in. -/
def AllBase (ix : Ix) (fs : HostFS) (dest : Bytes) (r : Nat) (s : RecState) : Prop := ∀ f, s.reached f → Base ix fs dest r f

theorem AllBase.of {s : RecState} (h1 : Base ix fs dest r s.fs) (h2 : ∀ f ∈ s.past, Base ix fs dest r f) : AllBase ix fs dest r s := by
  rintro f (rfl | hf)
  · exact h1
  · exact h2 f hf

theorem wp_true {σ α : Type} (c : Cmd σ α) (s : σ) : wp c (fun _ _ => True) (fun _ => True) s := by
  unfold wp
  cases c s <;> trivial

attribute [local irreducible] Cmd.wp

/-- One file or link, and the report about it. -/
theorem wp_clob_report {c : Rec (Option RecErr)} {p : Bytes} {s : RecState} {A : List Bytes} {D : RecState → Prop}
    (hD : ix.Distinct dest) (hok : DestOK fs dest r)
    (hF : LocalFates ix fs dest r FD LD) (hs : ClobInv ix fs dest r rf s) (hp : Named dest A p) (hnd : ¬ DirAt ix dest A)
    (ho : Keeps Once c) (hin : Keeps (Between ix fs dest r rf (· = A) s) c)
    (hdone : wp c (fun e t => e = none → D t) (fun _ => True) s)
    (hfd : ∀ t, D t → (∀ o n, EntryAt ix dest 1 o n A → FD t o n p) ∧ (∀ o n, EntryAt ix dest 7 o n A → LD t o n p)) :
    wp (c >>= report p) (fun _ t => ClobInv ix fs dest r rf t ∧ Stays ix dest FD LD s t ∧ t.dests = s.dests ∧
      (D t ∨ Ev.warn p ∈ t.log)) (AllBase ix fs dest r) s := by
  have key : ∀ t, Once t → Between ix fs dest r rf (· = A) s t → (D t ∨ Ev.warn p ∈ t.log) →
      ClobInv ix fs dest r rf t ∧ Stays ix dest FD LD s t ∧ t.dests = s.dests ∧ (D t ∨ Ev.warn p ∈ t.log) := by
    intro t h1 h2 h3
    refine ⟨h2.inv hs h1, h2.stays hD hok hF hs (fun B hB hBA => hnd (hBA ▸ hB)) ?_ ?_, h2.dests, h3⟩
    · rintro B rfl o i q hE hq
      rw [hq.path hp]
      exact h3.imp (fun h => (hfd t h).1 o i hE) id
    · rintro B rfl o i q hE hq
      rw [hq.path hp]
      exact h3.imp (fun h => (hfd t h).2 o i hE) id
  rw [wp_bind]
  refine wp_mono (wp_and (ho s hs.once.1) (wp_and (hin s (Between.refl hs.base hs.cache hs.past)) hdone)) ?_ fun _ h => AllBase.of h.2.1.base h.2.1.past
  rintro e t ⟨h1, h3, h4⟩
  cases e with
  | none => exact wp_pure' (key t h1 h3 (Or.inl (h4 rfl)))
  | some e =>
    unfold report note
    rw [wp_modify]
    exact key _ h1 ⟨h3.base, h3.cache, h3.past, h3.others, fun x hx => List.mem_cons_of_mem _ (h3.logs x hx), h3.dests⟩ (Or.inr List.mem_cons_self)

/-- The run. -/
theorem clobRun {clobber : Bool} (hst : ∀ n, env.fails .stat n = false) (hD : ix.Distinct dest) (he : EmptyDest fs dest r)
    (hF : LocalFates ix fs dest r FD LD)
    (hfile : ∀ o i q s, ix.HasEntry dest 1 o i q → CacheOK rf ix s → wp (recoverFile env rf ix clobber o i q)
      (fun e t => e = none → FD t o i q) (fun _ => True) s)
    (hlink : ∀ o i q s, ix.HasEntry dest 7 o i q → CacheOK rf ix s → wp (recoverSymlink env rf ix clobber o i q)
      (fun e t => e = none → LD t o i q) (fun _ => True) s) :
    RunInv env rf ix clobber dest (ClobInv ix fs dest r rf) (fun _ => AllBase ix fs dest r) (Stays ix dest FD LD)
      (fun t o i p => ix.HasEntry dest 1 o i p ∧ (FD t o i p ∨ Ev.warn p ∈ t.log))
      (fun t o i p => ix.HasEntry dest 7 o i p ∧ (LD t o i p ∨ Ev.warn p ∈ t.log)) where
  hang _ h := AllBase.of h.base h.past
  crash _ h _ := AllBase.of h.base h.past
  refl _ := ⟨fun _ h => h, fun _ _ _ _ h => h, fun _ _ _ _ h => h, fun _ _ _ _ h => h⟩
  trans _ _ _ h1 h2 := ⟨fun e he => h2.logs e (h1.logs e he), fun o d p hp h => h2.dirs o d p hp (h1.dirs o d p hp h),
    fun o i p hp h => h2.files o i p hp (h1.files o i p hp h), fun o i p hp h => h2.links o i p hp (h1.links o i p hp h)⟩
  logs _ _ h := h.logs
  once s h := h.once.1.1
  placed s h := h.once.2
  visit s o d p h hp hv := by
    have hok := he.ok
    refine ⟨⟨⟨(Once.inv env rf ix clobber).visit s o d p trivial h.once.1 hv, fun o' d' p' hx => ?_⟩, h.cache, h.base, h.past⟩,
      ⟨fun x hx => List.mem_cons_of_mem _ hx, fun _ _ _ _ h => h, fun o' i' q hq hx => ?_, fun o' i' q hq hx => ?_⟩⟩
    · rcases List.mem_cons.mp hx with hx | hx
      · cases hx; exact hp
      · exact h.once.2 o' d' p' hx
    · refine hx.imp (fun hx => ?_) (List.mem_cons_of_mem _)
      obtain ⟨A, hE, hA⟩ := hq.at hD hok
      exact hF.file s _ A (fun _ => False) o' i' q hE hA h.base h.base (fun h => h) (Others.refl _ _ _) hx
    · refine hx.imp (fun hx => ?_) (List.mem_cons_of_mem _)
      obtain ⟨A, hE, hA⟩ := hq.at hD hok
      exact hF.link s _ A (fun _ => False) o' i' q hE hA h.base h.base (fun h => h) (Others.refl _ _ _) hx
  mkdirAll o d p s hp hs := by
    have hok := he.ok
    obtain ⟨A, hA⟩ := hp.named hD hok.clean hok.ne
    have hwn := WayNames.of_target hok.clean hA.ne hA.clean hA.rooted hA.plain hA.parts
    refine wpE_of (wp_and ((Once.inv env rf ix clobber).mkdirAll p trivial s hs.once.1)
      (Between.mkdirAll (Q := fun _ => False) hst hD hok _ A p ⟨o, d, p, hp, hA⟩ hwn s (Between.refl (rf := rf) hs.base hs.cache hs.past))) ?_
      fun _ _ h => AllBase.of h.2.base h.2.past
    rintro - t ⟨h1, h3⟩
    have hi := h3.inv hs h1
    exact ⟨hi, h3.stays hD hok hF hs (fun _ _ h => h) (fun _ h => h.elim) (fun _ h => h.elim), h3.dests,
      fun _ => ⟨(hi.warn hD hok hF p).1, (hi.warn hD hok hF p).2, AllBase.of h3.base h3.past⟩⟩
  file s o d p di n i hs hev _ hm hi := by
    have hok := he.ok
    obtain ⟨A, hA, hE⟩ := hm.entryAt hD hok.clean hok.ne (hs.once.2 o d p hev) hi
    have hH : ix.HasEntry dest 1 o i (goJoin p n) := by
      obtain ⟨q, hq, hqA⟩ := hE
      rw [hA.path hqA]; exact hq
    refine wpE_iff.mpr <| wp_mono (wp_clob_report (D := fun t => FD t o i (goJoin p n)) hD hok hF hs hA (hE.not_dir hD hok.clean hok.ne (by decide))
      ((Once.inv env rf ix clobber).file o i trivial) ((Between.fileInv hD hok hE).file o i hA) (hfile o i _ s hH hs.cache)
      fun t ht => ⟨fun o' n' h => ?_, fun o' n' h => ?_⟩) ?_ fun _ h => h
    · obtain ⟨-, rfl, rfl⟩ := hE.unique hD hok.clean hok.ne h
      exact ht
    · exact absurd (hE.unique hD hok.clean hok.ne h).1 (by decide)
    · rintro - t ⟨h1, h2, h3, h4⟩
      exact ⟨h1, h2, h3, Or.inl ⟨hH, h4⟩⟩
  link s o d p di n i hs hev _ hm hi := by
    have hok := he.ok
    obtain ⟨A, hA, hE⟩ := hm.entryAt hD hok.clean hok.ne (hs.once.2 o d p hev) hi
    have hH : ix.HasEntry dest 7 o i (goJoin p n) := by
      obtain ⟨q, hq, hqA⟩ := hE
      rw [hA.path hqA]; exact hq
    refine wpE_iff.mpr <| wp_mono (wp_clob_report (D := fun t => LD t o i (goJoin p n)) hD hok hF hs hA (hE.not_dir hD hok.clean hok.ne (by decide))
      ((Once.inv env rf ix clobber).link o i (goJoin p n) di trivial trivial hi.typ) (Between.link hD he hE hA o i) (hlink o i _ s hH hs.cache)
      fun t ht => ⟨fun o' n' h => ?_, fun o' n' h => ?_⟩) ?_ fun _ h => h
    · exact absurd (hE.unique hD hok.clean hok.ne h).1 (by decide)
    · obtain ⟨-, rfl, rfl⟩ := hE.unique hD hok.clean hok.ne h
      exact ht
    · rintro - t ⟨h1, h2, h3, h4⟩
      exact ⟨h1, h2, h3, Or.inl ⟨hH, h4⟩⟩
  dmono _ _ o d p hp h := h.dirs o d p hp
  fmono _ _ o i p hr h := ⟨h.1, hr.files o i p h.1 h.2⟩
  lmono _ _ o i p hr h := ⟨h.1, hr.links o i p h.1 h.2⟩

/-- The beginning, on what earlier runs left. -/
theorem ClobInv.start {f : HostFS} (hb : Base ix fs dest r f) : ClobInv ix fs dest r rf (RecState.start f) :=
  ⟨⟨⟨rfl, List.nodup_nil⟩, fun o d p hx => by cases hx⟩, Or.inl rfl, hb, fun f hf => by cases hf⟩

theorem Base.start (he : EmptyDest fs dest r) (hD : ix.Distinct dest) : Base ix fs dest r fs := by
  have hw : WholeInv ix fs dest r 0 (fun _ _ _ _ => True) (fun _ _ _ _ => True) (RecState.start fs) := WholeInv.start he hD
  refine ⟨hw.shape, Grown.refl _, fun A i hi hne => ?_⟩
  obtain ⟨par, hp⟩ := he.empty
  cases A with
  | nil => exact absurd rfl hne
  | cons c A =>
    exfalso
    simp only [HostFS.down, child_dir hp] at hi
    cases hi

/-- Whatever the options and whatever fails, a run leaves everything where it belongs. -/
theorem Base.run {clobber : Bool} (hst : ∀ n, env.fails .stat n = false) (hD : ix.Distinct dest) (he : EmptyDest fs dest r) {f : HostFS}
    (hb : Base ix fs dest r f) (fuel : Nat) :
    AllBase ix fs dest r (doRecoverFiles env rf fuel ix clobber dest (RecState.start f)).state := by
  have hF : LocalFates ix fs dest r (fun _ _ _ _ => True) (fun _ _ _ _ => True) := ⟨fun _ _ _ _ _ _ _ _ _ _ _ _ _ _ => trivial, fun _ _ _ _ _ _ _ _ _ _ _ _ _ _ => trivial⟩
  have hw := wpE_iff.mp <| (clobRun (rf := rf) (clobber := clobber) hst hD he hF
    (fun o i q s _ _ => wp_mono (wp_true _ s) (fun _ _ _ _ => trivial) fun _ h => h)
    (fun o i q s _ _ => wp_mono (wp_true _ s) (fun _ _ _ _ => trivial) fun _ h => h)).all fuel (ClobInv.start (rf := rf) hb)
  unfold wp at hw
  cases hrun : doRecoverFiles env rf fuel ix clobber dest (RecState.start f) with
  | ok u s => rw [hrun] at hw; exact AllBase.of hw.1.inv.base hw.1.inv.past
  | exit s => rw [hrun] at hw; exact hw
  | crash s => rw [hrun] at hw; exact hw
  | hang s => rw [hrun] at hw; exact hw

end

end Btrfscue
