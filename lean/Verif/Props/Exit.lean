import Verif.Spec.Exit
import Verif.Proof.NoExit
import Verif.Model.Commands
import Verif.Props.ReconFault
import Verif.Props.RecoverWrong
/-!
# C99: what the exit status of a command tells
-/

namespace Btrfscue

/-! ## recon -/

/-- C99 for `recon`: on a new metadata file, for every device and whatever writes fail, the run
ends with status 0, 1 or 2; with 0 exactly if all matching leaves of the device are sound and
no write failed. Then every item of every matching leaf is in the metadata file. -/
theorem C99_recon_status (w : Writes) (dev : Bytes) (bs : UInt64) (id : UUID) (h : ReconArgs dev bs id)
    (f : DBFile) (hf : f.fresh) (fuel : Nat) (hfu : dev.length < fuel) :
    ∃ f' e n, doScanFSF w fuel (imageReader dev) (some (UInt64.ofNat dev.length)) bs id f = (f', e, n) ∧
      (e.status = some 0 ∨ e.status = some 1 ∨ e.status = some 2) ∧
      (e.status = some 0 ↔ soundDevice dev bs id ∧ ∀ m, m < n → w m = .ok) ∧
      (e.status = some 1 ↔ ∃ m, m < n ∧ w m ≠ .ok) ∧
      (e.status = some 0 → ∃ b, f' = .db (some b) ∧ (∀ v, (∃ x, onDevice dev bs.toNat id v x) →
        ∃ x, b.stores v x ∧ onDevice dev bs.toNat id v x)) := by
  obtain ⟨f', e, n, h1, h2⟩ := Sim.scan w fuel (imageReader dev) (some (UInt64.ofNat dev.length)) bs id f
  refine ⟨f', e, n, h1, ?_⟩
  have hci := C42_crash_iff dev bs id h f hf fuel hfu
  obtain ⟨ops, fin, -, h4⟩ := recon_fresh h
  have h4 := h4 f hf fuel hfu
  rcases h2 with ⟨h2, h3⟩ | ⟨h2, rfl⟩
  · have hw : ∀ m, m < n → w m = .ok := fun m hm => h2 m (Nat.zero_le _) hm
    have h3' : recon fuel dev bs id f = (f', e) := h3
    have hno : ¬ ∃ m, m < n ∧ w m ≠ .ok := by rintro ⟨m, hm, hw'⟩; exact hw' (hw m hm)
    rw [h3'] at hci h4
    simp only at hci
    simp only [Prod.mk.injEq] at h4
    cases fin with
    | true =>
      have he : e = .done := h4.2
      subst he
      have hs := hci.2.mp rfl
      refine ⟨Or.inl rfl, ⟨fun _ => ⟨hs, hw⟩, fun _ => rfl⟩, ⟨fun hx => (by cases hx), fun hx => absurd hx hno⟩, fun _ => ?_⟩
      obtain ⟨b, hb, hb2, -⟩ := C40_all_items_of_matching_leaves dev bs id h hs f hf fuel hfu
      rw [h3'] at hb
      simp only [Prod.mk.injEq] at hb
      exact ⟨b, hb.1, hb2⟩
    | false =>
      have he : e = .crash := h4.2
      subst he
      have hs : ¬ soundDevice dev bs id := fun hs => by have := hci.2.mpr hs; cases this
      exact ⟨Or.inr (Or.inr rfl), ⟨fun hx => (by cases hx), fun hx => absurd hx.1 hs⟩,
        ⟨fun hx => (by cases hx), fun hx => absurd hx hno⟩, fun hx => by cases hx⟩
  · have hex : ∃ m, m < n ∧ w m ≠ .ok := by
      apply Classical.byContradiction
      intro hne
      apply h2
      intro m _ hm
      apply Classical.byContradiction
      intro hw
      exact hne ⟨m, hm, hw⟩
    refine ⟨Or.inr (Or.inl rfl), ⟨fun hx => (by cases hx), fun hx => ?_⟩, ⟨fun _ => hex, fun _ => rfl⟩, fun hx => by cases hx⟩
    obtain ⟨m, hm, hw⟩ := hex
    exact absurd (hx.2 m hm) hw

-- The hypotheses are met, with status 0 (no write fails) and 1 (the first write fails).
example : ReconArgs exReconDev 4096 uuidAllFs ∧ DBFile.fresh .absent ∧ soundDevice exReconDev 4096 uuidAllFs :=
  ⟨exReconArgs, Or.inl rfl, exRecon_wellFormed.sound exReconArgs⟩

/-! ## The other commands: the metadata file -/

/-- The metadata option was given, and the file is an index of a version that can be read. -/
def metadataUsable (f : Option DBFile) : Prop := ∃ f0 f1 ix, f = some f0 ∧ OpenReadOnly f0 = .ok (f1, .ok ix)

/-- Opening an index neither crashes nor hangs, except on a metadata record too short to hold
a version. -/
def metadataReadable (f : Option DBFile) : Prop := ∀ f0, f = some f0 → ∃ r, OpenReadOnly f0 = .ok r

theorem open_view_ok {f0 f1 : DBFile} {ix : Index} (h : OpenReadOnly f0 = .ok (f1, .ok ix)) :
    ∃ v, ix.view = .ok v := by
  have key : ∀ b, openIndex.openDB ({ readOnly := true, blockSize := 0, fsid := uuidAllZero, generation := ~~~0 } : Options) b =
      .ok (f1, .ok ix) → ∃ v, ix.view = .ok v := by
    intro b hb
    simp only [openIndex.openDB, Go.bind_eq_ok] at hb
    obtain ⟨x, hx, hb⟩ := hb
    cases x with
    | error e => simp only [Go.pure_eq, Go.ok.injEq, Prod.mk.injEq] at hb; cases hb.2
    | ok b' =>
      cases b with
      | none => simp [checkUpdateMetadata] at hx
      | some b =>
        simp only [if_true, Bool.not_true, Index.ensureTx, Index.begin, Go.pure_eq, Go.ok.injEq, Prod.mk.injEq] at hb
        simp at hb
        rw [← hb.2]
        exact ⟨_, rfl⟩
  unfold OpenReadOnly at h
  by_cases ha : f0 = .absent
  · rw [if_pos ha] at h
    simp only [Go.ok.injEq, Prod.mk.injEq] at h
    cases h.2
  · rw [if_neg ha] at h
    cases f0 with
    | absent => exact absurd rfl ha
    | invalid =>
      simp only [openIndex, Go.ok.injEq, Prod.mk.injEq] at h
      cases h.2
    | db b => exact key b h

theorem openView_exit {σ : Type} {f : Option DBFile} (hr : metadataReadable f) (s : σ) :
    (¬ metadataUsable f ∧ (openView f : Cmd σ Ix) s = .exit s) ∨
    (metadataUsable f ∧ ∃ ix, (openView f : Cmd σ Ix) s = .ok ix s) := by
  cases f with
  | none => exact Or.inl ⟨(by rintro ⟨_, _, _, h, -⟩; cases h), rfl⟩
  | some f0 =>
    obtain ⟨⟨f1, r⟩, h1⟩ := hr f0 rfl
    unfold openView
    simp only [h1]
    cases r with
    | error e =>
      refine Or.inl ⟨?_, rfl⟩
      rintro ⟨g0, g1, ix, h2, h3⟩
      cases h2
      rw [h1] at h3
      simp only [Go.ok.injEq, Prod.mk.injEq] at h3
      cases h3.2
    | ok ix =>
      obtain ⟨v, hv⟩ := open_view_ok h1
      refine Or.inr ⟨⟨f0, f1, ix, rfl, h1⟩, v, ?_⟩
      simp only [hv, Cmd.lift_ok]

/-- C99 for `ls`: status 1 exactly if there is no metadata file that can be read. -/
theorem C99_ls_status_partial (rf fuel : Nat) (srt : Sorter) (ft : Time → Bytes) (f : Option DBFile) (hr : metadataReadable f)
    (o : LsOptions) (args : List Bytes) :
    (lsCommand rf fuel srt ft f o args ()).status = some 1 ↔ ¬ metadataUsable f := by
  unfold lsCommand
  rcases openView_exit hr () with ⟨h1, h2⟩ | ⟨h1, ix, h2⟩
  · rw [Cmd.bind_exit h2]
    simp [Out.status, h1]
  · rw [Cmd.bind_ok h2]
    simp only [h1, not_true, iff_false]
    cases doListFiles rf fuel srt ft ix o args <;> simp [Cmd.lift, Out.status]

theorem NX.doDumpIndex (fuel : Nat) (ix : Ix) : NX (doDumpIndex fuel ix) := by
  have hl : ∀ n x last, NX (dumpLoop n x last) := by
    intro n
    induction n with
    | zero => exact fun _ _ => NX.hang
    | succ n ih =>
      rintro ⟨fr, d⟩ last
      unfold dumpLoop
      refine NX.ite (NX.bind NX.lift fun o => NX.bind ?_ fun _ => NX.bind NX.lift fun k => NX.bind NX.lift fun g =>
        NX.bind NX.modify fun _ => NX.bind NX.lift fun n => ih _ _) NX.pure
      exact NX.ite NX.modify NX.pure
  exact NX.bind NX.lift fun n => hl _ _ _

/-- C99 for `dump-index`: status 1 exactly if there is no metadata file that can be read. -/
theorem C99_dump_status (fuel : Nat) (f : Option DBFile) (hr : metadataReadable f) :
    (dumpIndexCommand fuel f []).status = some 1 ↔ ¬ metadataUsable f := by
  unfold dumpIndexCommand
  rcases openView_exit hr ([] : Bytes) with ⟨h1, h2⟩ | ⟨h1, ix, h2⟩
  · rw [Cmd.bind_exit h2]
    simp [Out.status, h1]
  · rw [Cmd.bind_ok h2]
    simp only [h1, not_true, iff_false]
    have hn : NX (doDumpIndex fuel ix) := NX.doDumpIndex _ _
    cases hc : doDumpIndex fuel ix [] with
    | exit t => exact absurd hc (hn _ _)
    | ok => simp [Out.status]
    | crash => simp [Out.status]
    | hang => simp [Out.status]

/-- C99 for `recover` (what holds): status 1 exactly if the metadata file or the image cannot be
opened, or the destination cannot be created. Missing: status 0 does not mean that the files
were recovered, see `C99_recover_status_says_nothing`. -/
theorem C99_recover_status_partial (env : Env) (rf fuel : Nat) (f : Option DBFile) (hr : metadataReadable f)
    (image clobber : Bool) (dest : Bytes) (s : RecState) :
    (recoverCommand env rf fuel f image clobber dest s).status = some 1 ↔
      ¬ metadataUsable f ∨ image = false ∨ ∃ t, mkdirAll env dest s = .ok false t := by
  unfold recoverCommand
  rcases openView_exit hr s with ⟨h1, h2⟩ | ⟨h1, ix, h2⟩
  · rw [Cmd.bind_exit h2]
    simp [Out.status, h1]
  · rw [Cmd.bind_ok h2]
    cases image with
    | false => simp [Out.status]
    | true =>
      simp only [if_true, h1, not_true, false_or, reduceCtorEq]
      have := @doRecoverFiles_exit env rf ix fuel clobber dest s
      constructor
      · intro hx
        cases hc : doRecoverFiles env rf fuel ix clobber dest s with
        | exit t => exact ⟨t, this.mp hc⟩
        | ok => rw [hc] at hx; simp [Out.status] at hx
        | crash => rw [hc] at hx; simp [Out.status] at hx
        | hang => rw [hc] at hx; simp [Out.status] at hx
      · rintro ⟨t, ht⟩
        rw [this.mpr ht]
        rfl

/-! ## Counterexamples -/

/-- The metadata record of an index that can be opened. -/
def exMeta : Bytes := newIndexMetadata (reconOptions 4096 uuidAllFs)

/-- An index of a file system with one file "a" in its top directory. -/
def exStatusFile : DBFile := .db (some (AStore.enc
  [(⟨5, ⟨256, 84, 1⟩, 10⟩, mkItem ⟨256, 84, 1⟩ (exEntry ⟨257, 1, 0⟩ 1 [97])),
   (⟨5, ⟨256, 96, 2⟩, 10⟩, mkItem ⟨256, 96, 2⟩ []),
   (metadataVersionKey, exMeta)]))

/-- What is on the host afterwards, if the run ends normally. -/
def Out.leaves : Out RecState Unit → Option (Option Bytes × Bool)
  | .ok _ s => some (s.fs.readFile (ascii "/d/a"), s.log.any fun e => match e with | .warn _ => true | _ => false)
  | _ => none

/-- C99 is false of the code for `recover`: with every open(2) failing, nothing is recovered and
the exit status is 0; there are only warnings. -/
theorem C99_recover_status_says_nothing :
    (recoverCommand quietEnv 9 9 (some exStatusFile) true false (ascii "/d") (RecState.start exEmptyHost)).leaves = some (some [], false) ∧
    (recoverCommand { quietEnv with fails := fun k _ => k == .open } 9 9 (some exStatusFile) true false (ascii "/d")
      (RecState.start exEmptyHost)).leaves = some (none, true) := by
  decide +kernel

/-- C99 is false of the code for `ls`: a path that does not exist is only warned about, the exit
status is 0. -/
theorem C99_ls_missing_is_success (srt : Sorter) (ft : Time → Bytes) (o : LsOptions) :
    lsCommand 9 9 srt ft (some (.db (some (AStore.enc [(metadataVersionKey, exMeta)])))) o [ascii "/x"] () =
      .ok ([], [ascii "/x"]) () := by
  have h1 : OpenReadOnly (.db (some (AStore.enc [(metadataVersionKey, exMeta)]))) =
      .ok (.db (some (AStore.enc [(metadataVersionKey, exMeta)])), .ok
        ⟨true, some (AStore.enc [(metadataVersionKey, exMeta)]),
          some ⟨false, some (AStore.enc [(metadataVersionKey, exMeta)])⟩, true, 0, ~~~0⟩) := by decide +kernel
  have h2 : (⟨AStore.enc [(metadataVersionKey, exMeta)], ~~~0⟩ : Ix).findDirItemForPath 9 5 (ascii "/x") = .ok none := by
    decide +kernel
  have h3 : goClean (ascii "/x") = ascii "/x" := by decide
  have h4 : ¬ ascii "/x" = [47] := by decide
  unfold lsCommand openView
  simp only [h1, view_ro, Cmd.bind_def, Cmd.lift_ok]
  simp only [doListFiles, List.isEmpty_cons, Bool.false_eq_true, if_false, lsArgsLoop, lsArg, h3, if_neg h4,
    show FSTreeObjectID = (5 : UInt64) from rfl, h2, Go.ok_bind, Go.pure_eq, lsTodoLoop, List.nil_append]
  rfl

-- The hypotheses on the metadata file are met, and so are both outcomes.
example : metadataReadable (some exStatusFile) ∧ metadataUsable (some exStatusFile) ∧ metadataReadable none ∧ ¬ metadataUsable none := by
  have h : OpenReadOnly exStatusFile ≠ .panic ∧ OpenReadOnly exStatusFile ≠ .hang ∧ (match OpenReadOnly exStatusFile with
    | .ok (_, .ok _) => true | _ => false) = true := by decide +kernel
  obtain ⟨h1, h2, h3⟩ := h
  cases hc : OpenReadOnly exStatusFile with
  | panic => exact absurd hc h1
  | hang => exact absurd hc h2
  | ok r =>
    obtain ⟨f1, r⟩ := r
    rw [hc] at h3
    cases r with
    | error e => cases h3
    | ok ix =>
      refine ⟨fun f0 hf => by cases hf; exact ⟨_, hc⟩, ⟨_, _, _, rfl, hc⟩, (fun f0 hf => by cases hf), ?_⟩
      rintro ⟨_, _, _, h, -⟩; cases h

end Btrfscue
