import Verif.Spec.Program
import Verif.Proof.RecoverSay
import Verif.Props.Exit
import Verif.Props.Exact
import Verif.Props.IndexDB
import Verif.Proof.ToString
/-!
# C104, C105: refused command lines, and what the commands touch

The theorems are about `program`, the whole run from the parsed command line on.
-/

namespace Btrfscue

theorem argsOK_iff (c : Command) (n : Nat) : argsOK c n = true ↔ takesArgs c n := by
  cases c <;> simp [argsOK, takesArgs]
  omega

theorem isZero_iff (u : UUID) : UUID.isZero u = true ↔ ∀ b ∈ u.val, b = 0 := by
  unfold UUID.isZero
  rw [beq_iff_eq]
  constructor
  · rintro rfl b hb
    exact List.eq_of_mem_replicate hb
  · intro h
    apply Subtype.ext
    have := List.eq_replicate_of_mem h
    rw [u.property] at this
    exact this

theorem withIndex_unfit {w : World} (hr : ∃ r, OpenReadOnly w.db = .ok r) (h : metadataUnfit w.db)
    (body : Ix → Cmd World Unit) : withIndex body w = .exit w := by
  obtain ⟨⟨f, r⟩, hr⟩ := hr
  have hf := C25_open_readonly_pure _ _ _ hr
  cases r with
  | ok ix => exact absurd hr (h f ix)
  | error e => simp only [withIndex, hr, hf]

/-- What a read-only open gives: its view and what closing it leaves. -/
theorem open_close {f f' : DBFile} {ix : Index} (h : OpenReadOnly f = .ok (f', .ok ix)) :
    f' = f ∧ (∃ v, ix.view = .ok v) ∧ ix.close = .ok f := by
  have hf := C25_open_readonly_pure _ _ _ h
  obtain ⟨v, hv⟩ := open_view_ok h
  refine ⟨hf, ⟨v, hv⟩, ?_⟩
  subst hf
  unfold OpenReadOnly at h
  by_cases ha : f' = .absent
  · rw [if_pos ha] at h
    simp only [Go.ok.injEq, Prod.mk.injEq] at h
    cases h.2
  · rw [if_neg ha] at h
    cases f' with
    | absent => exact absurd rfl ha
    | invalid =>
      simp only [openIndex, Go.ok.injEq, Prod.mk.injEq] at h
      cases h.2
    | db b =>
      simp only [openIndex, openIndex.openDB, Go.bind_eq_ok] at h
      obtain ⟨x, -, h⟩ := h
      cases x with
      | error e => simp at h
      | ok b' =>
        simp only [if_true, Bool.not_true, Index.ensureTx, Index.begin, Go.pure_eq, Go.ok.injEq, Prod.mk.injEq] at h
        simp at h
        rw [← h]
        simp [Index.close]

theorem withIndex_exit {w : World} (hr : ∃ r, OpenReadOnly w.db = .ok r) {body : Ix → Cmd World Unit}
    (h : ∀ v, body v w = .exit w) : withIndex body w = .exit w := by
  by_cases hu : metadataUnfit w.db
  · exact withIndex_unfit hr hu _
  · obtain ⟨f', ix, hx⟩ : ∃ f' ix, OpenReadOnly w.db = .ok (f', .ok ix) := by
      apply Classical.byContradiction
      intro hn
      exact hu fun f' ix hx => hn ⟨f', ix, hx⟩
    obtain ⟨rfl, ⟨v, hv⟩, -⟩ := open_close hx
    simp only [withIndex, hx, hv, Cmd.bind_def, Cmd.lift_ok, h v]

/-- The size check in these terms. -/
theorem unfit_check {F : Type} {m : Machine F} {p : Bytes} {bs : UInt64} (hbs : bs.toNat < 2 ^ 57)
    (h : deviceUnfit m p bs) {d : Device} (hd : m.openFile p = some d) : ∃ e, CheckDeviceSize d.seek bs = .error e := by
  cases hs : d.seek with
  | none => exact ⟨(), rfl⟩
  | some size =>
    have hlt := h d size hd hs
    cases hc : CheckDeviceSize (some size) bs with
    | error e => exact ⟨e, rfl⟩
    | ok r =>
      obtain ⟨-, -, h3⟩ := (C18_accepts_iff size bs r).mp hc
      rw [Nat.mod_eq_of_lt (by omega)] at h3
      omega

/-- C104: a command line that cannot be carried out, because of the number of its
arguments, a missing option, or a device or metadata file that cannot be used, ends the
program with status 1, and nothing was changed and nothing printed: no metadata file was
created, no destination directory. (Block sizes below 2^57, see `C18_wraps`; a metadata
record too short to hold a version crashes, see `C25`.) -/
theorem C104_refused {F : Type} [LinearOrder F] (m : Machine F) (g : Globals) (c : Command) (args : List Bytes) (w : World)
    (hbs : g.blockSize.toNat < 2 ^ 57) (hr : ∃ r, OpenReadOnly w.db = .ok r) (h : badLine m g c args w.db) :
    program m g c args w = .exit w ∧ (program m g c args w).status = some 1 := by
  suffices hs : program m g c args w = .exit w from ⟨hs, by rw [hs]; rfl⟩
  unfold program
  by_cases ha : argsOK c args.length = true
  · rw [ha]
    simp only [Bool.not_true, Bool.false_eq_true, if_false]
    have hta := (argsOK_iff c _).mp ha
    rcases h with h | ⟨h1, h2⟩ | h
    · exact absurd hta h
    · have hm : needMetadata g w = .exit w := by simp [needMetadata, h2]
      cases c <;> simp only [usesMetadata] at h1 <;> exact Cmd.bind_exit hm
    · have hmeta : ∀ x : Cmd World Unit, x w = .exit w → (needMetadata g >>= fun _ => x) w = .exit w := by
        intro x hx
        rw [Cmd.bind_def]
        unfold needMetadata
        by_cases hg : g.metadata.length = 0
        · rw [if_pos hg]; rfl
        · rw [if_neg hg]; exact hx
      cases c with
      | identify o =>
        obtain ⟨p, rfl⟩ := List.length_eq_one_iff.mp hta
        simp only at h
        simp only [runCommand, List.headD_cons, Cmd.bind_def, openDevice]
        cases hd : m.openFile p with
        | none => rfl
        | some d =>
          obtain ⟨e, he⟩ := unfit_check hbs h hd
          simp only [Cmd.pure_run, identifyRun, he]
          rfl
      | recon o =>
        obtain ⟨p, rfl⟩ := List.length_eq_one_iff.mp hta
        simp only at h
        simp only [runCommand, List.headD_cons]
        apply hmeta
        by_cases hz : UUID.isZero o.id = true
        · rw [if_pos hz]; rfl
        · rw [if_neg hz, Cmd.bind_def, openDevice]
          cases hd : m.openFile p with
          | none => rfl
          | some d =>
            rcases h with h | h | ⟨h0, f', e, h⟩
            · exact absurd ((isZero_iff o.id).mpr h) hz
            · obtain ⟨e, he⟩ := unfit_check hbs h hd
              simp only [Cmd.pure_run, reconRun, doScanFS, if_neg hz, he]
            · have hf := (C25_failed_or_readonly_open_pure _ _ _ _ h).1 e rfl
              subst hf
              simp only [Cmd.pure_run, reconRun, doScanFS, if_neg hz, if_neg h0, h]
              cases CheckDeviceSize d.seek g.blockSize <;> rfl
      | recover clobber =>
        obtain ⟨p, q, rfl⟩ := List.length_eq_two.mp hta
        simp only at h
        simp only [runCommand, List.headD_cons]
        apply hmeta
        rcases h with h | h
        · exact withIndex_unfit hr h _
        · refine withIndex_exit hr fun v => ?_
          rw [Cmd.bind_def, openDevice, h]; rfl
      | mount =>
        simp only [runCommand, mountRun]
        apply hmeta
        match args, hta, h with
        | [p], _, h => exact withIndex_unfit hr h _
        | [p, q], _, h =>
          rcases h with h | h
          · exact withIndex_unfit hr h _
          · refine withIndex_exit hr fun v => ?_
            rw [Cmd.bind_def, optionalDevice, if_pos (show [p, q].length = 2 from rfl), Cmd.bind_def, openDevice, List.headD_cons, h]
            rfl
      | ls o => simp only at h; exact hmeta _ (withIndex_unfit hr h _)
      | dumpIndex => simp only at h; exact hmeta _ (withIndex_unfit hr h _)
      | completion s => simp at h
  · rw [if_pos (by simpa using ha)]
    rfl

/-- The world a run ends in, however it ends. -/
def Out.world : Out World Unit → World
  | .ok _ w => w
  | .exit w => w
  | .crash w => w
  | .hang w => w

/-- However it ends, the command changes nothing that `P` looks at. -/
def Leaves {α β : Type} (P : World → β) (x : Cmd World α) : Prop :=
  ∀ w, match x w with
    | .ok _ t => P t = P w
    | .exit t => P t = P w
    | .crash t => P t = P w
    | .hang t => P t = P w

namespace Leaves

variable {α β γ : Type} {P : World → β}

theorem bind {x : Cmd World α} {f : α → Cmd World γ} (hx : Leaves P x) (hf : ∀ a, Leaves P (f a)) : Leaves P (x >>= f) := by
  intro w
  have := hx w
  rw [Cmd.bind_def]
  cases h : x w with
  | ok a t =>
    rw [h] at this
    have h2 := hf a t
    simp only
    cases h3 : f a t <;> rw [h3] at h2 <;> exact h2.trans this
  | exit t => rw [h] at this; exact this
  | crash t => rw [h] at this; exact this
  | hang t => rw [h] at this; exact this

theorem pure (a : α) : Leaves P (pure a : Cmd World α) := fun _ => rfl
theorem exit : Leaves P (Cmd.exit : Cmd World α) := fun _ => rfl
theorem lift (x : Go α) : Leaves P (Cmd.lift x : Cmd World α) := by intro w; cases x <;> exact rfl
theorem ite {p : Prop} [Decidable p] {x y : Cmd World α} (hx : Leaves P x) (hy : Leaves P y) : Leaves P (if p then x else y) := by
  by_cases h : p
  · rw [if_pos h]; exact hx
  · rw [if_neg h]; exact hy
theorem say_db (t : Bytes) : Leaves World.db (say t) := fun _ => rfl
theorem say_rs (t : Bytes) : Leaves World.rs (say t) := fun _ => rfl
theorem verbosef {g : Globals} {t : Bytes} (h : Leaves P (say t)) : Leaves P (verbosef g t) := ite h (pure _)
theorem needMetadata (g : Globals) : Leaves P (needMetadata g) := ite exit (pure _)
theorem openDevice {F : Type} (m : Machine F) (p : Bytes) : Leaves P (openDevice m p) := by
  unfold Btrfscue.openDevice
  cases m.openFile p
  · exact exit
  · exact pure _

/-- The metadata file is as before if what is done with the index leaves it alone. -/
theorem withIndex_db {body : Ix → Cmd World Unit} (hb : ∀ v, Leaves World.db (body v)) : Leaves World.db (withIndex body) := by
  intro w
  unfold withIndex
  cases h : OpenReadOnly w.db with
  | panic => rfl
  | hang => rfl
  | ok r =>
    obtain ⟨f, r⟩ := r
    cases r with
    | error e => exact C25_open_readonly_pure _ _ _ h
    | ok ix =>
      obtain ⟨rfl, ⟨v, hv⟩, hc⟩ := open_close h
      simp only [hv, Cmd.bind_def, Cmd.lift_ok, hc]
      have := hb v w
      cases hx : body v w <;> rw [hx] at this <;> first | rfl | exact this

theorem withIndex_rs {body : Ix → Cmd World Unit} (hb : ∀ v, Leaves World.rs (body v)) : Leaves World.rs (withIndex body) := by
  intro w
  unfold withIndex
  cases h : OpenReadOnly w.db with
  | panic => rfl
  | hang => rfl
  | ok r =>
    obtain ⟨f, r⟩ := r
    cases r with
    | error e => rfl
    | ok ix =>
      obtain ⟨rfl, ⟨v, hv⟩, hc⟩ := open_close h
      simp only [hv, Cmd.bind_def, Cmd.lift_ok, hc]
      have := hb v w
      cases hx : body v w <;> rw [hx] at this <;> exact this

theorem talking (x : Say Unit) : Leaves World.db (talking x) := by
  intro w; unfold Btrfscue.talking; cases x ⟨w.rs, []⟩ <;> rfl
theorem printing_db (x : Cmd Bytes Unit) : Leaves World.db (printing x) := by
  intro w; unfold printing; cases x w.out <;> rfl
theorem printing_rs (x : Cmd Bytes Unit) : Leaves World.rs (printing x) := by
  intro w; unfold printing; cases x w.out <;> rfl
theorem reconRun {F : Type} (m : Machine F) (g : Globals) (o : ScanFSOptions) (d : Device) : Leaves World.rs (reconRun m g o d) := by
  intro w
  unfold Btrfscue.reconRun
  generalize doScanFS m.fuel d.reader d.seek g.blockSize o.id w.db = r
  obtain ⟨f, e⟩ := r
  cases e <;> rfl

theorem identifyRun {F : Type} [LinearOrder F] (hs : ∀ t, Leaves P (say t)) (m : Machine F) (g : Globals) (o : IdentifyOptions) (d : Device) :
    Leaves P (identifyRun m g o d) := by
  unfold Btrfscue.identifyRun
  cases CheckDeviceSize d.seek g.blockSize with
  | error e => exact exit
  | ok size =>
    refine ite (lift _) ?_
    refine bind (verbosef (hs _)) fun _ => bind (lift _) fun samples => bind ?_ fun h => hs _
    intro w
    unfold reading
    cases identifyLoop d.reader samples (List.replicate g.blockSize.toNat 0) [] () <;> exact rfl

end Leaves

theorem leaves_world {β : Type} {P : World → β} {x : Cmd World Unit} (h : Leaves P x) (w : World) : P (x w).world = P w := by
  have := h w
  cases hx : x w <;> rw [hx] at this <;> exact this

/-- C105: whatever the command line, and however the run ends, no command but `recon`
changes the metadata file. -/
theorem C105_only_recon_changes_metadata {F : Type} [LinearOrder F] (m : Machine F) (g : Globals) (c : Command)
    (args : List Bytes) (w : World) (hc : ∀ o, c ≠ .recon o) : (program m g c args w).world.db = w.db := by
  refine leaves_world (P := World.db) ?_ w
  unfold program
  refine .ite .exit ?_
  cases c with
  | recon o => exact absurd rfl (hc o)
  | identify o => exact .bind (.openDevice _ _) fun d => .identifyRun Leaves.say_db _ _ _ _
  | recover clobber =>
    exact .bind (.needMetadata _) fun _ => .withIndex_db fun v => .bind (.openDevice _ _) fun d => .talking _
  | ls o => exact .bind (.needMetadata _) fun _ => .withIndex_db fun v => .bind (.lift _) fun r => .say_db _
  | dumpIndex => exact .bind (.needMetadata _) fun _ => .withIndex_db fun v => .printing_db _
  | mount =>
    refine .bind (.needMetadata _) fun _ => .withIndex_db fun v => .bind ?_ fun _ => .ite .exit ?_
    · exact .ite (.bind (.openDevice _ _) fun _ => .pure _) (.pure _)
    · exact .bind (.verbosef (.say_db _)) fun _ => .ite .exit (.pure _)
  | completion s => exact .say_db _

/-- C105: whatever the command line, and however the run ends, no command but `recover`
changes anything in the host file system (other than the metadata file). -/
theorem C105_only_recover_changes_files {F : Type} [LinearOrder F] (m : Machine F) (g : Globals) (c : Command)
    (args : List Bytes) (w : World) (hc : ∀ b, c ≠ .recover b) : (program m g c args w).world.rs = w.rs := by
  refine leaves_world (P := World.rs) ?_ w
  unfold program
  refine .ite .exit ?_
  cases c with
  | recover b => exact absurd rfl (hc b)
  | recon o =>
    exact .bind (.needMetadata _) fun _ => .ite .exit (.bind (.openDevice _ _) fun d => .reconRun _ _ _ _)
  | identify o => exact .bind (.openDevice _ _) fun d => .identifyRun Leaves.say_rs _ _ _ _
  | ls o => exact .bind (.needMetadata _) fun _ => .withIndex_rs fun v => .bind (.lift _) fun r => .say_rs _
  | dumpIndex => exact .bind (.needMetadata _) fun _ => .withIndex_rs fun v => .printing_rs _
  | mount =>
    refine .bind (.needMetadata _) fun _ => .withIndex_rs fun v => .bind ?_ fun _ => .ite .exit ?_
    · exact .ite (.bind (.openDevice _ _) fun _ => .pure _) (.pure _)
    · exact .bind (.verbosef (.say_rs _)) fun _ => .ite .exit (.pure _)
  | completion s => exact .say_rs _

/-! ## Status 1 means a bad command line -/

theorem status_bind_lift {α : Type} {x : Go α} {f : α → Cmd World Unit} {w : World}
    (h : ∀ a, x = .ok a → (f a w).status ≠ some 1) : ((Cmd.lift x >>= f) w).status ≠ some 1 := by
  cases x with
  | ok a => rw [Cmd.bind_def]; exact h a rfl
  | panic => rw [Cmd.bind_def]; exact (by simp [Cmd.lift, Out.status])
  | hang => rw [Cmd.bind_def]; exact (by simp [Cmd.lift, Out.status])

theorem withIndex_status {w : World} (hr : ∃ r, OpenReadOnly w.db = .ok r) (body : Ix → Cmd World Unit) :
    (withIndex body w).status = some 1 ↔ metadataUnfit w.db ∨
      ∃ f' ix v, OpenReadOnly w.db = .ok (f', .ok ix) ∧ ix.view = .ok v ∧ (body v w).status = some 1 := by
  by_cases hu : metadataUnfit w.db
  · rw [withIndex_unfit hr hu]
    exact ⟨fun _ => .inl hu, fun _ => rfl⟩
  · obtain ⟨f', ix, hx⟩ : ∃ f' ix, OpenReadOnly w.db = .ok (f', .ok ix) := by
      apply Classical.byContradiction
      intro hn
      exact hu fun f' ix hx => hn ⟨f', ix, hx⟩
    obtain ⟨hf, ⟨v, hv⟩, hc⟩ := open_close hx
    have key : (withIndex body w).status = some 1 ↔ (body v w).status = some 1 := by
      subst hf
      simp only [withIndex, hx, hv, Cmd.bind_def, Cmd.lift_ok]
      cases body v w <;> simp [Out.status]
    rw [key]
    constructor
    · exact fun h => .inr ⟨f', ix, v, hx, hv, h⟩
    · rintro (h | ⟨f2, ix2, v2, h1, h2, h3⟩)
      · exact absurd h hu
      · rw [hx] at h1
        simp only [Go.ok.injEq, Prod.mk.injEq, Except.ok.injEq] at h1
        obtain ⟨-, rfl⟩ := h1
        rw [hv] at h2
        simp only [Go.ok.injEq] at h2
        subst h2
        exact h3

theorem program_status {F : Type} [LinearOrder F] (m : Machine F) (g : Globals) (c : Command) (args : List Bytes) (w : World) :
    (program m g c args w).status = some 1 ↔ ¬ takesArgs c args.length ∨ (takesArgs c args.length ∧ (runCommand m g args c w).status = some 1) := by
  unfold program
  by_cases h : argsOK c args.length = true
  · have := (argsOK_iff c _).mp h
    rw [h]
    simp [this]
  · have h2 : ¬ takesArgs c args.length := fun h2 => h ((argsOK_iff c _).mpr h2)
    rw [if_pos (by simpa using h)]
    simp [h2, Out.status]

theorem needMetadata_status {g : Globals} {x : Cmd World Unit} {w : World} :
    ((needMetadata g >>= fun _ => x) w).status = some 1 ↔ g.metadata = [] ∨ (x w).status = some 1 := by
  rw [Cmd.bind_def]
  unfold needMetadata
  by_cases hg : g.metadata.length = 0
  · rw [if_pos hg]
    simp [Out.status, List.length_eq_zero_iff.mp hg]
  · rw [if_neg hg]
    have : g.metadata ≠ [] := fun h => hg (by rw [h]; rfl)
    simp [this]

/-- C104: `ls` and `dump-index` end with status 1 only for a bad command line. -/
theorem C104_listing_status {F : Type} [LinearOrder F] (m : Machine F) (g : Globals) (c : Command) (args : List Bytes) (w : World)
    (hc : c = .dumpIndex ∨ ∃ o, c = .ls o) (hbs : g.blockSize.toNat < 2 ^ 57) (hr : ∃ r, OpenReadOnly w.db = .ok r) :
    (program m g c args w).status = some 1 ↔ badLine m g c args w.db := by
  refine ⟨fun h => ?_, fun h => (C104_refused m g c args w hbs hr h).2⟩
  rcases (program_status m g c args w).mp h with h | ⟨-, h⟩
  · exact .inl h
  · rcases hc with rfl | ⟨o, rfl⟩
    · rcases needMetadata_status.mp h with h | h
      · exact .inr (.inl ⟨trivial, h⟩)
      · rcases (withIndex_status hr _).mp h with h | ⟨f', ix, v, h1, h2, h3⟩
        · exact .inr (.inr h)
        · exfalso
          have hn : NX (doDumpIndex m.fuel v) := NX.doDumpIndex _ _
          unfold printing at h3
          cases hx : doDumpIndex m.fuel v w.out with
          | exit t => exact hn _ _ hx
          | ok a t => rw [hx] at h3; cases h3
          | crash t => rw [hx] at h3; cases h3
          | hang t => rw [hx] at h3; cases h3
    · rcases needMetadata_status.mp h with h | h
      · exact .inr (.inl ⟨trivial, h⟩)
      · rcases (withIndex_status hr _).mp h with h | ⟨f', ix, v, h1, h2, h3⟩
        · exact .inr (.inr h)
        · exact absurd h3 (status_bind_lift fun a _ => by simp [say, Out.status])

/-- C104: `recover` ends with status 1 only for a bad command line or if the destination
directory cannot be created. -/
theorem C104_recover_status {F : Type} [LinearOrder F] (m : Machine F) (g : Globals) (clobber : Bool) (img dest : Bytes) (w : World)
    (hbs : g.blockSize.toNat < 2 ^ 57) (hr : ∃ r, OpenReadOnly w.db = .ok r) :
    (program m g (.recover clobber) [img, dest] w).status = some 1 ↔ badLine m g (.recover clobber) [img, dest] w.db ∨
      ∃ d, m.openFile img = some d ∧ ∃ t, mkdirAll { m.env with dev := fun _ => d.reader } dest w.rs = .ok false t := by
  by_cases hbad : badLine m g (.recover clobber) [img, dest] w.db
  · simp [hbad, (C104_refused m g _ _ w hbs hr hbad).2]
  · simp only [hbad, false_or]
    rw [program_status]
    simp only [show takesArgs (.recover clobber) [img, dest].length from rfl, not_true, false_or, true_and]
    simp only [runCommand]
    rw [needMetadata_status, withIndex_status hr]
    have h1 : g.metadata ≠ [] := fun h => hbad (.inr (.inl ⟨trivial, h⟩))
    have h2 : ¬ metadataUnfit w.db := fun h => hbad (.inr (.inr (.inl h)))
    have h3 : m.openFile img ≠ none := fun h => hbad (.inr (.inr (.inr h)))
    simp only [h1, h2, false_or]
    cases hd : m.openFile img with
    | none => exact absurd hd h3
    | some d =>
      have key : ∀ v : Ix, (((openDevice m ([img, dest].headD []) >>= fun d => talking (sayRecoverFiles g.verbose
          { m.env with dev := fun _ => d.reader } m.rf m.fuel v clobber ([img, dest].getLastD []))) w).status = some 1) ↔
          ∃ t, mkdirAll { m.env with dev := fun _ => d.reader } dest w.rs = .ok false t := by
        intro v
        rw [Cmd.bind_def, openDevice, List.headD_cons, hd]
        simp only [Cmd.pure_run]
        have hx := @doRecoverFiles_exit { m.env with dev := fun _ => d.reader } m.rf v m.fuel clobber dest w.rs
        obtain ⟨L, hL, -⟩ := tells_recover { m.env with dev := fun _ => d.reader } m.rf v clobber m.fuel dest w.rs
        have hL := hL g.verbose []
        simp only at hL
        unfold talking
        rw [show [img, dest].getLastD [] = dest from rfl]
        simp only [hL]
        constructor
        · intro h
          cases hc : doRecoverFiles { m.env with dev := fun _ => d.reader } m.rf m.fuel v clobber dest w.rs with
          | exit t => exact ⟨t, hx.mp hc⟩
          | ok => rw [hc] at h; cases h
          | crash => rw [hc] at h; cases h
          | hang => rw [hc] at h; cases h
        · rintro ⟨t, ht⟩
          rw [hx.mpr ht]
          rfl
      constructor
      · rintro ⟨f', ix, v, a1, a2, a3⟩
        exact ⟨d, rfl, (key v).mp a3⟩
      · rintro ⟨d', hd', t, ht⟩
        cases hd'
        obtain ⟨f', ix, hx⟩ : ∃ f' ix, OpenReadOnly w.db = .ok (f', .ok ix) := by
          apply Classical.byContradiction
          intro hn
          exact h2 fun f' ix hx => hn ⟨f', ix, hx⟩
        obtain ⟨-, ⟨v, hv⟩, -⟩ := open_close hx
        exact ⟨f', ix, v, hx, hv, (key v).mpr ⟨t, ht⟩⟩

/-- C104: `mount` ends with status 1 only for a bad command line, or if mounting or
unmounting fails. -/
theorem C104_mount_status {F : Type} [LinearOrder F] (m : Machine F) (g : Globals) (args : List Bytes) (w : World)
    (hbs : g.blockSize.toNat < 2 ^ 57) (hr : ∃ r, OpenReadOnly w.db = .ok r) :
    (program m g .mount args w).status = some 1 ↔ badLine m g .mount args w.db ∨ m.mountOK = false ∨ m.unmountOK = false := by
  by_cases hbad : badLine m g .mount args w.db
  · simp [hbad, (C104_refused m g _ _ w hbs hr hbad).2]
  · simp only [hbad, false_or]
    have h0 : takesArgs .mount args.length := Classical.byContradiction fun h => hbad (.inl h)
    have h1 : g.metadata ≠ [] := fun h => hbad (.inr (.inl ⟨trivial, h⟩))
    have h2 : ¬ metadataUnfit w.db := by
      intro h
      apply hbad
      right; right
      match args, h0 with
      | [p], _ => exact h
      | [p, q], _ => exact .inl h
    rw [program_status]
    simp only [h0, not_true, false_or, true_and, runCommand, mountRun]
    rw [needMetadata_status, withIndex_status hr]
    simp only [h1, h2, false_or]
    have key : (((optionalDevice m args) >>= fun _ => if !m.mountOK then Cmd.exit else do
        verbosef g (ascii "mounted rescue FS on " ++ (args.getLastD [] ++ [10]))
        if !m.unmountOK then Cmd.exit else pure () : Cmd World Unit) w).status = some 1 ↔ m.mountOK = false ∨ m.unmountOK = false := by
      have hd : ∃ d, optionalDevice m args w = .ok d w := by
        match args, h0 with
        | [p], _ => exact ⟨none, rfl⟩
        | [p, q], _ =>
          cases hd : m.openFile p with
          | none => exact absurd (.inr (.inr (.inr hd))) hbad
          | some d => exact ⟨some d, by rw [optionalDevice, if_pos (show [p, q].length = 2 from rfl), Cmd.bind_def, openDevice, List.headD_cons, hd]; rfl⟩
      obtain ⟨d, hd⟩ := hd
      rw [Cmd.bind_def, hd]
      cases m.mountOK with
      | false => simp [Out.status]
      | true =>
        have hv : ∃ w', verbosef g (ascii "mounted rescue FS on " ++ (args.getLastD [] ++ [10])) w = .ok () w' := by
          unfold verbosef
          cases g.verbose
          · exact ⟨w, rfl⟩
          · exact ⟨_, rfl⟩
        obtain ⟨w', hv⟩ := hv
        simp only [Bool.not_true, Bool.false_eq_true, if_false, Cmd.bind_def, hv]
        cases m.unmountOK <;> simp [Out.status]
    constructor
    · rintro ⟨f', ix, v, -, -, h⟩
      exact key.mp h
    · intro h
      obtain ⟨f', ix, hx⟩ : ∃ f' ix, OpenReadOnly w.db = .ok (f', .ok ix) := by
        apply Classical.byContradiction
        intro hn
        exact h2 fun f' ix hx => hn ⟨f', ix, hx⟩
      obtain ⟨-, ⟨v, hv⟩, -⟩ := open_close hx
      exact ⟨f', ix, v, hx, hv, key.mpr h⟩

/-! ## What `identify` prints -/

/-- What `identify --verbose` says before it starts to read. -/
def samplingLine (o : IdentifyOptions) : Bytes := ascii "sampling " ++ (decimal o.numSamples.toNat ++ ascii " blocks...\n")

/-- C93: what `identify` prints on stdout is the table of its entries (`identifyPrinted`, see
`C93_table`, `C93_machine_partial` and `C93_image_partial`), but with `--verbose` a line
about the number of samples comes first, with `--machine` as well. -/
theorem C93_stdout {F : Type} [LinearOrder F] (m : Machine F) (g : Globals) (o : IdentifyOptions) (p : Bytes) (w t : World) :
    program m g (.identify o) [p] w = .ok () t ↔
    ∃ d x, m.openFile p = some d ∧
      identifyPrinted g.machine m.wd m.fe m.fuel m.rnd m.ordS m.ordH m.ent m.avg d.reader d.seek { o with blockSize := g.blockSize } () =
        .ok x () ∧
      t = ⟨w.db, w.rs, w.out ++ ((if g.verbose then samplingLine o else []) ++ x)⟩ := by
  have hprog : program m g (.identify o) [p] w = (openDevice m p >>= fun d => identifyRun m g { o with blockSize := g.blockSize } d) w := rfl
  have hverb : ∀ w : World, verbosef g (samplingLine o) w =
      .ok () ⟨w.db, w.rs, w.out ++ (if g.verbose then samplingLine o else [])⟩ := by
    intro w
    unfold verbosef
    cases g.verbose with
    | true => rfl
    | false => simp [Cmd.pure_run]
  rw [hprog, Cmd.bind_def]
  unfold openDevice
  cases hm : m.openFile p with
  | none => simp [Cmd.exit]
  | some d =>
    simp only [Cmd.pure_run, Option.some.injEq]
    have key : identifyRun m g { o with blockSize := g.blockSize } d w = .ok () t ↔
        ∃ x, identifyPrinted g.machine m.wd m.fe m.fuel m.rnd m.ordS m.ordH m.ent m.avg d.reader d.seek { o with blockSize := g.blockSize } () =
          .ok x () ∧ t = ⟨w.db, w.rs, w.out ++ ((if g.verbose then samplingLine o else []) ++ x)⟩ := by
      unfold identifyRun identifyPrinted IdentifyFS
      cases hc : CheckDeviceSize d.seek g.blockSize with
      | error e => simp [Cmd.exit, Cmd.bind_def]
      | ok size =>
        simp only
        by_cases hb : g.blockSize = 0
        · rw [if_pos hb, if_pos hb]; simp [Cmd.lift, Cmd.bind_def]
        · rw [if_neg hb, if_neg hb]
          simp only [Cmd.bind_def]
          rw [show (⟨g.blockSize, o.sampled, o.minBlocks, o.maxBlocks, o.minOccurrence⟩ : IdentifyOptions).numSamples = o.numSamples from rfl]
          have hv := hverb w
          unfold samplingLine at hv
          rw [hv]
          cases hs : MakeSampleOffsets m.fuel m.rnd m.ordS size g.blockSize o.numSamples with
          | panic => simp [Cmd.lift]
          | hang => simp [Cmd.lift]
          | ok samples =>
            simp only [Cmd.lift]
            cases hi : identifyLoop d.reader samples (List.replicate g.blockSize.toNat 0) [] () with
            | exit => simp only [reading, hi, Cmd.bind_def, reduceCtorEq, false_and, exists_false]
            | crash => simp only [reading, hi, Cmd.bind_def, reduceCtorEq, false_and, exists_false]
            | hang => simp only [reading, hi, Cmd.bind_def, reduceCtorEq, false_and, exists_false]
            | ok h u =>
              simp only [reading, hi, Cmd.bind_def, say, Cmd.modify_run, Cmd.pure_run, samplingLine, Out.ok.injEq, true_and, and_true]
              constructor
              · rintro rfl
                exact ⟨_, rfl, by rw [List.append_assoc]⟩
              · rintro ⟨x, rfl, rfl⟩
                rw [List.append_assoc]
    rw [key]
    constructor
    · rintro ⟨x, h⟩; exact ⟨d, x, rfl, h⟩
    · rintro ⟨d', x, rfl, h⟩; exact ⟨x, h⟩

/-- C93 is false of the code: with `--machine --verbose`, the first line printed by a
successful run has no tab at all, it is not an entry. -/
theorem C93_verbose_refuted {F : Type} [LinearOrder F] (m : Machine F) (g : Globals) (o : IdentifyOptions) (p : Bytes) (w t : World)
    (hv : g.verbose = true) (h : program m g (.identify o) [p] w = .ok () t) :
    ∃ line rest, t.out = w.out ++ (line ++ (10 :: rest)) ∧ (∀ b ∈ line, b ≠ 10 ∧ b ≠ 9) := by
  obtain ⟨d, x, -, -, rfl⟩ := (C93_stdout m g o p w t).mp h
  refine ⟨ascii "sampling " ++ (decimal o.numSamples.toNat ++ ascii " blocks..."), x, ?_, ?_⟩
  · simp only [hv, if_true, samplingLine, List.append_assoc]
    rfl
  · intro b hb
    rcases List.mem_append.mp hb with hb | hb
    · exact (by decide : ∀ b ∈ ascii "sampling ", b ≠ 10 ∧ b ≠ 9) b hb
    · rcases List.mem_append.mp hb with hb | hb
      · have := Btrfscue.decimal_digit hb
        constructor <;> (rintro rfl; simp at this)
      · exact (by decide : ∀ b ∈ ascii " blocks...", b ≠ 10 ∧ b ≠ 9) b hb

/-! ## The commands on a usable metadata file -/

/-- The metadata file `f` can be used, and this is what the commands see in it. -/
def MetadataView (f : DBFile) (v : Ix) : Prop := ∃ f' ix, OpenReadOnly f = .ok (f', .ok ix) ∧ ix.view = .ok v

theorem withIndex_view {w : World} {v : Ix} (hv : MetadataView w.db v) {body : Ix → Cmd World Unit} (hb : ∀ v, Leaves World.db (body v)) :
    withIndex body w = body v w := by
  obtain ⟨f', ix, hx, hv⟩ := hv
  obtain ⟨rfl, -, hc⟩ := open_close hx
  simp only [withIndex, hx, hv, Cmd.bind_def, Cmd.lift_ok, hc]
  have := hb v w
  cases h : body v w <;> rw [h] at this <;> simp only [← this]

/-- A run of `recover` in the world: its outcome `o` on the host, and the messages `L` printed by it. -/
def Out.inWorld {α : Type} (db : DBFile) (out : Bytes) (L : List Line) : Out RecState α → Out World α
  | .ok a s => .ok a ⟨db, s, out ++ (L.map Line.text).flatten⟩
  | .exit s => .exit ⟨db, s, out ++ (L.map Line.text).flatten⟩
  | .crash s => .crash ⟨db, s, out ++ (L.map Line.text).flatten⟩
  | .hang s => .hang ⟨db, s, out ++ (L.map Line.text).flatten⟩

/-- `recover` on a usable command line is `doRecoverFiles` with the bytes of the image, and it prints
messages `L` with `--verbose`, the stripe messages among them without. -/
theorem C105_recover {F : Type} [LinearOrder F] (m : Machine F) (g : Globals) (clobber : Bool) (img dest : Bytes) (w : World)
    (hg : g.metadata ≠ []) {v : Ix} (hv : MetadataView w.db v) {d : Device} (hd : m.openFile img = some d) :
    ∃ L, (∀ verbose, program m { g with verbose := verbose } (.recover clobber) [img, dest] w =
      (doRecoverFiles { m.env with dev := fun _ => d.reader } m.rf m.fuel v clobber dest w.rs).inWorld w.db w.out (heard verbose L)) ∧
      StripesOf m.rf v w.rs (doRecoverFiles { m.env with dev := fun _ => d.reader } m.rf m.fuel v clobber dest w.rs) L := by
  obtain ⟨L, hL, hS⟩ := tells_recover { m.env with dev := fun _ => d.reader } m.rf v clobber m.fuel dest w.rs
  refine ⟨L, fun verbose => ?_, hS⟩
  have hp : program m { g with verbose := verbose } (.recover clobber) [img, dest] w =
      (needMetadata { g with verbose := verbose } >>= fun _ => withIndex fun ix => openDevice m img >>= fun d =>
      talking (sayRecoverFiles verbose { m.env with dev := fun _ => d.reader } m.rf m.fuel ix clobber dest)) w := rfl
  have hn : needMetadata { g with verbose := verbose } = pure () := by
    unfold needMetadata; rw [if_neg (by simpa using hg)]
  rw [hp, hn, Cmd.bind_def, Cmd.pure_run]
  simp only
  rw [withIndex_view hv fun v => .bind (.openDevice _ _) fun d => .talking _, Cmd.bind_def]
  simp only [openDevice, hd, Cmd.pure_run, talking, hL, List.nil_append]
  cases doRecoverFiles { m.env with dev := fun _ => d.reader } m.rf m.fuel v clobber dest w.rs <;> rfl

/-- `ls` on a usable command line prints `lsPrinted` and changes nothing. -/
theorem C105_ls {F : Type} [LinearOrder F] (m : Machine F) (g : Globals) (o : LsOptions) (args : List Bytes) (w : World)
    (hg : g.metadata ≠ []) {v : Ix} (hv : MetadataView w.db v) :
    program m g (.ls o) args w =
      match lsPrinted m.wd m.rf m.fuel m.srt m.ft v o args with
      | .ok r => .ok () ⟨w.db, w.rs, w.out ++ r.1⟩
      | .panic => .crash w
      | .hang => .hang w := by
  have hp : program m g (.ls o) args w = (needMetadata g >>= fun _ => withIndex fun ix =>
      Cmd.lift (lsPrinted m.wd m.rf m.fuel m.srt m.ft ix o args) >>= fun r => say r.1) w := rfl
  have hn : needMetadata g = pure () := by
    unfold needMetadata; rw [if_neg (by simpa using hg)]
  rw [hp, hn, Cmd.bind_def, Cmd.pure_run]
  simp only
  rw [withIndex_view hv fun v => .bind (.lift _) fun r => .say_db _, Cmd.bind_def]
  cases lsPrinted m.wd m.rf m.fuel m.srt m.ft v o args <;> rfl

/-- `dump-index` on a usable command line prints what `doDumpIndex` prints and changes nothing. -/
theorem C105_dump {F : Type} [LinearOrder F] (m : Machine F) (g : Globals) (w : World)
    (hg : g.metadata ≠ []) {v : Ix} (hv : MetadataView w.db v) :
    program m g .dumpIndex [] w =
      match doDumpIndex m.fuel v w.out with
      | .ok a t => .ok a ⟨w.db, w.rs, t⟩
      | .exit t => .exit ⟨w.db, w.rs, t⟩
      | .crash t => .crash ⟨w.db, w.rs, t⟩
      | .hang t => .hang ⟨w.db, w.rs, t⟩ := by
  have hp : program m g .dumpIndex [] w = (needMetadata g >>= fun _ => withIndex fun ix => printing (doDumpIndex m.fuel ix)) w := rfl
  have hn : needMetadata g = pure () := by
    unfold needMetadata; rw [if_neg (by simpa using hg)]
  rw [hp, hn, Cmd.bind_def, Cmd.pure_run]
  simp only
  rw [withIndex_view hv fun v => .printing_db _]
  unfold printing
  cases doDumpIndex m.fuel v w.out <;> rfl

/-- `recon` on a usable command line is `doScanFS` on the metadata file: nothing is
printed (progress is on stderr) and no other file is touched. -/
theorem C105_recon {F : Type} [LinearOrder F] (m : Machine F) (g : Globals) (o : ScanFSOptions) (p : Bytes) (w : World)
    (hg : g.metadata ≠ []) (hid : ∃ b ∈ o.id.val, b ≠ 0) {d : Device} (hd : m.openFile p = some d) :
    program m g (.recon o) [p] w =
      match doScanFS m.fuel d.reader d.seek g.blockSize o.id w.db with
      | (f, .done) => .ok () ⟨f, w.rs, w.out⟩
      | (f, .exit) => .exit ⟨f, w.rs, w.out⟩
      | (f, .crash) => .crash ⟨f, w.rs, w.out⟩
      | (f, .hang) => .hang ⟨f, w.rs, w.out⟩ := by
  have hp : program m g (.recon o) [p] w = (needMetadata g >>= fun _ =>
      if UUID.isZero o.id then Cmd.exit else openDevice m p >>= fun d => reconRun m g o d) w := rfl
  have hn : needMetadata g = pure () := by
    unfold needMetadata; rw [if_neg (by simpa using hg)]
  have hz : ¬ UUID.isZero o.id = true := by
    rw [isZero_iff]
    obtain ⟨b, hb, hne⟩ := hid
    exact fun h => hne (h b hb)
  rw [hp, hn, Cmd.bind_def, Cmd.pure_run]
  simp only
  rw [if_neg hz, Cmd.bind_def]
  simp only [openDevice, hd, Cmd.pure_run, reconRun]
  rcases doScanFS m.fuel d.reader d.seek g.blockSize o.id w.db with ⟨f, e⟩
  cases e <;> rfl

end Btrfscue
