import Verif.Props.ProgramOut
/-!
# C110: `--verbose` changes nothing but what is printed
-/

namespace Btrfscue

/-- How a run ended, what it left in the metadata file and on the host; not what it printed. -/
def Out.mute {α : Type} : Out World α → Out (DBFile × RecState) α
  | .ok a w => .ok a (w.db, w.rs)
  | .exit w => .exit (w.db, w.rs)
  | .crash w => .crash (w.db, w.rs)
  | .hang w => .hang (w.db, w.rs)

/-- What was printed. -/
def Out.printed {α : Type} : Out World α → Bytes
  | .ok _ w => w.out
  | .exit w => w.out
  | .crash w => w.out
  | .hang w => w.out

/-- The text of a list of messages; the mark says which of them do not need `--verbose`. -/
def allText (ls : List (Bool × Bytes)) : Bytes := (ls.map (·.2)).flatten

/-- The text of the messages that do not need `--verbose`. -/
def quietText (ls : List (Bool × Bytes)) : Bytes := ((ls.filter (·.1)).map (·.2)).flatten

theorem allText_append (a b : List (Bool × Bytes)) : allText (a ++ b) = allText a ++ allText b := by simp [allText]
theorem quietText_append (a b : List (Bool × Bytes)) : quietText (a ++ b) = quietText a ++ quietText b := by simp [quietText]

/-- `y` does what `x` does, and prints only some of its messages. -/
def Softer {α : Type} (x y : Cmd World α) : Prop :=
  ∀ w w', w.db = w'.db → w.rs = w'.rs →
    ∃ ls, (x w).mute = (y w').mute ∧ (x w).printed = w.out ++ allText ls ∧ (y w').printed = w'.out ++ quietText ls

namespace Softer

variable {α β : Type}

theorem mute_ok {x : Out World α} {a : α} {s : DBFile × RecState} (h : x.mute = .ok a s) : ∃ w, x = .ok a w ∧ w.db = s.1 ∧ w.rs = s.2 := by
  cases x <;> simp only [Out.mute, Out.ok.injEq, reduceCtorEq] at h
  obtain ⟨rfl, rfl⟩ := h
  exact ⟨_, rfl, rfl, rfl⟩

theorem bind {x y : Cmd World α} {f f' : α → Cmd World β} (h : Softer x y) (hf : ∀ a, Softer (f a) (f' a)) : Softer (x >>= f) (y >>= f') := by
  intro w w' hd hr
  obtain ⟨ls, h1, h2, h3⟩ := h w w' hd hr
  rw [Cmd.bind_def, Cmd.bind_def]
  cases hx : x w with
  | ok a t =>
    rw [hx] at h1 h2
    obtain ⟨t', ht', k1, k2⟩ := mute_ok h1.symm
    rw [ht'] at h3
    obtain ⟨ls', j1, j2, j3⟩ := hf a t t' k1.symm k2.symm
    simp only [Out.printed] at h2 h3
    refine ⟨ls ++ ls', ?_, ?_, ?_⟩
    · simp only [ht']; exact j1
    · simp only [j2, h2, allText_append, List.append_assoc]
    · simp only [ht', j3, h3, quietText_append, List.append_assoc]
  | exit t =>
    rw [hx] at h1 h2
    refine ⟨ls, ?_, h2, ?_⟩ <;> cases hy : y w' <;> rw [hy] at h1 h3 <;>
      simp only [Out.mute, Out.printed, Out.exit.injEq, Out.crash.injEq, Out.hang.injEq, reduceCtorEq] at h1 h3 ⊢ <;> first | exact h1 | exact h3
  | crash t =>
    rw [hx] at h1 h2
    refine ⟨ls, ?_, h2, ?_⟩ <;> cases hy : y w' <;> rw [hy] at h1 h3 <;>
      simp only [Out.mute, Out.printed, Out.exit.injEq, Out.crash.injEq, Out.hang.injEq, reduceCtorEq] at h1 h3 ⊢ <;> first | exact h1 | exact h3
  | hang t =>
    rw [hx] at h1 h2
    refine ⟨ls, ?_, h2, ?_⟩ <;> cases hy : y w' <;> rw [hy] at h1 h3 <;>
      simp only [Out.mute, Out.printed, Out.exit.injEq, Out.crash.injEq, Out.hang.injEq, reduceCtorEq] at h1 h3 ⊢ <;> first | exact h1 | exact h3

theorem pure (a : α) : Softer (pure a) (pure a) := fun w w' hd hr =>
  ⟨[], by simp only [Cmd.pure_run, Out.mute, hd, hr], by simp [allText, Out.printed], by simp [quietText, Out.printed]⟩

theorem exit : Softer (α := α) Cmd.exit Cmd.exit := fun w w' hd hr =>
  ⟨[], by simp only [Cmd.exit, Out.mute, hd, hr], by simp [allText, Out.printed, Cmd.exit], by simp [quietText, Out.printed, Cmd.exit]⟩

theorem lift (x : Go α) : Softer (Cmd.lift x) (Cmd.lift x) := fun w w' hd hr => by
  refine ⟨[], ?_, ?_, ?_⟩ <;> cases x <;> simp [Cmd.lift, Out.mute, Out.printed, allText, quietText, hd, hr]

theorem say (t : Bytes) : Softer (say t) (say t) := fun w w' hd hr =>
  ⟨[(true, t)], by simp only [Btrfscue.say, Cmd.modify, Out.mute, hd, hr], by simp [allText, Out.printed, Btrfscue.say, Cmd.modify],
    by simp [quietText, Out.printed, Btrfscue.say, Cmd.modify]⟩

theorem verbosef (g : Globals) (t : Bytes) : Softer (verbosef { g with verbose := true } t) (verbosef { g with verbose := false } t) :=
  fun w w' hd hr => ⟨[(false, t)], by simp [Btrfscue.verbosef, Btrfscue.say, Cmd.modify, Out.mute, hd, hr],
    by simp [allText, Out.printed, Btrfscue.verbosef, Btrfscue.say, Cmd.modify], by simp [quietText, Out.printed, Btrfscue.verbosef]⟩

theorem ite {c : Prop} [Decidable c] {x y x' y' : Cmd World α} (hx : Softer x x') (hy : Softer y y') :
    Softer (if c then x else y) (if c then x' else y') := by
  by_cases h : c
  · simp only [if_pos h]; exact hx
  · simp only [if_neg h]; exact hy

theorem openDevice {F : Type} (m : Machine F) (p : Bytes) : Softer (openDevice m p) (openDevice m p) := by
  unfold Btrfscue.openDevice
  cases m.openFile p with
  | none => exact exit
  | some d => exact pure d

theorem reading (x : Cmd Unit α) : Softer (reading x) (reading x) := fun w w' hd hr => by
  refine ⟨[], ?_, ?_, ?_⟩ <;> unfold Btrfscue.reading <;> cases x () <;> simp [Out.mute, Out.printed, allText, quietText, hd, hr]

theorem withIndex {f f' : Ix → Cmd World Unit} (hf : ∀ v, Softer (f v) (f' v)) : Softer (withIndex f) (withIndex f') := by
  intro w w' hd hr
  unfold Btrfscue.withIndex
  rw [← hd]
  cases h : OpenReadOnly w.db with
  | panic => exact ⟨[], by simp [Out.mute, hd, hr], by simp [Out.printed, allText], by simp [Out.printed, quietText]⟩
  | hang => exact ⟨[], by simp [Out.mute, hd, hr], by simp [Out.printed, allText], by simp [Out.printed, quietText]⟩
  | ok r =>
    obtain ⟨d, r⟩ := r
    cases r with
    | error e => exact ⟨[], by simp [Out.mute, hr], by simp [Out.printed, allText], by simp [Out.printed, quietText]⟩
    | ok ix =>
      obtain ⟨rfl, ⟨v, hv⟩, hc⟩ := open_close h
      obtain ⟨ls, h1, h2, h3⟩ := hf v w { w' with db := w.db } rfl hr
      simp only [hv, Cmd.bind_def, Cmd.lift_ok, hc]
      refine ⟨ls, ?_, ?_, ?_⟩
      · cases hx : f v w <;> cases hy : f' v { w' with db := w.db } <;> rw [hx, hy] at h1 <;> simp only [Out.mute, Out.ok.injEq, Out.exit.injEq,
          Out.crash.injEq, Out.hang.injEq, Prod.mk.injEq, reduceCtorEq] at h1 ⊢ <;> simp [h1]
      · rw [← h2]; cases hx : f v w <;> rfl
      · rw [← show { w' with db := w.db }.out = w'.out from rfl, ← h3]; cases hx : f' v { w' with db := w.db } <;> rfl

end Softer

/-- C110: with `--verbose` a command does exactly what it does without: it ends the same way, with the same metadata file and the
same files on the host. And without `--verbose` it prints some of the messages it prints with it, unchanged and in the same order. -/
theorem C110_verbose {F : Type} [LinearOrder F] (m : Machine F) (g : Globals) (c : Command) (args : List Bytes) (w : World) :
    (program m { g with verbose := true } c args w).mute = (program m { g with verbose := false } c args w).mute ∧
    ∃ before ls, (program m { g with verbose := true } c args w).printed = before ++ allText ls ∧
      (program m { g with verbose := false } c args w).printed = before ++ quietText ls := by
  have same : program m { g with verbose := true } c args w = program m { g with verbose := false } c args w →
      (program m { g with verbose := true } c args w).mute = (program m { g with verbose := false } c args w).mute ∧
      ∃ before ls, (program m { g with verbose := true } c args w).printed = before ++ allText ls ∧
        (program m { g with verbose := false } c args w).printed = before ++ quietText ls :=
    fun h => ⟨by rw [h], (program m { g with verbose := false } c args w).printed, [], by rw [h]; simp [allText], by simp [quietText]⟩
  have soft : Softer (program m { g with verbose := true } c args) (program m { g with verbose := false } c args) →
      (program m { g with verbose := true } c args w).mute = (program m { g with verbose := false } c args w).mute ∧
      ∃ before ls, (program m { g with verbose := true } c args w).printed = before ++ allText ls ∧
        (program m { g with verbose := false } c args w).printed = before ++ quietText ls :=
    fun h => by obtain ⟨ls, h1, h2, h3⟩ := h w w rfl rfl; exact ⟨h1, w.out, ls, h2, h3⟩
  have hn : Softer (needMetadata { g with verbose := true }) (needMetadata { g with verbose := false }) := .ite .exit (.pure _)
  cases c with
  | recon o => exact same rfl
  | ls o => exact same rfl
  | dumpIndex => exact same rfl
  | completion s => exact same rfl
  | identify o =>
    refine soft (.ite .exit (.bind (.openDevice _ _) fun d => ?_))
    unfold identifyRun
    simp only
    cases CheckDeviceSize d.seek g.blockSize with
    | error e => exact .exit
    | ok size =>
      exact .ite (.lift _) (.bind (.verbosef g _) fun _ => .bind (.lift _) fun _ => .bind (.reading _) fun _ => .say _)
  | mount =>
    refine soft (.ite .exit (.bind hn fun _ => .withIndex fun v => .bind ?_ fun _ => .ite .exit (.bind (.verbosef g _) fun _ =>
      .ite .exit (.pure _))))
    exact .ite (.bind (.openDevice _ _) fun _ => .pure _) (.pure _)
  | recover clobber =>
    refine soft (.ite .exit (.bind hn fun _ => .withIndex fun v => .bind (.openDevice _ _) fun d => ?_))
    intro w w' hd hr
    obtain ⟨L, hL, -⟩ := tells_recover { m.env with dev := fun _ => d.reader } m.rf v clobber m.fuel (args.getLastD []) w.rs
    refine ⟨L.map fun l => (l.isStripe, l.text), ?_, ?_, ?_⟩
    · have h1 := hL true []
      have h2 := hL false []
      simp only at h1 h2
      unfold talking
      rw [← hr]
      simp only [h1, h2]
      cases doRecoverFiles { m.env with dev := fun _ => d.reader } m.rf m.fuel v clobber (args.getLastD []) w.rs <;> simp [Out.speak, Out.mute, hd]
    · have h1 := hL true []
      simp only at h1
      unfold talking
      simp only [h1]
      cases doRecoverFiles { m.env with dev := fun _ => d.reader } m.rf m.fuel v clobber (args.getLastD []) w.rs <;>
        simp [Out.speak, Out.printed, heard, allText, Function.comp_def]
    · have h1 := hL false []
      simp only at h1
      unfold talking
      rw [← hr]
      simp only [h1]
      have : quietText (L.map fun l => (l.isStripe, l.text)) = ((L.filter Line.isStripe).map Line.text).flatten := by
        unfold quietText
        rw [List.filter_map, List.map_map]
        rfl
      rw [this]
      cases doRecoverFiles { m.env with dev := fun _ => d.reader } m.rf m.fuel v clobber (args.getLastD []) w.rs <;>
        simp [Out.speak, Out.printed, heard]

-- The example of C106, with `--verbose`: the same file, and more is printed.
example : (program exMachine { metadata := ascii "m", verbose := true } (.recover false) [ascii "/dev/x", ascii "/d"] exWorld).shows (ascii "/d/a") =
    (some 0, ascii "Recovering root directory tree from subvolume 5...\nrecovering file: /d/a (size: 4)\nstripe: 16 => 0 @ 7\n",
      some [1, 2, 3, 4]) := by decide +kernel

end Btrfscue
