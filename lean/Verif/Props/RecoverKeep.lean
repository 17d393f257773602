import Verif.Proof.HostFS
import Verif.Proof.RecInv
import Verif.Props.Ls
import Verif.Props.Readers
/-!
# C56: without `--clobber` nothing that exists is changed
-/

namespace Btrfscue

open Cmd

/-- The invariant: in the file system, and in all there have been, everything of `fs0` is
left. -/
def Kept (fs0 : HostFS) (s : RecState) : Prop := Preserved fs0 s.fs ∧ ∀ f ∈ s.past, Preserved fs0 f

section
variable {fs0 : HostFS} {env : Env}

theorem Kept.set {s : RecState} (h : Kept fs0 s) {f : HostFS} (hf : Preserved fs0 f) :
    Kept fs0 { s with fs := f, past := s.fs :: s.past } := by
  refine ⟨hf, fun g hg => ?_⟩
  rcases List.mem_cons.mp hg with rfl | hg
  · exact h.1
  · exact h.2 g hg

theorem Kept.apply {s : RecState} (h : Kept fs0 s) {r : Option HostFS} (hr : ∀ f, r = some f → Preserved fs0 f) :
    wp (applyFS r) (fun _ => Kept fs0) (Kept fs0) s := by
  cases r with
  | none => exact h
  | some f => exact h.set (hr f rfl)

theorem Kept.calls (s : RecState) (n : Nat) (h : Kept fs0 s) : Kept fs0 { s with calls := n } := h

theorem Kept.op (e : Ev) : Keeps (Kept fs0) (note e) := Keeps.modify fun _ h => h

theorem Kept.applyGet {g : HostFS → Option HostFS}
    (hg : ∀ f f', Preserved fs0 f → g f = some f' → Preserved fs0 f') :
    Keeps (Kept fs0) ((Cmd.get : Rec RecState) >>= fun s => applyFS (g s.fs)) := by
  intro s hs
  exact wp_bind.mpr (hs.apply fun f hf => hg _ _ hs.1 hf)

theorem Kept.mkdir (p : Bytes) : Keeps (Kept fs0) (sysMkdir env p) := by
  unfold sysMkdir
  refine Keeps.bind (Kept.op _) fun _ => Keeps.bind (Keeps.tick Kept.calls) fun _ => Keeps.ite (fun _ => Keeps.pure) fun _ => ?_
  exact Kept.applyGet (g := fun f => f.mkdir p) fun f f' h hf => h.trans (mkdir_preserved hf)

theorem Kept.symlink (t p : Bytes) : Keeps (Kept fs0) (sysSymlink env t p) := by
  unfold sysSymlink
  refine Keeps.bind (Kept.op _) fun _ => Keeps.bind (Keeps.tick Kept.calls) fun _ => Keeps.ite (fun _ => Keeps.pure) fun _ => ?_
  exact Kept.applyGet (g := fun f => f.symlink t p) fun f f' h hf => h.trans (symlink_preserved hf)

theorem Kept.write {fd : Nat} (hfd : fs0.inodes.length ≤ fd) (b : Bytes) (off : Int) :
    Keeps (Kept fs0) (sysWrite env fd b off) := by
  unfold sysWrite
  refine Keeps.ite (fun _ => Keeps.pure) fun _ => Keeps.ite (fun _ => Keeps.pure) fun _ => ?_
  refine Keeps.bind Keeps.get fun _ => Keeps.bind (Keeps.tick Kept.calls) fun _ => Keeps.ite (fun _ => ?_) fun _ =>
    Keeps.ite (fun _ => Keeps.pure) fun _ => ?_
  · intro s hs
    rw [wp_bind, wp_get, wp_bind]
    exact hs.apply fun f hf => write_preserved hs.1 hfd hf
  · exact Kept.applyGet (g := fun f => f.write fd off.toNat b) fun f f' h hf => write_preserved h hfd hf

theorem Kept.truncate {fd : Nat} (hfd : fs0.inodes.length ≤ fd) (n : Int) : Keeps (Kept fs0) (sysTruncate env fd n) := by
  unfold sysTruncate
  refine Keeps.bind (Keeps.tick Kept.calls) fun _ => Keeps.ite (fun _ => Keeps.pure) fun _ =>
    Keeps.ite (fun _ => Keeps.pure) fun _ => ?_
  exact Kept.applyGet (g := fun f => f.truncate fd n.toNat) fun f f' h hf => truncate_preserved h hfd hf

theorem Kept.openFile {s : RecState} {p : Bytes} (hs : Kept fs0 s) (hst : s.fs.stat true p = none) :
    wp (sysOpen env p) (fun r t => Kept fs0 t ∧ ∀ fd, r = some fd → fs0.inodes.length ≤ fd) (Kept fs0) s := by
  unfold wp sysOpen
  simp only [bind_def, note, modify_run, tick]
  by_cases hf : env.fails .open s.calls = true
  · simp only [hf, if_true, pure_run]
    exact ⟨hs, fun fd h => by cases h⟩
  · simp only [hf, Bool.false_eq_true, if_false, bind_def, get_run]
    cases ho : s.fs.openTrunc p with
    | none => exact ⟨hs, fun fd h => by cases h⟩
    | some x =>
      obtain ⟨h1, h2, -⟩ := openTrunc_new hst (show s.fs.openTrunc p = some (x.1, x.2) from ho)
      refine ⟨hs.set (hs.1.trans h1), fun fd h => ?_⟩
      cases h
      rw [h2]; exact hs.1.len

/-- Creating a link changes nothing that exists. -/
theorem Kept.link {rf : Nat} {ix : Ix} (owner inode : UInt64) (p : Bytes) :
    Keeps (Kept fs0) (recoverSymlink env rf ix false owner inode p) := by
  unfold recoverSymlink
  have hl : Keeps (Kept fs0) (recoverLink env rf ix owner inode p) := by
    unfold recoverLink
    refine Keeps.bind Keeps.lift fun r => ?_
    cases r with
    | none => exact Keeps.pure
    | some e =>
      refine Keeps.bind ?_ fun t => ?_
      · unfold symlinkTarget
        refine Keeps.bind Keeps.lift fun b => Keeps.ite (fun _ => Keeps.bind Keeps.lift fun _ => Keeps.pure) fun _ => ?_
        refine Keeps.bind Keeps.lift fun b => Keeps.ite (fun _ => ?_) fun _ => Keeps.pure
        unfold readTarget
        refine Keeps.bind Keeps.lift fun d => Keeps.bind (Keeps.recPhysical fun _ _ _ _ _ h => h) fun ph => ?_
        refine Keeps.bind Keeps.lift fun o => Keeps.bind Keeps.lift fun bf => Keeps.bind (Keeps.devRead Kept.calls) fun r => ?_
        exact Keeps.ite (fun _ => Keeps.pure) fun _ => Keeps.pure
      · cases t with
        | error e => exact Keeps.pure
        | ok t => exact Keeps.bind (Kept.symlink t p) fun _ => Keeps.ite (fun _ => Keeps.pure) fun _ => Keeps.pure
  refine Keeps.bind (Keeps.sysLstat Kept.calls) fun r => Keeps.ite (fun _ => ?_) fun _ => hl
  simp only [Bool.not_false, if_true]
  exact Keeps.pure

theorem Kept.inv (hst : ∀ n, env.fails .stat n = false) (rf : Nat) (ix : Ix) :
    RecInv env rf ix false (Kept fs0) (fun _ => True) (fun fd => fs0.inodes.length ≤ fd) (fun _ => True) where
  calls s n h := h
  cache s l c r _ h := h
  warn s p h := h
  visit s o d p _ h _ := h
  mkdirAll p _ := Keeps.mkdirAll Kept.calls fun k => Kept.mkdir _
  openFile p s _ hs h := by
    rcases h with h | ⟨n, h⟩ | h
    · cases h
    · rw [hst n] at h; cases h
    · exact hs.openFile h
  write fd b off hfd := Kept.write hfd b off
  truncate fd n hfd := Kept.truncate hfd n
  link owner inode p _ _ _ _ := Kept.link owner inode p
  items _ _ _ _ _ _ := trivial
  join _ _ _ _ _ _ _ := trivial

end

/-- C56: without `--clobber`, in whatever way the run ends and at every point of it, what
was there is still there: every path that led to a file, link or directory before leads to
one with the same contents, target, names. System calls may fail, writes may be cut short
and device reads may fail at any point; only stat(2) must not fail on existing files
(`C56_stat_error_truncates`). -/
theorem C56_existing_untouched_partial (env : Env) (hst : ∀ n, env.fails .stat n = false) (rf fuel : Nat) (ix : Ix)
    (dest : Bytes) (fs : HostFS) :
    ∀ f, (doRecoverFiles env rf fuel ix false dest (RecState.start fs)).state.reached f → Untouched fs f := by
  have h := ((Kept.inv (fs0 := fs) hst rf ix).all fuel (dest := dest) trivial fun _ => trivial).state
    (s := RecState.start fs) ⟨Preserved.refl _, fun f hf => by cases hf⟩
  intro f hf
  rcases hf with rfl | hf
  · exact h.1.untouched
  · exact (h.2 f hf).untouched

/-! ## Examples -/

/-- No system call fails, the image is empty. -/
def quietEnv : Env := ⟨fun _ _ => false, fun _ => 0, fun _ => imageReader [], fun _ => 0⟩

/-- A root directory with one file "a". -/
def exOneFile : AStore :=
  [(⟨5, ⟨256, 84, 1⟩, 10⟩, mkItem ⟨256, 84, 1⟩ (exEntry ⟨257, 1, 0⟩ 1 [97])),
   (⟨5, ⟨256, 96, 2⟩, 10⟩, mkItem ⟨256, 96, 2⟩ []),
   (metadataVersionKey, [])]

/-- `/d` with a file "a" in it. -/
def exHost : HostFS := ⟨[.dir [([100], 1)] 0, .dir [([97], 2)] 0, .file [111, 108, 100]], 0⟩

/-- An empty host. -/
def exEmptyHost : HostFS := ⟨[.dir [] 0], 0⟩

example : (doRecoverFiles quietEnv 9 9 ⟨exOneFile.enc, ~~~0⟩ false (ascii "/d") (RecState.start exHost)).state.fs =
    exHost := by decide +kernel
example : ((doRecoverFiles quietEnv 9 9 ⟨exOneFile.enc, ~~~0⟩ false (ascii "/d/e") (RecState.start exHost)).state.fs.readFile
    (ascii "/d/e/a")) = some [] := by decide +kernel

/-- C56 is false of the code when stat(2) fails for a reason other than the file being
missing (a permission, an I/O error): the existing file is truncated. -/
theorem C56_stat_error_truncates : exHost.readFile (ascii "/d/a") = some [111, 108, 100] ∧
    (doRecoverFiles { quietEnv with fails := fun k n => k == .stat && n == 2 } 9 9 ⟨exOneFile.enc, ~~~0⟩ false (ascii "/d")
      (RecState.start exHost)).state.fs.readFile (ascii "/d/a") = some [] := by decide +kernel

end Btrfscue
