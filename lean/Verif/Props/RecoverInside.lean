import Verif.Proof.ParentPath
import Verif.Proof.ToString
import Verif.Props.RecoverEnd
/-!
# C57: recover writes only inside the destination
-/

namespace Btrfscue

open Cmd

/-! ## The paths used -/

/-- The invariant: all operations so far are allowed. -/
def Ops (A : Sys → Bytes → Prop) (s : RecState) : Prop := ∀ k p, Ev.op k p ∈ s.log → A k p

section
variable {A : Sys → Bytes → Prop} {env : Env}

theorem Ops.op {k : Sys} {p : Bytes} (h : A k p) : Keeps (Ops A) (note (.op k p)) := Keeps.modify fun s hs k' p' hm => by
  rcases List.mem_cons.mp hm with hm | hm
  · cases hm; exact h
  · exact hs k' p' hm

theorem Ops.calls (s : RecState) (n : Nat) (h : Ops A s) : Ops A { s with calls := n } := h

theorem Ops.applyFS (r : Option HostFS) : Keeps (Ops A) (applyFS r) := by
  cases r with
  | none => exact Keeps.pure
  | some f => exact Keeps.bind (Keeps.modify fun s h => h) fun _ => Keeps.pure

theorem Ops.mkdir {p : Bytes} (h : A .mkdir p) : Keeps (Ops A) (sysMkdir env p) :=
  Keeps.bind (Ops.op h) fun _ => Keeps.bind (Keeps.tick Ops.calls) fun _ => Keeps.ite (fun _ => Keeps.pure) fun _ =>
    Keeps.bind Keeps.get fun _ => Ops.applyFS _

theorem Ops.remove {p : Bytes} (h : A .remove p) : Keeps (Ops A) (sysRemove env p) :=
  Keeps.bind (Ops.op h) fun _ => Keeps.bind (Keeps.tick Ops.calls) fun _ => Keeps.ite (fun _ => Keeps.pure) fun _ =>
    Keeps.bind Keeps.get fun _ => Ops.applyFS _

theorem Ops.symlink {p : Bytes} (h : A .symlink p) (t : Bytes) : Keeps (Ops A) (sysSymlink env t p) :=
  Keeps.bind (Ops.op h) fun _ => Keeps.bind (Keeps.tick Ops.calls) fun _ => Keeps.ite (fun _ => Keeps.pure) fun _ =>
    Keeps.bind Keeps.get fun _ => Ops.applyFS _

theorem Ops.openFile {p : Bytes} (h : A .open p) : Keeps (Ops A) (sysOpen env p) := by
  refine Keeps.bind (Ops.op h) fun _ => Keeps.bind (Keeps.tick Ops.calls) fun _ => Keeps.ite (fun _ => Keeps.pure) fun _ =>
    Keeps.bind Keeps.get fun s => ?_
  cases s.fs.openTrunc p with
  | none => exact Keeps.pure
  | some x => exact Keeps.bind (Keeps.modify fun s h => h) fun _ => Keeps.pure

theorem Ops.write (fd : Nat) (b : Bytes) (off : Int) : Keeps (Ops A) (sysWrite env fd b off) := by
  unfold sysWrite
  refine Keeps.ite (fun _ => Keeps.pure) fun _ => Keeps.ite (fun _ => Keeps.pure) fun _ => ?_
  refine Keeps.bind Keeps.get fun _ => Keeps.bind (Keeps.tick Ops.calls) fun _ => Keeps.ite (fun _ => ?_) fun _ =>
    Keeps.ite (fun _ => Keeps.pure) fun _ => Keeps.bind Keeps.get fun _ => Ops.applyFS _
  exact Keeps.bind Keeps.get fun _ => Keeps.bind (Ops.applyFS _) fun _ => Keeps.pure

theorem Ops.truncate (fd : Nat) (n : Int) : Keeps (Ops A) (sysTruncate env fd n) :=
  Keeps.bind (Keeps.tick Ops.calls) fun _ => Keeps.ite (fun _ => Keeps.pure) fun _ =>
    Keeps.ite (fun _ => Keeps.pure) fun _ => Keeps.bind Keeps.get fun _ => Ops.applyFS _

end

/-- What C57 allows. -/
def Allowed (dest : Bytes) (k : Sys) (p : Bytes) : Prop := Inside dest p ∨ (k = .mkdir ∧ OnTheWay dest p)

theorem Inside.refl (p : Bytes) : Inside p p := ⟨rfl, [], by simp, by simp⟩

/-- Front parts of clean paths inside `dest`. -/
theorem allowed_front {dest p q rest : Bytes} (hi : Inside dest p) (hp : goClean p = p) (h : p = q ++ 47 :: rest) :
    Inside dest (q ++ [47]) ∨ OnTheWay dest (q ++ [47]) := by
  obtain ⟨h1, r, h2⟩ := pathParts_front hp h
  obtain ⟨h3, names, h4, h5⟩ := hi
  rw [h5] at h2
  rcases List.append_eq_append_iff.mp h2 with ⟨as, ha, hb⟩ | ⟨bs, ha, hb⟩
  · left
    refine ⟨h1.trans h3, as, fun n hn => h4 n (by rw [hb]; simp [hn]), ha⟩
  · right; right
    exact ⟨h1.trans h3, bs, ha⟩

/-- The paths recovered to. -/
def Target (dest p : Bytes) : Prop := p ≠ [] ∧ (p = dest ∨ (goClean p = p ∧ Inside dest p))

theorem Target.inside {dest p : Bytes} (h : Target dest p) : Inside dest p := by
  rcases h.2 with rfl | h
  · exact Inside.refl _
  · exact h.2

theorem Target.parents {dest p : Bytes} (h : Target dest p) (k : Nat) (hk : k = 0 ∨ Nat.repeat parentPath k p ≠ []) :
    Allowed dest .mkdir (Nat.repeat parentPath k p) := by
  obtain ⟨⟨rest, hr⟩, h2⟩ := parents_prefix p k
  rcases h2 with rfl | h2 | ⟨q, hq⟩
  · exact Or.inl h.inside
  · rcases hk with rfl | hk
    · exact Or.inl h.inside
    · exact absurd h2 hk
  · rcases h.2 with rfl | ⟨hc, hi⟩
    · exact Or.inr ⟨rfl, Or.inl ⟨rest, hr⟩⟩
    · rw [hq] at hr ⊢
      rcases allowed_front hi hc (q := q) (rest := rest) (by simpa using hr) with h | h
      · exact Or.inl h
      · exact Or.inr ⟨rfl, h⟩

theorem Target.join {dest p n : Bytes} (h : Target dest p) (hn : skipName n = false) : Target dest (goJoin p n) := by
  refine ⟨goJoin_ne_nil p n h.1, Or.inr ?_⟩
  obtain ⟨h1, names, h2, h3⟩ := h.inside
  by_cases hne : n = []
  · subst hne
    obtain ⟨h4, h5, h6⟩ := goJoin_nil p h.1
    exact ⟨h6, h5.trans h1, names, h2, h4.trans h3⟩
  · have hpl : Plain n := by
      simp only [skipName, Bool.or_eq_false_iff, beq_eq_false_iff_ne, List.contains_eq_mem, decide_eq_false_iff_not] at hn
      exact ⟨hne, hn.1.1.1, hn.1.1.2, hn.1.2⟩
    obtain ⟨h4, h5, h6⟩ := goJoin_plain p n h.1 hpl
    refine ⟨h6, h5.trans h1, names ++ [n], fun m hm => ?_, by rw [h4, h3, List.append_assoc]⟩
    rcases List.mem_append.mp hm with hm | hm
    · exact h2 m hm
    · rw [List.mem_singleton.mp hm]; exact hpl

theorem subvol_name (n : Nat) : skipName (ascii "subvol_" ++ decimal n) = false := by
  have h : ∀ b ∈ ascii "subvol_" ++ decimal n, b ≠ 47 ∧ b ≠ 92 := by
    intro b hb
    rcases List.mem_append.mp hb with hb | hb
    · have hall : ∀ b ∈ ascii "subvol_", b ≠ 47 ∧ b ≠ 92 := by decide
      exact hall b hb
    · have := decimal_digit hb
      refine ⟨?_, ?_⟩ <;> (rintro rfl; revert this; decide)
  have h1 : (47 : UInt8) ∉ ascii "subvol_" ++ decimal n := fun hb => (h _ hb).1 rfl
  have h2 : (92 : UInt8) ∉ ascii "subvol_" ++ decimal n := fun hb => (h _ hb).2 rfl
  have h3 : ascii "subvol_" ++ decimal n ≠ dot := fun hb => absurd (congrArg List.head? hb) (by show ¬ (some (115 : UInt8) = some 46); decide)
  have h4 : ascii "subvol_" ++ decimal n ≠ dotdot := fun hb => absurd (congrArg List.head? hb) (by show ¬ (some (115 : UInt8) = some 46); decide)
  simp only [skipName, Bool.or_eq_false_iff, beq_eq_false_iff_ne, List.contains_eq_mem, decide_eq_false_iff_not]
  exact ⟨⟨⟨h3, h4⟩, h1⟩, h2⟩

theorem Ops.inv (env : Env) (rf : Nat) (ix : Ix) (clobber : Bool) (dest : Bytes) :
    RecInv env rf ix clobber (Ops (Allowed dest)) (Target dest) (fun _ => True) (fun _ => True) where
  calls s n h := h
  cache s l c r _ h := h
  warn s p h k' p' hm := by
    rcases List.mem_cons.mp hm with hm | hm
    · cases hm
    · exact h k' p' hm
  visit s o d p _ h hv k' p' hm := by
    rcases List.mem_cons.mp hm with hm | hm
    · cases hm
    · exact h k' p' hm
  mkdirAll p hp := Keeps.mkdirAllAux_ne Ops.calls _ _ fun k hk => Ops.mkdir (hp.parents k hk)
  openFile p s hp hs _ := wp_mono (Ops.openFile (Or.inl hp.inside) s hs) (fun r t ht => ⟨ht, fun _ _ => trivial⟩) fun _ h => h
  write fd b off _ := Ops.write fd b off
  truncate fd n _ := Ops.truncate fd n
  link owner inode p _ hp _ _ := Keeps.recoverSymlink Ops.calls rf ix (fun _ _ _ _ _ h => h) (fun _ => Ops.remove (Or.inl hp.inside))
    (fun t => Ops.symlink (Or.inl hp.inside) t) owner inode
  items _ _ _ _ _ _ := trivial
  join p di n hp _ _ hn := hp.join hn

/-- C57 (what is proved): whatever the index holds, every path recover makes a directory,
opens a file, removes an entry or makes a link at is `dest` or lies inside as far as the
path itself tells: it consists of `dest` and names without dots and slashes. Only
directories are made elsewhere, on the way to `dest`. Files are written through open files
only. Missing: where such a path leads when there are symbolic links on the way
(`C57_link_escapes`, `C57_empty_name_replaces_dest`). -/
theorem C57_paths_inside_partial (env : Env) (rf fuel : Nat) (ix : Ix) (clobber : Bool) (dest : Bytes) (fs : HostFS)
    (k : Sys) (p : Bytes) (h : Ev.op k p ∈ (doRecoverFiles env rf fuel ix clobber dest (RecState.start fs)).state.log) :
    Inside dest p ∨ (k = .mkdir ∧ OnTheWay dest p) := by
  by_cases hd : dest = []
  · subst hd
    have hk : Keeps (Ops (Allowed [])) (doRecoverFiles env rf fuel ix clobber []) := by
      intro s hs
      have h1 : s.fs.stat true [] = none := rfl
      have h2 : s.fs.stat false [] = none := rfl
      have h3 : s.fs.mkdir [] = none := rfl
      unfold wp doRecoverFiles mkdirAll mkdirAllAux mkdirLast sysStat sysMkdir sysLstat
      have hop : Ops (Allowed []) { s with log := .op .mkdir [] :: s.log } := by
        intro k p hm
        rcases List.mem_cons.mp hm with hm | hm
        · cases hm; exact Or.inl (Inside.refl _)
        · exact hs k p hm
      cases h4 : env.fails .stat s.calls <;> cases h5 : env.fails .mkdir (s.calls + 1) <;>
        cases h6 : env.fails .lstat (s.calls + 1 + 1) <;>
        simp [bind_def, tick, note, get_run, modify_run, pure_run, h1, h2, h3, parentPath, applyFS, Cmd.exit, h4, h5, h6] <;>
        exact hop
    exact hk.state (s := RecState.start fs) (fun k p h => by cases h) k p h
  · exact ((Ops.inv env rf ix clobber dest).all fuel (dest := dest) ⟨hd, Or.inl rfl⟩ fun o =>
      Target.join ⟨hd, Or.inl rfl⟩ (subvol_name _)).state (s := RecState.start fs) (fun k p h => by cases h) k p h

end Btrfscue
