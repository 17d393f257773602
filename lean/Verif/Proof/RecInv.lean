import Verif.Spec.Recover
/-!
# Invariants of the recover command
-/

namespace Btrfscue

open Cmd

variable {I : RecState → Prop} {env : Env}

/-- What is to be shown for `I` to hold while a file is recovered: `P` holds of the paths
files are recovered to, `F` of the files opened. -/
structure FileInv (env : Env) (rf : Nat) (ix : Ix) (clobber : Bool) (I : RecState → Prop) (P : Bytes → Prop) (F : Nat → Prop) : Prop where
  calls : ∀ s n, I s → I { s with calls := n }
  cache : ∀ s l c r, ix.physical rf s.cache l = .ok (c, r) → I s → I { s with cache := c }
  openFile : ∀ p s, P p → I s → (clobber = true ∨ (∃ n, env.fails .stat n = true) ∨ s.fs.stat true p = none) →
    wp (sysOpen env p) (fun r t => I t ∧ ∀ fd, r = some fd → F fd) I s
  write : ∀ fd b off, F fd → Keeps I (sysWrite env fd b off)
  truncate : ∀ fd n, F fd → Keeps I (sysTruncate env fd n)

/-- What is to be shown for `I` to hold throughout a run: `P` holds of the paths
directories, files and links are recovered to, `F` of the files opened, `D` of the
directory entries met. -/
structure RecInv (env : Env) (rf : Nat) (ix : Ix) (clobber : Bool) (I : RecState → Prop) (P : Bytes → Prop)
    (F : Nat → Prop) (D : DirItem → Prop) : Prop extends FileInv env rf ix clobber I P F where
  warn : ∀ s p, I s → I { s with log := .warn p :: s.log }
  visit : ∀ s o d p, P p → I s → (o, d) ∉ s.visited →
    I { s with visited := (o, d) :: s.visited, log := .enter o d p :: s.log }
  mkdirAll : ∀ p, P p → Keeps I (mkdirAll env p)
  link : ∀ owner inode p di, P p → D di → DirItem.typ di = .ok FtSymlink →
    Keeps I (recoverSymlink env rf ix clobber owner inode p)
  items : ∀ owner dir dis, readDirItems rf ix owner dir = .ok dis → ∀ di ∈ dis, D di
  join : ∀ p di n, P p → D di → DirItem.name di = .ok n → skipName n = false → P (goJoin p n)

theorem Keeps.tick {k : Sys} (h : ∀ s n, I s → I { s with calls := n }) : Keeps I (tick env k) :=
  fun s hs => h s _ hs

theorem Keeps.sysStat {p : Bytes} (h : ∀ s n, I s → I { s with calls := n }) : Keeps I (sysStat env p) :=
  Keeps.bind (Keeps.tick h) fun _ => Keeps.ite (fun _ => Keeps.pure) fun _ => Keeps.bind Keeps.get fun _ => Keeps.pure

theorem Keeps.sysLstat {p : Bytes} (h : ∀ s n, I s → I { s with calls := n }) : Keeps I (sysLstat env p) :=
  Keeps.bind (Keeps.tick h) fun _ => Keeps.ite (fun _ => Keeps.pure) fun _ => Keeps.bind Keeps.get fun _ => Keeps.pure

theorem Keeps.devRead {off : Int} {n : Nat} (h : ∀ s n, I s → I { s with calls := n }) : Keeps I (devRead env off n) :=
  fun s hs => h s _ hs

theorem Keeps.recPhysical {rf : Nat} {ix : Ix} {l : UInt64} (h : ∀ s l c r, ix.physical rf s.cache l = .ok (c, r) → I s → I { s with cache := c }) :
    Keeps I (recPhysical rf ix l) := by
  intro s hs
  unfold wp Btrfscue.recPhysical
  cases hr : ix.physical rf s.cache l with
  | ok r => exact h s l r.1 r.2 hr hs
  | panic => exact hs
  | hang => exact hs

/-- What `os.Stat` says, if it does not fail for no reason. -/
theorem wp_sysStat {p : Bytes} {s : RecState} (h : ∀ s n, I s → I { s with calls := n }) (hs : I s) :
    wp (Btrfscue.sysStat env p)
      (fun r t => I t ∧ (r = none → (∃ n, env.fails .stat n = true) ∨ t.fs.stat true p = none)) I s := by
  unfold wp Btrfscue.sysStat
  simp only [bind_def, Btrfscue.tick]
  by_cases hf : env.fails .stat s.calls = true
  · simp only [hf, if_true, pure_run]
    exact ⟨h s _ hs, fun _ => Or.inl ⟨_, hf⟩⟩
  · simp only [hf, Bool.false_eq_true, if_false, bind_def, get_run, pure_run]
    exact ⟨h s _ hs, fun hr => Or.inr hr⟩

section
variable {rf : Nat} {ix : Ix} {clobber : Bool} {P : Bytes → Prop} {F : Nat → Prop} {D : DirItem → Prop}

theorem FileInv.copyLoop (h : FileInv env rf ix clobber I P F) {fd : Nat} (hfd : F fd) (fo so n : UInt64) :
    ∀ (fuel : Nat) (c : UInt64), Keeps I (copyLoop env fd fo so n fuel c) := by
  intro fuel
  induction fuel with
  | zero => exact fun c => Keeps.hang
  | succ fuel ih =>
    intro c
    unfold Btrfscue.copyLoop
    refine Keeps.ite (fun _ => ?_) fun _ => Keeps.pure
    refine Keeps.bind (Keeps.devRead h.calls) fun r => Keeps.bind ?_ fun ok => Keeps.ite (fun _ => ?_) fun _ => Keeps.pure
    · unfold writeRead
      exact Keeps.ite (fun _ => h.write _ _ _ hfd) fun _ => Keeps.pure
    · simp only
      cases r.2 with
      | none => exact ih _
      | some e =>
        cases e with
        | eof => exact Keeps.ite (fun _ => Keeps.pure) fun _ => Keeps.pure
        | other => exact Keeps.pure

theorem FileInv.extent (h : FileInv env rf ix clobber I P F) {fd : Nat} (hfd : F fd) (size : Option UInt64) (r : Range)
    (e : FileExtentItem) : Keeps I (recoverExtent env rf ix fd size r e) := by
  unfold recoverExtent
  refine Keeps.bind Keeps.lift fun k => Keeps.bind Keeps.lift fun b => Keeps.ite (fun _ => ?_) fun _ => ?_
  · refine Keeps.bind Keeps.lift fun d => ?_
    unfold recoverInline
    refine Keeps.ite (fun _ => ?_) fun _ => Keeps.pure
    exact Keeps.bind Keeps.lift fun b => Keeps.bind (h.write _ _ _ hfd) fun _ => Keeps.pure
  · refine Keeps.bind Keeps.lift fun nb => Keeps.bind Keeps.lift fun dn => Keeps.ite (fun _ => ?_) fun _ => ?_
    · unfold recoverHole
      exact Keeps.bind Keeps.lift fun z => Keeps.bind (h.write _ _ _ hfd) fun _ => Keeps.pure
    · unfold recoverData
      refine Keeps.bind Keeps.lift fun d => Keeps.bind (Keeps.recPhysical h.cache) fun p => ?_
      exact Keeps.bind Keeps.lift fun o => h.copyLoop hfd _ _ _ _ _

theorem Keeps.rangeLoopRec {body : Range → Slice → Rec (Option RecErr)} (hb : ∀ r e, Keeps I (body r e)) :
    ∀ (fuel : Nat) (rd : Range × Slice), Keeps I (rangeLoopRec body fuel rd) := by
  intro fuel
  induction fuel with
  | zero => exact fun rd => Keeps.hang
  | succ fuel ih =>
    intro rd
    unfold Btrfscue.rangeLoopRec
    refine Keeps.ite (fun _ => ?_) fun _ => Keeps.pure
    refine Keeps.bind (hb _ _) fun r => ?_
    cases r with
    | some e => exact Keeps.pure
    | none => exact Keeps.bind Keeps.lift fun rd' => ih rd'

theorem FileInv.contents (h : FileInv env rf ix clobber I P F) {fd : Nat} (hfd : F fd) (owner inode : UInt64)
    (size : Option UInt64) : Keeps I (recoverContents env rf ix owner inode fd size) := by
  unfold recoverContents
  refine Keeps.bind Keeps.lift fun rd => Keeps.ite (fun _ => ?_) fun _ => ?_
  · unfold finishEmpty
    cases size with
    | none => exact Keeps.pure
    | some sz => exact Keeps.bind (h.truncate _ _ hfd) fun _ => Keeps.pure
  · refine Keeps.bind (Keeps.rangeLoopRec (fun r e => h.extent hfd size r e) _ _) fun r => ?_
    cases r with
    | some e => exact Keeps.pure
    | none =>
      unfold finishFile
      cases size with
      | none => exact Keeps.pure
      | some sz => exact Keeps.bind (h.truncate _ _ hfd) fun _ => Keeps.ite (fun _ => Keeps.pure) fun _ => Keeps.pure

theorem FileInv.file (h : FileInv env rf ix clobber I P F) (owner inode : UInt64) {p : Bytes} (hp : P p) :
    Keeps I (recoverFile env rf ix clobber owner inode p) := by
  intro s hs
  unfold recoverFile
  rw [wp_bind]
  refine wp_mono (wp_sysStat (p := p) h.calls hs) ?_ fun _ ht => ht
  rintro st t ⟨ht, hst⟩
  by_cases hc : (st.isSome && !clobber) = true
  · simp only [if_pos hc]; exact ht
  · simp only [if_neg hc]
    rw [wp_bind]
    refine wp_lift_of (fun size _ => ?_) ht
    rw [wp_bind]
    refine wp_mono (h.openFile p t hp ht ?_) ?_ fun _ ht => ht
    · cases hcl : clobber with
      | true => exact Or.inl rfl
      | false =>
        right
        cases st with
        | none => exact hst rfl
        | some b => simp [hcl] at hc
    · rintro fd u ⟨hu, hfd⟩
      cases fd with
      | none => exact hu
      | some fd => exact h.contents (hfd fd rfl) owner inode size u hu

theorem RecInv.report (h : RecInv env rf ix clobber I P F D) (p : Bytes) (e : Option RecErr) : Keeps I (report p e) := by
  cases e with
  | none => exact Keeps.pure
  | some _ => exact Keeps.modify fun s hs => h.warn s p hs

theorem RecInv.entry (h : RecInv env rf ix clobber I P F D) {rec : UInt64 → UInt64 → Bytes → Rec (Option RecErr)}
    (hrec : ∀ o d p, P p → Keeps I (rec o d p)) (owner : UInt64) {dest : Bytes} (hd : P dest) {di : DirItem}
    (hdi : D di) : Keeps I (recoverEntry rec env rf ix clobber owner dest di) := by
  intro s hs
  unfold recoverEntry
  rw [wp_bind]
  refine wp_lift_of (fun name hname => ?_) hs
  by_cases hsk : skipName name = true
  · simp only [hsk, if_true]; exact hs
  · simp only [Bool.not_eq_true] at hsk
    have hp := h.join dest di name hd hdi hname hsk
    simp only [hsk, Bool.false_eq_true, if_false]
    unfold recoverNamed
    rw [wp_bind]
    refine wp_lift_of (fun isDir _ => wp_bind.mpr <| wp_lift_of (fun isSub _ => wp_bind.mpr <| wp_lift_of (fun loc _ =>
      wp_bind.mpr <| wp_lift_of (fun t ht => ?_) hs) hs) hs) hs
    refine (show Keeps I _ from ?_) s hs
    refine Keeps.ite (fun _ => Keeps.bind (hrec _ _ _ hp) fun e => h.report _ _) fun _ => ?_
    refine Keeps.ite (fun _ => Keeps.bind (h.file _ _ hp) fun e => h.report _ _) fun _ => ?_
    refine Keeps.ite (fun htl => Keeps.bind (h.link _ _ _ di hp hdi (htl ▸ ht)) fun e => h.report _ _) fun _ => ?_
    exact Keeps.pure

theorem RecInv.entries (h : RecInv env rf ix clobber I P F D) {rec : UInt64 → UInt64 → Bytes → Rec (Option RecErr)}
    (hrec : ∀ o d p, P p → Keeps I (rec o d p)) (owner : UInt64) {dest : Bytes} (hd : P dest) :
    ∀ (dis : List DirItem), (∀ di ∈ dis, D di) → Keeps I (recoverEntries rec env rf ix clobber owner dest dis) := by
  intro dis
  induction dis with
  | nil => exact fun _ => Keeps.pure
  | cons di r ih =>
    intro hdis
    unfold recoverEntries
    exact Keeps.bind (h.entry hrec owner hd (hdis di List.mem_cons_self)) fun _ =>
      ih fun x hx => hdis x (List.mem_cons_of_mem _ hx)

theorem RecInv.recoverDir (h : RecInv env rf ix clobber I P F D) :
    ∀ (fuel : Nat) (o d : UInt64) (p : Bytes), P p → Keeps I (recoverDir env rf ix clobber fuel o d p) := by
  intro fuel
  induction fuel with
  | zero => exact fun _ _ _ _ => Keeps.hang
  | succ fuel ih =>
    intro o d p hp s hs
    unfold Btrfscue.recoverDir
    rw [wp_bind, wp_get]
    by_cases hv : s.visited.contains (o, d) = true
    · simp only [if_pos hv]; exact hs
    · simp only [if_neg hv]
      rw [wp_bind, wp_modify, wp_bind]
      have hv' : (o, d) ∉ s.visited := by
        rw [List.contains_iff_mem] at hv; exact hv
      unfold note
      rw [wp_modify]
      refine (show Keeps I _ from ?_) _ (h.visit s o d p hp hs hv')
      refine Keeps.bind (h.mkdirAll p hp) fun ok => Keeps.ite (fun _ => ?_) fun _ => Keeps.pure
      intro t ht
      rw [wp_bind]
      refine wp_lift_of (fun dis hdis => ?_) ht
      exact Keeps.bind (h.entries ih o hp dis (h.items o d dis hdis)) (fun _ => Keeps.pure) t ht

theorem RecInv.all (h : RecInv env rf ix clobber I P F D) (fuel : Nat) {dest : Bytes} (hd : P dest)
    (hsub : ∀ o, P (subvolDest dest o)) : Keeps I (doRecoverFiles env rf fuel ix clobber dest) := by
  unfold doRecoverFiles
  refine Keeps.bind (h.mkdirAll dest hd) fun ok => Keeps.ite (fun _ => ?_) fun _ => Keeps.exit
  refine Keeps.bind (h.recoverDir _ _ _ _ hd) fun e => Keeps.bind (h.report _ _) fun _ => Keeps.bind Keeps.lift fun rd => ?_
  refine Keeps.bind (Keeps.rangeLoopRec (fun r e => ?_) _ _) fun _ => Keeps.pure
  unfold recoverSubvol
  refine Keeps.bind Keeps.lift fun k => Keeps.bind Keeps.get fun s => Keeps.ite (fun _ => Keeps.pure) fun _ => ?_
  exact Keeps.bind (h.recoverDir _ _ _ _ (hsub _)) fun e => Keeps.bind (h.report _ _) fun _ => Keeps.pure

end

/-! ## Making directories -/

/-- `MkdirAll` keeps what mkdir(2) of the path and of the paths above keeps. -/
theorem Keeps.mkdirAllAux (hc : ∀ s n, I s → I { s with calls := n }) :
    ∀ (n : Nat) (p : Bytes), (∀ k, Keeps I (sysMkdir env (Nat.repeat parentPath k p))) →
      Keeps I (mkdirAllAux env n p) := by
  intro n
  induction n with
  | zero => exact fun _ _ => Keeps.hang
  | succ n ih =>
    intro p hp
    have hlast : Keeps I (mkdirLast env p) := by
      unfold mkdirLast
      exact Keeps.bind (hp 0) fun _ => Keeps.ite (fun _ => Keeps.pure) fun _ =>
        Keeps.bind (Keeps.sysLstat hc) fun _ => Keeps.pure
    unfold Btrfscue.mkdirAllAux
    refine Keeps.bind (Keeps.sysStat hc) fun r => ?_
    cases r with
    | some d => exact Keeps.pure
    | none =>
      refine Keeps.ite (fun _ => hlast) fun _ => Keeps.bind (ih _ fun k => ?_) fun _ =>
        Keeps.ite (fun _ => hlast) fun _ => Keeps.pure
      have := hp (k + 1)
      have he : Nat.repeat parentPath (k + 1) p = Nat.repeat parentPath k (parentPath p) := by
        clear this hp hlast ih
        induction k with
        | zero => rfl
        | succ k ih => rw [Nat.repeat, ih]; rfl
      rwa [he] at this

theorem Keeps.mkdirAll {p : Bytes} (hc : ∀ s n, I s → I { s with calls := n })
    (hp : ∀ k, Keeps I (sysMkdir env (Nat.repeat parentPath k p))) : Keeps I (Btrfscue.mkdirAll env p) :=
  Keeps.mkdirAllAux hc _ _ hp

/-- The same; the empty path is never made unless it is asked for. -/
theorem Keeps.mkdirAllAux_ne (hc : ∀ s n, I s → I { s with calls := n }) :
    ∀ (n : Nat) (p : Bytes), (∀ k, k = 0 ∨ Nat.repeat parentPath k p ≠ [] → Keeps I (sysMkdir env (Nat.repeat parentPath k p))) →
      Keeps I (Btrfscue.mkdirAllAux env n p) := by
  intro n
  induction n with
  | zero => exact fun _ _ => Keeps.hang
  | succ n ih =>
    intro p hp
    have hlast : Keeps I (mkdirLast env p) := by
      unfold mkdirLast
      exact Keeps.bind (hp 0 (Or.inl rfl)) fun _ => Keeps.ite (fun _ => Keeps.pure) fun _ =>
        Keeps.bind (Keeps.sysLstat hc) fun _ => Keeps.pure
    unfold Btrfscue.mkdirAllAux
    refine Keeps.bind (Keeps.sysStat hc) fun r => ?_
    cases r with
    | some d => exact Keeps.pure
    | none =>
      refine Keeps.ite (fun _ => hlast) fun hne => Keeps.bind (ih _ fun k hk => ?_) fun _ =>
        Keeps.ite (fun _ => hlast) fun _ => Keeps.pure
      have he : ∀ k, Nat.repeat parentPath (k + 1) p = Nat.repeat parentPath k (parentPath p) := by
        intro k
        clear hp hlast ih hk
        induction k with
        | zero => rfl
        | succ k ih => rw [Nat.repeat, ih]; rfl
      have := hp (k + 1) (Or.inr (by
        rw [he]
        rcases hk with rfl | hk
        · exact hne
        · exact hk))
      rwa [he] at this

end Btrfscue
