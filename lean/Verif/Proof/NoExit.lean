import Verif.Model.Recover
/-!
# Where recover ends by `os.Exit`

Only in one place: when the destination cannot be created.
-/

namespace Btrfscue

/-- The command does not end by `os.Exit`. -/
def NX {σ α : Type} (c : Cmd σ α) : Prop := ∀ s t, c s ≠ .exit t

section
variable {σ α β : Type}

theorem NX.bind {x : Cmd σ α} {f : α → Cmd σ β} (hx : NX x) (hf : ∀ a, NX (f a)) : NX (x >>= f) := by
  intro s t h
  rw [Cmd.bind_def] at h
  cases hc : x s <;> rw [hc] at h
  · exact hf _ _ _ h
  · exact hx _ _ hc
  · cases h
  · cases h
theorem NX.pure {a : α} : NX (pure a : Cmd σ α) := fun _ _ h => by cases h
theorem NX.get : NX (Cmd.get : Cmd σ σ) := fun _ _ h => by cases h
theorem NX.modify {f : σ → σ} : NX (Cmd.modify f : Cmd σ Unit) := fun _ _ h => by cases h
theorem NX.lift {x : Go α} : NX (Cmd.lift x : Cmd σ α) := fun _ _ h => by cases x <;> cases h
theorem NX.ite {p : Prop} [Decidable p] {x y : Cmd σ α} (hx : NX x) (hy : NX y) : NX (if p then x else y) := by
  by_cases h : p
  · rw [if_pos h]; exact hx
  · rw [if_neg h]; exact hy
theorem NX.hang : NX (fun s => .hang s : Cmd σ α) := fun _ _ h => by cases h
end

section
variable {env : Env} {rf : Nat} {ix : Ix}

theorem NX.note {e : Ev} : NX (note e) := NX.modify
theorem NX.tick {k : Sys} : NX (tick env k) := fun _ _ h => by cases h
theorem NX.setFS {fs : HostFS} : NX (setFS fs) := NX.modify
theorem NX.applyFS {r : Option HostFS} : NX (applyFS r) := by
  cases r with
  | none => exact NX.pure
  | some f => exact NX.bind NX.setFS fun _ => NX.pure
theorem NX.applyOpen {r : Option (HostFS × Nat)} : NX (applyOpen r) := by
  cases r with
  | none => exact NX.pure
  | some f => exact NX.bind NX.setFS fun _ => NX.pure
theorem NX.sysStat {p : Bytes} : NX (sysStat env p) :=
  NX.bind NX.tick fun _ => NX.ite NX.pure (NX.bind NX.get fun _ => NX.pure)
theorem NX.sysLstat {p : Bytes} : NX (sysLstat env p) :=
  NX.bind NX.tick fun _ => NX.ite NX.pure (NX.bind NX.get fun _ => NX.pure)
theorem NX.sysMkdir {p : Bytes} : NX (sysMkdir env p) :=
  NX.bind NX.note fun _ => NX.bind NX.tick fun _ => NX.ite NX.pure (NX.bind NX.get fun _ => NX.applyFS)
theorem NX.sysSymlink {t p : Bytes} : NX (sysSymlink env t p) :=
  NX.bind NX.note fun _ => NX.bind NX.tick fun _ => NX.ite NX.pure (NX.bind NX.get fun _ => NX.applyFS)
theorem NX.sysRemove {p : Bytes} : NX (sysRemove env p) :=
  NX.bind NX.note fun _ => NX.bind NX.tick fun _ => NX.ite NX.pure (NX.bind NX.get fun _ => NX.applyFS)
theorem NX.sysOpen {p : Bytes} : NX (sysOpen env p) :=
  NX.bind NX.note fun _ => NX.bind NX.tick fun _ => NX.ite NX.pure (NX.bind NX.get fun _ => NX.applyOpen)
theorem NX.sysWrite {fd : Nat} {b : Bytes} {off : Int} : NX (sysWrite env fd b off) := by
  unfold Btrfscue.sysWrite
  refine NX.ite NX.pure (NX.ite NX.pure (NX.bind NX.get fun _ => NX.bind NX.tick fun _ => NX.ite ?_ (NX.ite NX.pure ?_)))
  · exact NX.bind NX.get fun _ => NX.bind NX.applyFS fun _ => NX.pure
  · exact NX.bind NX.get fun _ => NX.applyFS
theorem NX.sysTruncate {fd : Nat} {k : Int} : NX (sysTruncate env fd k) :=
  NX.bind NX.tick fun _ => NX.ite NX.pure (NX.ite NX.pure (NX.bind NX.get fun _ => NX.applyFS))
theorem NX.devRead {off : Int} {k : Nat} : NX (devRead env off k) := fun _ _ h => by cases h
theorem NX.report {p : Bytes} {e : Option RecErr} : NX (report p e) := by
  cases e with
  | none => exact NX.pure
  | some _ => exact NX.note
theorem NX.recPhysical {l : UInt64} : NX (recPhysical rf ix l) := by
  intro s t h
  unfold Btrfscue.recPhysical at h
  cases hp : ix.physical rf s.cache l <;> rw [hp] at h <;> cases h

theorem NX.mkdirAll {p : Bytes} : NX (mkdirAll env p) := by
  unfold Btrfscue.mkdirAll
  generalize p.length + 1 = n
  induction n generalizing p with
  | zero => exact NX.hang
  | succ n ih =>
    unfold mkdirAllAux
    have hl : NX (mkdirLast env p) := NX.bind NX.sysMkdir fun _ => NX.ite NX.pure (NX.bind NX.sysLstat fun _ => NX.pure)
    refine NX.bind NX.sysStat fun st => ?_
    cases st with
    | some d => exact NX.pure
    | none => exact NX.ite hl (NX.bind ih fun _ => NX.ite hl NX.pure)

theorem NX.copyLoop {fd : Nat} {fo so nb : UInt64} {fuel : Nat} {c : UInt64} : NX (copyLoop env fd fo so nb fuel c) := by
  induction fuel generalizing c with
  | zero => exact NX.hang
  | succ n ih =>
    unfold Btrfscue.copyLoop
    refine NX.ite (NX.bind NX.devRead fun r => NX.bind ?_ fun _ => NX.ite ?_ NX.pure) NX.pure
    · exact NX.ite NX.sysWrite NX.pure
    · obtain ⟨bs, e⟩ := r
      cases e with
      | none => exact ih
      | some e =>
        cases e with
        | eof => exact NX.ite NX.pure NX.pure
        | other => exact NX.pure

theorem NX.extent {fd : Nat} {size : Option UInt64} (r : Range) (e : FileExtentItem) :
    NX (recoverExtent env rf ix fd size r e) := by
  unfold recoverExtent
  refine NX.bind NX.lift fun k => NX.bind NX.lift fun b => NX.ite (NX.bind NX.lift fun d => ?_) ?_
  · unfold recoverInline
    exact NX.ite (NX.bind NX.lift fun b => NX.bind NX.sysWrite fun _ => NX.pure) NX.pure
  · refine NX.bind NX.lift fun nb => NX.bind NX.lift fun dn => NX.ite ?_ ?_
    · exact NX.bind NX.lift fun z => NX.bind NX.sysWrite fun _ => NX.pure
    · exact NX.bind NX.lift fun d => NX.bind NX.recPhysical fun p => NX.bind NX.lift fun o => NX.copyLoop

theorem NX.rangeLoopRec {body : Range → Slice → Rec (Option RecErr)} (hb : ∀ r e, NX (body r e)) {k : Nat}
    {rd : Range × Slice} : NX (rangeLoopRec body k rd) := by
  induction k generalizing rd with
  | zero => exact NX.hang
  | succ n ih =>
    unfold Btrfscue.rangeLoopRec
    refine NX.ite (NX.bind (hb _ _) fun r => ?_) NX.pure
    cases r with
    | some e => exact NX.pure
    | none => exact NX.bind NX.lift fun _ => ih

theorem NX.file {clobber : Bool} {owner inode : UInt64} {p : Bytes} :
    NX (recoverFile env rf ix clobber owner inode p) := by
  unfold recoverFile
  refine NX.bind NX.sysStat fun st => NX.ite NX.pure (NX.bind NX.lift fun size => NX.bind NX.sysOpen fun fd => ?_)
  cases fd with
  | none => exact NX.pure
  | some fd =>
    unfold recoverContents
    refine NX.bind NX.lift fun rd => NX.ite ?_ (NX.bind (NX.rangeLoopRec NX.extent) fun r => ?_)
    · cases size with
      | none => exact NX.pure
      | some sz => exact NX.bind NX.sysTruncate fun _ => NX.pure
    · cases r with
      | some e => exact NX.pure
      | none =>
        cases size with
        | none => exact NX.pure
        | some sz => exact NX.bind NX.sysTruncate fun _ => NX.ite NX.pure NX.pure

theorem NX.symlink {clobber : Bool} {owner inode : UInt64} {p : Bytes} :
    NX (recoverSymlink env rf ix clobber owner inode p) := by
  have hl : NX (recoverLink env rf ix owner inode p) := by
    unfold recoverLink
    refine NX.bind NX.lift fun r => ?_
    cases r with
    | none => exact NX.pure
    | some e =>
      refine NX.bind ?_ fun t => ?_
      · unfold symlinkTarget
        refine NX.bind NX.lift fun b => NX.ite (NX.bind NX.lift fun _ => NX.pure) (NX.bind NX.lift fun _ => NX.ite ?_ NX.pure)
        exact NX.bind NX.lift fun d => NX.bind NX.recPhysical fun ph => NX.bind NX.lift fun o => NX.bind NX.lift fun bf =>
          NX.bind NX.devRead fun r => NX.ite NX.pure NX.pure
      · cases t with
        | error e => exact NX.pure
        | ok t => exact NX.bind NX.sysSymlink fun _ => NX.ite NX.pure NX.pure
  exact NX.bind NX.sysLstat fun r => NX.ite (NX.ite NX.pure (NX.bind NX.sysRemove fun _ => hl)) hl

theorem NX.entries {clobber : Bool} {rec : UInt64 → UInt64 → Bytes → Rec (Option RecErr)}
    (hrec : ∀ o d p, NX (rec o d p)) {owner : UInt64} {dest : Bytes} {dis : List DirItem} :
    NX (recoverEntries rec env rf ix clobber owner dest dis) := by
  induction dis with
  | nil => exact NX.pure
  | cons d r ih =>
    refine NX.bind (NX.bind NX.lift fun name => NX.ite NX.pure ?_) fun _ => ih
    unfold recoverNamed
    refine NX.bind NX.lift fun a => NX.bind NX.lift fun b => NX.bind NX.lift fun c => NX.bind NX.lift fun d => ?_
    exact NX.ite (NX.bind (hrec _ _ _) fun _ => NX.report)
      (NX.ite (NX.bind NX.file fun _ => NX.report) (NX.ite (NX.bind NX.symlink fun _ => NX.report) NX.pure))

theorem NX.recoverDir {clobber : Bool} {n : Nat} {o d : UInt64} {p : Bytes} : NX (recoverDir env rf ix clobber n o d p) := by
  induction n generalizing o d p with
  | zero => exact NX.hang
  | succ n ih =>
    unfold Btrfscue.recoverDir
    exact NX.bind NX.get fun _ => NX.ite NX.pure (NX.bind NX.modify fun _ => NX.bind NX.note fun _ =>
      NX.bind NX.mkdirAll fun _ => NX.ite (NX.bind NX.lift fun _ => NX.bind (NX.entries fun _ _ _ => ih) fun _ => NX.pure) NX.pure)

/-- `doRecoverFiles` ends by `os.Exit` exactly if the destination cannot be created. -/
theorem doRecoverFiles_exit {fuel : Nat} {clobber : Bool} {dest : Bytes} {s t : RecState} :
    doRecoverFiles env rf fuel ix clobber dest s = .exit t ↔ mkdirAll env dest s = .ok false t := by
  unfold doRecoverFiles
  rw [Cmd.bind_def]
  cases hc : mkdirAll env dest s with
  | ok b u =>
    cases b with
    | false => simp
    | true =>
      constructor
      · intro h
        refine absurd h ?_
        simp only [if_true]
        refine (show NX _ from ?_) u t
        refine NX.bind NX.recoverDir fun e => NX.bind NX.report fun _ => NX.bind NX.lift fun rd => NX.bind (NX.rangeLoopRec ?_) fun _ => NX.pure
        intro r e
        exact NX.bind NX.lift fun k => NX.bind NX.get fun s => NX.ite NX.pure (NX.bind NX.recoverDir fun e =>
          NX.bind NX.report fun _ => NX.pure)
      · intro h; cases h
  | exit u => exact absurd hc (NX.mkdirAll s u)
  | crash u => simp
  | hang u => simp

end

end Btrfscue
