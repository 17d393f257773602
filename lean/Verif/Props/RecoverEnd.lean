import Verif.Proof.RecEnd
import Verif.Proof.RecInv
import Verif.Props.RecoverKeep
/-!
# C60: recover enters every directory at most once, and ends
-/

namespace Btrfscue

open Cmd

/-! ## At most once -/

/-- The invariant: what was entered is what is marked as visited, each pair once. -/
def Once (s : RecState) : Prop := s.entered = s.visited ∧ s.visited.Nodup

section
variable {env : Env}

theorem Once.calls (s : RecState) (n : Nat) (h : Once s) : Once { s with calls := n } := h

theorem Once.op (k : Sys) (p : Bytes) : Keeps Once (note (.op k p)) := Keeps.modify fun _ h => h

theorem Once.applyFS (r : Option HostFS) : Keeps Once (applyFS r) := by
  cases r with
  | none => exact Keeps.pure
  | some f => exact Keeps.bind (Keeps.modify fun s h => h) fun _ => Keeps.pure

theorem Once.mkdir (p : Bytes) : Keeps Once (sysMkdir env p) :=
  Keeps.bind (Once.op _ _) fun _ => Keeps.bind (Keeps.tick Once.calls) fun _ => Keeps.ite (fun _ => Keeps.pure) fun _ =>
    Keeps.bind Keeps.get fun _ => Once.applyFS _

theorem Once.remove (p : Bytes) : Keeps Once (sysRemove env p) :=
  Keeps.bind (Once.op _ _) fun _ => Keeps.bind (Keeps.tick Once.calls) fun _ => Keeps.ite (fun _ => Keeps.pure) fun _ =>
    Keeps.bind Keeps.get fun _ => Once.applyFS _

theorem Once.symlink (t p : Bytes) : Keeps Once (sysSymlink env t p) :=
  Keeps.bind (Once.op _ _) fun _ => Keeps.bind (Keeps.tick Once.calls) fun _ => Keeps.ite (fun _ => Keeps.pure) fun _ =>
    Keeps.bind Keeps.get fun _ => Once.applyFS _

theorem Once.openFile (p : Bytes) : Keeps Once (sysOpen env p) := by
  refine Keeps.bind (Once.op _ _) fun _ => Keeps.bind (Keeps.tick Once.calls) fun _ => Keeps.ite (fun _ => Keeps.pure) fun _ =>
    Keeps.bind Keeps.get fun s => ?_
  cases s.fs.openTrunc p with
  | none => exact Keeps.pure
  | some x => exact Keeps.bind (Keeps.modify fun s h => h) fun _ => Keeps.pure

theorem Once.write (fd : Nat) (b : Bytes) (off : Int) : Keeps Once (sysWrite env fd b off) := by
  unfold sysWrite
  refine Keeps.ite (fun _ => Keeps.pure) fun _ => Keeps.ite (fun _ => Keeps.pure) fun _ => ?_
  refine Keeps.bind Keeps.get fun _ => Keeps.bind (Keeps.tick Once.calls) fun _ => Keeps.ite (fun _ => ?_) fun _ =>
    Keeps.ite (fun _ => Keeps.pure) fun _ => Keeps.bind Keeps.get fun _ => Once.applyFS _
  exact Keeps.bind Keeps.get fun _ => Keeps.bind (Once.applyFS _) fun _ => Keeps.pure

theorem Once.truncate (fd : Nat) (n : Int) : Keeps Once (sysTruncate env fd n) :=
  Keeps.bind (Keeps.tick Once.calls) fun _ => Keeps.ite (fun _ => Keeps.pure) fun _ =>
    Keeps.ite (fun _ => Keeps.pure) fun _ => Keeps.bind Keeps.get fun _ => Once.applyFS _

end

/-- What is kept by the system calls used for a link is kept by recovering it. -/
theorem Keeps.recoverSymlink {I : RecState → Prop} {env : Env} (hc : ∀ s n, I s → I { s with calls := n })
    (rf : Nat) (ix : Ix) (hca : ∀ s l c r, ix.physical rf s.cache l = .ok (c, r) → I s → I { s with cache := c })
    {clobber : Bool} {p : Bytes} (hrm : clobber = true → Keeps I (sysRemove env p))
    (hsl : ∀ t, Keeps I (sysSymlink env t p)) (owner inode : UInt64) :
    Keeps I (recoverSymlink env rf ix clobber owner inode p) := by
  unfold Btrfscue.recoverSymlink
  have hl : Keeps I (recoverLink env rf ix owner inode p) := by
    unfold recoverLink
    refine Keeps.bind Keeps.lift fun r => ?_
    cases r with
    | none => exact Keeps.pure
    | some e =>
      refine Keeps.bind ?_ fun t => ?_
      · unfold symlinkTarget
        refine Keeps.bind Keeps.lift fun b => Keeps.ite (fun _ => Keeps.bind Keeps.lift fun _ => Keeps.pure) fun _ => ?_
        refine Keeps.bind Keeps.lift fun b => Keeps.ite (fun _ => ?_) fun _ => Keeps.pure
        unfold readTarget
        refine Keeps.bind Keeps.lift fun d => Keeps.bind (Keeps.recPhysical hca) fun ph => ?_
        refine Keeps.bind Keeps.lift fun o => Keeps.bind Keeps.lift fun bf => Keeps.bind (Keeps.devRead hc) fun r => ?_
        exact Keeps.ite (fun _ => Keeps.pure) fun _ => Keeps.pure
      · cases t with
        | error e => exact Keeps.pure
        | ok t => exact Keeps.bind (hsl t) fun _ => Keeps.ite (fun _ => Keeps.pure) fun _ => Keeps.pure
  refine Keeps.bind (Keeps.sysLstat hc) fun r => Keeps.ite (fun _ => ?_) fun _ => hl
  cases clobber with
  | false => exact Keeps.pure
  | true => exact Keeps.bind (hrm rfl) fun _ => hl

theorem Once.inv (env : Env) (rf : Nat) (ix : Ix) (clobber : Bool) :
    RecInv env rf ix clobber Once (fun _ => True) (fun _ => True) (fun _ => True) where
  calls s n h := h
  cache s l c r _ h := h
  warn s p h := h
  visit s o d p _ h hv := by
    refine ⟨?_, List.nodup_cons.mpr ⟨hv, h.2⟩⟩
    show (o, d) :: s.entered = (o, d) :: s.visited
    rw [h.1]
  mkdirAll p _ := Keeps.mkdirAll Once.calls fun k => Once.mkdir _
  openFile p s _ hs _ := wp_mono (Once.openFile p s hs) (fun r t ht => ⟨ht, fun _ _ => trivial⟩) fun _ h => h
  write fd b off _ := Once.write fd b off
  truncate fd n _ := Once.truncate fd n
  link owner inode p _ _ _ _ := Keeps.recoverSymlink Once.calls rf ix (fun _ _ _ _ _ h => h) (fun _ => Once.remove p)
    (fun t => Once.symlink t p) owner inode
  items _ _ _ _ _ _ := trivial
  join _ _ _ _ _ _ _ := trivial

/-- C60: whatever the directories of the index refer to, whatever fails and in whatever
way the run ends, no directory of any tree is entered twice. -/
theorem C60_entered_once (env : Env) (rf fuel : Nat) (ix : Ix) (clobber : Bool) (dest : Bytes) (fs : HostFS) :
    (doRecoverFiles env rf fuel ix clobber dest (RecState.start fs)).state.entered.Nodup := by
  have h := ((Once.inv env rf ix clobber).all fuel (dest := dest) trivial fun _ => trivial).state
    (s := RecState.start fs) ⟨rfl, List.nodup_nil⟩
  rw [h.1]; exact h.2

/-! ## It ends -/

/-- A loop that goes over a list of items ends. -/
theorem Range.Yields.ends {rd : Range × Slice} {items : List (Range × Slice)} (h : Range.Yields rd items) :
    Range.EndsIn (items.length + 1) rd := by
  induction h with
  | done h => exact .done h
  | step _ h2 _ ih => exact .step h2 ih

/-- A range over a prefix no key has. -/
theorem range_absent {l : AStore} (hl : l.Sorted) {G o : UInt64}
    {first last : Key} (hlast : last.before KL0)
    (hk : ¬ ∃ k, l.enc.hasKey o k ∧ k.typ = first.typ ∧ k.objectID = first.objectID)
    {rd : Range × Slice} (h : (Ix.mk l.enc G).range o first last = .ok rd) : rd.1.hasNext = false := by
  have hlb : lowerBound l.enc o first G keyV2Offset = .ok KL0 := by
    rw [lowerBound_enc]
    cases hh : (l.hi17 (VKey.mk o first 0).p17).head? with
    | none => rfl
    | some e =>
      simp only
      rw [if_neg]
      intro h1
      obtain ⟨h2, h3, h4⟩ := VKey.p17_inj.mp h1
      obtain ⟨h5, -⟩ := (AStore.hi17_sorted hl _).head_min hh
      obtain ⟨h6, -⟩ := (AStore.mem_hi17 hl).mp h5
      obtain ⟨⟨eo, ek, eg⟩, ex⟩ := e
      simp only at h2 h3 h4
      subst h2
      exact hk ⟨ek, enc_hasKey.mpr ⟨eg, ex, h6⟩, h3, h4⟩
  simp only [Ix.range, hlb, Go.ok_bind, Go.bind_eq_ok] at h
  obtain ⟨x, h1, d, -, h3⟩ := h
  cases h3
  cases x with
  | none => rfl
  | some e =>
    obtain ⟨ik, v⟩ := e
    obtain ⟨g, rfl, -, -⟩ := find_some hl h1
    simp only [Range.setTo, Range.hasNext]
    rw [show newIndexKey o last G = (VKey.mk o last G).encode from rfl]
    have hlt := (key_before_iff (o := o) (g := G) (g' := g)).mp hlast
    have hn : ¬ (VKey.mk o KL0 g).num ≤ (VKey.mk o last G).num := by
      intro hc
      have := p25_le_of_num_le hc
      omega
    exact decide_eq_false fun hc => hn ((VKey.bytesCompare_le _ _).mp hc)

/-- Loops over well-behaved ranges, and over ranges where there is nothing, end. -/
theorem range_ends {l : AStore} (hl : l.Sorted) (hm : ∃ m, l.enc.stores metadataVersionKey m) {G o : UInt64}
    {first last : Key} (hlast : last.before KL0)
    (hok : (∃ k, l.enc.hasKey o k ∧ k.typ = first.typ ∧ k.objectID = first.objectID) → l.enc.RangeOK o last)
    {rd : Range × Slice} (h : (Ix.mk l.enc G).range o first last = .ok rd) : ∃ n, Range.EndsIn n rd := by
  by_cases hk : ∃ k, l.enc.hasKey o k ∧ k.typ = first.typ ∧ k.objectID = first.objectID
  · obtain ⟨rd', items, h1, h2, -⟩ := range_yields hl (first := first) hm (hok hk) G
    rw [h] at h1
    cases h1
    exact ⟨_, h2.ends⟩
  · exact ⟨1, .done (range_absent hl hlast hk h)⟩

theorem KL2_before {t : UInt8} {id : UInt64} (h : t.toNat < 255) : (KL2 t id).before KL0 := by
  simp only [Key.before, Key.fields, KL2, KL0, lexLt]
  exact Or.inl h

/-- A bucket where all ranges are well behaved: the loops end. -/
theorem Bucket.RecoverOK.loopsEnd {b : Bucket} (hb : b.WF) {m : Bytes} (hm : b.stores metadataVersionKey m)
    (h : b.RecoverOK) (G : UInt64) : (Ix.mk b G).LoopsEnd := by
  obtain ⟨l, hl, rfl⟩ := hb.exists_abs
  refine ⟨fun o id rd hr => ?_, fun o id rd hr => ?_, fun rd hr => ?_, fun rd hr => ?_⟩
  · refine range_ends hl ⟨m, hm⟩ (KL2_before (t := 84) (by decide)) ?_ hr
    rintro ⟨⟨i, t, off⟩, hk, h1, h2⟩
    simp only [KF] at h1 h2
    subst h1; subst h2
    exact h.dirs _ _ off hk
  · refine range_ends hl ⟨m, hm⟩ (KL2_before (t := 108) (by decide)) ?_ hr
    rintro ⟨⟨i, t, off⟩, hk, h1, h2⟩
    simp only [KF] at h1 h2
    subst h1; subst h2
    exact h.extents _ _ off hk
  · refine range_ends hl ⟨m, hm⟩ (KL2_before (t := 228) (by decide)) ?_ hr
    rintro ⟨⟨i, t, off⟩, hk, h1, h2⟩
    simp only [KF] at h1 h2
    subst h1; subst h2
    exact h.chunks off hk
  · refine range_ends hl ⟨m, hm⟩ (KL2_before (t := 132) (by decide)) ?_ hr
    rintro ⟨⟨i, t, off⟩, hk, h1, h2⟩
    simp only [KF] at h1 h2
    subst h1; subst h2
    exact h.subvolumes off hk

/-- C60 (what is proved): the run ends, whatever cycles and shared directories there
are, whatever system calls and reads fail, if the iterations over the index end: there
is a bound on the number of iterations of each loop and on the depth of recursion that
depends on the index only. Missing: indexes on which an iteration over the items of one
inode does not end (`C60_endless_listing`, C33). -/
theorem C60_terminates_partial (ix : Ix) (h : ix.LoopsEnd) :
    ∃ N, ∀ rf ≥ N, ∀ fuel ≥ N, ∀ (env : Env) (clobber : Bool) (dest : Bytes) (fs : HostFS) (s' : RecState),
      doRecoverFiles env rf fuel ix clobber dest (RecState.start fs) ≠ .hang s' := by
  obtain ⟨N, hN⟩ := h.bound
  refine ⟨max N ((RecState.start ⟨[], 0⟩).fresh.ncard + 1), fun rf hrf fuel hfuel env clobber dest fs s' hh => ?_⟩
  have hf := RFin.all (env := env) (n := fuel - 1) (hN.mono (show N ≤ rf by omega)) (clobber := clobber) (dest := dest)
    (RecState.start fs) (show (RecState.start ⟨[], 0⟩).fresh.ncard ≤ fuel - 1 by omega)
  rw [show fuel - 1 + 1 = fuel by omega] at hf
  unfold tp at hf
  rw [hh] at hf
  exact hf

/-- C60 (what is proved), in terms of what is stored. -/
theorem C60_terminates_stored_partial (b : Bucket) (hb : b.WF) (m : Bytes) (hm : b.stores metadataVersionKey m)
    (h : b.RecoverOK) (G : UInt64) :
    ∃ N, ∀ rf ≥ N, ∀ fuel ≥ N, ∀ (env : Env) (clobber : Bool) (dest : Bytes) (fs : HostFS) (s' : RecState),
      doRecoverFiles env rf fuel ⟨b, G⟩ clobber dest (RecState.start fs) ≠ .hang s' :=
  C60_terminates_partial _ (h.loopsEnd hb hm G)

/-! ## Examples -/

theorem no_type_of {l : AStore} {o id off : UInt64} {t : UInt8} (h : ∀ e ∈ l, e.1.key.typ ≠ t) :
    ¬ l.enc.hasKey o ⟨id, t, off⟩ := by
  intro hk
  obtain ⟨g, x, hx⟩ := enc_hasKey.mp hk
  exact h _ hx rfl

theorem exLoopStore_sorted : exLoopStore.Sorted := sorted_of_before (by decide +kernel)

/-- The hypotheses hold of an index with a directory that contains itself ... -/
theorem exLoopStore_ok : exLoopStore.enc.WF ∧ exLoopStore.enc.stores metadataVersionKey [] ∧ exLoopStore.enc.RecoverOK := by
  refine ⟨AStore.enc_wf exLoopStore_sorted, enc_stores.mpr (by simp [exLoopStore]), ?_, ?_, ?_, ?_⟩
  · intro o id off hk
    obtain ⟨g, x, hx⟩ := enc_hasKey.mp hk
    simp only [exLoopStore, List.mem_cons, List.not_mem_nil, or_false, Prod.mk.injEq, VKey.mk.injEq, Key.mk.injEq] at hx
    rcases hx with ⟨⟨rfl, ⟨rfl, -, rfl⟩, rfl⟩, rfl⟩ | ⟨⟨-, ⟨-, h, -⟩, -⟩, -⟩ | ⟨h, -⟩
    · refine rangeOK_of (by decide) ?_ ?_ ?_
      · intro e he ho
        simp only [exLoopStore, List.mem_cons, List.not_mem_nil, or_false] at he
        rcases he with rfl | rfl | rfl
        · exact ⟨_, mkItem_holds _ _ (by decide)⟩
        · exact ⟨_, mkItem_holds _ _ (by decide)⟩
        · exact absurd ho (by decide)
      · decide +kernel
      · exact ⟨_, List.mem_cons_of_mem _ List.mem_cons_self, rfl, by decide +kernel⟩
    · exact absurd h (by decide)
    · exact absurd (congrArg (·.key.typ) h) (by show ¬ (84 : UInt8) = 255; decide)
  · exact fun o id off hk => absurd hk (no_type_of (by decide +kernel))
  · exact fun off hk => absurd hk (no_type_of (by decide +kernel))
  · exact fun off hk => absurd hk (no_type_of (by decide +kernel))

/-- ... which is entered once. -/
example : (doRecoverFiles quietEnv 9 9 ⟨exLoopStore.enc, ~~~0⟩ false (ascii "/d") (RecState.start exEmptyHost)).state.entered =
    [(5, 256)] := by decide +kernel

/-- `MkdirAll` of a directory that exists. -/
theorem mkdirAll_exists {env : Env} {p : Bytes} {s : RecState} (h : s.fs.stat true p = some true)
    (hf : env.fails .stat s.calls = false) : mkdirAll env p s = .ok true { s with calls := s.calls + 1 } := by
  unfold mkdirAll mkdirAllAux sysStat
  simp only [bind_def, tick, hf, Bool.false_eq_true, if_false, get_run, pure_run, h]

/-- The file tree and a subvolume; of the file tree the directory index items are lost. -/
def exLostMain : AStore :=
  [(⟨5, ⟨256, 1, 0⟩, 10⟩, mkItem ⟨256, 1, 0⟩ (List.replicate 160 0)),
   (⟨5, ⟨256, 84, 1⟩, 10⟩, mkItem ⟨256, 84, 1⟩ (exEntry ⟨257, 1, 0⟩ 1 [97])),
   (⟨256, ⟨256, 1, 0⟩, 11⟩, mkItem ⟨256, 1, 0⟩ (List.replicate 160 0)),
   (metadataVersionKey, [])]

/-- C60 is false of the code: on an index of two trees where the directory index items
of the first are missing, recover never ends. -/
theorem C60_endless_listing (rf fuel : Nat) :
    ∃ s, doRecoverFiles quietEnv rf fuel ⟨exLostMain.enc, ~~~0⟩ false (ascii "/d") (RecState.start exHost) = .hang s := by
  let E := (VKey.mk 5 (KL2 84 256) (~~~0)).encode
  let i1 : VKey × Bytes := (⟨5, ⟨256, 1, 0⟩, 10⟩, mkItem ⟨256, 1, 0⟩ (List.replicate 160 0))
  let i2 : VKey × Bytes := (⟨5, ⟨256, 84, 1⟩, 10⟩, mkItem ⟨256, 84, 1⟩ (exEntry ⟨257, 1, 0⟩ 1 [97]))
  have hr : (Ix.mk exLostMain.enc (~~~0)).dirItems 5 256 =
      .ok (Range.at exLostMain.enc E i2, ⟨exEntry ⟨257, 1, 0⟩ 1 [97], []⟩) := by decide +kernel
  have hn2 : (Range.at exLostMain.enc E i2).hasNext = true := by decide +kernel
  have hn1 : (Range.at exLostMain.enc E i1).hasNext = true := by decide +kernel
  have hx2 : (Range.at exLostMain.enc E i2).next =
      .ok (Range.at exLostMain.enc E i1, ⟨List.replicate 160 0, []⟩) := by decide +kernel
  have hx1 : (Range.at exLostMain.enc E i1).next =
      .ok (Range.at exLostMain.enc E i2, ⟨exEntry ⟨257, 1, 0⟩ 1 [97], []⟩) := by decide +kernel
  have hread : readDirItems rf ⟨exLostMain.enc, ~~~0⟩ 5 256 = .hang := by
    unfold readDirItems
    rw [hr, Go.ok_bind, rangeLoop_hang _ (fun rd => rd = (Range.at exLostMain.enc E i2, ⟨exEntry ⟨257, 1, 0⟩ 1 [97], []⟩) ∨
      rd = (Range.at exLostMain.enc E i1, ⟨List.replicate 160 0, []⟩)) ?_ ?_ rf [] _ (Or.inl rfl)]
    · rfl
    · rintro rd (rfl | rfl)
      · exact ⟨hn2, _, hx2, Or.inr rfl⟩
      · exact ⟨hn1, _, hx1, Or.inl rfl⟩
    · exact fun s rd _ => ⟨_, rfl⟩
  have hmk : ∀ s : RecState, s.fs = exHost → mkdirAll quietEnv (ascii "/d") s = .ok true { s with calls := s.calls + 1 } :=
    fun s hs => mkdirAll_exists (by rw [hs]; decide +kernel) rfl
  unfold doRecoverFiles
  simp only [bind_def, hmk (RecState.start exHost) rfl, if_true]
  cases fuel with
  | zero => exact ⟨_, rfl⟩
  | succ fuel =>
    obtain ⟨s, hs⟩ : ∃ s, recoverDir quietEnv rf ⟨exLostMain.enc, ~~~0⟩ false (fuel + 1) 5 256 (ascii "/d")
        { RecState.start exHost with calls := (RecState.start exHost).calls + 1 } = .hang s := by
      unfold recoverDir
      simp only [bind_def, get_run]
      rw [show (RecState.start exHost).visited.contains ((5, 256) : UInt64 × UInt64) = false by decide]
      simp only [Bool.false_eq_true, if_false, bind_def, modify_run, note]
      rw [hmk _ rfl]
      simp only [if_true, bind_def, hread, Cmd.lift]
      exact ⟨_, rfl⟩
    simp only [FSTreeObjectID, FirstFreeObjectID]
    simp only at hs
    rw [hs]
    exact ⟨_, rfl⟩

end Btrfscue
