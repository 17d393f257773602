import Verif.Spec.RecoverHang
import Verif.Props.RecoverCrash
/-!
# C60: what keeps a run of recover from ending
-/

namespace Btrfscue

open Cmd

attribute [local irreducible] Cmd.wp

/-- If the command returns, `Q` holds; if it does not end, `K` holds of the state it got to. -/
def Cmd.hg {σ α : Type} (c : Cmd σ α) (Q : α → σ → Prop) (K : σ → Prop) (s : σ) : Prop :=
  match c s with
  | .ok a t => Q a t
  | .hang t => K t
  | .exit _ => True
  | .crash _ => True

section
variable {σ α β : Type}

theorem hg_bind {x : Cmd σ α} {f : α → Cmd σ β} {Q : β → σ → Prop} {K : σ → Prop} {s : σ} :
    hg (x >>= f) Q K s ↔ hg x (fun a => hg (f a) Q K) K s := by
  unfold hg
  rw [bind_def]
  cases x s <;> rfl

theorem hg_mono {c : Cmd σ α} {Q Q' : α → σ → Prop} {K K' : σ → Prop} {s : σ} (h : hg c Q K s)
    (hq : ∀ a t, Q a t → Q' a t) (hk : ∀ t, K t → K' t) : hg c Q' K' s := by
  unfold hg at h ⊢
  cases hc : c s <;> rw [hc] at h <;> simp only at h ⊢
  · exact hq _ _ h
  · exact hk _ h

theorem hg_of_keeps {c : Cmd σ α} {I : σ → Prop} {s : σ} (h : Keeps I c) (hs : I s) : hg c (fun _ t => I t) I s := by
  have := Keeps.state h hs
  unfold hg
  cases hc : c s <;> rw [hc] at this <;> first | exact this | trivial

theorem hg_of_tp {c : Cmd σ α} {Q : α → σ → Prop} {K : σ → Prop} {s : σ} (h : tp c Q s) : hg c Q K s := by
  unfold tp at h
  unfold hg
  cases hc : c s <;> rw [hc] at h <;> first | exact h | trivial | exact h.elim

end

/-- From states with at most `n` pairs not visited: no fewer are visited after the command; if it does not end, `K` holds. -/
def HF (n : Nat) (K : RecState → Prop) {α : Type} (c : Rec α) : Prop :=
  ∀ s : RecState, s.fresh.ncard ≤ n → hg c (fun _ t => s.visited ⊆ t.visited) K s

section
variable {n : Nat} {α β : Type} {K : RecState → Prop} {env : Env} {rf : Nat} {ix : Ix}

theorem RFin.hf {c : Rec α} (h : RFin n c) : HF n K c := fun s hs => hg_of_tp (h s hs)

theorem HF.bind {x : Rec α} {f : α → Rec β} (hx : HF n K x) (hf : ∀ a, HF n K (f a)) : HF n K (x >>= f) :=
  fun s hs => hg_bind.mpr (hg_mono (hx s hs) (fun a t ht => hg_mono (hf a t (Nat.le_trans (fresh_le ht) hs))
    (fun _ _ h => List.Subset.trans ht h) fun _ h => h) fun _ h => h)

theorem HF.ite {p : Prop} [Decidable p] {x y : Rec α} (hx : p → HF n K x) (hy : ¬ p → HF n K y) :
    HF n K (if p then x else y) := by
  by_cases h : p
  · rw [if_pos h]; exact hx h
  · rw [if_neg h]; exact hy h

theorem HF.lift_bind {x : Go α} {f : α → Rec β} (h : x ≠ .hang) (hf : ∀ a, x = .ok a → HF n K (f a)) :
    HF n K (Cmd.lift x >>= f) := fun s hs => hg_bind.mpr (hg_of_tp (tp_lift_of h fun a ha => hf a ha s hs))

theorem HF.rangeLoopRec {body : Range → Slice → Rec (Option RecErr)} (hb : ∀ r e, HF n K (body r e)) {k : Nat}
    {rd : Range × Slice} (h : Range.EndsIn k rd) : HF n K (rangeLoopRec body k rd) := by
  induction h with
  | done h => unfold Btrfscue.rangeLoopRec; rw [h]; exact RFin.pure.hf
  | crash h =>
    unfold Btrfscue.rangeLoopRec
    refine HF.ite (fun _ => HF.bind (hb _ _) fun r => ?_) fun _ => RFin.pure.hf
    cases r with
    | some e => exact RFin.pure.hf
    | none => rw [h]; exact fun s _ => trivial
  | step h _ ih =>
    unfold Btrfscue.rangeLoopRec
    refine HF.ite (fun _ => HF.bind (hb _ _) fun r => ?_) fun _ => RFin.pure.hf
    cases r with
    | some e => exact RFin.pure.hf
    | none => exact HF.lift_bind (by rw [h]; simp) fun rd2 h2 => by rw [h] at h2; cases h2; exact ih

/-- What a loop that collects items has collected, it got to. -/
theorem collect_gets : ∀ (fuel : Nat) (s : List DirItem) (rd : Range × Slice) (r : List DirItem × Bool),
    rangeLoop collectBody fuel s rd = .ok r → ∀ di ∈ r.1, di ∈ s ∨ ∃ rd', Range.Gets rd rd' ∧ rd'.2 = di := by
  intro fuel
  induction fuel with
  | zero => intro s rd r h; cases h
  | succ fuel ih =>
    rintro s ⟨r0, d0⟩ r h di hdi
    simp only [rangeLoop] at h
    by_cases hn : r0.hasNext = true
    · rw [if_pos hn] at h
      simp only [collectBody, Go.ok_bind, Bool.false_eq_true, if_false] at h
      obtain ⟨rd1, h1, h2⟩ := Go.bind_eq_ok.mp h
      rcases ih _ _ _ h2 di hdi with h3 | ⟨rd', h3, h4⟩
      · rcases List.mem_append.mp h3 with h4 | h4
        · exact Or.inl h4
        · exact Or.inr ⟨(r0, d0), .here hn, (List.mem_singleton.mp h4).symm⟩
      · exact Or.inr ⟨rd', .next hn h1 h3, h4⟩
    · rw [if_neg hn] at h
      cases h
      exact Or.inl hdi

/-- Where an iteration does not end, a loop that collects items does not. -/
theorem collect_endless : ∀ (fuel : Nat) (s : List DirItem) (rd : Range × Slice), Range.Endless rd →
    rangeLoop collectBody fuel s rd = .hang := by
  intro fuel
  induction fuel with
  | zero => intro s rd _; rfl
  | succ fuel ih =>
    rintro s ⟨r0, d0⟩ h
    have hn : r0.hasNext = true := by
      cases hn : r0.hasNext with
      | true => rfl
      | false => exact absurd (.done hn) (h 1)
    simp only [rangeLoop, if_pos hn, collectBody, Go.ok_bind, Bool.false_eq_true, if_false]
    cases hx : r0.next with
    | ok rd' =>
      rw [Go.ok_bind]
      exact ih _ _ fun k hk => h (k + 1) (.step hx hk)
    | panic => exact absurd (.crash hx) (h 1)
    | hang => rfl

/-- One bound for all loops that end. -/
structure Ix.BoundFor (ix : Ix) (N : Nat) : Prop where
  dirs : ∀ o id rd, ix.dirItems o id = .ok rd → Range.Endless rd ∨ Range.EndsIn N rd
  extents : ∀ o id rd, ix.fileExtentItems o id = .ok rd → Range.Endless rd ∨ Range.EndsIn N rd
  chunks : ∀ rd, ix.chunks = .ok rd → Range.Endless rd ∨ Range.EndsIn N rd
  subvolumes : ∀ rd, ix.subvolumes = .ok rd → Range.Endless rd ∨ Range.EndsIn N rd

theorem endless_or_mono {rd : Range × Slice} {n m : Nat} (h : Range.Endless rd ∨ Range.EndsIn n rd) (hm : n ≤ m) :
    Range.Endless rd ∨ Range.EndsIn m rd := h.imp id fun h => h.mono hm

theorem Ix.BoundFor.mono {ix : Ix} {n m : Nat} (h : ix.BoundFor n) (hm : n ≤ m) : ix.BoundFor m :=
  ⟨fun o i r hr => endless_or_mono (h.dirs o i r hr) hm, fun o i r hr => endless_or_mono (h.extents o i r hr) hm,
    fun r hr => endless_or_mono (h.chunks r hr) hm, fun r hr => endless_or_mono (h.subvolumes r hr) hm⟩

theorem bound_of (g : Go (Range × Slice)) : ∃ n, ∀ rd, g = .ok rd → Range.Endless rd ∨ Range.EndsIn n rd := by
  cases g with
  | panic => exact ⟨0, fun rd h => by cases h⟩
  | hang => exact ⟨0, fun rd h => by cases h⟩
  | ok rd =>
    by_cases h : ∃ n, Range.EndsIn n rd
    · obtain ⟨n, hn⟩ := h
      exact ⟨n, fun rd' h' => by cases h'; exact Or.inr hn⟩
    · exact ⟨0, fun rd' h' => by cases h'; exact Or.inl fun n hn => h ⟨n, hn⟩⟩

theorem Ix.bounded (ix : Ix) : ∃ N, ix.BoundFor N := by
  obtain ⟨n1, h1⟩ := uniform_bound (p := fun x n => ∀ rd, ix.dirItems x.1 x.2 = .ok rd → Range.Endless rd ∨ Range.EndsIn n rd)
    (fun x n m hp hm rd hr => endless_or_mono (hp rd hr) hm) fun x => bound_of _
  obtain ⟨n2, h2⟩ := uniform_bound (p := fun x n => ∀ rd, ix.fileExtentItems x.1 x.2 = .ok rd → Range.Endless rd ∨ Range.EndsIn n rd)
    (fun x n m hp hm rd hr => endless_or_mono (hp rd hr) hm) fun x => bound_of _
  obtain ⟨n3, h3⟩ := bound_of ix.chunks
  obtain ⟨n4, h4⟩ := bound_of ix.subvolumes
  exact ⟨n1 + n2 + n3 + n4, fun o i r hr => endless_or_mono (h1 (o, i) r hr) (by omega),
    fun o i r hr => endless_or_mono (h2 (o, i) r hr) (by omega), fun r hr => endless_or_mono (h3 r hr) (by omega),
    fun r hr => endless_or_mono (h4 r hr) (by omega)⟩

/-- A directory with something endless was entered. -/
def Stuck (ix : Ix) (s : RecState) : Prop := ∃ o d, (o, d) ∈ s.entered ∧ ix.endlessAt o d

theorem HF.entry (hc : ∀ rd, ix.chunks = .ok rd → Range.EndsIn rf rd) {clobber : Bool}
    {rec : UInt64 → UInt64 → Bytes → Rec (Option RecErr)} (hrec : ∀ o d p, HF n K (rec o d p)) {owner : UInt64} {dest : Bytes} {di : DirItem}
    (hx : ∀ k rd, DirItem.location di = .ok k → DirItem.typ di = .ok 1 → ix.fileExtentItems owner k.objectID = .ok rd → Range.EndsIn rf rd) :
    HF n K (recoverEntry rec env rf ix clobber owner dest di) := by
  unfold recoverEntry
  refine HF.bind RFin.lift.hf fun name => HF.ite (fun _ => RFin.pure.hf) fun _ => ?_
  unfold recoverNamed
  refine HF.bind RFin.lift.hf fun a => HF.bind RFin.lift.hf fun b => HF.lift_bind NH.out fun c hc' => HF.lift_bind NH.out fun t ht => ?_
  refine HF.ite (fun _ => HF.bind (hrec _ _ _) fun _ => RFin.report.hf) fun _ => ?_
  refine HF.ite (fun h1 => ?_) fun _ => ?_
  · subst h1
    exact (RFin.bind (RFin.file hc fun rd => hx c rd hc' ht) fun _ => RFin.report).hf
  · exact HF.ite (fun _ => (RFin.bind (RFin.symlink hc) fun _ => RFin.report).hf) fun _ => RFin.pure.hf

theorem stuck_keeps (clobber : Bool) (o d : UInt64) (v : List (UInt64 × UInt64)) :
    RecInv env rf ix clobber (fun s => (o, d) ∈ s.entered ∧ v ⊆ s.visited) (fun _ => True) (fun _ => True) (fun _ => True) := by
  refine OpInv.recInv ⟨fun _ _ h => h, fun _ _ _ _ _ h => h, fun _ _ _ h => h, fun _ _ _ h => h⟩ clobber
    (fun _ _ h => h) fun s o' d' p h => ⟨?_, List.Subset.trans h.2 (List.subset_cons_self _ _)⟩
  exact List.mem_cons_of_mem _ h.1

theorem HF.dir (h : ix.BoundFor rf) (hc : ∀ rd, ix.chunks = .ok rd → Range.EndsIn rf rd) (clobber : Bool) :
    ∀ (n : Nat) (o d : UInt64) (p : Bytes), HF n (Stuck ix) (recoverDir env rf ix clobber (n + 1) o d p) := by
  have key : ∀ (n : Nat) (rec : UInt64 → UInt64 → Bytes → Rec (Option RecErr)) (o d : UInt64) (p : Bytes),
      (∀ o d p, HF n (Stuck ix) (rec o d p)) → ¬ ix.endlessAt o d →
      HF n (Stuck ix) (do
        if ← mkdirAll env p then
          let dis ← Cmd.lift (readDirItems rf ix o d)
          recoverEntries rec env rf ix clobber o p dis
          return none
        else return some RecErr.sys) := by
    intro n rec o d p ih hgood
    have hd : ∀ rd, ix.dirItems o d = .ok rd → Range.EndsIn rf rd := fun rd hr =>
      (h.dirs o d rd hr).resolve_left fun he => hgood (Or.inl ⟨rd, hr, he⟩)
    refine HF.bind RFin.mkdirAll.hf fun ok => HF.ite (fun _ => ?_) fun _ => RFin.pure.hf
    refine HF.lift_bind (readDirItems_nh hd) fun dis hdis => HF.bind ?_ fun _ => RFin.pure.hf
    obtain ⟨rd, h1, h2⟩ := Go.bind_eq_ok.mp hdis
    obtain ⟨r, h3, h4⟩ := Go.bind_eq_ok.mp h2
    cases h4
    have hall := collect_gets _ _ _ _ h3
    revert hall
    generalize r.1 = dis
    intro hall
    have : ∀ l : List DirItem, (∀ di ∈ l, di ∈ dis) → HF n (Stuck ix) (recoverEntries rec env rf ix clobber o p l) := by
      intro l
      induction l with
      | nil => exact fun _ => RFin.pure.hf
      | cons di l ihl =>
        intro hl
        refine HF.bind (HF.entry hc ih fun k rd' hk ht hx => ?_) fun _ => ihl fun di hd => hl di (List.mem_cons_of_mem _ hd)
        refine (h.extents _ _ _ hx).resolve_left fun he => hgood (Or.inr ⟨k.objectID, rd', ?_, hx, he⟩)
        rcases hall di (hl di List.mem_cons_self) with h5 | ⟨rd2, h5, h6⟩
        · cases h5
        · subst h6
          exact ⟨rd, rd2, k, h1, h5, hk, rfl, ht⟩
    exact this dis fun _ h => h
  have visited : ∀ (n : Nat) (o d : UInt64) (p : Bytes) (s : RecState), (o, d) ∈ s.visited →
      hg (recoverDir env rf ix clobber (n + 1) o d p) (fun _ t => s.visited ⊆ t.visited) (Stuck ix) s := by
    intro n o d p s hv
    unfold Btrfscue.recoverDir hg
    simp only [bind_def, get_run]
    rw [if_pos (List.contains_iff_mem.mpr hv)]
    exact List.Subset.refl _
  intro n
  induction n with
  | zero =>
    intro o d p s hs
    refine visited 0 o d p s ?_
    by_contra hn
    have : s.fresh.ncard ≠ 0 := (Set.ncard_ne_zero_of_mem (a := (o, d)) hn (Set.toFinite _))
    omega
  | succ n ih =>
    intro o d p s hs
    by_cases hv : (o, d) ∈ s.visited
    · exact visited _ o d p s hv
    · unfold Btrfscue.recoverDir
      have hv' : ¬ s.visited.contains (o, d) = true := fun hc => hv (List.contains_iff_mem.mp hc)
      rw [hg_bind]
      show hg (if s.visited.contains (o, d) = true then _ else _) _ _ s
      rw [if_neg hv', hg_bind]
      show hg _ _ _ ({ s with visited := (o, d) :: s.visited } : RecState)
      rw [hg_bind]
      show hg _ _ _ ({ s with visited := (o, d) :: s.visited, log := .enter o d p :: s.log } : RecState)
      have hlt : ({ s with visited := (o, d) :: s.visited, log := .enter o d p :: s.log } : RecState).fresh.ncard < s.fresh.ncard := by
        refine Set.ncard_lt_ncard ⟨fun x hx hxs => hx (List.mem_cons_of_mem _ hxs), fun hsub => ?_⟩ (Set.toFinite _)
        exact hsub hv List.mem_cons_self
      have hin : (o, d) ∈ ({ s with visited := (o, d) :: s.visited, log := .enter o d p :: s.log } : RecState).entered :=
        List.mem_cons_self
      have hsub : s.visited ⊆ ({ s with visited := (o, d) :: s.visited, log := .enter o d p :: s.log } : RecState).visited :=
        List.subset_cons_self _ _
      revert hlt hin hsub
      generalize ({ s with visited := (o, d) :: s.visited, log := .enter o d p :: s.log } : RecState) = s1
      intro hlt hin hsub
      by_cases hbad : ix.endlessAt o d
      · have hI := stuck_keeps (env := env) (rf := rf) (ix := ix) clobber o d s.visited
        refine hg_mono (hg_of_keeps (I := fun t => (o, d) ∈ t.entered ∧ s.visited ⊆ t.visited) ?_ ⟨hin, hsub⟩)
          (fun _ t h => h.2) fun t h => ⟨o, d, h.1, hbad⟩
        refine Keeps.bind (hI.mkdirAll p trivial) fun ok => Keeps.ite (fun _ => ?_) fun _ => Keeps.pure
        refine Keeps.bind Keeps.lift fun dis => ?_
        exact Keeps.bind (hI.entries (fun o d p _ => hI.recoverDir (n + 1) o d p trivial) o trivial dis fun _ _ => trivial) fun _ => Keeps.pure
      · exact hg_mono (key n _ o d p ih hbad s1 (by omega)) (fun _ t ht => List.Subset.trans hsub ht) fun _ h => h

/-- C60, for every index and every environment: if a run of recover does not end, then iterating over the chunks or the
subvolumes does not, or the run has entered a directory where iterating over the entries does not end, or iterating over the
extents of a file among them. The number of iterations and the depth of recursion of a run that ends have a bound that depends on the index only. -/
theorem C60_hang_cause (ix : Ix) :
    ∃ N, ∀ rf ≥ N, ∀ fuel ≥ N, ∀ (env : Env) (clobber : Bool) (dest : Bytes) (fs : HostFS) (s' : RecState),
      doRecoverFiles env rf fuel ix clobber dest (RecState.start fs) = .hang s' →
      (∃ rd, ix.chunks = .ok rd ∧ Range.Endless rd) ∨ (∃ rd, ix.subvolumes = .ok rd ∧ Range.Endless rd) ∨
      ∃ o d, (o, d) ∈ s'.entered ∧ ix.endlessAt o d := by
  obtain ⟨N, hN⟩ := ix.bounded
  refine ⟨max N ((RecState.start ⟨[], 0⟩).fresh.ncard + 1), fun rf hrf fuel hfuel env clobber dest fs s' hh => ?_⟩
  by_cases hch : ∃ rd, ix.chunks = .ok rd ∧ Range.Endless rd
  · exact Or.inl hch
  by_cases hsv : ∃ rd, ix.subvolumes = .ok rd ∧ Range.Endless rd
  · exact Or.inr (Or.inl hsv)
  refine Or.inr (Or.inr ?_)
  have hb := hN.mono (show N ≤ rf by omega)
  have hc : ∀ rd, ix.chunks = .ok rd → Range.EndsIn rf rd := fun rd hr => (hb.chunks rd hr).resolve_left fun h => hch ⟨rd, hr, h⟩
  have hall : HF (fuel - 1) (Stuck ix) (doRecoverFiles env rf (fuel - 1 + 1) ix clobber dest) := by
    unfold doRecoverFiles
    refine HF.bind RFin.mkdirAll.hf fun ok => HF.ite (fun _ => ?_) fun _ => RFin.exit.hf
    refine HF.bind (HF.dir hb hc clobber _ _ _ _) fun e => HF.bind RFin.report.hf fun _ => ?_
    refine HF.lift_bind NH.out fun rd hrd => HF.bind (HF.rangeLoopRec (fun r e => ?_)
      ((hb.subvolumes _ hrd).resolve_left fun h => hsv ⟨rd, hrd, h⟩)) fun _ => RFin.pure.hf
    unfold recoverSubvol
    refine HF.bind RFin.lift.hf fun k => HF.bind RFin.get.hf fun s => HF.ite (fun _ => RFin.pure.hf) fun _ => ?_
    exact HF.bind (HF.dir hb hc clobber _ _ _ _) fun e => HF.bind RFin.report.hf fun _ => RFin.pure.hf
  have := hall (RecState.start fs) (show (RecState.start ⟨[], 0⟩).fresh.ncard ≤ fuel - 1 by omega)
  rw [show fuel - 1 + 1 = fuel by omega] at this
  unfold hg at this
  rw [hh] at this
  exact this

/-- C60 is false of the code for every index where iterating over the entries of the top directory does not end: where the
destination is a directory that exists, the run does not end. -/
theorem C60_endless_top (ix : Ix) (rd : Range × Slice) (h : ix.dirItems 5 256 = .ok rd) (he : Range.Endless rd)
    (env : Env) (rf fuel : Nat) (clobber : Bool) (dest : Bytes) (fs : HostFS)
    (hst : ∀ n, env.fails .stat n = false) (hd : fs.stat true dest = some true) :
    ∃ s', doRecoverFiles env rf fuel ix clobber dest (RecState.start fs) = .hang s' := by
  obtain ⟨n, hmk⟩ := mkdirAll_there (s := RecState.start fs) hst hd
  have hread : readDirItems rf ix 5 256 = .hang := by
    unfold readDirItems
    rw [h, Go.ok_bind, collect_endless _ _ _ he]
    rfl
  have hdir : ∃ s', recoverDir env rf ix clobber fuel 5 256 dest { RecState.start fs with calls := n } = .hang s' := by
    cases fuel with
    | zero => exact ⟨_, rfl⟩
    | succ fuel =>
      unfold recoverDir
      obtain ⟨n', hmk'⟩ := mkdirAll_there (env := env) (p := dest)
        (s := { fs := fs, calls := n, visited := [(5, 256)], log := [.enter 5 256 dest] }) hst hd
      refine ⟨{ fs := fs, calls := n', visited := [(5, 256)], log := [.enter 5 256 dest] }, ?_⟩
      show (mkdirAll env dest >>= _) ({ fs := fs, calls := n, visited := [(5, 256)], log := [.enter 5 256 dest] } : RecState) = _
      rw [bind_ok hmk']
      simp only [if_true, hread]
      rfl
  obtain ⟨s', hs⟩ := hdir
  refine ⟨s', ?_⟩
  unfold doRecoverFiles
  rw [bind_ok hmk]
  simp only [if_true]
  exact bind_hang hs

end

/-- Not vacuous: in `exLostMain` iterating over the entries of the top directory does not end, and so recover does not. -/
theorem exLostMain_endless : ∃ rd, (Ix.mk exLostMain.enc (~~~0)).dirItems 5 256 = .ok rd ∧ Range.Endless rd := by
  let E := (VKey.mk 5 (KL2 84 256) (~~~0)).encode
  let i1 : VKey × Bytes := (⟨5, ⟨256, 1, 0⟩, 10⟩, mkItem ⟨256, 1, 0⟩ (List.replicate 160 0))
  let i2 : VKey × Bytes := (⟨5, ⟨256, 84, 1⟩, 10⟩, mkItem ⟨256, 84, 1⟩ (exEntry ⟨257, 1, 0⟩ 1 [97]))
  have hr : (Ix.mk exLostMain.enc (~~~0)).dirItems 5 256 =
      .ok (Range.at exLostMain.enc E i2, ⟨exEntry ⟨257, 1, 0⟩ 1 [97], []⟩) := by decide +kernel
  have hn2 : (Range.at exLostMain.enc E i2).hasNext = true := by decide +kernel
  have hn1 : (Range.at exLostMain.enc E i1).hasNext = true := by decide +kernel
  have hx2 : (Range.at exLostMain.enc E i2).next =
      .ok (Range.at exLostMain.enc E i1, ⟨List.replicate 160 0, []⟩) := by decide +kernel
  have hx1 : (Range.at exLostMain.enc E i1).next =
      .ok (Range.at exLostMain.enc E i2, ⟨exEntry ⟨257, 1, 0⟩ 1 [97], []⟩) := by decide +kernel
  refine ⟨_, hr, ?_⟩
  have : ∀ n rd, Range.EndsIn n rd → rd ≠ (Range.at exLostMain.enc E i2, ⟨exEntry ⟨257, 1, 0⟩ 1 [97], []⟩) ∧
      rd ≠ (Range.at exLostMain.enc E i1, ⟨List.replicate 160 0, []⟩) := by
    intro n rd h
    induction h with
    | done h => exact ⟨(fun e => by (rw [e, hn2] at h; cases h)), (fun e => by (rw [e, hn1] at h; cases h))⟩
    | crash h => exact ⟨(fun e => by (rw [e, hx2] at h; cases h)), (fun e => by (rw [e, hx1] at h; cases h))⟩
    | step h _ ih =>
      refine ⟨fun e => ?_, fun e => ?_⟩
      · rw [e] at h; rw [hx2] at h; injection h with h; exact ih.2 h.symm
      · rw [e] at h; rw [hx1] at h; injection h with h; exact ih.1 h.symm
  exact fun n hn => (this n _ hn).1 rfl

end Btrfscue
