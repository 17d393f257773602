import Verif.Proof.NoHang
import Verif.Spec.Recover
import Mathlib.Data.Set.Card
import Mathlib.Data.Set.Finite.Range
import Mathlib.Data.Set.Finite.Lattice
/-!
# The recover command ends
-/

namespace Btrfscue

open Cmd

/-! ## Loops over the index -/

theorem Range.EndsIn.mono {n m : Nat} {rd : Range × Slice} (h : Range.EndsIn n rd) (hm : n ≤ m) : Range.EndsIn m rd := by
  induction h generalizing m with
  | done h => obtain ⟨k, rfl⟩ : ∃ k, m = k + 1 := ⟨m - 1, by omega⟩; exact .done h
  | crash h => obtain ⟨k, rfl⟩ : ∃ k, m = k + 1 := ⟨m - 1, by omega⟩; exact .crash h
  | step h _ ih => obtain ⟨k, rfl⟩ : ∃ k, m = k + 1 := ⟨m - 1, by omega⟩; exact .step h (ih (by omega))

theorem rangeLoop_nh {σ : Type} {body : σ → Range → Slice → Go (σ × Bool)} (hb : ∀ s r d, NH (body s r d)) {n : Nat}
    {rd : Range × Slice} (h : Range.EndsIn n rd) : ∀ s, rangeLoop body n s rd ≠ .hang := by
  induction h with
  | @done n rd h =>
    intro s
    obtain ⟨r, d⟩ := rd
    simp only [rangeLoop]
    simp only at h
    rw [h]; simp
  | @crash n rd h =>
    intro s
    obtain ⟨r, d⟩ := rd
    simp only [rangeLoop]
    by_cases hn : r.hasNext = true
    · rw [if_pos hn]
      intro hh
      rcases Go.bind_eq_hang.mp hh with h1 | ⟨⟨s', bk⟩, -, h2⟩
      · exact (hb _ _ _).out h1
      · cases bk with
        | true => simp at h2
        | false => simp only at h; simp [h] at h2
    · rw [if_neg hn]; simp
  | @step n rd rd' h _ ih =>
    intro s
    obtain ⟨r, d⟩ := rd
    simp only [rangeLoop]
    by_cases hn : r.hasNext = true
    · rw [if_pos hn]
      intro hh
      rcases Go.bind_eq_hang.mp hh with h1 | ⟨⟨s', bk⟩, -, h2⟩
      · exact (hb _ _ _).out h1
      · cases bk with
        | true => simp at h2
        | false =>
          simp only at h
          simp only [h, Bool.false_eq_true, if_false, Go.ok_bind] at h2
          exact ih _ h2
    · rw [if_neg hn]; simp

/-- One bound for all the loops of a run. -/
structure Ix.LoopsIn (ix : Ix) (N : Nat) : Prop where
  dirs : ∀ o id rd, ix.dirItems o id = .ok rd → Range.EndsIn N rd
  extents : ∀ o id rd, ix.fileExtentItems o id = .ok rd → Range.EndsIn N rd
  chunks : ∀ rd, ix.chunks = .ok rd → Range.EndsIn N rd
  subvolumes : ∀ rd, ix.subvolumes = .ok rd → Range.EndsIn N rd

theorem Ix.LoopsIn.mono {ix : Ix} {n m : Nat} (h : ix.LoopsIn n) (hm : n ≤ m) : ix.LoopsIn m :=
  ⟨fun o i r hr => (h.dirs o i r hr).mono hm, fun o i r hr => (h.extents o i r hr).mono hm,
    fun r hr => (h.chunks r hr).mono hm, fun r hr => (h.subvolumes r hr).mono hm⟩

instance : Finite UInt64 := Finite.of_injective UInt64.toFin fun a b h => by
  cases a; cases b
  rename_i x y
  simp only [UInt64.toFin] at h
  congr 1
  exact BitVec.toFin_inj.mp h

theorem uniform_bound {p : UInt64 × UInt64 → Nat → Prop} (hm : ∀ x n m, p x n → n ≤ m → p x m)
    (h : ∀ x, ∃ n, p x n) : ∃ n, ∀ x, p x n := by
  choose f hf using h
  obtain ⟨n, hn⟩ := (Set.finite_range f).bddAbove
  exact ⟨n, fun x => hm x _ _ (hf x) (hn (Set.mem_range_self x))⟩

theorem Ix.LoopsEnd.bound {ix : Ix} (h : ix.LoopsEnd) : ∃ N, ix.LoopsIn N := by
  obtain ⟨n1, h1⟩ := uniform_bound (p := fun x n => ∀ rd, ix.dirItems x.1 x.2 = .ok rd → Range.EndsIn n rd)
    (fun x n m hp hm rd hr => (hp rd hr).mono hm) (fun x => by
      cases hx : ix.dirItems x.1 x.2 with
      | ok rd => obtain ⟨n, hn⟩ := h.dirs _ _ _ hx; exact ⟨n, fun rd' hr => by cases hr; exact hn⟩
      | panic => exact ⟨0, fun rd' hr => by cases hr⟩
      | hang => exact ⟨0, fun rd' hr => by cases hr⟩)
  obtain ⟨n2, h2⟩ := uniform_bound (p := fun x n => ∀ rd, ix.fileExtentItems x.1 x.2 = .ok rd → Range.EndsIn n rd)
    (fun x n m hp hm rd hr => (hp rd hr).mono hm) (fun x => by
      cases hx : ix.fileExtentItems x.1 x.2 with
      | ok rd => obtain ⟨n, hn⟩ := h.extents _ _ _ hx; exact ⟨n, fun rd' hr => by cases hr; exact hn⟩
      | panic => exact ⟨0, fun rd' hr => by cases hr⟩
      | hang => exact ⟨0, fun rd' hr => by cases hr⟩)
  obtain ⟨n3, h3⟩ : ∃ n, ∀ rd, ix.chunks = .ok rd → Range.EndsIn n rd := by
    cases hx : ix.chunks with
    | ok rd => obtain ⟨n, hn⟩ := h.chunks _ hx; exact ⟨n, fun rd' hr => by cases hr; exact hn⟩
    | panic => exact ⟨0, fun rd' hr => by cases hr⟩
    | hang => exact ⟨0, fun rd' hr => by cases hr⟩
  obtain ⟨n4, h4⟩ : ∃ n, ∀ rd, ix.subvolumes = .ok rd → Range.EndsIn n rd := by
    cases hx : ix.subvolumes with
    | ok rd => obtain ⟨n, hn⟩ := h.subvolumes _ hx; exact ⟨n, fun rd' hr => by cases hr; exact hn⟩
    | panic => exact ⟨0, fun rd' hr => by cases hr⟩
    | hang => exact ⟨0, fun rd' hr => by cases hr⟩
  exact ⟨n1 + n2 + n3 + n4, fun o i r hr => (h1 (o, i) r hr).mono (by omega),
    fun o i r hr => (h2 (o, i) r hr).mono (by omega), fun r hr => (h3 r hr).mono (by omega),
    fun r hr => (h4 r hr).mono (by omega)⟩

/-! ## Commands end, and leave no fewer directories visited -/

/-- The pairs not visited yet. -/
def RecState.fresh (s : RecState) : Set (UInt64 × UInt64) := {x | x ∉ s.visited}

/-- From a state with at most `n` pairs not visited, the command ends with at least the
same pairs visited. -/
abbrev RFin (n : Nat) {α : Type} (c : Rec α) : Prop :=
  Ends (fun s : RecState => s.fresh.ncard ≤ n) (fun s t => s.visited ⊆ t.visited) c

section
variable {n : Nat} {α β : Type}

theorem fresh_le {s t : RecState} (h : s.visited ⊆ t.visited) : t.fresh.ncard ≤ s.fresh.ncard :=
  Set.ncard_le_ncard (fun x (hx : x ∉ t.visited) hs => hx (h hs)) (Set.toFinite _)

theorem RFin.bind {x : Rec α} {f : α → Rec β} (hx : RFin n x) (hf : ∀ a, RFin n (f a)) : RFin n (x >>= f) :=
  Ends.bind (fun _ _ h1 h2 => Nat.le_trans (fresh_le h2) h1) (fun _ _ _ h1 h2 => List.Subset.trans h1 h2) hx hf

theorem RFin.pure {a : α} : RFin n (pure a : Rec α) := fun _ _ => List.Subset.refl _
theorem RFin.get : RFin n (Cmd.get : Rec RecState) := fun _ _ => List.Subset.refl _
theorem RFin.exit : RFin n (Cmd.exit : Rec α) := fun _ _ => trivial
theorem RFin.liftNH {x : Go α} (h : x ≠ .hang) : RFin n (Cmd.lift x : Rec α) :=
  fun _ _ => tp_lift_of h fun _ _ => List.Subset.refl _
theorem RFin.lift {x : Go α} [h : NH x] : RFin n (Cmd.lift x : Rec α) := RFin.liftNH h.out
theorem RFin.ite {p : Prop} [Decidable p] {x y : Rec α} (hx : p → RFin n x) (hy : ¬ p → RFin n y) :
    RFin n (if p then x else y) := Ends.ite hx hy

/-- Continue after code that does not hang, with what is known of its result. -/
theorem RFin.lift_bind {x : Go α} {f : α → Rec β} (h : x ≠ .hang) (hf : ∀ a, x = .ok a → RFin n (f a)) :
    RFin n (Cmd.lift x >>= f) :=
  fun s hs => tp_bind.mpr (tp_lift_of h fun a ha => hf a ha s hs)

theorem RFin.note {e : Ev} : RFin n (note e) := fun _ _ => List.Subset.refl _
theorem RFin.tick {env : Env} {k : Sys} : RFin n (tick env k) := fun _ _ => List.Subset.refl _
theorem RFin.setFS {fs : HostFS} : RFin n (setFS fs) := fun _ _ => List.Subset.refl _
theorem RFin.applyFS {r : Option HostFS} : RFin n (applyFS r) := by
  cases r with
  | none => exact RFin.pure
  | some f => exact RFin.bind RFin.setFS fun _ => RFin.pure
theorem RFin.applyOpen {r : Option (HostFS × Nat)} : RFin n (applyOpen r) := by
  cases r with
  | none => exact RFin.pure
  | some f => exact RFin.bind RFin.setFS fun _ => RFin.pure
theorem RFin.sysStat {env : Env} {p : Bytes} : RFin n (sysStat env p) :=
  RFin.bind RFin.tick fun _ => RFin.ite (fun _ => RFin.pure) fun _ => RFin.bind RFin.get fun _ => RFin.pure
theorem RFin.sysLstat {env : Env} {p : Bytes} : RFin n (sysLstat env p) :=
  RFin.bind RFin.tick fun _ => RFin.ite (fun _ => RFin.pure) fun _ => RFin.bind RFin.get fun _ => RFin.pure
theorem RFin.sysMkdir {env : Env} {p : Bytes} : RFin n (sysMkdir env p) :=
  RFin.bind RFin.note fun _ => RFin.bind RFin.tick fun _ => RFin.ite (fun _ => RFin.pure) fun _ =>
    RFin.bind RFin.get fun _ => RFin.applyFS
theorem RFin.sysSymlink {env : Env} {t p : Bytes} : RFin n (sysSymlink env t p) :=
  RFin.bind RFin.note fun _ => RFin.bind RFin.tick fun _ => RFin.ite (fun _ => RFin.pure) fun _ =>
    RFin.bind RFin.get fun _ => RFin.applyFS
theorem RFin.sysRemove {env : Env} {p : Bytes} : RFin n (sysRemove env p) :=
  RFin.bind RFin.note fun _ => RFin.bind RFin.tick fun _ => RFin.ite (fun _ => RFin.pure) fun _ =>
    RFin.bind RFin.get fun _ => RFin.applyFS
theorem RFin.sysOpen {env : Env} {p : Bytes} : RFin n (sysOpen env p) :=
  RFin.bind RFin.note fun _ => RFin.bind RFin.tick fun _ => RFin.ite (fun _ => RFin.pure) fun _ =>
    RFin.bind RFin.get fun _ => RFin.applyOpen
theorem RFin.sysWrite {env : Env} {fd : Nat} {b : Bytes} {off : Int} : RFin n (sysWrite env fd b off) := by
  unfold Btrfscue.sysWrite
  refine RFin.ite (fun _ => RFin.pure) fun _ => RFin.ite (fun _ => RFin.pure) fun _ => RFin.bind RFin.get fun _ =>
    RFin.bind RFin.tick fun _ => RFin.ite (fun _ => ?_) fun _ => RFin.ite (fun _ => RFin.pure) fun _ =>
      RFin.bind RFin.get fun _ => RFin.applyFS
  exact RFin.bind RFin.get fun _ => RFin.bind RFin.applyFS fun _ => RFin.pure
theorem RFin.sysTruncate {env : Env} {fd : Nat} {k : Int} : RFin n (sysTruncate env fd k) :=
  RFin.bind RFin.tick fun _ => RFin.ite (fun _ => RFin.pure) fun _ => RFin.ite (fun _ => RFin.pure) fun _ =>
    RFin.bind RFin.get fun _ => RFin.applyFS
theorem RFin.devRead {env : Env} {off : Int} {k : Nat} : RFin n (devRead env off k) := fun _ _ => List.Subset.refl _
theorem RFin.report {p : Bytes} {e : Option RecErr} : RFin n (report p e) := by
  cases e with
  | none => exact RFin.pure
  | some _ => exact RFin.note

theorem parentPath_length {p : Bytes} (h : p ≠ []) : (parentPath p).length < p.length := by
  unfold parentPath
  rw [List.length_reverse, ← List.length_reverse (as := p)]
  have hr : p.reverse ≠ [] := by simpa using h
  revert hr
  generalize p.reverse = q
  intro hq
  cases q with
  | nil => exact absurd rfl hq
  | cons c r =>
    by_cases hc : c = 47
    · have h1 : ((c :: r).dropWhile (· == 47)).length ≤ r.length := by
        rw [List.dropWhile_cons_of_pos (by simp [hc])]
        exact (List.dropWhile_sublist _).length_le
      have h2 := (List.dropWhile_sublist (· != 47) (l := (c :: r).dropWhile (· == 47))).length_le
      simp only [List.length_cons]; omega
    · rw [List.dropWhile_cons_of_neg (by simp [hc]), List.dropWhile_cons_of_pos (by simp [hc])]
      have := (List.dropWhile_sublist (· != 47) (l := r)).length_le
      simp only [List.length_cons]; omega

theorem RFin.mkdirAllAux {env : Env} : ∀ (k : Nat) (p : Bytes), p.length < k → RFin n (mkdirAllAux env k p) := by
  intro k
  induction k with
  | zero => intro p h; omega
  | succ k ih =>
    intro p h
    have hl : RFin n (mkdirLast env p) :=
      RFin.bind RFin.sysMkdir fun _ => RFin.ite (fun _ => RFin.pure) fun _ => RFin.bind RFin.sysLstat fun _ => RFin.pure
    unfold Btrfscue.mkdirAllAux
    refine RFin.bind RFin.sysStat fun r => ?_
    cases r with
    | some d => exact RFin.pure
    | none =>
      refine RFin.ite (fun _ => hl) fun hp => RFin.bind (ih _ ?_) fun _ => RFin.ite (fun _ => hl) fun _ => RFin.pure
      have : p ≠ [] := by
        rintro rfl
        exact hp rfl
      have := parentPath_length this
      omega

theorem RFin.mkdirAll {env : Env} {p : Bytes} : RFin n (mkdirAll env p) := RFin.mkdirAllAux _ _ (Nat.lt_succ_self _)

theorem RFin.copyLoop {env : Env} {fd : Nat} {fo so nb : UInt64} : ∀ (fuel : Nat) (c : UInt64), c.toNat ≤ nb.toNat →
    (nb.toNat - c.toNat + 1048575) / 1048576 + 1 ≤ fuel → RFin n (copyLoop env fd fo so nb fuel c) := by
  intro fuel
  induction fuel with
  | zero => intro c _ h; omega
  | succ fuel ih =>
    intro c hc hf
    unfold Btrfscue.copyLoop
    by_cases hlt : c < nb
    · rw [if_pos hlt]
      have hlt' := UInt64.lt_iff_toNat_lt.mp hlt
      have hsub : (nb - c).toNat = nb.toNat - c.toNat := UInt64.toNat_sub_of_le _ _ (UInt64.le_iff_toNat_le.mpr hc)
      have htc : (toCopy nb c).toNat = min 1048576 (nb.toNat - c.toNat) := by
        unfold toCopy
        by_cases hcs : chunkSize < nb - c
        · rw [if_pos hcs]
          have := UInt64.lt_iff_toNat_lt.mp hcs
          rw [hsub] at this
          have h2 : chunkSize.toNat = 1048576 := rfl
          omega
        · rw [if_neg hcs, hsub]
          have : ¬ chunkSize.toNat < (nb - c).toNat := fun h => hcs (UInt64.lt_iff_toNat_lt.mpr h)
          rw [hsub] at this
          have h2 : chunkSize.toNat = 1048576 := rfl
          omega
      intro s hs
      rw [tp_bind]
      show tp _ _ _
      refine (show RFin n _ from ?_) _ hs
      refine RFin.bind ?_ fun ok => RFin.ite (fun _ => ?_) fun _ => RFin.pure
      · unfold writeRead
        exact RFin.ite (fun _ => RFin.sysWrite) fun _ => RFin.pure
      · simp only
        have hr : ∀ r : Bytes × Option IOErr, r = osReadAt (env.dev s.calls) (int64OfU64 (so + c)) (toCopy nb c).toNat →
            r.2 = none → r.1.length = (toCopy nb c).toNat := by
          rintro r rfl
          unfold osReadAt
          by_cases h1 : int64OfU64 (so + c) < 0
          · rw [if_pos h1]; intro h; cases h
          · rw [if_neg h1]
            by_cases h2 : (toCopy nb c).toNat ≤ (env.dev s.calls (int64OfU64 (so + c)) (toCopy nb c).toNat).1.length
            · rw [if_pos h2]; intro _; simp [h2]
            · rw [if_neg h2]; intro h; cases h
        generalize hrr : osReadAt (env.dev s.calls) (int64OfU64 (so + c)) (toCopy nb c).toNat = r at *
        have hr := hr r rfl
        cases hr2 : r.2 with
        | none =>
          have hl := hr hr2
          have hnb := nb.toNat_lt
          have hadd : (c + UInt64.ofNat r.1.length).toNat = c.toNat + min 1048576 (nb.toNat - c.toNat) := by
            rw [hl, UInt64.toNat_add, UInt64.toNat_ofNat', htc]
            omega
          exact ih _ (by omega) (by rw [hadd]; omega)
        | some e =>
          cases e with
          | eof => exact RFin.ite (fun _ => RFin.pure) fun _ => RFin.pure
          | other => exact RFin.pure
    · rw [if_neg hlt]; exact RFin.pure

variable {env : Env} {rf : Nat} {ix : Ix}

theorem RFin.recPhysical (h : ∀ rd, ix.chunks = .ok rd → Range.EndsIn rf rd) {l : UInt64} : RFin n (recPhysical rf ix l) := by
  intro s hs
  have hne : ix.physical rf s.cache l ≠ .hang := by
    have hrest : ∀ m, NH (lookupStripe m l >>= fun x => (Pure.pure (some m, x) : Go (Option (List StripeMapEntry) × (UInt64 × UInt64)))) :=
      fun m => inferInstance
    unfold Ix.physical
    cases hc : s.cache with
    | some m => exact (hrest m).out
    | none =>
      intro hh
      rcases Go.bind_eq_hang.mp hh with h1 | ⟨m, -, h2⟩
      · simp only [Ix.buildStripeMap] at h1
        rcases Go.bind_eq_hang.mp h1 with h3 | ⟨rd, h4, h3⟩
        · exact (inferInstance : NH ix.chunks).out h3
        · rcases Go.bind_eq_hang.mp h3 with h5 | ⟨x, -, h5⟩
          · exact rangeLoop_nh (fun s r d => inferInstance) (h rd h4) _ h5
          · cases h5
      · exact (hrest m).out h2
  unfold tp Btrfscue.recPhysical
  cases hp : ix.physical rf s.cache l with
  | ok r => exact List.Subset.refl _
  | panic => trivial
  | hang => exact absurd hp hne

theorem RFin.extent (h : ∀ rd, ix.chunks = .ok rd → Range.EndsIn rf rd) {fd : Nat} {size : Option UInt64} (r : Range) (e : FileExtentItem) :
    RFin n (recoverExtent env rf ix fd size r e) := by
  unfold recoverExtent
  refine RFin.bind RFin.lift fun k => RFin.bind RFin.lift fun b => RFin.ite (fun _ => ?_) fun _ => ?_
  · refine RFin.bind RFin.lift fun d => ?_
    unfold recoverInline
    refine RFin.ite (fun _ => ?_) fun _ => RFin.pure
    exact RFin.bind RFin.lift fun b => RFin.bind RFin.sysWrite fun _ => RFin.pure
  · refine RFin.bind RFin.lift fun nb => RFin.bind RFin.lift fun dn => RFin.ite (fun _ => ?_) fun _ => ?_
    · unfold recoverHole
      exact RFin.bind RFin.lift fun z => RFin.bind RFin.sysWrite fun _ => RFin.pure
    · unfold recoverData
      refine RFin.bind RFin.lift fun d => RFin.bind (RFin.recPhysical h) fun p => ?_
      refine RFin.bind RFin.lift fun o => RFin.copyLoop _ _ ?_ ?_
      · exact Nat.zero_le _
      · show (_ - 0 + 1048575) / 1048576 + 1 ≤ _ / 1048576 + 2
        omega

theorem RFin.rangeLoopRec {body : Range → Slice → Rec (Option RecErr)} (hb : ∀ r e, RFin n (body r e)) {k : Nat}
    {rd : Range × Slice} (h : Range.EndsIn k rd) : RFin n (rangeLoopRec body k rd) := by
  induction h with
  | done h => unfold Btrfscue.rangeLoopRec; rw [h]; exact RFin.pure
  | crash h =>
    unfold Btrfscue.rangeLoopRec
    refine RFin.ite (fun _ => RFin.bind (hb _ _) fun r => ?_) fun _ => RFin.pure
    cases r with
    | some e => exact RFin.pure
    | none => rw [h]; exact fun s _ => trivial
  | step h _ ih =>
    unfold Btrfscue.rangeLoopRec
    refine RFin.ite (fun _ => RFin.bind (hb _ _) fun r => ?_) fun _ => RFin.pure
    cases r with
    | some e => exact RFin.pure
    | none => exact RFin.lift_bind (by rw [h]; simp) fun rd2 h2 => by rw [h] at h2; cases h2; exact ih

theorem RFin.contents (h : ∀ rd, ix.chunks = .ok rd → Range.EndsIn rf rd) {fd : Nat} {owner inode : UInt64} {size : Option UInt64}
    (hx : ∀ rd, ix.fileExtentItems owner inode = .ok rd → Range.EndsIn rf rd) :
    RFin n (recoverContents env rf ix owner inode fd size) := by
  unfold recoverContents
  refine RFin.lift_bind (NH.out) fun rd hrd => RFin.ite (fun _ => ?_) fun _ => ?_
  · unfold finishEmpty
    cases size with
    | none => exact RFin.pure
    | some sz => exact RFin.bind RFin.sysTruncate fun _ => RFin.pure
  · refine RFin.bind (RFin.rangeLoopRec (fun r e => RFin.extent h r e) (hx _ hrd)) fun r => ?_
    cases r with
    | some e => exact RFin.pure
    | none =>
      unfold finishFile
      cases size with
      | none => exact RFin.pure
      | some sz => exact RFin.bind RFin.sysTruncate fun _ => RFin.ite (fun _ => RFin.pure) fun _ => RFin.pure

theorem RFin.file (h : ∀ rd, ix.chunks = .ok rd → Range.EndsIn rf rd) {clobber : Bool} {owner inode : UInt64} {p : Bytes}
    (hx : ∀ rd, ix.fileExtentItems owner inode = .ok rd → Range.EndsIn rf rd) :
    RFin n (recoverFile env rf ix clobber owner inode p) := by
  unfold recoverFile
  refine RFin.bind RFin.sysStat fun st => RFin.ite (fun _ => RFin.pure) fun _ => RFin.bind RFin.lift fun size =>
    RFin.bind RFin.sysOpen fun fd => ?_
  cases fd with
  | none => exact RFin.pure
  | some fd => exact RFin.contents h hx

theorem RFin.link (h : ∀ rd, ix.chunks = .ok rd → Range.EndsIn rf rd) {owner inode : UInt64} {p : Bytes} :
    RFin n (recoverLink env rf ix owner inode p) := by
  unfold recoverLink
  refine RFin.bind RFin.lift fun r => ?_
  cases r with
  | none => exact RFin.pure
  | some e =>
    refine RFin.bind ?_ fun t => ?_
    · unfold symlinkTarget
      refine RFin.bind RFin.lift fun b => RFin.ite (fun _ => RFin.bind RFin.lift fun _ => RFin.pure) fun _ => ?_
      refine RFin.bind RFin.lift fun b => RFin.ite (fun _ => ?_) fun _ => RFin.pure
      unfold readTarget
      refine RFin.bind RFin.lift fun d => RFin.bind (RFin.recPhysical h) fun ph => ?_
      refine RFin.bind RFin.lift fun o => RFin.bind RFin.lift fun bf => RFin.bind RFin.devRead fun r => ?_
      exact RFin.ite (fun _ => RFin.pure) fun _ => RFin.pure
    · cases t with
      | error e => exact RFin.pure
      | ok t => exact RFin.bind RFin.sysSymlink fun _ => RFin.ite (fun _ => RFin.pure) fun _ => RFin.pure

theorem RFin.symlink (h : ∀ rd, ix.chunks = .ok rd → Range.EndsIn rf rd) {clobber : Bool} {owner inode : UInt64} {p : Bytes} :
    RFin n (recoverSymlink env rf ix clobber owner inode p) := by
  unfold recoverSymlink
  refine RFin.bind RFin.sysLstat fun r => RFin.ite (fun _ => RFin.ite (fun _ => RFin.pure) fun _ => ?_) fun _ => RFin.link h
  exact RFin.bind RFin.sysRemove fun _ => RFin.link h

theorem RFin.entry (h : ix.LoopsIn rf) {clobber : Bool} {rec : UInt64 → UInt64 → Bytes → Rec (Option RecErr)}
    (hrec : ∀ o d p, RFin n (rec o d p)) {owner : UInt64} {dest : Bytes} {di : DirItem} :
    RFin n (recoverEntry rec env rf ix clobber owner dest di) := by
  unfold recoverEntry
  refine RFin.bind RFin.lift fun name => RFin.ite (fun _ => RFin.pure) fun _ => ?_
  unfold recoverNamed
  refine RFin.bind RFin.lift fun a => RFin.bind RFin.lift fun b => RFin.bind RFin.lift fun c => RFin.bind RFin.lift fun d => ?_
  refine RFin.ite (fun _ => RFin.bind (hrec _ _ _) fun _ => RFin.report) fun _ => ?_
  refine RFin.ite (fun _ => RFin.bind (RFin.file h.chunks (h.extents _ _)) fun _ => RFin.report) fun _ => ?_
  exact RFin.ite (fun _ => RFin.bind (RFin.symlink h.chunks) fun _ => RFin.report) fun _ => RFin.pure

theorem RFin.entries (h : ix.LoopsIn rf) {clobber : Bool} {rec : UInt64 → UInt64 → Bytes → Rec (Option RecErr)}
    (hrec : ∀ o d p, RFin n (rec o d p)) {owner : UInt64} {dest : Bytes} :
    ∀ dis : List DirItem, RFin n (recoverEntries rec env rf ix clobber owner dest dis) := by
  intro dis
  induction dis with
  | nil => exact RFin.pure
  | cons d r ih => exact RFin.bind (RFin.entry h hrec) fun _ => ih

theorem readDirItems_nh {o d : UInt64} (h : ∀ rd, ix.dirItems o d = .ok rd → Range.EndsIn rf rd) : readDirItems rf ix o d ≠ .hang := by
  unfold readDirItems
  intro hh
  rcases Go.bind_eq_hang.mp hh with h3 | ⟨rd, h4, h3⟩
  · exact (inferInstance : NH (ix.dirItems o d)).out h3
  · rcases Go.bind_eq_hang.mp h3 with h5 | ⟨x, -, h5⟩
    · exact rangeLoop_nh (fun s r d => by unfold collectBody; infer_instance) (h rd h4) _ h5
    · cases h5

/-- With more fuel than pairs not visited, `recoverDir` ends. -/
theorem RFin.recoverDir (h : ix.LoopsIn rf) {clobber : Bool} : ∀ (n : Nat) (o d : UInt64) (p : Bytes),
    RFin n (recoverDir env rf ix clobber (n + 1) o d p) := by
  intro n
  induction n with
  | zero =>
    intro o d p s hs
    have hv : (o, d) ∈ s.visited := by
      by_contra hn
      have : s.fresh.ncard ≠ 0 := (Set.ncard_ne_zero_of_mem (a := (o, d)) hn (Set.toFinite _))
      omega
    unfold Btrfscue.recoverDir tp
    simp only [bind_def, get_run]
    rw [if_pos (List.contains_iff_mem.mpr hv)]
    exact List.Subset.refl _
  | succ n ih =>
    intro o d p s hs
    by_cases hv : (o, d) ∈ s.visited
    · unfold Btrfscue.recoverDir tp
      simp only [bind_def, get_run]
      rw [if_pos (List.contains_iff_mem.mpr hv)]
      exact List.Subset.refl _
    · unfold Btrfscue.recoverDir
      rw [tp_bind, tp_get]
      have hv' : ¬ s.visited.contains (o, d) = true := fun hc => hv (List.contains_iff_mem.mp hc)
      simp only [if_neg hv']
      rw [tp_bind, tp_modify]
      have hlt : ({ s with visited := (o, d) :: s.visited } : RecState).fresh.ncard < s.fresh.ncard := by
        refine Set.ncard_lt_ncard ⟨fun x hx hxs => hx (List.mem_cons_of_mem _ hxs), fun hsub => ?_⟩ (Set.toFinite _)
        exact hsub hv List.mem_cons_self
      refine tp_mono (Q := fun _ t => (o, d) :: s.visited ⊆ t.visited) ?_ fun _ t ht =>
        List.Subset.trans (List.subset_cons_self _ _) ht
      refine (show RFin n _ from ?_) { s with visited := (o, d) :: s.visited } (by omega)
      refine RFin.bind RFin.note fun _ => RFin.bind RFin.mkdirAll fun _ => RFin.ite (fun _ => ?_) fun _ => RFin.pure
      refine RFin.bind (RFin.liftNH (readDirItems_nh (h.dirs _ _))) fun dis => ?_
      exact RFin.bind (RFin.entries h (fun o d p => ih o d p) dis) fun _ => RFin.pure

/-- The command ends. -/
theorem RFin.all (h : ix.LoopsIn rf) {clobber : Bool} {dest : Bytes} :
    RFin n (doRecoverFiles env rf (n + 1) ix clobber dest) := by
  unfold doRecoverFiles
  refine RFin.bind RFin.mkdirAll fun ok => RFin.ite (fun _ => ?_) fun _ => RFin.exit
  refine RFin.bind (RFin.recoverDir h n _ _ _) fun e => RFin.bind RFin.report fun _ => ?_
  refine RFin.lift_bind NH.out fun rd hrd => RFin.bind (RFin.rangeLoopRec (fun r e => ?_) (h.subvolumes _ hrd)) fun _ => RFin.pure
  unfold recoverSubvol
  refine RFin.bind RFin.lift fun k => RFin.bind RFin.get fun s => RFin.ite (fun _ => RFin.pure) fun _ => ?_
  exact RFin.bind (RFin.recoverDir h n _ _ _) fun e => RFin.bind RFin.report fun _ => RFin.pure

end

end Btrfscue
