import Verif.Proof.RecRun
import Verif.Props.RecoverContent
import Verif.Props.RecoverLink
import Verif.Props.RecoverEnd
/-!
# Later states of a run
-/

namespace Btrfscue

open Cmd

/-- A relation between earlier and later file systems; `F` holds of files that may be
written, `C` tells whether existing files may be opened. -/
structure FSRel (G : HostFS → HostFS → Prop) (F : HostFS → Nat → Prop) (C : Bool) : Prop where
  refl : ∀ a, G a a
  trans : ∀ a b c, G a b → G b c → G a c
  grown : ∀ a b, G a b → Grown a b
  create : ∀ a b d n nd i, a.create d n nd = some (b, i) → G a b
  put : ∀ a b i x y, G a b → F a i → b.inodes[i]? = some (.file x) → G a (b.put i (.file y))
  openT : ∀ a b p c i, G a b → C = true ∨ b.stat true p = none → b.openTrunc p = some (c, i) → G a c ∧ F a i

theorem FSRel.ofGrown : FSRel Grown (fun _ _ => True) true where
  refl := Grown.refl
  trans _ _ _ := Grown.trans
  grown _ _ h := h
  create _ _ _ _ _ _ h := (create_preserved h).grown
  put _ _ _ _ _ h _ hb := h.trans (put_grown hb)
  openT a b p c i h _ ho := by
    refine ⟨h.trans ?_, trivial⟩
    unfold HostFS.openTrunc at ho
    cases hr : b.resolve true p with
    | fail => rw [hr] at ho; cases ho
    | missing d n sl =>
      rw [hr] at ho
      cases sl with
      | true => cases ho
      | false => exact (create_preserved ho).grown
    | found j e =>
      rw [hr] at ho
      simp only at ho
      cases hj : b.inodes[j]? with
      | none => rw [hj] at ho; cases ho
      | some nd =>
        rw [hj] at ho
        cases nd with
        | dir _ _ => cases ho
        | link _ => cases ho
        | file x =>
          simp only [Option.some.injEq, Prod.mk.injEq] at ho
          rw [← ho.1]
          exact put_grown hj

theorem FSRel.ofPreserved : FSRel Preserved (fun a i => a.inodes.length ≤ i) false where
  refl := Preserved.refl
  trans _ _ _ := Preserved.trans
  grown _ _ h := h.grown
  create _ _ _ _ _ _ h := create_preserved h
  put _ _ _ _ _ h hi _ := put_preserved h hi
  openT a b p c i h hc ho := by
    rcases hc with hc | hc
    · cases hc
    · obtain ⟨h1, h2, -⟩ := openTrunc_new hc ho
      refine ⟨h.trans h1, ?_⟩
      rw [h2]
      exact h.len

/-- `t` is later than `s`: nothing is forgotten, and the file systems are related. -/
structure Went (G : HostFS → HostFS → Prop) (s t : RecState) : Prop where
  logs : ∀ e ∈ s.log, e ∈ t.log
  fs : G s.fs t.fs

/-- And no directory was entered. -/
def Stayed (G : HostFS → HostFS → Prop) (s t : RecState) : Prop := Went G s t ∧ t.dests = s.dests

section
variable {G : HostFS → HostFS → Prop} {F : HostFS → Nat → Prop} {C : Bool} {env : Env} {s : RecState}

theorem FSRel.went_refl (h : FSRel G F C) (s : RecState) : Went G s s := ⟨fun _ h => h, h.refl _⟩

theorem FSRel.went_trans (h : FSRel G F C) {s t u : RecState} (h1 : Went G s t) (h2 : Went G t u) : Went G s u :=
  ⟨fun e he => h2.logs e (h1.logs e he), h.trans _ _ _ h1.fs h2.fs⟩

theorem FSRel.stayed_refl (h : FSRel G F C) (s : RecState) : Stayed G s s := ⟨h.went_refl s, rfl⟩

theorem Stayed.calls (t : RecState) (n : Nat) (h : Stayed G s t) : Stayed G s { t with calls := n } := ⟨⟨h.1.1, h.1.2⟩, h.2⟩

theorem Stayed.op (k : Sys) (p : Bytes) : Keeps (Stayed G s) (note (.op k p)) := Keeps.modify fun _ h =>
  ⟨⟨fun e he => List.mem_cons_of_mem _ (h.1.1 e he), h.1.2⟩, h.2⟩

theorem Stayed.apply {g : HostFS → Option HostFS} (hg : ∀ f f', G s.fs f → g f = some f' → G s.fs f') :
    Keeps (Stayed G s) ((Cmd.get : Rec RecState) >>= fun s => applyFS (g s.fs)) := by
  intro t ht
  rw [wp_bind, wp_get]
  cases hf : g t.fs with
  | none => exact ht
  | some f' => exact ⟨⟨ht.1.1, hg _ _ ht.1.2 hf⟩, ht.2⟩

theorem FSRel.mkdir (h : FSRel G F C) (p : Bytes) : Keeps (Stayed G s) (sysMkdir env p) := by
  unfold sysMkdir
  refine Keeps.bind (Stayed.op _ _) fun _ => Keeps.bind (Keeps.tick Stayed.calls) fun _ => Keeps.ite (fun _ => Keeps.pure) fun _ => ?_
  refine Stayed.apply (g := fun f => f.mkdir p) fun f f' hf hm => ?_
  unfold HostFS.mkdir at hm
  cases hr : f.resolve false p with
  | found _ _ => rw [hr] at hm; cases hm
  | fail => rw [hr] at hm; cases hm
  | missing d n sl =>
    rw [hr] at hm
    obtain ⟨⟨f1, i⟩, h1, h2⟩ := Option.map_eq_some_iff.mp hm
    simp only at h2
    subst h2
    exact h.trans _ _ _ hf (h.create _ _ _ _ _ _ h1)

theorem FSRel.symlink (h : FSRel G F C) (t p : Bytes) : Keeps (Stayed G s) (sysSymlink env t p) := by
  unfold sysSymlink
  refine Keeps.bind (Stayed.op _ _) fun _ => Keeps.bind (Keeps.tick Stayed.calls) fun _ => Keeps.ite (fun _ => Keeps.pure) fun _ => ?_
  refine Stayed.apply (g := fun f => f.symlink t p) fun f f' hf hm => ?_
  unfold HostFS.symlink at hm
  by_cases ht : t = [] ∨ 0 ∈ t ∨ 4096 ≤ t.length
  · rw [if_pos ht] at hm; cases hm
  · rw [if_neg ht] at hm
    cases hr : f.resolve false p with
    | found _ _ => rw [hr] at hm; cases hm
    | fail => rw [hr] at hm; cases hm
    | missing d n sl =>
      rw [hr] at hm
      cases sl with
      | true => cases hm
      | false =>
        obtain ⟨⟨f1, i⟩, h1, h2⟩ := Option.map_eq_some_iff.mp hm
        simp only at h2
        subst h2
        exact h.trans _ _ _ hf (h.create _ _ _ _ _ _ h1)

theorem FSRel.mkdirAll (h : FSRel G F C) (p : Bytes) : Keeps (Stayed G s) (mkdirAll env p) :=
  Keeps.mkdirAll Stayed.calls fun _ => h.mkdir _

theorem FSRel.fileInv (h : FSRel G F C) {rf : Nat} {ix : Ix} {clobber : Bool}
    (hC : C = true ∨ (clobber = false ∧ ∀ n, env.fails .stat n = false)) :
    FileInv env rf ix clobber (Stayed G s) (fun _ => True) (F s.fs) where
  calls := Stayed.calls
  cache t _ _ _ _ ht := ⟨⟨ht.1.1, ht.1.2⟩, ht.2⟩
  openFile p t _ ht ho := by
    have hC' : C = true ∨ t.fs.stat true p = none := by
      rcases hC with hC | ⟨h1, h2⟩
      · exact Or.inl hC
      · rcases ho with ho | ⟨n, ho⟩ | ho
        · rw [h1] at ho; cases ho
        · rw [h2] at ho; cases ho
        · exact Or.inr ho
    unfold wp sysOpen
    simp only [bind_def, note, modify_run, tick]
    have hlog : ∀ e ∈ s.log, e ∈ Ev.op .open p :: t.log := fun e he => List.mem_cons_of_mem _ (ht.1.1 e he)
    by_cases hf : env.fails .open t.calls = true
    · simp only [hf, if_true, pure_run]
      exact ⟨⟨⟨hlog, ht.1.2⟩, ht.2⟩, fun fd hfd => by cases hfd⟩
    · simp only [hf, Bool.false_eq_true, if_false, bind_def, get_run]
      cases hop : t.fs.openTrunc p with
      | none => exact ⟨⟨⟨hlog, ht.1.2⟩, ht.2⟩, fun fd hfd => by cases hfd⟩
      | some x =>
        obtain ⟨h1, h2⟩ := h.openT _ _ _ _ _ ht.1.2 hC' (show t.fs.openTrunc p = some (x.1, x.2) from hop)
        refine ⟨⟨⟨hlog, h1⟩, ht.2⟩, fun fd hfd => ?_⟩
        cases hfd
        exact h2
  write fd b off hfd := by
    unfold sysWrite
    refine Keeps.ite (fun _ => Keeps.pure) fun _ => Keeps.ite (fun _ => Keeps.pure) fun _ => ?_
    have hw : ∀ x n f f', G s.fs f → f.write fd n x = some f' → G s.fs f' := by
      intro x n f f' hg hm
      unfold HostFS.write at hm
      split at hm
      · next d hd => cases hm; exact h.put _ _ _ _ _ hg hfd hd
      · cases hm
    refine Keeps.bind Keeps.get fun u => Keeps.bind (Keeps.tick Stayed.calls) fun _ => Keeps.ite (fun _ => ?_) fun _ =>
      Keeps.ite (fun _ => Keeps.pure) fun _ => ?_
    · have := Stayed.apply (s := s) (g := fun f => f.write fd off.toNat (b.take (env.short u.calls))) fun f f' => hw _ _ f f'
      intro t ht
      have := this t ht
      rw [wp_bind] at this ⊢
      refine wp_mono this (fun a v hv => ?_) fun _ h => h
      rw [wp_bind]
      exact hv
    · exact Stayed.apply (g := fun f => f.write fd off.toNat b) fun f f' => hw _ _ f f'
  truncate fd n hfd := by
    unfold sysTruncate
    refine Keeps.bind (Keeps.tick Stayed.calls) fun _ => Keeps.ite (fun _ => Keeps.pure) fun _ =>
      Keeps.ite (fun _ => Keeps.pure) fun _ => ?_
    refine Stayed.apply (g := fun f => f.truncate fd n.toNat) fun f f' hg hm => ?_
    unfold HostFS.truncate at hm
    split at hm
    · next d hd => cases hm; exact h.put _ _ _ _ _ hg hfd hd
    · cases hm

theorem FSRel.link (h : FSRel G F C) (rf : Nat) (ix : Ix) (o i : UInt64) (p : Bytes) :
    Keeps (Stayed G s) (recoverSymlink env rf ix false o i p) :=
  Keeps.recoverSymlink Stayed.calls rf ix (fun _ _ _ _ _ ht => ⟨⟨ht.1.1, ht.1.2⟩, ht.2⟩) (fun hc => by cases hc) (fun t => h.symlink t p) o i

/-- What `report` does. -/
theorem wp_report {I : RecState → Prop} {p : Bytes} {e : Option RecErr} {t : RecState} {Q : RecState → Prop} (ht : Q t)
    (hw : e ≠ none → Q { t with log := .warn p :: t.log }) :
    wp (report p e) (fun _ u => Q u ∧ (e = none ∧ u = t ∨ Ev.warn p ∈ u.log)) I t := by
  cases e with
  | none => exact ⟨ht, Or.inl ⟨rfl, rfl⟩⟩
  | some e => exact ⟨hw (by simp), Or.inr List.mem_cons_self⟩

end

end Btrfscue
