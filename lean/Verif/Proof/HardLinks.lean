import Verif.Spec.HardLinks
import Verif.Proof.RecInv
/-!
# recover makes no hard links
-/

namespace Btrfscue

open Cmd

/-- The invariant for one file system. -/
structure OneName (fs0 f : HostFS) : Prop extends NoHardLinks fs0 f where
  len : fs0.inodes.length ≤ f.inodes.length
  sound : f.Sound

theorem OneName.start {fs : HostFS} (h : fs.Sound) : OneName fs fs where
  new k hk d n d' n' h1 _ := absurd (h k d n h1) (by omega)
  old _ _ _ _ h := h
  len := Nat.le_refl _
  sound := h

/-- Fewer names. -/
theorem OneName.fewer {fs0 f f' : HostFS} (h : OneName fs0 f) (hl : f'.inodes.length = f.inodes.length)
    (hn : ∀ k d n, f'.names k d n → f.names k d n) : OneName fs0 f' where
  new k hk d n d' n' h1 h2 := h.new k hk d n d' n' (hn _ _ _ h1) (hn _ _ _ h2)
  old k hk d n h1 := h.old k hk d n (hn _ _ _ h1)
  len := hl ▸ h.len
  sound k d n h1 := hl ▸ h.sound k d n (hn _ _ _ h1)

theorem OneName.putFile {fs0 f : HostFS} (h : OneName fs0 f) (i : Nat) (y : Bytes) : OneName fs0 (f.put i (.file y)) := by
  refine h.fewer (by simp [HostFS.put]) ?_
  rintro k d n ⟨es, par, h1, h2⟩
  refine ⟨es, par, ?_, h2⟩
  simp only [HostFS.put, List.getElem?_set] at h1
  by_cases hi : i = d
  · rw [if_pos hi] at h1
    split at h1 <;> cases h1
  · rwa [if_neg hi] at h1

theorem OneName.create {fs0 f f' : HostFS} (h : OneName fs0 f) {d i : Nat} {n : Bytes} {nd : INode} (hnd : ∀ es par, nd = .dir es par → es = [])
    (hc : f.create d n nd = some (f', i)) : OneName fs0 f' := by
  unfold HostFS.create at hc
  split at hc
  next es par hd =>
    simp only [Option.some.injEq, Prod.mk.injEq] at hc
    obtain ⟨rfl, -⟩ := hc
    have hlen : d < f.inodes.length := (List.getElem?_eq_some_iff.mp hd).1
    have key : ∀ k d' n', (HostFS.names { f with inodes := f.inodes.set d (.dir (es ++ [(n, f.inodes.length)]) par) ++ [nd] } k d' n') →
        f.names k d' n' ∨ (k = f.inodes.length ∧ d' = d ∧ n' = n) := by
      rintro k d' n' ⟨es', par', h1, h2⟩
      simp only at h1
      by_cases hb : d' < f.inodes.length
      · rw [List.getElem?_append_left (by simpa using hb), List.getElem?_set] at h1
        by_cases hdd : d = d'
        · subst hdd
          rw [if_pos rfl, if_pos hlen] at h1
          simp only [Option.some.injEq, INode.dir.injEq] at h1
          obtain ⟨rfl, rfl⟩ := h1
          rcases List.mem_append.mp h2 with h2 | h2
          · exact .inl ⟨es, par, hd, h2⟩
          · simp only [List.mem_singleton, Prod.mk.injEq] at h2
            exact .inr ⟨h2.2, rfl, h2.1⟩
        · rw [if_neg hdd] at h1
          exact .inl ⟨es', par', h1, h2⟩
      · rw [List.getElem?_append_right (by simpa using hb)] at h1
        rcases hx : d' - (f.inodes.set d (.dir (es ++ [(n, f.inodes.length)]) par)).length with _ | m
        · rw [hx] at h1
          simp only [List.getElem?_cons_zero, Option.some.injEq] at h1
          rw [hnd _ _ h1] at h2
          cases h2
        · rw [hx] at h1; cases h1
    refine ⟨⟨fun k hk a x a' x' h1 h2 => ?_, fun k hk a x h1 => ?_⟩, ?_, fun k a x h1 => ?_⟩
    · rcases key _ _ _ h1 with k1 | ⟨k1, k2, k3⟩ <;> rcases key _ _ _ h2 with m1 | ⟨m1, m2, m3⟩
      · exact h.new k hk _ _ _ _ k1 m1
      · exact absurd (h.sound _ _ _ k1) (by omega)
      · exact absurd (h.sound _ _ _ m1) (by omega)
      · exact ⟨k2.trans m2.symm, k3.trans m3.symm⟩
    · rcases key _ _ _ h1 with k1 | ⟨k1, k2, k3⟩
      · exact h.old k hk _ _ k1
      · exact absurd h.len (by omega)
    · have := h.len
      simp only [List.length_append, List.length_set, List.length_singleton]
      omega
    · simp only [List.length_append, List.length_set, List.length_singleton]
      rcases key _ _ _ h1 with k1 | ⟨k1, k2, k3⟩
      · have := h.sound _ _ _ k1; omega
      · omega
  next => cases hc

theorem OneName.mkdir {fs0 f f' : HostFS} (h : OneName fs0 f) {p : Bytes} (hc : f.mkdir p = some f') : OneName fs0 f' := by
  unfold HostFS.mkdir at hc
  cases hr : f.resolve false p with
  | missing d n sl =>
    rw [hr] at hc
    obtain ⟨⟨g, i⟩, h1, rfl⟩ := Option.map_eq_some_iff.mp hc
    exact h.create (fun es par he => (INode.dir.injEq .. ▸ he).1.symm) h1
  | found _ _ => rw [hr] at hc; cases hc
  | fail => rw [hr] at hc; cases hc

theorem OneName.symlink {fs0 f f' : HostFS} (h : OneName fs0 f) {t p : Bytes} (hc : f.symlink t p = some f') : OneName fs0 f' := by
  unfold HostFS.symlink at hc
  by_cases ht : t = [] ∨ 0 ∈ t ∨ 4096 ≤ t.length
  · rw [if_pos ht] at hc; cases hc
  · rw [if_neg ht] at hc
    cases hr : f.resolve false p with
    | missing d n sl =>
      rw [hr] at hc
      cases sl with
      | true => cases hc
      | false =>
        obtain ⟨⟨g, i⟩, h1, rfl⟩ := Option.map_eq_some_iff.mp hc
        exact h.create (fun es par he => by cases he) h1
    | found _ _ => rw [hr] at hc; cases hc
    | fail => rw [hr] at hc; cases hc

theorem OneName.openTrunc {fs0 f : HostFS} (h : OneName fs0 f) {p : Bytes} {x : HostFS × Nat} (hc : f.openTrunc p = some x) : OneName fs0 x.1 := by
  unfold HostFS.openTrunc at hc
  cases hr : f.resolve true p with
  | missing d n sl =>
    rw [hr] at hc
    cases sl with
    | true => cases hc
    | false => exact h.create (i := x.2) (fun es par he => by cases he) hc
  | found i e =>
    rw [hr] at hc
    simp only at hc
    cases hi : f.inodes[i]? with
    | none => rw [hi] at hc; cases hc
    | some nd =>
      rw [hi] at hc
      cases nd with
      | dir _ _ => cases hc
      | link _ => cases hc
      | file y => simp only [Option.some.injEq] at hc; rw [← hc]; exact h.putFile _ _
  | fail => rw [hr] at hc; cases hc

theorem OneName.unlink {fs0 f f' : HostFS} (h : OneName fs0 f) {d : Nat} {n : Bytes} (hc : f.unlink d n = some f') : OneName fs0 f' := by
  unfold HostFS.unlink at hc
  split at hc
  next es par hd =>
    simp only [Option.some.injEq] at hc
    subst hc
    refine h.fewer (by simp [HostFS.put]) ?_
    rintro k d' n' ⟨es', par', h1, h2⟩
    simp only [HostFS.put, List.getElem?_set] at h1
    by_cases hi : d = d'
    · subst hi
      rw [if_pos rfl, if_pos (List.getElem?_eq_some_iff.mp hd).1] at h1
      simp only [Option.some.injEq, INode.dir.injEq] at h1
      obtain ⟨rfl, rfl⟩ := h1
      exact ⟨es, par, hd, (List.mem_filter.mp h2).1⟩
    · rw [if_neg hi] at h1
      exact ⟨es', par', h1, h2⟩
  next => cases hc

theorem OneName.remove {fs0 f f' : HostFS} (h : OneName fs0 f) {p : Bytes} (hc : f.remove p = some f') : OneName fs0 f' := by
  unfold HostFS.remove at hc
  split at hc
  next i d n hr =>
    split at hc
    next es par hi =>
      by_cases he : es.isEmpty = true
      · rw [if_pos he] at hc; exact h.unlink hc
      · rw [if_neg he] at hc; cases hc
    next => exact h.unlink hc
  next => cases hc

theorem OneName.write {fs0 f f' : HostFS} (h : OneName fs0 f) {i off : Nat} {b : Bytes} (hc : f.write i off b = some f') : OneName fs0 f' := by
  unfold HostFS.write at hc
  split at hc
  next => simp only [Option.some.injEq] at hc; subst hc; exact h.putFile _ _
  next => cases hc

theorem OneName.truncate {fs0 f f' : HostFS} (h : OneName fs0 f) {i n : Nat} (hc : f.truncate i n = some f') : OneName fs0 f' := by
  unfold HostFS.truncate at hc
  split at hc
  next => simp only [Option.some.injEq] at hc; subst hc; exact h.putFile _ _
  next => cases hc

/-! ## The whole run -/

/-- The invariant of the run. -/
def Singles (fs0 : HostFS) (s : RecState) : Prop := OneName fs0 s.fs ∧ ∀ f ∈ s.past, OneName fs0 f

section
variable {fs0 : HostFS} {env : Env}

theorem Singles.set {s : RecState} (h : Singles fs0 s) {f : HostFS} (hf : OneName fs0 f) :
    Singles fs0 { s with fs := f, past := s.fs :: s.past } := by
  refine ⟨hf, fun g hg => ?_⟩
  rcases List.mem_cons.mp hg with rfl | hg
  · exact h.1
  · exact h.2 g hg

theorem Singles.apply {s : RecState} (h : Singles fs0 s) {r : Option HostFS} (hr : ∀ f, r = some f → OneName fs0 f) :
    wp (applyFS r) (fun _ => Singles fs0) (Singles fs0) s := by
  cases r with
  | none => exact h
  | some f => exact h.set (hr f rfl)

theorem Singles.calls (s : RecState) (n : Nat) (h : Singles fs0 s) : Singles fs0 { s with calls := n } := h

theorem Singles.op (e : Ev) : Keeps (Singles fs0) (note e) := Keeps.modify fun _ h => h

theorem Singles.applyGet {g : HostFS → Option HostFS} (hg : ∀ f f', OneName fs0 f → g f = some f' → OneName fs0 f') :
    Keeps (Singles fs0) ((Cmd.get : Rec RecState) >>= fun s => applyFS (g s.fs)) := by
  intro s hs
  exact wp_bind.mpr (hs.apply fun f hf => hg _ _ hs.1 hf)

theorem Singles.mkdir (p : Bytes) : Keeps (Singles fs0) (sysMkdir env p) := by
  unfold sysMkdir
  refine Keeps.bind (Singles.op _) fun _ => Keeps.bind (Keeps.tick Singles.calls) fun _ => Keeps.ite (fun _ => Keeps.pure) fun _ => ?_
  exact Singles.applyGet (g := fun f => f.mkdir p) fun f f' h hf => h.mkdir hf

theorem Singles.symlink (t p : Bytes) : Keeps (Singles fs0) (sysSymlink env t p) := by
  unfold sysSymlink
  refine Keeps.bind (Singles.op _) fun _ => Keeps.bind (Keeps.tick Singles.calls) fun _ => Keeps.ite (fun _ => Keeps.pure) fun _ => ?_
  exact Singles.applyGet (g := fun f => f.symlink t p) fun f f' h hf => h.symlink hf

theorem Singles.remove (p : Bytes) : Keeps (Singles fs0) (sysRemove env p) := by
  unfold sysRemove
  refine Keeps.bind (Singles.op _) fun _ => Keeps.bind (Keeps.tick Singles.calls) fun _ => Keeps.ite (fun _ => Keeps.pure) fun _ => ?_
  exact Singles.applyGet (g := fun f => f.remove p) fun f f' h hf => h.remove hf

theorem Singles.write (fd : Nat) (b : Bytes) (off : Int) : Keeps (Singles fs0) (sysWrite env fd b off) := by
  unfold sysWrite
  refine Keeps.ite (fun _ => Keeps.pure) fun _ => Keeps.ite (fun _ => Keeps.pure) fun _ => ?_
  refine Keeps.bind Keeps.get fun _ => Keeps.bind (Keeps.tick Singles.calls) fun _ => Keeps.ite (fun _ => ?_) fun _ =>
    Keeps.ite (fun _ => Keeps.pure) fun _ => ?_
  · intro s hs
    rw [wp_bind, wp_get, wp_bind]
    exact hs.apply fun f hf => hs.1.write hf
  · exact Singles.applyGet (g := fun f => f.write fd off.toNat b) fun f f' h hf => h.write hf

theorem Singles.truncate (fd : Nat) (n : Int) : Keeps (Singles fs0) (sysTruncate env fd n) := by
  unfold sysTruncate
  refine Keeps.bind (Keeps.tick Singles.calls) fun _ => Keeps.ite (fun _ => Keeps.pure) fun _ =>
    Keeps.ite (fun _ => Keeps.pure) fun _ => ?_
  exact Singles.applyGet (g := fun f => f.truncate fd n.toNat) fun f f' h hf => h.truncate hf

theorem Singles.openFile (p : Bytes) : Keeps (Singles fs0) (sysOpen env p) := by
  unfold sysOpen
  refine Keeps.bind (Singles.op _) fun _ => Keeps.bind (Keeps.tick Singles.calls) fun _ => Keeps.ite (fun _ => Keeps.pure) fun _ => ?_
  intro s hs
  refine wp_bind.mpr (wp_get.mpr ?_)
  unfold applyOpen
  cases ho : s.fs.openTrunc p with
  | none => exact hs
  | some x => exact hs.set (hs.1.openTrunc ho)

theorem Singles.link {rf : Nat} {ix : Ix} (clobber : Bool) (owner inode : UInt64) (p : Bytes) :
    Keeps (Singles fs0) (recoverSymlink env rf ix clobber owner inode p) := by
  unfold recoverSymlink
  have hl : Keeps (Singles fs0) (recoverLink env rf ix owner inode p) := by
    unfold recoverLink
    refine Keeps.bind Keeps.lift fun r => ?_
    cases r with
    | none => exact Keeps.pure
    | some e =>
      refine Keeps.bind ?_ fun t => ?_
      · unfold symlinkTarget
        refine Keeps.bind Keeps.lift fun b => Keeps.ite (fun _ => Keeps.bind Keeps.lift fun _ => Keeps.pure) fun _ => ?_
        refine Keeps.bind Keeps.lift fun b => Keeps.ite (fun _ => ?_) fun _ => Keeps.pure
        unfold readTarget
        refine Keeps.bind Keeps.lift fun d => Keeps.bind (Keeps.recPhysical fun _ _ _ _ _ h => h) fun ph => ?_
        refine Keeps.bind Keeps.lift fun o => Keeps.bind Keeps.lift fun bf => Keeps.bind (Keeps.devRead Singles.calls) fun r => ?_
        exact Keeps.ite (fun _ => Keeps.pure) fun _ => Keeps.pure
      · cases t with
        | error e => exact Keeps.pure
        | ok t => exact Keeps.bind (Singles.symlink t p) fun _ => Keeps.ite (fun _ => Keeps.pure) fun _ => Keeps.pure
  refine Keeps.bind (Keeps.sysLstat Singles.calls) fun r => Keeps.ite (fun _ => Keeps.ite (fun _ => Keeps.pure) fun _ => ?_) fun _ => hl
  exact Keeps.bind (Singles.remove p) fun _ => hl

theorem Singles.inv (rf : Nat) (ix : Ix) (clobber : Bool) :
    RecInv env rf ix clobber (Singles fs0) (fun _ => True) (fun _ => True) (fun _ => True) where
  calls s n h := h
  cache s l c r _ h := h
  warn s p h := h
  visit s o d p _ h _ := h
  mkdirAll p _ := Keeps.mkdirAll Singles.calls fun k => Singles.mkdir _
  openFile p s _ hs h := wp_mono (Singles.openFile p s hs) (fun _ _ h => ⟨h, fun _ _ => trivial⟩) fun _ h => h
  write fd b off _ := Singles.write fd b off
  truncate fd n _ := Singles.truncate fd n
  link owner inode p _ _ _ _ := Singles.link clobber owner inode p
  items _ _ _ _ _ _ := trivial
  join _ _ _ _ _ _ _ := trivial

end

end Btrfscue
