import Verif.Props.RecoverKeep
import Verif.Props.RescueNode
/-!
# C62, C72: symbolic links
-/

namespace Btrfscue

open Cmd

/-- What symlink(2) does when it succeeds. -/
theorem wp_sysSymlink {env : Env} {t p : Bytes} {s : RecState} :
    wp (sysSymlink env t p) (fun ok s' => ok = true → s.fs.symlink t p = some s'.fs) (fun _ => False) s := by
  unfold wp sysSymlink
  simp only [bind_def, note, modify_run, tick]
  by_cases hf : env.fails .symlink s.calls = true
  · simp only [hf, if_true, pure_run]
    exact fun h => by cases h
  · simp only [hf, Bool.false_eq_true, if_false, bind_def, get_run]
    cases ho : s.fs.symlink t p with
    | none => exact fun h => by cases h
    | some x => exact fun _ => rfl

theorem sysSymlink_quiet {env : Env} (hq : ∀ n, env.fails .symlink n = false) {t p : Bytes} {s : RecState} {f : HostFS}
    (h : s.fs.symlink t p = some f) : ∃ s', sysSymlink env t p s = .ok true s' ∧ s'.fs = f := by
  unfold sysSymlink
  simp only [bind_def, note, modify_run, tick, hq, Bool.false_eq_true, if_false, get_run, h]
  exact ⟨_, rfl, rfl⟩

/-- If a link is made, it is where it should be. -/
theorem wp_makeLink {env : Env} {p : Bytes} {t : Except RecErr Bytes} {s : RecState} :
    wp (makeLink env p t) (fun r s' => r = none → ∃ x, t = .ok x ∧ s'.fs.readLink p = some x) (fun _ => False) s := by
  cases t with
  | error e => exact fun h => by cases h
  | ok x =>
    unfold makeLink
    rw [wp_bind]
    refine wp_mono wp_sysSymlink (fun ok s' h => ?_) fun _ h => h
    cases ok with
    | false => exact fun h => by cases h
    | true => exact fun _ => ⟨x, rfl, symlink_readLink (h rfl)⟩

/-- What `recoverLink` leaves if it reports no error. -/
theorem wp_recoverLink {env : Env} {rf : Nat} {ix : Ix} {owner inode : UInt64} {p : Bytes} {s : RecState} :
    wp (recoverLink env rf ix owner inode p)
      (fun r s' => r = none → ∃ e x, ix.findFileExtentItem owner inode = .ok (some e) ∧ s'.fs.readLink p = some x ∧
        (FileExtentItem.isInline e = .ok true → FileExtentItem.data e = .ok x)) (fun _ => True) s := by
  unfold recoverLink
  rw [wp_bind]
  refine wp_lift_of (fun r hr => ?_) trivial
  cases r with
  | none => exact fun h => by cases h
  | some e =>
    simp only
    rw [wp_bind]
    have ht : wp (symlinkTarget env rf ix e)
        (fun t _ => ∀ x, t = .ok x → FileExtentItem.isInline e = .ok true → FileExtentItem.data e = .ok x) (fun _ => True) s := by
      unfold symlinkTarget
      rw [wp_bind]
      refine wp_lift_of (fun b hb => ?_) trivial
      cases b with
      | true =>
        simp only [if_true]
        rw [wp_bind]
        refine wp_lift_of (fun d hd => ?_) trivial
        rintro x hx -
        cases hx; exact hd
      | false =>
        simp only [Bool.false_eq_true, if_false]
        exact wp_mono (Q := fun _ _ => True) (E := fun _ => True)
          (by unfold wp; split <;> trivial) (fun t _ _ x _ hi => by rw [hb] at hi; cases hi) fun _ h => h
    refine wp_mono ht (fun t u ht => ?_) fun _ h => h
    refine wp_mono wp_makeLink (fun r s' h hr' => ?_) fun _ _ => trivial
    obtain ⟨x, hx, hrl⟩ := h hr'
    exact ⟨e, x, hr, hrl, ht x hx⟩

/-- What `recoverSymlink` leaves if it reports no error. -/
theorem wp_recoverSymlink {env : Env} {rf : Nat} {ix : Ix} {clobber : Bool} {owner inode : UInt64} {p : Bytes} {s : RecState} :
    wp (recoverSymlink env rf ix clobber owner inode p)
      (fun r s' => r = none → (clobber = false ∧ s'.fs = s.fs ∧ s.fs.stat false p ≠ none) ∨
        ∃ e x, ix.findFileExtentItem owner inode = .ok (some e) ∧ s'.fs.readLink p = some x ∧
        (FileExtentItem.isInline e = .ok true → FileExtentItem.data e = .ok x)) (fun _ => True) s := by
  unfold recoverSymlink
  rw [wp_bind]
  have hl : wp (sysLstat env p) (fun r t => t.fs = s.fs ∧ (r.isSome → s.fs.stat false p ≠ none)) (fun _ => True) s := by
    unfold wp sysLstat
    simp only [bind_def, tick]
    by_cases hf : env.fails .lstat s.calls = true
    · simp only [hf, if_true, pure_run]
      exact ⟨by simp, fun h => by cases h⟩
    · simp only [hf, Bool.false_eq_true, if_false, bind_def, get_run, pure_run]
      exact ⟨by simp, fun h hn => by rw [hn] at h; cases h⟩
  refine wp_mono hl (fun st t ht => ?_) fun _ h => h
  by_cases hst : st.isSome = true
  · simp only [hst, if_true]
    cases clobber with
    | false => exact fun _ => Or.inl ⟨rfl, ht.1, ht.2 hst⟩
    | true =>
      simp only [Bool.not_true, Bool.false_eq_true, if_false]
      rw [wp_bind]
      refine wp_mono (Q := fun _ _ => True) (E := fun _ => True) (by unfold wp; split <;> trivial) (fun _ u _ => ?_)
        fun _ _ => trivial
      exact wp_mono wp_recoverLink (fun r s' h hr => Or.inr (h hr)) fun _ h => h
  · simp only [hst, Bool.false_eq_true, if_false]
    exact wp_mono wp_recoverLink (fun r s' h hr => Or.inr (h hr)) fun _ h => h

/-! ## C62 -/

/-- C62: if recovering a link whose extent is inline reports no error, the link at its
path has the data of the extent as target — unless, without `--clobber`, something was
there before, which is left as it was. Whatever system calls fail. -/
theorem C62_link_target (b : Bucket) (hb : b.WF) (m : Bytes) (hm : b.stores metadataVersionKey m)
    (owner inode : UInt64) (ho : owner ≠ ~~~0) (g : UInt64) (x : Bytes) (f : InlineExtentRec) (data rest : Bytes)
    (hn : b.newest owner ⟨inode, 108, 0⟩ g) (hs : b.stores ⟨owner, ⟨inode, 108, 0⟩, g⟩ x)
    (hd : holdsItem x (f.layout ++ (data ++ rest))) (hr : f.ramBytes.toNat = data.length) (hlen : data.length ≤ 16384)
    (env : Env) (rf : Nat) (clobber : Bool) (p : Bytes) (s s' : RecState)
    (h : recoverSymlink env rf ⟨b, ~~~0⟩ clobber owner inode p s = .ok none s') :
    s'.fs.readLink p = some data ∨ (clobber = false ∧ s'.fs = s.fs ∧ s.fs.stat false p ≠ none) := by
  obtain ⟨t, ht⟩ := findData_newest hb hm ho hn hs hd
  have hi : (Ix.mk b (~~~0)).findFileExtentItem owner inode = .ok (some ⟨f.layout ++ (data ++ rest), t⟩) := ht
  obtain ⟨h1, h2⟩ := C12_inline_data f data rest t hr hlen
  have hw := wp_recoverSymlink (env := env) (rf := rf) (ix := ⟨b, ~~~0⟩) (clobber := clobber) (owner := owner)
    (inode := inode) (p := p) (s := s)
  unfold wp at hw
  rw [h] at hw
  rcases hw rfl with hw | ⟨e, y, he, hy, hdat⟩
  · exact Or.inr hw
  · rw [hi] at he
    cases he
    have := hdat h2
    rw [h1] at this
    cases this
    exact Or.inl hy

/-- C62: the link is made if nothing is in the way: its directory exists and has nothing
of its name, the target is one the host accepts, no system call fails for other reasons. -/
theorem C62_link_made (b : Bucket) (hb : b.WF) (m : Bytes) (hm : b.stores metadataVersionKey m)
    (owner inode : UInt64) (ho : owner ≠ ~~~0) (g : UInt64) (x : Bytes) (f : InlineExtentRec) (data rest : Bytes)
    (hn : b.newest owner ⟨inode, 108, 0⟩ g) (hs : b.stores ⟨owner, ⟨inode, 108, 0⟩, g⟩ x)
    (hd : holdsItem x (f.layout ++ (data ++ rest))) (hr : f.ramBytes.toNat = data.length) (hlen : data.length ≤ 16384)
    (env : Env) (hq : ∀ k n, env.fails k n = false) (rf : Nat) (clobber : Bool) (p : Bytes) (s : RecState)
    (fs' : HostFS) (hfs : s.fs.symlink data p = some fs') :
    ∃ s', recoverSymlink env rf ⟨b, ~~~0⟩ clobber owner inode p s = .ok none s' ∧ s'.fs = fs' ∧
      fs'.readLink p = some data := by
  obtain ⟨t, ht⟩ := findData_newest hb hm ho hn hs hd
  have hi : (Ix.mk b (~~~0)).findFileExtentItem owner inode = .ok (some ⟨f.layout ++ (data ++ rest), t⟩) := ht
  obtain ⟨h1, h2⟩ := C12_inline_data f data rest t hr hlen
  have hst : s.fs.stat false p = none := by
    unfold HostFS.symlink at hfs
    by_cases hc : data = [] ∨ 0 ∈ data ∨ 4096 ≤ data.length
    · rw [if_pos hc] at hfs; cases hfs
    · rw [if_neg hc] at hfs
      unfold HostFS.stat
      cases hres : s.fs.resolve false p with
      | found _ _ => rw [hres] at hfs; cases hfs
      | fail => rfl
      | missing _ _ _ => rfl
  obtain ⟨s', hs', hfs'⟩ := sysSymlink_quiet (env := env) (hq .symlink) (t := data) (p := p)
    (s := { s with calls := s.calls + 1 }) hfs
  refine ⟨s', ?_, hfs', symlink_readLink hfs⟩
  unfold recoverSymlink sysLstat recoverLink
  simp only [bind_def, tick, hq, Bool.false_eq_true, if_false, get_run, pure_run, hst, Option.isSome_none, hi, lift_ok,
    symlinkTarget, h2, if_true, h1, makeLink, hs']

/-! ## C72 -/

/-- C72 (what is proved): if recovering a link with `--clobber` reports no error, a link
is in the place of whatever was there; so an entry is only destroyed without a
replacement when a warning is printed or the program crashes. -/
theorem C72_clobber_replaces_partial (env : Env) (rf : Nat) (ix : Ix) (owner inode : UInt64) (p : Bytes)
    (s s' : RecState) (h : recoverSymlink env rf ix true owner inode p s = .ok none s') :
    ∃ x, s'.fs.readLink p = some x := by
  have hw := wp_recoverSymlink (env := env) (rf := rf) (ix := ix) (clobber := true) (owner := owner)
    (inode := inode) (p := p) (s := s)
  unfold wp at hw
  rw [h] at hw
  rcases hw rfl with ⟨h, -⟩ | ⟨e, y, -, hy, -⟩
  · cases h
  · exact ⟨y, hy⟩

/-- A root directory with a link "a" that leads to inode 257. -/
def exOneLink : AStore :=
  [(⟨5, ⟨256, 84, 1⟩, 10⟩, mkItem ⟨256, 84, 1⟩ (exEntry ⟨257, 1, 0⟩ 7 [97])),
   (⟨5, ⟨256, 96, 2⟩, 10⟩, mkItem ⟨256, 96, 2⟩ []),
   (⟨5, ⟨257, 108, 0⟩, 10⟩, mkItem ⟨257, 108, 0⟩ ((InlineExtentRec.mk 7 3 0 0 0).layout ++ [46, 46, 47])),
   (metadataVersionKey, [])]

/-- The same without the extent item of the link. -/
def exLostLink : AStore :=
  [(⟨5, ⟨256, 84, 1⟩, 10⟩, mkItem ⟨256, 84, 1⟩ (exEntry ⟨257, 1, 0⟩ 7 [97])),
   (⟨5, ⟨256, 96, 2⟩, 10⟩, mkItem ⟨256, 96, 2⟩ []),
   (metadataVersionKey, [])]

/-- C72 is false of the code: with `--clobber` the file in the place of a link whose
extent item is lost is removed, and nothing is put in its place. -/
theorem C72_lost_extent_destroys : exHost.readFile (ascii "/d/a") = some [111, 108, 100] ∧
    exHost.listDir (ascii "/d") = some [[97]] ∧
    (doRecoverFiles quietEnv 9 9 ⟨exLostLink.enc, ~~~0⟩ true (ascii "/d") (RecState.start exHost)).state.fs.listDir
      (ascii "/d") = some [] := by decide +kernel

/-- The link is made, with and without something in its place. -/
example : (doRecoverFiles quietEnv 9 9 ⟨exOneLink.enc, ~~~0⟩ true (ascii "/d") (RecState.start exHost)).state.fs.readLink
    (ascii "/d/a") = some [46, 46, 47] := by decide +kernel
example : (doRecoverFiles quietEnv 9 9 ⟨exOneLink.enc, ~~~0⟩ false (ascii "/e/f") (RecState.start exHost)).state.fs.readLink
    (ascii "/e/f/a") = some [46, 46, 47] := by decide +kernel
example : exHost.symlink [46, 46, 47] (ascii "/d/b") ≠ none := by decide +kernel

end Btrfscue
