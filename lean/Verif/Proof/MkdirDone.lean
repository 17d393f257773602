import Verif.Proof.RecInv
import Verif.Proof.HostFS
/-!
# What `os.MkdirAll` leaves
-/

namespace Btrfscue

open Cmd

/-- Where a path leads when links at its end are not followed, it leads when they are,
unless there is one. -/
theorem walk_follow (a : HostFS) :
    ∀ (cs : List Bytes) (d : Nat) (e : Option (Nat × Bytes)),
      (∀ l, a.walk false d e cs = .done l → (∀ i e' t, l = .found i e' → a.inodes[i]? ≠ some (.link t)) → a.walk true d e cs = .done l) ∧
      (∀ d' cs', a.walk false d e cs = .jump d' cs' → a.walk true d e cs = .jump d' cs') := by
  intro cs
  induction cs with
  | nil => intro d e; exact ⟨fun l h _ => h, fun d' cs' h => by cases h⟩
  | cons c r ih =>
    intro d e
    unfold HostFS.walk
    cases ha : a.inodes[d]? with
    | none => exact ⟨fun l h _ => h, fun _ _ h => h⟩
    | some x =>
      cases x with
      | file _ => exact ⟨fun l h _ => h, fun _ _ h => h⟩
      | link _ => exact ⟨fun l h _ => h, fun _ _ h => h⟩
      | dir es par =>
        simp only
        by_cases h1 : c = [] ∨ c = dot
        · simp only [if_pos h1]; exact ih d e
        · simp only [if_neg h1]
          by_cases h2 : c = dotdot
          · simp only [if_pos h2]; exact ih par none
          · simp only [if_neg h2]
            cases he : hostEntry es c with
            | none => exact ⟨fun l h _ => h, fun _ _ h => h⟩
            | some j =>
              simp only
              cases hj : a.inodes[j]? with
              | none => exact ih j _
              | some x =>
                cases x with
                | file _ => exact ih j _
                | dir _ _ => exact ih j _
                | link t =>
                  simp only [Bool.not_false, Bool.and_true, Bool.not_true, Bool.and_false, Bool.false_eq_true, if_false]
                  by_cases hr : r.isEmpty = true
                  · simp only [hr, if_true]
                    refine ⟨fun l h hn => ?_, fun _ _ h => by cases h⟩
                    cases h
                    exact absurd hj (hn j _ t rfl)
                  · simp only [hr, Bool.false_eq_true, if_false]
                    exact ⟨fun l h _ => h, fun _ _ h => h⟩

theorem resolve_follow {a : HostFS} {p : Bytes} {l : Look} (h : a.resolve false p = l)
    (hn : ∀ i e' t, l = .found i e' → a.inodes[i]? ≠ some (.link t)) : a.resolve true p = l := by
  unfold HostFS.resolve at h ⊢
  by_cases hpp : p = [] ∨ 0 ∈ p ∨ 4096 ≤ p.length
  · rw [if_pos hpp] at h ⊢; exact h
  · rw [if_neg hpp] at h ⊢
    generalize (if isRooted p then 0 else a.cwd) = d at h ⊢
    generalize splitSlash p = cs at h ⊢
    generalize 41 = m at h ⊢
    induction m generalizing d cs with
    | zero => exact h
    | succ m ih =>
      simp only [HostFS.resolveFrom] at h ⊢
      cases hw : a.walk false d none cs with
      | done l' =>
        rw [hw] at h
        simp only at h
        subst h
        rw [(walk_follow a cs d none).1 l' hw hn]
      | jump d' cs' =>
        rw [hw] at h
        rw [(walk_follow a cs d none).2 d' cs' hw]
        exact ih d' cs' h

theorem walk_empties {b : HostFS} {i : Nat} (hd : ∃ es par, b.inodes[i]? = some (.dir es par)) (follow : Bool) (e : Option (Nat × Bytes)) :
    ∀ r : List Bytes, r.all List.isEmpty = true → b.walk follow i e r = .done (.found i e) := by
  intro r
  induction r with
  | nil => exact fun _ => rfl
  | cons c r ih =>
    intro h
    obtain ⟨es, par, hd⟩ := hd
    rw [List.all_cons, Bool.and_eq_true] at h
    unfold HostFS.walk
    rw [hd]
    simp only
    rw [if_pos (Or.inl (List.isEmpty_iff.mp h.1))]
    exact ih h.2

/-- After a directory has been made at a path, possibly with slashes at its end, the path
leads to it. -/
theorem walk_mkdir {a b : HostFS} {d0 i : Nat} {n : Bytes} {q : Nat} (h : a.create d0 n (.dir [] q) = some (b, i)) {sl : Bool} :
    ∀ (cs : List Bytes) (d : Nat) (e : Option (Nat × Bytes)),
      a.walk true d e cs = .done (.missing d0 n sl) → b.walk true d e cs = .done (.found i (some (d0, n))) := by
  have hp := create_preserved h
  obtain ⟨hi, hnd, -, -, ⟨es0, par0, hd1, hd2⟩, -⟩ := create_get h
  intro cs
  induction cs with
  | nil => intro d e hw; cases hw
  | cons c r ih =>
    intro d e hw
    unfold HostFS.walk at hw ⊢
    cases ha : a.inodes[d]? with
    | none => rw [ha] at hw; cases hw
    | some x =>
      cases x with
      | file _ => rw [ha] at hw; cases hw
      | link _ => rw [ha] at hw; cases hw
      | dir es par =>
        obtain ⟨es', hb, hes⟩ := hp.dir d es par ha
        rw [ha] at hw
        rw [hb]
        simp only at hw ⊢
        by_cases h1 : c = [] ∨ c = dot
        · rw [if_pos h1] at hw ⊢; exact ih d e hw
        · rw [if_neg h1] at hw ⊢
          by_cases h2 : c = dotdot
          · rw [if_pos h2] at hw ⊢; exact ih par none hw
          · rw [if_neg h2] at hw ⊢
            cases he : hostEntry es c with
            | none =>
              rw [he] at hw
              simp only at hw
              by_cases hr : r.all List.isEmpty = true
              · rw [if_pos hr] at hw
                simp only [Walk.done.injEq, Look.missing.injEq] at hw
                obtain ⟨rfl, rfl, -⟩ := hw
                rw [hd1] at ha
                cases ha
                rw [hd2] at hb
                cases hb
                rw [hostEntry_append_new he, ← hi]
                simp only [hnd]
                exact walk_empties ⟨_, _, hnd⟩ _ _ _ hr
              · rw [if_neg hr] at hw; cases hw
            | some j =>
              rw [he] at hw
              rw [hes c j he]
              simp only at hw ⊢
              cases hj : a.inodes[j]? with
              | none =>
                rw [hj] at hw
                cases r with
                | nil => simp only [HostFS.walk] at hw; cases hw
                | cons c' r' => simp only [HostFS.walk, hj] at hw; cases hw
              | some x =>
                rw [hj] at hw
                cases x with
                | link t =>
                  simp only at hw
                  by_cases h3 : (r.isEmpty && !true) = true
                  · rw [if_pos h3] at hw; cases hw
                  · rw [if_neg h3] at hw
                    by_cases h4 : t = []
                    · rw [if_pos h4] at hw; cases hw
                    · rw [if_neg h4] at hw; cases hw
                | file dt => rw [hp.file j dt hj]; exact ih j _ hw
                | dir es2 p2 =>
                  obtain ⟨es3, h3, -⟩ := hp.dir j es2 p2 hj
                  rw [h3]; exact ih j _ hw

theorem resolve_mkdir {a b : HostFS} {d0 i : Nat} {n : Bytes} {q : Nat} (h : a.create d0 n (.dir [] q) = some (b, i)) {sl : Bool}
    {p : Bytes} (hr : a.resolve true p = .missing d0 n sl) : b.resolve true p = .found i (some (d0, n)) := by
  have hp := create_preserved h
  unfold HostFS.resolve at hr ⊢
  by_cases hpp : p = [] ∨ 0 ∈ p ∨ 4096 ≤ p.length
  · rw [if_pos hpp] at hr; cases hr
  · rw [if_neg hpp] at hr ⊢
    rw [hp.cwd]
    generalize (if isRooted p then 0 else a.cwd) = d at hr ⊢
    generalize splitSlash p = cs at hr ⊢
    generalize 41 = m at hr ⊢
    induction m generalizing d cs with
    | zero => cases hr
    | succ m ih =>
      simp only [HostFS.resolveFrom] at hr ⊢
      cases hw : a.walk true d none cs with
      | done l =>
        rw [hw] at hr
        simp only at hr
        subst hr
        rw [walk_mkdir h cs d none hw]
      | jump d' cs' =>
        rw [hw] at hr
        rw [(walk_preserved hp true cs d none).2 d' cs' hw]
        exact ih d' cs' hr

/-- A path that leads to a directory. -/
theorem stat_dir {f : HostFS} {follow : Bool} {p : Bytes} : f.stat follow p = some true ↔
    ∃ i e es par, f.resolve follow p = .found i e ∧ f.inodes[i]? = some (.dir es par) := by
  unfold HostFS.stat
  constructor
  · intro h
    cases hr : f.resolve follow p with
    | missing _ _ _ => rw [hr] at h; cases h
    | fail => rw [hr] at h; cases h
    | found i e =>
      rw [hr] at h
      simp only at h
      cases hi : f.inodes[i]? with
      | none => rw [hi] at h; cases h
      | some nd =>
        rw [hi] at h
        simp only [Option.map_some, Option.some.injEq, HostFS.isDirAt, hi] at h
        cases nd with
        | dir es par => exact ⟨i, e, es, par, rfl, hi⟩
        | file _ => cases h
        | link _ => cases h
  · rintro ⟨i, e, es, par, h1, h2⟩
    rw [h1]
    simp [h2, HostFS.isDirAt]

theorem stat_dir_grown {a b : HostFS} (h : Grown a b) {follow : Bool} {p : Bytes} (hs : a.stat follow p = some true) :
    b.stat follow p = some true := by
  obtain ⟨i, e, es, par, h1, h2⟩ := stat_dir.mp hs
  obtain ⟨es', h3, -⟩ := h.dir i es par h2
  exact stat_dir.mpr ⟨i, e, es', par, resolve_grown h h1 ⟨_, h2⟩, h3⟩

theorem mkdir_stat {a b : HostFS} {p : Bytes} (h : a.mkdir p = some b) : b.stat true p = some true := by
  unfold HostFS.mkdir at h
  cases hr : a.resolve false p with
  | found _ _ => rw [hr] at h; cases h
  | fail => rw [hr] at h; cases h
  | missing d n sl =>
    rw [hr] at h
    obtain ⟨⟨f1, i⟩, h5, h6⟩ := Option.map_eq_some_iff.mp h
    simp only at h6
    subst h6
    have := resolve_follow hr (fun i e t h => by cases h)
    exact stat_dir.mpr ⟨i, _, [], d, resolve_mkdir h5 this, (create_get h5).2.1⟩

theorem wp_mkdirLast {env : Env} {p : Bytes} {s : RecState} :
    wp (mkdirLast env p) (fun ok t => ok = true → t.fs.stat true p = some true) (fun _ => True) s := by
  have h1 : wp (sysMkdir env p) (fun ok t => ok = true → t.fs.stat true p = some true) (fun _ => True) s := by
    unfold wp sysMkdir
    simp only [bind_def, note, modify_run, tick]
    by_cases hf : env.fails .mkdir s.calls = true
    · simp only [hf, if_true, pure_run]
      exact fun h => by cases h
    · simp only [hf, Bool.false_eq_true, if_false, bind_def, get_run]
      cases ho : s.fs.mkdir p with
      | none => exact fun h => by cases h
      | some x => exact fun _ => mkdir_stat ho
  unfold mkdirLast
  rw [wp_bind]
  refine wp_mono h1 ?_ fun _ h => h
  intro ok t ht
  cases ok with
  | true => exact ht
  | false =>
    simp only [Bool.false_eq_true, if_false]
    rw [wp_bind]
    unfold wp sysLstat
    simp only [bind_def, tick]
    by_cases hf : env.fails .lstat t.calls = true
    · simp only [hf, if_true, pure_run]
      exact fun h => by cases h
    · simp only [hf, Bool.false_eq_true, if_false, bind_def, get_run, pure_run]
      intro h
      have h := eq_of_beq h
      obtain ⟨i, e, es, par, h1, h2⟩ := stat_dir.mp h
      refine stat_dir.mpr ⟨i, e, es, par, resolve_follow h1 ?_, h2⟩
      intro j e' t' hj hl
      cases hj
      rw [h2] at hl
      cases hl

theorem wp_mkdirAll {env : Env} {p : Bytes} {s : RecState} :
    wp (mkdirAll env p) (fun ok t => ok = true → t.fs.stat true p = some true) (fun _ => True) s := by
  unfold mkdirAll
  generalize p.length + 1 = n
  cases n with
  | zero => trivial
  | succ n =>
    unfold mkdirAllAux
    rw [wp_bind]
    have h1 : wp (sysStat env p) (fun r t => r = some true → t.fs.stat true p = some true) (fun _ => True) s := by
      unfold wp sysStat
      simp only [bind_def, tick]
      by_cases hf : env.fails .stat s.calls = true
      · simp only [hf, if_true, pure_run]
        exact fun h => by cases h
      · simp only [hf, Bool.false_eq_true, if_false, bind_def, get_run, pure_run]
        exact fun h => h
    refine wp_mono h1 ?_ fun _ h => h
    intro st t ht
    cases st with
    | some b =>
      intro hb
      subst hb
      exact ht rfl
    | none =>
      simp only
      by_cases hp : parentPath p = []
      · rw [if_pos hp]; exact wp_mkdirLast
      · rw [if_neg hp, wp_bind]
        refine wp_mono (Q := fun _ _ => True) (E := fun _ => True) (by unfold wp; split <;> trivial) (fun ok u _ => ?_) fun _ h => h
        cases ok with
        | true => exact wp_mkdirLast
        | false => exact fun h => by cases h

end Btrfscue
