import Verif.Spec.Recover
/-!
# Lemmas about the host file system
-/

namespace Btrfscue

/-- Inode by inode, `b` has everything `a` has. -/
structure Preserved (a b : HostFS) : Prop where
  cwd : b.cwd = a.cwd
  len : a.inodes.length ≤ b.inodes.length
  file : ∀ (i : Nat) d, a.inodes[i]? = some (INode.file d) → b.inodes[i]? = some (INode.file d)
  link : ∀ (i : Nat) t, a.inodes[i]? = some (INode.link t) → b.inodes[i]? = some (INode.link t)
  dir : ∀ (i : Nat) es p, a.inodes[i]? = some (INode.dir es p) → ∃ es', b.inodes[i]? = some (INode.dir es' p) ∧
    ∀ n j, hostEntry es n = some j → hostEntry es' n = some j

theorem Preserved.refl (a : HostFS) : Preserved a a :=
  ⟨rfl, Nat.le_refl _, fun _ _ h => h, fun _ _ h => h, fun _ es _ h => ⟨es, h, fun _ _ h => h⟩⟩

theorem Preserved.trans {a b c : HostFS} (h : Preserved a b) (h' : Preserved b c) : Preserved a c where
  cwd := h'.cwd.trans h.cwd
  len := Nat.le_trans h.len h'.len
  file i d hi := h'.file _ _ (h.file _ _ hi)
  link i d hi := h'.link _ _ (h.link _ _ hi)
  dir i es p hi := by
    obtain ⟨es', h1, h2⟩ := h.dir i es p hi
    obtain ⟨es'', h3, h4⟩ := h'.dir i es' p h1
    exact ⟨es'', h3, fun n j hj => h4 n j (h2 n j hj)⟩

/-- The same, except that what files hold may differ. -/
structure Grown (a b : HostFS) : Prop where
  cwd : b.cwd = a.cwd
  len : a.inodes.length ≤ b.inodes.length
  file : ∀ (i : Nat) d, a.inodes[i]? = some (INode.file d) → ∃ d', b.inodes[i]? = some (INode.file d')
  link : ∀ (i : Nat) t, a.inodes[i]? = some (INode.link t) → b.inodes[i]? = some (INode.link t)
  dir : ∀ (i : Nat) es p, a.inodes[i]? = some (INode.dir es p) → ∃ es', b.inodes[i]? = some (INode.dir es' p) ∧
    ∀ n j, hostEntry es n = some j → hostEntry es' n = some j

theorem Preserved.grown {a b : HostFS} (h : Preserved a b) : Grown a b :=
  ⟨h.cwd, h.len, fun i d hd => ⟨d, h.file i d hd⟩, h.link, h.dir⟩

theorem Grown.refl (a : HostFS) : Grown a a := (Preserved.refl a).grown

theorem Grown.trans {a b c : HostFS} (h : Grown a b) (h' : Grown b c) : Grown a c where
  cwd := h'.cwd.trans h.cwd
  len := Nat.le_trans h.len h'.len
  file i d hi := by
    obtain ⟨d', hd⟩ := h.file i d hi
    exact h'.file i d' hd
  link i d hi := h'.link _ _ (h.link _ _ hi)
  dir i es p hi := by
    obtain ⟨es', h1, h2⟩ := h.dir i es p hi
    obtain ⟨es'', h3, h4⟩ := h'.dir i es' p h1
    exact ⟨es'', h3, fun n j hj => h4 n j (h2 n j hj)⟩

theorem hostEntry_append_ne {es : List (Bytes × Nat)} {n m : Bytes} {i j : Nat} (h : hostEntry es n = some j) :
    hostEntry (es ++ [(m, i)]) n = some j := by
  induction es with
  | nil => cases h
  | cons e r ih =>
    simp only [hostEntry, List.cons_append] at h ⊢
    by_cases he : e.1 = n
    · rw [if_pos he] at h ⊢; exact h
    · rw [if_neg he] at h ⊢; exact ih h

theorem hostEntry_append_new {es : List (Bytes × Nat)} {n : Bytes} {i : Nat} (h : hostEntry es n = none) :
    hostEntry (es ++ [(n, i)]) n = some i := by
  induction es with
  | nil => simp [hostEntry]
  | cons e r ih =>
    simp only [hostEntry, List.cons_append] at h ⊢
    by_cases he : e.1 = n
    · rw [if_pos he] at h; cases h
    · rw [if_neg he] at h ⊢; exact ih h

theorem hostEntry_mem {es : List (Bytes × Nat)} {n : Bytes} {i : Nat} (h : hostEntry es n = some i) : (n, i) ∈ es := by
  induction es with
  | nil => cases h
  | cons e r ih =>
    simp only [hostEntry] at h
    by_cases he : e.1 = n
    · rw [if_pos he] at h
      cases h; subst he
      exact List.mem_cons_self
    · rw [if_neg he] at h
      exact List.mem_cons_of_mem _ (ih h)

theorem hostEntry_of_mem {es : List (Bytes × Nat)} {n : Bytes} (h : n ∈ es.map (·.1)) : ∃ i, hostEntry es n = some i := by
  induction es with
  | nil => simp at h
  | cons e r ih =>
    simp only [hostEntry]
    by_cases he : e.1 = n
    · exact ⟨_, if_pos he⟩
    · rw [if_neg he]
      simp only [List.map_cons, List.mem_cons] at h
      rcases h with h | h
      · exact absurd h.symm he
      · exact ih h

/-! ## Resolution in a file system with more in it -/

theorem walk_grown {a b : HostFS} (h : Grown a b) (follow : Bool) :
    ∀ (cs : List Bytes) (d : Nat) (e : Option (Nat × Bytes)),
      (∀ i e', a.walk follow d e cs = .done (.found i e') → (∃ nd, a.inodes[i]? = some nd) →
        b.walk follow d e cs = .done (.found i e')) ∧
      (∀ d' cs', a.walk follow d e cs = .jump d' cs' → b.walk follow d e cs = .jump d' cs') := by
  intro cs
  induction cs with
  | nil => intro d e; exact ⟨fun i e' hw _ => hw, fun d' cs' hw => (by cases hw)⟩
  | cons c r ih =>
    intro d e
    unfold HostFS.walk
    cases ha : a.inodes[d]? with
    | none => exact ⟨fun i e' hw _ => (by cases hw), fun d' cs' hw => (by cases hw)⟩
    | some nd =>
      cases nd with
      | file _ => exact ⟨fun i e' hw _ => (by cases hw), fun d' cs' hw => (by cases hw)⟩
      | link _ => exact ⟨fun i e' hw _ => (by cases hw), fun d' cs' hw => (by cases hw)⟩
      | dir es par =>
        obtain ⟨es', hb, hes⟩ := h.dir d es par ha
        rw [hb]
        simp only
        by_cases h1 : c = [] ∨ c = dot
        · simp only [if_pos h1]; exact ih d e
        · simp only [if_neg h1]
          by_cases h2 : c = dotdot
          · simp only [if_pos h2]; exact ih par none
          · simp only [if_neg h2]
            cases he : hostEntry es c with
            | none =>
              simp only
              refine ⟨fun i e' hw _ => ?_, fun d' cs' hw => (by cases hw)⟩
              split at hw <;> cases hw
            | some j =>
              rw [hes c j he]
              simp only
              cases hj : a.inodes[j]? with
              | none =>
                simp only
                refine ⟨fun i e' hw hex => ?_, fun d' cs' hw => ?_⟩
                · cases r with
                  | nil =>
                    simp only [HostFS.walk, Walk.done.injEq, Look.found.injEq] at hw
                    obtain ⟨nd, hnd⟩ := hex
                    rw [← hw.1, hj] at hnd
                    cases hnd
                  | cons c' r' => simp only [HostFS.walk, hj] at hw; cases hw
                · cases r with
                  | nil => simp only [HostFS.walk] at hw; cases hw
                  | cons c' r' => simp only [HostFS.walk, hj] at hw; cases hw
              | some nd =>
                cases nd with
                | link t => rw [h.link j t hj]; exact ⟨fun i e' hw _ => hw, fun d' cs' hw => hw⟩
                | file dt =>
                  obtain ⟨dt', hf⟩ := h.file j dt hj
                  rw [hf]; exact ih j _
                | dir es2 p2 =>
                  obtain ⟨es3, h3, -⟩ := h.dir j es2 p2 hj
                  rw [h3]; exact ih j _

theorem resolveFrom_grown {a b : HostFS} (h : Grown a b) (follow : Bool) :
    ∀ (n d : Nat) (cs : List Bytes) (i : Nat) (e : Option (Nat × Bytes)),
      a.resolveFrom follow n d cs = .found i e → (∃ nd, a.inodes[i]? = some nd) →
      b.resolveFrom follow n d cs = .found i e := by
  intro n
  induction n with
  | zero => intro d cs i e hr; cases hr
  | succ n ih =>
    intro d cs i e hr hex
    simp only [HostFS.resolveFrom] at hr ⊢
    cases hw : a.walk follow d none cs with
    | done l =>
      rw [hw] at hr
      simp only at hr
      subst hr
      rw [(walk_grown h follow cs d none).1 i e hw hex]
    | jump d' cs' =>
      rw [hw] at hr
      rw [(walk_grown h follow cs d none).2 d' cs' hw]
      exact ih d' cs' i e hr hex

theorem resolve_grown {a b : HostFS} (h : Grown a b) {follow : Bool} {p : Bytes} {i : Nat}
    {e : Option (Nat × Bytes)} (hr : a.resolve follow p = .found i e) (hex : ∃ nd, a.inodes[i]? = some nd) :
    b.resolve follow p = .found i e := by
  unfold HostFS.resolve at hr ⊢
  by_cases hp : p = [] ∨ 0 ∈ p ∨ 4096 ≤ p.length
  · rw [if_pos hp] at hr; cases hr
  · rw [if_neg hp] at hr ⊢
    rw [h.cwd]
    exact resolveFrom_grown h follow _ _ _ _ _ hr hex

theorem walk_preserved {a b : HostFS} (h : Preserved a b) (follow : Bool) :
    ∀ (cs : List Bytes) (d : Nat) (e : Option (Nat × Bytes)),
      (∀ i e', a.walk follow d e cs = .done (.found i e') → (∃ nd, a.inodes[i]? = some nd) →
        b.walk follow d e cs = .done (.found i e')) ∧
      (∀ d' cs', a.walk follow d e cs = .jump d' cs' → b.walk follow d e cs = .jump d' cs') := walk_grown h.grown follow

theorem resolve_preserved {a b : HostFS} (h : Preserved a b) {follow : Bool} {p : Bytes} {i : Nat}
    {e : Option (Nat × Bytes)} (hr : a.resolve follow p = .found i e) (hex : ∃ nd, a.inodes[i]? = some nd) :
    b.resolve follow p = .found i e := resolve_grown h.grown hr hex

theorem Preserved.untouched {a b : HostFS} (h : Preserved a b) : Untouched a b where
  files p d hd := by
    unfold HostFS.readFile at hd ⊢
    cases hr : a.resolve true p with
    | missing _ _ _ => rw [hr] at hd; cases hd
    | fail => rw [hr] at hd; cases hd
    | found i e =>
      rw [hr] at hd
      simp only at hd
      cases hi : a.inodes[i]? with
      | none => rw [hi] at hd; cases hd
      | some nd =>
        rw [resolve_preserved h hr ⟨nd, hi⟩]
        rw [hi] at hd
        cases nd with
        | file x => simp only at hd ⊢; rw [h.file i x hi]; exact hd
        | dir _ _ => cases hd
        | link _ => cases hd
  links p d hd := by
    unfold HostFS.readLink at hd ⊢
    cases hr : a.resolve false p with
    | missing _ _ _ => rw [hr] at hd; cases hd
    | fail => rw [hr] at hd; cases hd
    | found i e =>
      rw [hr] at hd
      simp only at hd
      cases hi : a.inodes[i]? with
      | none => rw [hi] at hd; cases hd
      | some nd =>
        rw [resolve_preserved h hr ⟨nd, hi⟩]
        rw [hi] at hd
        cases nd with
        | link x => simp only at hd ⊢; rw [h.link i x hi]; exact hd
        | dir _ _ => cases hd
        | file _ => cases hd
  dirs p ns hd := by
    unfold HostFS.listDir at hd ⊢
    cases hr : a.resolve true p with
    | missing _ _ _ => rw [hr] at hd; cases hd
    | fail => rw [hr] at hd; cases hd
    | found i e =>
      rw [hr] at hd
      simp only at hd
      cases hi : a.inodes[i]? with
      | none => rw [hi] at hd; cases hd
      | some nd =>
        rw [resolve_preserved h hr ⟨nd, hi⟩]
        rw [hi] at hd
        cases nd with
        | file _ => cases hd
        | link _ => cases hd
        | dir es par =>
          simp only [Option.some.injEq] at hd ⊢
          obtain ⟨es', h1, h2⟩ := h.dir i es par hi
          refine ⟨es'.map (·.1), by rw [h1], ?_⟩
          subst hd
          intro n hn
          obtain ⟨j, hj⟩ := hostEntry_of_mem hn
          exact List.mem_map.mpr ⟨_, hostEntry_mem (h2 n j hj), rfl⟩

/-! ## What the system calls change -/

theorem getElem?_set_ne' {α : Type} {l : List α} {i j : Nat} {x : α} (h : i ≠ j) : (l.set i x)[j]? = l[j]? := by
  rw [List.getElem?_set]; simp [h]

theorem create_eq {fs fs' : HostFS} {d i : Nat} {n : Bytes} {nd : INode} (h : fs.create d n nd = some (fs', i)) :
    ∃ es par, fs.inodes[d]? = some (.dir es par) ∧ i = fs.inodes.length ∧
      fs' = { fs with inodes := fs.inodes.set d (.dir (es ++ [(n, fs.inodes.length)]) par) ++ [nd] } := by
  unfold HostFS.create at h
  cases hd : fs.inodes[d]? with
  | none => rw [hd] at h; cases h
  | some x =>
    rw [hd] at h
    cases x with
    | file _ => cases h
    | link _ => cases h
    | dir es par =>
      simp only [Option.some.injEq, Prod.mk.injEq] at h
      exact ⟨es, par, rfl, h.2.symm, h.1.symm⟩

theorem create_get {fs fs' : HostFS} {d i : Nat} {n : Bytes} {nd : INode} (h : fs.create d n nd = some (fs', i)) :
    i = fs.inodes.length ∧ fs'.inodes[i]? = some nd ∧ fs'.inodes.length = fs.inodes.length + 1 ∧ fs'.cwd = fs.cwd ∧
    (∃ es par, fs.inodes[d]? = some (.dir es par) ∧
      fs'.inodes[d]? = some (.dir (es ++ [(n, fs.inodes.length)]) par)) ∧
    ∀ j, j ≠ d → j ≠ i → fs'.inodes[j]? = fs.inodes[j]? := by
  obtain ⟨es, par, hd, rfl, rfl⟩ := create_eq h
  have hlt : d < fs.inodes.length := by
    rw [List.getElem?_eq_some_iff] at hd; exact hd.1
  refine ⟨rfl, ?_, by simp, rfl, ⟨es, par, hd, ?_⟩, ?_⟩
  · simp only
    rw [List.getElem?_append_right (by simp)]
    simp
  · simp only
    rw [List.getElem?_append_left (by simpa using hlt), List.getElem?_set]
    simp [hlt]
  · intro j hj1 hj2
    simp only
    by_cases hlt' : j < fs.inodes.length
    · rw [List.getElem?_append_left (by simpa using hlt'), getElem?_set_ne' (Ne.symm hj1)]
    · rw [List.getElem?_eq_none (by simp; omega), List.getElem?_eq_none (by omega)]

theorem create_preserved {fs fs' : HostFS} {d i : Nat} {n : Bytes} {nd : INode}
    (h : fs.create d n nd = some (fs', i)) : Preserved fs fs' := by
  obtain ⟨hi, -, hlen, hcwd, ⟨es, par, hd1, hd2⟩, hoth⟩ := create_get h
  have hlt : ∀ j x, fs.inodes[j]? = some x → j ≠ i := by
    intro j x hj
    rw [List.getElem?_eq_some_iff] at hj
    obtain ⟨hj, -⟩ := hj
    omega
  refine ⟨hcwd, by omega, ?_, ?_, ?_⟩
  · intro j x hj
    by_cases hjd : j = d
    · subst hjd; rw [hd1] at hj; cases hj
    · rw [hoth j hjd (hlt j _ hj)]; exact hj
  · intro j x hj
    by_cases hjd : j = d
    · subst hjd; rw [hd1] at hj; cases hj
    · rw [hoth j hjd (hlt j _ hj)]; exact hj
  · intro j es1 p1 hj
    by_cases hjd : j = d
    · subst hjd
      rw [hd1] at hj
      cases hj
      exact ⟨_, hd2, fun n' j' hn => hostEntry_append_ne hn⟩
    · exact ⟨es1, by rw [hoth j hjd (hlt j _ hj)]; exact hj, fun _ _ h => h⟩

theorem mkdir_preserved {fs fs' : HostFS} {p : Bytes} (h : fs.mkdir p = some fs') : Preserved fs fs' := by
  unfold HostFS.mkdir at h
  cases hr : fs.resolve false p with
  | found _ _ => rw [hr] at h; cases h
  | fail => rw [hr] at h; cases h
  | missing d n sl =>
    rw [hr] at h
    obtain ⟨⟨f, i⟩, h1, h2⟩ := Option.map_eq_some_iff.mp h
    simp only at h2
    subst h2
    exact create_preserved h1

theorem symlink_preserved {fs fs' : HostFS} {t p : Bytes} (h : fs.symlink t p = some fs') : Preserved fs fs' := by
  unfold HostFS.symlink at h
  by_cases ht : t = [] ∨ 0 ∈ t ∨ 4096 ≤ t.length
  · rw [if_pos ht] at h; cases h
  · rw [if_neg ht] at h
    cases hr : fs.resolve false p with
    | found _ _ => rw [hr] at h; cases h
    | fail => rw [hr] at h; cases h
    | missing d n sl =>
      rw [hr] at h
      cases sl with
      | true => cases h
      | false =>
        obtain ⟨⟨f, i⟩, h1, h2⟩ := Option.map_eq_some_iff.mp h
        simp only at h2
        subst h2
        exact create_preserved h1

/-- Opening a path at which nothing was found creates a new inode, if anything. -/
theorem openTrunc_new {fs fs' : HostFS} {p : Bytes} {i : Nat} (hs : fs.stat true p = none)
    (h : fs.openTrunc p = some (fs', i)) :
    Preserved fs fs' ∧ i = fs.inodes.length ∧ fs'.inodes[i]? = some (.file []) := by
  unfold HostFS.openTrunc at h
  unfold HostFS.stat at hs
  cases hr : fs.resolve true p with
  | found i e =>
    rw [hr] at hs h
    cases hi : fs.inodes[i]? with
    | none => simp only [hi] at h; cases h
    | some nd => simp only [hi] at hs; cases hs
  | fail => rw [hr] at h; cases h
  | missing d n sl =>
    rw [hr] at h
    cases sl with
    | true => cases h
    | false => exact ⟨create_preserved h, (create_get h).1, (create_get h).2.1⟩

/-- What is there stays there. -/
theorem stat_grown {a b : HostFS} (h : Grown a b) {follow : Bool} {p : Bytes} (hs : a.stat follow p ≠ none) :
    b.stat follow p ≠ none := by
  unfold HostFS.stat at hs ⊢
  cases hr : a.resolve follow p with
  | missing _ _ _ => rw [hr] at hs; exact absurd rfl hs
  | fail => rw [hr] at hs; exact absurd rfl hs
  | found i e =>
    rw [hr] at hs
    simp only at hs
    cases hi : a.inodes[i]? with
    | none => rw [hi] at hs; exact absurd rfl hs
    | some nd =>
      rw [resolve_grown h hr ⟨nd, hi⟩]
      have hlt : i < b.inodes.length := Nat.lt_of_lt_of_le (List.getElem?_eq_some_iff.mp hi).1 h.len
      simp [hlt]

theorem stat_of_readFile {a : HostFS} {p d : Bytes} (h : a.readFile p = some d) : a.stat true p ≠ none := by
  unfold HostFS.readFile at h
  unfold HostFS.stat
  cases hr : a.resolve true p with
  | missing _ _ _ => rw [hr] at h; cases h
  | fail => rw [hr] at h; cases h
  | found i e =>
    rw [hr] at h
    simp only at h ⊢
    cases hi : a.inodes[i]? with
    | none => rw [hi] at h; cases h
    | some nd => simp

theorem stat_of_readLink {a : HostFS} {p d : Bytes} (h : a.readLink p = some d) : a.stat false p ≠ none := by
  unfold HostFS.readLink at h
  unfold HostFS.stat
  cases hr : a.resolve false p with
  | missing _ _ _ => rw [hr] at h; cases h
  | fail => rw [hr] at h; cases h
  | found i e =>
    rw [hr] at h
    simp only at h ⊢
    cases hi : a.inodes[i]? with
    | none => rw [hi] at h; cases h
    | some nd => simp

theorem put_get {fs : HostFS} {i j : Nat} {nd : INode} (h : i ≠ j) : (fs.put i nd).inodes[j]? = fs.inodes[j]? :=
  getElem?_set_ne' h

theorem put_get_self {fs : HostFS} {i : Nat} {nd : INode} (h : i < fs.inodes.length) :
    (fs.put i nd).inodes[i]? = some nd := by
  simp [HostFS.put, h]

/-- Changing an inode that `a` does not have keeps what `a` has. -/
theorem put_preserved {a b : HostFS} {i : Nat} {nd : INode} (h : Preserved a b) (hi : a.inodes.length ≤ i) :
    Preserved a (b.put i nd) := by
  have hlt : ∀ j x, a.inodes[j]? = some x → i ≠ j := by
    intro j x hj
    rw [List.getElem?_eq_some_iff] at hj
    obtain ⟨hj, -⟩ := hj
    omega
  refine ⟨h.cwd, by simpa [HostFS.put] using h.len, ?_, ?_, ?_⟩
  · intro j x hj; rw [put_get (hlt j _ hj)]; exact h.file _ _ hj
  · intro j x hj; rw [put_get (hlt j _ hj)]; exact h.link _ _ hj
  · intro j es p hj
    rw [put_get (hlt j _ hj)]; exact h.dir _ _ _ hj

theorem write_preserved {a b b' : HostFS} {i off : Nat} {x : Bytes} (h : Preserved a b) (hi : a.inodes.length ≤ i)
    (hw : b.write i off x = some b') : Preserved a b' := by
  unfold HostFS.write at hw
  split at hw
  · cases hw; exact put_preserved h hi
  · cases hw

theorem truncate_preserved {a b b' : HostFS} {i n : Nat} (h : Preserved a b) (hi : a.inodes.length ≤ i)
    (hw : b.truncate i n = some b') : Preserved a b' := by
  unfold HostFS.truncate at hw
  split at hw
  · cases hw; exact put_preserved h hi
  · cases hw

/-! ## A path at which something has been created -/

/-- After something has been created under a missing last component, the path leads to
it. -/
theorem walk_create {a b : HostFS} {d0 i : Nat} {n : Bytes} {nd : INode} (h : a.create d0 n nd = some (b, i))
    {follow : Bool} (hl : follow = false ∨ ∀ t, nd ≠ .link t) :
    ∀ (cs : List Bytes) (d : Nat) (e : Option (Nat × Bytes)),
      a.walk follow d e cs = .done (.missing d0 n false) → b.walk follow d e cs = .done (.found i (some (d0, n))) := by
  have hp := create_preserved h
  obtain ⟨hi, hnd, -, -, ⟨es0, par0, hd1, hd2⟩, -⟩ := create_get h
  intro cs
  induction cs with
  | nil => intro d e hw; cases hw
  | cons c r ih =>
    intro d e hw
    unfold HostFS.walk at hw ⊢
    cases ha : a.inodes[d]? with
    | none => rw [ha] at hw; cases hw
    | some x =>
      cases x with
      | file _ => rw [ha] at hw; cases hw
      | link _ => rw [ha] at hw; cases hw
      | dir es par =>
        obtain ⟨es', hb, hes⟩ := hp.dir d es par ha
        rw [ha] at hw
        rw [hb]
        simp only at hw ⊢
        by_cases h1 : c = [] ∨ c = dot
        · rw [if_pos h1] at hw ⊢; exact ih d e hw
        · rw [if_neg h1] at hw ⊢
          by_cases h2 : c = dotdot
          · rw [if_pos h2] at hw ⊢; exact ih par none hw
          · rw [if_neg h2] at hw ⊢
            cases he : hostEntry es c with
            | none =>
              rw [he] at hw
              simp only at hw
              by_cases hr : r.all List.isEmpty = true
              · rw [if_pos hr] at hw
                simp only [Walk.done.injEq, Look.missing.injEq] at hw
                obtain ⟨rfl, rfl, hr'⟩ := hw
                have hr0 : r = [] := by simpa using hr'
                subst hr0
                rw [hd1] at ha
                cases ha
                rw [hd2] at hb
                cases hb
                rw [hostEntry_append_new he, ← hi]
                simp only [hnd]
                cases nd with
                | file _ => rfl
                | dir _ _ => rfl
                | link t =>
                  rcases hl with rfl | hl
                  · rfl
                  · exact absurd rfl (hl t)
              · rw [if_neg hr] at hw; cases hw
            | some j =>
              rw [he] at hw
              rw [hes c j he]
              simp only at hw ⊢
              cases hj : a.inodes[j]? with
              | none =>
                rw [hj] at hw
                cases r with
                | nil => simp only [HostFS.walk] at hw; cases hw
                | cons c' r' => simp only [HostFS.walk, hj] at hw; cases hw
              | some x =>
                rw [hj] at hw
                cases x with
                | link t =>
                  rw [hp.link j t hj]
                  simp only at hw ⊢
                  by_cases h3 : (r.isEmpty && !follow) = true
                  · rw [if_pos h3] at hw; cases hw
                  · rw [if_neg h3] at hw
                    by_cases h4 : t = []
                    · rw [if_pos h4] at hw; cases hw
                    · rw [if_neg h4] at hw; cases hw
                | file dt => rw [hp.file j dt hj]; exact ih j _ hw
                | dir es2 p2 =>
                  obtain ⟨es3, h3, -⟩ := hp.dir j es2 p2 hj
                  rw [h3]; exact ih j _ hw

theorem resolve_create {a b : HostFS} {d0 i : Nat} {n : Bytes} {nd : INode} (h : a.create d0 n nd = some (b, i))
    {follow : Bool} (hl : follow = false ∨ ∀ t, nd ≠ .link t) {p : Bytes}
    (hr : a.resolve follow p = .missing d0 n false) : b.resolve follow p = .found i (some (d0, n)) := by
  have hp := create_preserved h
  unfold HostFS.resolve at hr ⊢
  by_cases hpp : p = [] ∨ 0 ∈ p ∨ 4096 ≤ p.length
  · rw [if_pos hpp] at hr; cases hr
  · rw [if_neg hpp] at hr ⊢
    rw [hp.cwd]
    generalize (if isRooted p then 0 else a.cwd) = d at hr ⊢
    generalize splitSlash p = cs at hr ⊢
    generalize 41 = m at hr ⊢
    induction m generalizing d cs with
    | zero => cases hr
    | succ m ih =>
      simp only [HostFS.resolveFrom] at hr ⊢
      cases hw : a.walk follow d none cs with
      | done l =>
        rw [hw] at hr
        simp only at hr
        subst hr
        rw [walk_create h hl cs d none hw]
      | jump d' cs' =>
        rw [hw] at hr
        rw [(walk_preserved hp follow cs d none).2 d' cs' hw]
        exact ih d' cs' hr

/-- The link at a path after symlink(2). -/
theorem symlink_readLink {fs fs' : HostFS} {t p : Bytes} (h : fs.symlink t p = some fs') : fs'.readLink p = some t := by
  unfold HostFS.symlink at h
  by_cases ht : t = [] ∨ 0 ∈ t ∨ 4096 ≤ t.length
  · rw [if_pos ht] at h; cases h
  · rw [if_neg ht] at h
    cases hr : fs.resolve false p with
    | found _ _ => rw [hr] at h; cases h
    | fail => rw [hr] at h; cases h
    | missing d n sl =>
      rw [hr] at h
      cases sl with
      | true => cases h
      | false =>
        obtain ⟨⟨f, i⟩, h1, h2⟩ := Option.map_eq_some_iff.mp h
        simp only at h2
        subst h2
        unfold HostFS.readLink
        rw [resolve_create h1 (Or.inl rfl) hr]
        simp only [(create_get h1).2.1]

end Btrfscue
