import Verif.Props.Ls
/-!
# C74: `ls PATH`
-/

namespace Btrfscue

theorem Bucket.EntryAt.hashed {b : Bucket} {o dir : UInt64} {names : List Bytes} {o' : UInt64} {e : DirItemRec}
    {p : Bytes} (h : b.EntryAt o dir names o' e p) : b.HashedPath o dir names p ∧
      ∃ dir' n, b.hashedEntry o' dir' n e p := by
  induction h with
  | last ho he => exact ⟨.last ho he, _, _, he⟩
  | step ho he _ ih => exact ⟨.step ho he ih.1, ih.2⟩

theorem lsArg_path (b : Bucket) (hb : b.WF) (m : Bytes) (hm : b.stores metadataVersionKey m)
    (arg : Bytes) (n : Bytes) (rest : List Bytes) (k : Nat) (hp : ∀ x ∈ n :: rest, Plain x)
    (hc : goClean arg = List.replicate k 47 ++ joinPath (n :: rest)) (o' : UInt64) (e : DirItemRec) (p : Bytes)
    (h : b.EntryAt 5 256 (n :: rest) o' e p) (rf : Nat) (ft : Time → Bytes) (o : LsOptions) (s : LsArgs) :
    ∃ d : DirItem, Slice.data d = p ∧ wholeEntry p ∧ lsArg rf ft ⟨b, ~~~0⟩ o s arg =
      if e.typ = 2 then .ok { s with todo := s.todo ++ [(5, e.location.objectID)] }
      else do return { s with out := s.out ++ (← listDirItem ft ⟨b, ~~~0⟩ 5 d o.inode) } := by
  obtain ⟨hh, dir', n', g, x, r, -, -, -, hpl, hnl, hn255⟩ := h.hashed
  have hne : n ≠ [] := (hp n List.mem_cons_self).1
  obtain ⟨d, hd1, hd2⟩ := C39_path_complete_partial b hb m hm 5 k n rest hne (fun x hx => (hp x hx).2.2.2) p hh rf
  refine ⟨d, hd2, ⟨e, n', r, hpl, hnl, hn255⟩, ?_⟩
  have hroot : goClean arg ≠ [47] := by
    rw [hc]
    intro h47
    have h1 : 47 ∉ n := (hp n List.mem_cons_self).2.2.2
    have : ∃ c t, joinPath (n :: rest) = c :: t ∧ c ≠ 47 := by
      cases n with
      | nil => exact absurd rfl hne
      | cons c t =>
        refine ⟨c, ?_⟩
        have hc47 : c ≠ 47 := fun h => h1 (by simp [h])
        cases rest with
        | nil => exact ⟨t, rfl, hc47⟩
        | cons => exact ⟨_, rfl, hc47⟩
    obtain ⟨c, t, h2, h3⟩ := this
    have : c ∈ [(47 : UInt8)] := by rw [← h47, h2]; simp
    simp at this
    exact h3 this
  obtain ⟨dd, dt⟩ := d
  simp only at hd2
  obtain ⟨-, h4, -, -, -, h5⟩ := C07_DirItem_decodes e (n' ++ r) dt
  rw [← hpl, ← hd2] at h4 h5
  unfold lsArg
  simp only [hroot, if_false]
  rw [hc, show FSTreeObjectID = (5 : UInt64) from rfl, hd1]
  simp only [Go.ok_bind, DirItem.isDir, h5, h4, Go.pure_eq]
  by_cases ht : e.typ = 2
  · have : (e.typ == FtDir) = true := beq_iff_eq.mpr ht
    simp only [this, Bool.not_true, Bool.false_eq_true, if_false, if_pos ht]
  · have : (e.typ == FtDir) = false := beq_eq_false_iff_ne.mpr ht
    simp only [this, Bool.not_false, if_true, if_neg ht]

/-- An entry of the file system tree reached without entering a subvolume stays there. -/
theorem Bucket.EntryAt.target_top {b : Bucket} (hb : b.NoLoopToTop) {o dir : UInt64} {names : List Bytes} {o' : UInt64}
    {e : DirItemRec} {p : Bytes} (h : b.EntryAt o dir names o' e p) (ht : (target o' e.location).1 = 5) :
    (target o' e.location).2 = e.location.objectID ∧ o' = 5 := by
  obtain ⟨-, dir', n', he⟩ := h.hashed
  unfold target at ht ⊢
  by_cases h132 : e.location.typ = 132
  · rw [if_pos h132] at ht
    exact absurd ht (hb _ _ _ _ _ he h132)
  · rw [if_neg h132] at ht ⊢
    exact ⟨rfl, ht⟩

/-- C74 (what holds), directories: for an argument that `path.Clean` turns into
`/n1/n2/...` (or without the leading slash), if the names lead to a directory `dir` of
the file system tree, `ls` prints the listing of that directory (see
`C64_listing_partial`) and warns about nothing. Missing: subvolumes, see
`C74_subvolume_wrong_tree`; entries not found through their name's hash. -/
theorem C74_ls_directory_partial (b : Bucket) (hb : b.WF) (m : Bytes) (hm : b.stores metadataVersionKey m)
    (htop : b.NoLoopToTop) (arg n : Bytes) (rest : List Bytes) (k : Nat) (hp : ∀ x ∈ n :: rest, Plain x)
    (hc : goClean arg = List.replicate k 47 ++ joinPath (n :: rest)) (o' : UInt64) (e : DirItemRec) (p : Bytes)
    (h : b.EntryAt 5 256 (n :: rest) o' e p) (hdir : e.typ = 2) (dir : UInt64) (ht : target o' e.location = (5, dir))
    (rf fuel : Nat) (srt : Sorter) (ft : Time → Bytes) (o : LsOptions) (text : Bytes) :
    doListFiles rf fuel srt ft ⟨b, ~~~0⟩ o [arg] = .ok (text, []) ↔
      listDirectory rf srt ft ⟨b, ~~~0⟩ 5 o.inode fuel dir o.recursive = .ok text := by
  obtain ⟨d, -, -, hd⟩ := lsArg_path b hb m hm arg n rest k hp hc o' e p h rf ft o {}
  have h1 := (h.target_top htop (by rw [ht])).1
  rw [ht] at h1
  simp only at h1
  subst h1
  simp only [doListFiles, List.isEmpty_cons, Bool.false_eq_true, if_false, lsArgsLoop, hd, if_pos hdir, Go.ok_bind,
    lsTodoLoop, List.nil_append, Go.pure_eq]
  cases listDirectory rf srt ft ⟨b, ~~~0⟩ 5 o.inode fuel e.location.objectID o.recursive <;>
    simp [Go.ok_bind, Go.hang_bind, Go.panic_bind]

/-- C74, the root: with no argument, or `/`, `ls` prints the listing of directory 256 of the file
system tree. -/
theorem C74_ls_root (ix : Ix) (args : List Bytes) (h : args = [] ∨ ∃ a, args = [a] ∧ goClean a = [47])
    (rf fuel : Nat) (srt : Sorter) (ft : Time → Bytes) (o : LsOptions) (text : Bytes) :
    doListFiles rf fuel srt ft ix o args = .ok (text, []) ↔
      listDirectory rf srt ft ix 5 o.inode fuel 256 o.recursive = .ok text := by
  have hd : ∀ a, goClean a = [47] → lsArg rf ft ix o {} a = .ok { todo := [(5, 256)] } := by
    intro a ha
    simp [lsArg, ha, FSTreeObjectID, FirstFreeObjectID]
  have key : ∀ a, goClean a = [47] → ((do
      let s ← lsArgsLoop rf ft ix o {} [a]
      let t ← lsTodoLoop rf fuel srt ft ix o s.todo
      return (s.out ++ t, s.warned) : Go (Bytes × List Bytes)) = .ok (text, []) ↔
      listDirectory rf srt ft ix 5 o.inode fuel 256 o.recursive = .ok text) := by
    intro a ha
    simp only [lsArgsLoop, hd a ha, Go.ok_bind, lsTodoLoop, Go.pure_eq]
    cases listDirectory rf srt ft ix 5 o.inode fuel 256 o.recursive <;>
      simp [Go.ok_bind, Go.hang_bind, Go.panic_bind]
  rcases h with rfl | ⟨a, rfl, ha⟩
  · exact key [47] (by decide)
  · exact key a ha

/-- C74 (what holds), files: if the names lead to something else than a directory, in
the file system tree, `ls` prints its line. -/
theorem C74_ls_file_partial (b : Bucket) (hb : b.WF) (m : Bytes) (hm : b.stores metadataVersionKey m)
    (arg n : Bytes) (rest : List Bytes) (k : Nat) (hp : ∀ x ∈ n :: rest, Plain x)
    (hc : goClean arg = List.replicate k 47 ++ joinPath (n :: rest)) (e : DirItemRec) (p : Bytes)
    (h : b.EntryAt 5 256 (n :: rest) 5 e p) (hdir : e.typ ≠ 2) (hin : b.InodesOK 5)
    (rf fuel : Nat) (srt : Sorter) (ft : Time → Bytes) (o : LsOptions) :
    ∃ d line, Slice.data d = p ∧ b.lineShows ft 5 o.inode d line ∧
      doListFiles rf fuel srt ft ⟨b, ~~~0⟩ o [arg] = .ok (line, []) := by
  obtain ⟨d, hd1, hd2, hd⟩ := lsArg_path b hb m hm arg n rest k hp hc 5 e p h rf ft o {}
  obtain ⟨line, h1, h2⟩ := C64_line b hb m hm 5 (by decide) hin ft o.inode d (by rw [hd1]; exact hd2)
  refine ⟨d, line, hd1, h2, ?_⟩
  simp only [doListFiles, List.isEmpty_cons, Bool.false_eq_true, if_false, lsArgsLoop, hd, if_neg hdir, Go.ok_bind,
    lsTodoLoop, List.nil_append, Go.pure_eq, h1, List.append_nil]

/-- What one argument adds. -/
theorem lsArg_adds (rf : Nat) (ft : Time → Bytes) (ix : Ix) (o : LsOptions) (s : LsArgs) (p : Bytes) :
    lsArg rf ft ix o s p = (lsArg rf ft ix o {} p >>= fun a =>
      .ok ⟨s.out ++ a.out, s.warned ++ a.warned, s.todo ++ a.todo⟩) := by
  unfold lsArg
  simp only
  by_cases h : goClean p = [47]
  · rw [if_pos h, if_pos h]
    simp [Go.pure_eq, Go.ok_bind]
  · rw [if_neg h, if_neg h]
    cases ix.findDirItemForPath rf FSTreeObjectID (goClean p) with
    | hang => rfl
    | panic => rfl
    | ok d =>
      cases d with
      | none => simp [Go.pure_eq, Go.ok_bind]
      | some di =>
        simp only [Go.ok_bind]
        cases DirItem.isDir di with
        | hang => rfl
        | panic => rfl
        | ok b =>
          simp only [Go.ok_bind]
          cases b with
          | true =>
            simp only [Bool.not_true, Bool.false_eq_true, if_false]
            cases DirItem.location di <;> simp [Go.pure_eq, Go.ok_bind, Go.hang_bind, Go.panic_bind]
          | false =>
            simp only [Bool.not_false, if_true]
            cases listDirItem ft ix FSTreeObjectID di o.inode <;> simp [Go.pure_eq, Go.ok_bind, Go.hang_bind, Go.panic_bind]

/-- The cleaned path is the root, or the entry it leads to is a directory. -/
def Ix.pathIsDir (ix : Ix) (rf : Nat) (p : Bytes) : Prop :=
  p = [47] ∨ ∃ di, ix.findDirItemForPath rf 5 p = .ok (some di) ∧ DirItem.isDir di = .ok true

/-- Exactly directories are put off. -/
theorem lsArg_dir {rf : Nat} {ft : Time → Bytes} {ix : Ix} {o : LsOptions} {p : Bytes} {a : LsArgs}
    (h : lsArg rf ft ix o {} p = .ok a) : a.todo ≠ [] ↔ ix.pathIsDir rf (goClean p) := by
  unfold lsArg at h
  simp only at h
  unfold Ix.pathIsDir
  by_cases hc : goClean p = [47]
  · rw [if_pos hc] at h
    cases h
    simp [hc]
  · rw [if_neg hc] at h
    obtain ⟨d, h1, h2⟩ := Go.bind_eq_ok.mp h
    have h1' : ix.findDirItemForPath rf 5 (goClean p) = .ok d := h1
    rw [h1']
    cases d with
    | none => cases h2; simp [hc]
    | some di =>
      simp only at h2
      obtain ⟨b, h0, h3⟩ := Go.bind_eq_ok.mp h2
      cases b with
      | true =>
        simp only [Bool.not_true, Bool.false_eq_true, if_false] at h3
        obtain ⟨loc, -, h4⟩ := Go.bind_eq_ok.mp h3
        cases h4
        simp [h0]
      | false =>
        simp only [Bool.not_false, if_true] at h3
        obtain ⟨line, -, h4⟩ := Go.bind_eq_ok.mp h3
        cases h4
        simp [hc, h0]

/-- One argument is warned about, or shows a line, or is put off to be listed. -/
theorem lsArg_kind {rf : Nat} {ft : Time → Bytes} {ix : Ix} {o : LsOptions} {p : Bytes} {a : LsArgs}
    (h : lsArg rf ft ix o {} p = .ok a) :
    (a = ⟨[], [goClean p], []⟩ ∧ goClean p ≠ [47] ∧ ix.findDirItemForPath rf 5 (goClean p) = .ok none) ∨
    (¬ (goClean p ≠ [47] ∧ ix.findDirItemForPath rf 5 (goClean p) = .ok none) ∧ a.warned = [] ∧
      (a.todo = [] ∨ (a.out = [] ∧ ∃ t, a.todo = [t]))) := by
  unfold lsArg at h
  simp only at h
  by_cases hc : goClean p = [47]
  · rw [if_pos hc] at h
    cases h
    exact Or.inr ⟨fun hn => hn.1 hc, rfl, Or.inr ⟨rfl, _, rfl⟩⟩
  · rw [if_neg hc] at h
    obtain ⟨d, h1, h2⟩ := Go.bind_eq_ok.mp h
    have h1' : ix.findDirItemForPath rf 5 (goClean p) = .ok d := h1
    cases d with
    | none => cases h2; exact Or.inl ⟨rfl, hc, h1'⟩
    | some di =>
      refine Or.inr ⟨fun hn => ?_, ?_⟩
      · rw [h1'] at hn; exact absurd hn.2 (by simp)
      · simp only at h2
        obtain ⟨b, -, h3⟩ := Go.bind_eq_ok.mp h2
        cases b with
        | true =>
          simp only [Bool.not_true, Bool.false_eq_true, if_false] at h3
          obtain ⟨loc, -, h4⟩ := Go.bind_eq_ok.mp h3
          cases h4
          exact ⟨rfl, Or.inr ⟨rfl, _, rfl⟩⟩
        | false =>
          simp only [Bool.not_false, if_true] at h3
          obtain ⟨line, -, h4⟩ := Go.bind_eq_ok.mp h3
          cases h4
          exact ⟨rfl, Or.inl rfl⟩

theorem lsArgsLoop_adds (rf : Nat) (ft : Time → Bytes) (ix : Ix) (o : LsOptions) (args : List Bytes) :
    ∀ (s r : LsArgs), lsArgsLoop rf ft ix o s args = .ok r → ∃ as : List LsArgs,
      as.length = args.length ∧ (∀ (i : Nat) p, args[i]? = some p → ∃ a, as[i]? = some a ∧ lsArg rf ft ix o {} p = .ok a) ∧
      r = ⟨s.out ++ (as.map (·.out)).flatten, s.warned ++ (as.map (·.warned)).flatten,
        s.todo ++ (as.map (·.todo)).flatten⟩ := by
  induction args with
  | nil =>
    intro s r h
    cases h
    exact ⟨[], rfl, (by simp), by simp⟩
  | cons p q ih =>
    intro s r h
    rw [lsArgsLoop, lsArg_adds] at h
    obtain ⟨s', h1, h2⟩ := Go.bind_eq_ok.mp h
    obtain ⟨a, h3, h4⟩ := Go.bind_eq_ok.mp h1
    cases h4
    obtain ⟨as, h5, h6, h7⟩ := ih _ _ h2
    refine ⟨a :: as, by simp [h5], ?_, ?_⟩
    · intro i x hi
      cases i with
      | zero =>
        simp only [List.getElem?_cons_zero, Option.some.injEq] at hi
        subst hi
        exact ⟨a, rfl, h3⟩
      | succ i => exact h6 i x (by simpa using hi)
    · rw [h7]; simp [List.append_assoc]

/-- C74, what cannot be found: `ls` warns about exactly the (cleaned) arguments that no
path lookup finds. -/
theorem C74_ls_missing (ix : Ix) (rf fuel : Nat) (srt : Sorter) (ft : Time → Bytes) (o : LsOptions) (args : List Bytes)
    (text : Bytes) (warned : List Bytes) (h : doListFiles rf fuel srt ft ix o args = .ok (text, warned)) (p : Bytes) :
    p ∈ warned ↔ ∃ a ∈ args, goClean a = p ∧ p ≠ [47] ∧ ix.findDirItemForPath rf 5 p = .ok none := by
  unfold doListFiles at h
  obtain ⟨s, h1, h2⟩ := Go.bind_eq_ok.mp h
  obtain ⟨t, -, h3⟩ := Go.bind_eq_ok.mp h2
  cases h3
  by_cases hz : args = []
  · subst hz
    simp only [List.isEmpty_nil, if_true, lsArgsLoop, lsArg, show goClean [47] = [47] by decide] at h1
    cases h1
    simp
  · rw [if_neg (by simpa using hz)] at h1
    obtain ⟨as, h4, h5, h6⟩ := lsArgsLoop_adds _ _ _ _ _ _ _ h1
    rw [h6]
    simp only [List.nil_append, List.mem_flatten, List.mem_map]
    constructor
    · rintro ⟨l, ⟨a, ha, rfl⟩, hp⟩
      obtain ⟨i, hi⟩ := List.getElem?_of_mem ha
      have hlt : i < args.length := by rw [← h4]; exact (List.getElem?_eq_some_iff.mp hi).1
      obtain ⟨a', h7, h8⟩ := h5 i args[i] (by simp [hlt])
      rw [hi] at h7
      cases h7
      rcases lsArg_kind h8 with ⟨rfl, h9, h10⟩ | ⟨-, h9, -⟩
      · rw [List.mem_singleton] at hp
        subst hp
        exact ⟨args[i], List.getElem_mem hlt, rfl, h9, h10⟩
      · rw [h9] at hp; cases hp
    · rintro ⟨x, hx, rfl, h7, h8⟩
      obtain ⟨i, hi⟩ := List.getElem?_of_mem hx
      obtain ⟨a, h9, h10⟩ := h5 i x hi
      refine ⟨a.warned, ⟨a, List.mem_of_getElem? h9, rfl⟩, ?_⟩
      rcases lsArg_kind h10 with ⟨rfl, -, -⟩ | ⟨h11, -, -⟩
      · exact List.mem_singleton_self _
      · exact absurd ⟨h7, h8⟩ h11

theorem lsTodoLoop_append (rf fuel : Nat) (srt : Sorter) (ft : Time → Bytes) (ix : Ix) (o : LsOptions)
    (a b : List (UInt64 × UInt64)) (t : Bytes) :
    lsTodoLoop rf fuel srt ft ix o (a ++ b) = .ok t ↔ ∃ x y, t = x ++ y ∧ lsTodoLoop rf fuel srt ft ix o a = .ok x ∧
      lsTodoLoop rf fuel srt ft ix o b = .ok y := by
  induction a generalizing t with
  | nil => simp [lsTodoLoop]
  | cons p q ih =>
    simp only [List.cons_append, lsTodoLoop, Go.bind_eq_ok, Go.pure_eq, Go.ok.injEq]
    constructor
    · rintro ⟨x, h1, y, h2, rfl⟩
      obtain ⟨u, v, rfl, h3, h4⟩ := (ih y).mp h2
      exact ⟨x ++ u, v, by rw [List.append_assoc], ⟨x, h1, u, h3, rfl⟩, h4⟩
    · rintro ⟨x, y, rfl, ⟨a, h1, c, h2, rfl⟩, h3⟩
      exact ⟨a, h1, c ++ y, (ih _).mpr ⟨c, y, rfl, h2, h3⟩, by rw [List.append_assoc]⟩

/-- C74, several arguments: `ls a b c` prints what `ls a`, `ls b` and `ls c` print: first
the lines of the arguments that are not directories, then the listings of those that are,
each in the order of the arguments. -/
theorem C74_ls_several (ix : Ix) (rf fuel : Nat) (srt : Sorter) (ft : Time → Bytes) (o : LsOptions) (args : List Bytes)
    (hne : args ≠ []) (text : Bytes) (warned : List Bytes)
    (h : doListFiles rf fuel srt ft ix o args = .ok (text, warned)) :
    ∃ parts : List (Bool × Bytes), parts.length = args.length ∧
      text = ((parts.filter (!·.1)).map (·.2)).flatten ++ ((parts.filter (·.1)).map (·.2)).flatten ∧
      ∀ (i : Nat) a, args[i]? = some a → ∃ d t w, parts[i]? = some (d, t) ∧ doListFiles rf fuel srt ft ix o [a] = .ok (t, w) ∧
        (d = true ↔ ix.pathIsDir rf (goClean a)) := by
  unfold doListFiles at h
  obtain ⟨s, h1, h2⟩ := Go.bind_eq_ok.mp h
  obtain ⟨t, h3, h3'⟩ := Go.bind_eq_ok.mp h2
  cases h3'
  rw [if_neg (by simpa using hne)] at h1
  obtain ⟨as, h4, h5, h6⟩ := lsArgsLoop_adds _ _ _ _ _ _ _ h1
  subst h6
  simp only [List.nil_append] at h3 ⊢
  clear h1 h h2 hne
  suffices hh : ∃ parts : List (Bool × Bytes), parts.length = args.length ∧
      (as.map (·.out)).flatten = ((parts.filter (!·.1)).map (·.2)).flatten ∧
      t = ((parts.filter (·.1)).map (·.2)).flatten ∧
      ∀ (i : Nat) a, args[i]? = some a → ∃ d t w, parts[i]? = some (d, t) ∧ doListFiles rf fuel srt ft ix o [a] = .ok (t, w) ∧
        (d = true ↔ ix.pathIsDir rf (goClean a)) by
    obtain ⟨parts, e1, e2, e3, e4⟩ := hh
    exact ⟨parts, e1, by rw [e2, e3], e4⟩
  induction args generalizing as t with
  | nil =>
    cases as with
    | nil =>
      cases h3
      exact ⟨[], rfl, rfl, rfl, by simp⟩
    | cons _ _ => cases h4
  | cons p q ih =>
    cases as with
    | nil => cases h4
    | cons a as =>
      obtain ⟨a', h7, h8⟩ := h5 0 p rfl
      cases h7
      simp only [List.map_cons, List.flatten_cons] at h3 ⊢
      obtain ⟨x, y, rfl, h9, h10⟩ := (lsTodoLoop_append ..).mp h3
      obtain ⟨parts, h11, h12, h12', h13⟩ := ih y as (by simpa using h4) (fun i b hi => h5 (i + 1) b (by simpa using hi)) h10
      have hone : doListFiles rf fuel srt ft ix o [p] = .ok (a.out ++ x, a.warned) := by
        simp only [doListFiles, List.isEmpty_cons, Bool.false_eq_true, if_false, lsArgsLoop, h8, Go.ok_bind, h9, Go.pure_eq]
      have hrest : ∀ (d : Bool), (d = true ↔ a.todo ≠ []) → ∀ (i : Nat) b, (p :: q)[i]? = some b → ∃ d' t w, ((d, a.out ++ x) :: parts)[i]? = some (d', t) ∧
          doListFiles rf fuel srt ft ix o [b] = .ok (t, w) ∧ (d' = true ↔ ix.pathIsDir rf (goClean b)) := by
        intro d hd i b hi
        cases i with
        | zero =>
          simp only [List.getElem?_cons_zero, Option.some.injEq] at hi
          subst hi
          exact ⟨d, _, _, rfl, hone, hd.trans (lsArg_dir h8)⟩
        | succ i => exact h13 i b (by simpa using hi)
      have hk : a.todo = [] ∨ (a.out = [] ∧ ∃ t, a.todo = [t]) := by
        rcases lsArg_kind h8 with ⟨rfl, -, -⟩ | ⟨-, -, h⟩
        · exact Or.inl rfl
        · exact h
      rcases hk with hk | ⟨hk, u, hu⟩
      · rw [hk] at h9
        cases h9
        refine ⟨(false, a.out ++ []) :: parts, by simp [h11], ?_, ?_, hrest false (by simp [hk])⟩
        · simp [h12]
        · simp [h12']
      · refine ⟨(true, a.out ++ x) :: parts, by simp [h11], ?_, ?_, hrest true (by simp [hu])⟩
        · simp [h12, hk]
        · simp [h12', hk]

theorem exPath_a : exPathStore.enc.EntryAt 5 256 [[97]] 5 ⟨⟨257, 1, 0⟩, 7, 0, 1, 2⟩ (exEntry ⟨257, 1, 0⟩ 2 [97]) :=
  .last (by decide) (entry_hashed (g := 10) (k := ⟨256, 84, (NameHash [97]).toUInt64⟩)
    (loc := ⟨257, 1, 0⟩) (t := 2) (by decide) (by simp [exPathStore]) (by decide +kernel))

theorem exPath_ab : exPathStore.enc.EntryAt 5 256 [[97], [98]] 5 ⟨⟨300, 132, 0⟩, 7, 0, 1, 2⟩
    (exEntry ⟨300, 132, 0⟩ 2 [98]) := by
  refine .step (by decide) (entry_hashed (g := 10) (k := ⟨256, 84, (NameHash [97]).toUInt64⟩)
    (loc := ⟨257, 1, 0⟩) (t := 2) (by decide) (by simp [exPathStore]) (by decide +kernel)) ?_
  exact .last (by decide) (entry_hashed (g := 11) (k := ⟨257, 84, (NameHash [98]).toUInt64⟩)
    (loc := ⟨300, 132, 0⟩) (t := 2) (by decide) (by simp [exPathStore, target]) (by decide +kernel))

/-- No entry of `exPathStore` enters tree 5 as a subvolume. -/
theorem exPathStore_top : exPathStore.enc.NoLoopToTop := by
  rintro o dir n e p ⟨g, x, rest, -, hs, hh, rfl, -, -⟩ h132
  have hm := enc_stores.mp hs
  have hloc := (C07_DirItem_decodes e (n ++ rest) []).2.1
  simp only [exPathStore, List.mem_cons, List.not_mem_nil, or_false, Prod.mk.injEq, VKey.mk.injEq, Key.mk.injEq] at hm
  rcases hm with ⟨-, rfl⟩ | ⟨-, rfl⟩ | ⟨⟨-, ⟨-, h, -⟩, -⟩, -⟩ | ⟨-, rfl⟩ | ⟨⟨-, ⟨-, h, -⟩, -⟩, -⟩ | ⟨h, -⟩
  · rw [hh.unique (mkItem_holds _ _ (by decide)), entry_location] at hloc
    rw [← Go.ok.inj hloc] at h132; exact absurd h132 (by show ¬ (1 : UInt8) = 132; decide)
  · rw [hh.unique (mkItem_holds _ _ (by decide)), entry_location] at hloc
    rw [← Go.ok.inj hloc]; show ¬ (300 : UInt64) = 5; decide
  · exact absurd h (by decide)
  · rw [hh.unique (mkItem_holds _ _ (by decide)), entry_location] at hloc
    rw [← Go.ok.inj hloc] at h132; exact absurd h132 (by show ¬ (1 : UInt8) = 132; decide)
  · exact absurd h (by decide)
  · exact absurd (congrArg (fun v => v.key.typ) h) (by show ¬ (84 : UInt8) = _; decide)

/-- The hypotheses of `C74_ls_directory_partial` are met by `ls //a/./` in `exPathStore`. -/
example : Plain [97] ∧ goClean [47, 47, 97, 47, 46, 47] = List.replicate 1 47 ++ joinPath [[97]] ∧
    exPathStore.enc.EntryAt 5 256 [[97]] 5 ⟨⟨257, 1, 0⟩, 7, 0, 1, 2⟩ (exEntry ⟨257, 1, 0⟩ 2 [97]) ∧
    target 5 ⟨257, 1, 0⟩ = (5, 257) ∧
    doListFiles 5 2 lsInsertSort (fun _ => [84]) ⟨exPathStore.enc, ~~~0⟩ ⟨false, true⟩ [[47, 47, 97, 47, 46, 47]] =
      .ok (ascii "300\td?????????\t?\t?\t?\t?\t?\tb\n", []) :=
  ⟨by decide, by decide, exPath_a, by decide, by decide +kernel⟩

-- The hypothesis of `C74_ls_missing` and `C74_ls_several` is met: a directory and a path that does not exist.
example : doListFiles 5 2 lsInsertSort (fun _ => [84]) ⟨exPathStore.enc, ~~~0⟩ ⟨false, true⟩ [[97], [120]] =
    .ok (ascii "300\td?????????\t?\t?\t?\t?\t?\tb\n", [[120]]) := by decide +kernel

/-- C74 is false of the code: `/a/b` leads to directory 256 of subvolume 300, which has
the file `c`, but `ls /a/b` prints nothing: it lists directory 300 of tree 5. -/
theorem C74_subvolume_wrong_tree : exPathStore.Sorted ∧
    exPathStore.enc.EntryAt 5 256 [[97], [98]] 5 ⟨⟨300, 132, 0⟩, 7, 0, 1, 2⟩ (exEntry ⟨300, 132, 0⟩ 2 [98]) ∧
    target 5 ⟨300, 132, 0⟩ = (300, 256) ∧
    exPathStore.enc.hashedEntry 300 256 [99] ⟨⟨258, 1, 0⟩, 7, 0, 1, 1⟩ (exEntry ⟨258, 1, 0⟩ 1 [99]) ∧
    doListFiles 5 2 lsInsertSort (fun _ => [84]) ⟨exPathStore.enc, ~~~0⟩ ⟨false, true⟩ [[47, 97, 47, 98]] = .ok ([], []) :=
  ⟨exPathStore_sorted, exPath_ab, by decide,
    entry_hashed (g := 12) (k := ⟨256, 84, (NameHash [99]).toUInt64⟩)
      (loc := ⟨258, 1, 0⟩) (t := 1) (by decide) (by simp [exPathStore]) (by decide +kernel),
    by decide +kernel⟩

end Btrfscue
