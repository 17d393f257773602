import Verif.Props.RecoverHang
import Verif.Props.LsCrash
import Verif.Props.PathHang
/-!
# C65: what keeps a listing from ending
-/

namespace Btrfscue

instance (ft : Time → Bytes) (r : Option InodeItem) : NH (inodeColumns ft r) := by
  cases r with
  | none => unfold inodeColumns; infer_instance
  | some d => infer_instance

instance (ft : Time → Bytes) (ix : Ix) (o : UInt64) (d : DirItem) (si : Bool) : NH (listDirItem ft ix o d si) := by
  unfold listDirItem; infer_instance

theorem lsKeys_nh : ∀ dis : List DirItem, NH (lsKeys dis)
  | [] => by unfold lsKeys; infer_instance
  | d :: r => by
    have := lsKeys_nh r
    have hk : NH (lsKey d) := by unfold lsKey; infer_instance
    unfold lsKeys; infer_instance

instance (srt : Sorter) (dis : List DirItem) : NH (lsSort srt dis) := by
  have := lsKeys_nh dis
  unfold lsSort; infer_instance

theorem listLoop_nh (ft : Time → Bytes) (ix : Ix) (o : UInt64) (rc si : Bool) : ∀ dis, NH (listLoop ft ix o rc si dis)
  | [] => by unfold listLoop; infer_instance
  | d :: r => by
    have := listLoop_nh ft ix o rc si r
    unfold listLoop
    infer_instance

theorem lsKeys_fst : ∀ (dis : List DirItem) ks, lsKeys dis = .ok ks → ks.map (·.1) = dis
  | [], ks, h => by cases h; rfl
  | d :: r, ks, h => by
    unfold lsKeys at h
    obtain ⟨k, -, h⟩ := Go.bind_eq_ok.mp h
    obtain ⟨l, h2, h⟩ := Go.bind_eq_ok.mp h
    cases h
    simp [lsKeys_fst r l h2]

theorem lsSort_mem {srt : Sorter} (hs : SortOK srt) {dis es : List DirItem} (h : lsSort srt dis = .ok es) : ∀ d ∈ es, d ∈ dis := by
  unfold lsSort at h
  obtain ⟨ks, h1, h2⟩ := Go.bind_eq_ok.mp h
  cases h2
  intro d hd
  obtain ⟨x, hx, rfl⟩ := List.mem_map.mp hd
  rw [← lsKeys_fst dis ks h1]
  exact List.mem_map_of_mem ((hs ks).1.mem_iff.mp hx)

/-- What is left to do are entries for directories. -/
theorem listLoop_todo {ft : Time → Bytes} {ix : Ix} {o : UInt64} {rc si : Bool} : ∀ (dis : List DirItem) r,
    listLoop ft ix o rc si dis = .ok r → ∀ d ∈ r.2, d ∈ dis ∧ DirItem.isDir d = .ok true
  | [], r, h => by cases h; simp
  | di :: l, r, h => by
    unfold listLoop at h
    obtain ⟨line, -, h⟩ := Go.bind_eq_ok.mp h
    obtain ⟨isDir, h1, h⟩ := Go.bind_eq_ok.mp h
    obtain ⟨⟨out, todo⟩, h2, h⟩ := Go.bind_eq_ok.mp h
    cases h
    intro d hd
    have ih := listLoop_todo l _ h2
    cases isDir with
    | false => exact ⟨List.mem_cons_of_mem _ (ih d hd).1, (ih d hd).2⟩
    | true =>
      simp only [if_true] at hd
      rcases List.mem_cons.mp hd with rfl | hd
      · refine ⟨List.mem_cons_self, ?_⟩
        cases rc with
        | true => exact h1
        | false => cases h1
      · exact ⟨List.mem_cons_of_mem _ (ih d hd).1, (ih d hd).2⟩

/-- Without `--recursive`, nothing is left to do. -/
theorem listLoop_flat {ft : Time → Bytes} {ix : Ix} {o : UInt64} {si : Bool} : ∀ (dis : List DirItem) r, r.2 ≠ [] →
    listLoop ft ix o false si dis ≠ .ok r
  | [], r, hr, h => by cases h; exact hr rfl
  | di :: l, r, hr, h => by
    unfold listLoop at h
    obtain ⟨line, -, h⟩ := Go.bind_eq_ok.mp h
    simp only [Bool.false_eq_true, if_false, Go.ok_bind] at h
    obtain ⟨⟨out, todo⟩, h2, h⟩ := Go.bind_eq_ok.mp h
    cases h
    exact listLoop_flat l (out, todo) hr h2

theorem subLoop_nh {rec : UInt64 → Go Bytes} : ∀ todo : List DirItem,
    (∀ d ∈ todo, ∀ k, DirItem.location d = .ok k → rec k.objectID ≠ .hang) → subLoop rec todo ≠ .hang
  | [], _ => by simp [subLoop]
  | di :: r, h => by
    intro hh
    unfold subLoop at hh
    rcases Go.bind_eq_hang.mp hh with h1 | ⟨n, -, hh⟩
    · exact NH.out h1
    rcases Go.bind_eq_hang.mp hh with h1 | ⟨k, hk, hh⟩
    · exact NH.out h1
    rcases Go.bind_eq_hang.mp hh with h1 | ⟨s, -, hh⟩
    · exact h di List.mem_cons_self k hk h1
    rcases Go.bind_eq_hang.mp hh with h1 | ⟨t, -, hh⟩
    · exact subLoop_nh r (fun d hd => h d (List.mem_cons_of_mem _ hd)) h1
    · cases hh

/-- C65, for every index: if a listing of a directory does not end, however many iterations and however deep a recursion it is
allowed, then going down from directory to directory one gets to one where iterating over the entries does
not end, or can go on for ever. -/
theorem C65_hang_cause (ix : Ix) (o : UInt64) (srt : Sorter) (hs : SortOK srt) (ft : Time → Bytes) (si : Bool) (dir : UInt64) (rc : Bool)
    (h : ∀ N, ∃ rf ≥ N, ∃ fuel ≥ N, listDirectory rf srt ft ix o si fuel dir rc = .hang) :
    (∃ d rd, Relation.ReflTransGen (ix.getsDir o) dir d ∧ ix.dirItems o d = .ok rd ∧ Range.Endless rd) ∨
    ∃ s : Nat → UInt64, s 0 = dir ∧ ∀ n, ix.getsDir o (s n) (s (n + 1)) := by
  by_cases hend : ∃ d rd, Relation.ReflTransGen (ix.getsDir o) dir d ∧ ix.dirItems o d = .ok rd ∧ Range.Endless rd
  · exact Or.inl hend
  refine Or.inr ?_
  refine Classical.byContradiction fun hno => ?_
  obtain ⟨N0, hN0⟩ := ix.bounded
  have hacc : Acc (fun a b => ix.getsDir o b a) dir := by
    refine Classical.byContradiction fun hacc => hno ?_
    have hstep : ∀ x : {d // ¬ Acc (fun a b => ix.getsDir o b a) d}, ∃ y : {d // ¬ Acc (fun a b => ix.getsDir o b a) d}, ix.getsDir o x.1 y.1 := by
      rintro ⟨x, hx⟩
      refine Classical.byContradiction fun hno => hx ⟨x, fun y hy => Classical.byContradiction fun hya => hno ⟨⟨y, hya⟩, hy⟩⟩
    refine ⟨fun n => (Nat.rec ⟨dir, hacc⟩ (fun _ x => Classical.choose (hstep x)) n : {d // ¬ Acc (fun a b => ix.getsDir o b a) d}).1, rfl, fun n => ?_⟩
    exact Classical.choose_spec (hstep _)
  have key : ∀ d, Acc (fun a b => ix.getsDir o b a) d → Relation.ReflTransGen (ix.getsDir o) dir d → ∃ N, ∀ rf ≥ N, ∀ fuel ≥ N, ∀ rc,
      listDirectory rf srt ft ix o si fuel d rc ≠ .hang := by
    intro d hd
    induction hd with
    | intro d _ ih =>
      intro hr
      have hdir : ∀ rd, ix.dirItems o d = .ok rd → Range.EndsIn N0 rd := fun rd hrd =>
        (hN0.dirs o d rd hrd).resolve_left fun he => hend ⟨d, rd, hr, hrd, he⟩
      obtain ⟨M, hM⟩ := uniform_bound (p := fun x n => ix.getsDir o d x.1 → ∀ rf ≥ n, ∀ fuel ≥ n, ∀ rc,
          listDirectory rf srt ft ix o si fuel x.1 rc ≠ .hang)
        (fun x n m hp hm hx rf hrf fuel hf => hp hx rf (by omega) fuel (by omega)) (fun x => by
          by_cases hx : ix.getsDir o d x.1
          · obtain ⟨N, hN⟩ := ih x.1 hx (hr.tail hx)
            exact ⟨N, fun _ => hN⟩
          · exact ⟨0, fun h => absurd h hx⟩)
      refine ⟨M + N0 + 1, fun rf hrf fuel hf rc hh => ?_⟩
      obtain ⟨f, rfl⟩ : ∃ f, fuel = f + 1 := ⟨fuel - 1, by omega⟩
      unfold listDirectory at hh
      rcases Go.bind_eq_hang.mp hh with h1 | ⟨rd, hrd, hh⟩
      · exact NH.out h1
      rcases Go.bind_eq_hang.mp hh with h1 | ⟨⟨dis, bk⟩, hdis, hh⟩
      · exact rangeLoop_nh (fun s r d => by unfold collectBody; infer_instance) ((hdir rd hrd).mono (by omega)) _ h1
      rcases Go.bind_eq_hang.mp hh with h1 | ⟨es, hes, hh⟩
      · exact NH.out h1
      rcases Go.bind_eq_hang.mp hh with h1 | ⟨⟨out, todo⟩, htodo, hh⟩
      · exact (listLoop_nh ft ix o rc si es).out h1
      rcases Go.bind_eq_hang.mp hh with h1 | ⟨s, -, hh⟩
      · refine subLoop_nh todo (fun e he k hk => ?_) h1
        obtain ⟨h2, h3⟩ := listLoop_todo _ _ htodo e he
        rcases collect_gets _ _ _ _ hdis e (lsSort_mem hs hes e h2) with h4 | ⟨rd', h4, rfl⟩
        · cases h4
        · exact hM (k.objectID, 0) ⟨rd, rd', k, hrd, h4, h3, hk, rfl⟩ rf (by omega) f (by omega) true
      · cases hh
  obtain ⟨N, hN⟩ := key dir hacc .refl
  obtain ⟨rf, hrf, fuel, hf, hh⟩ := h N
  exact hN rf hrf fuel hf rc hh

/-- Where iterating over the entries of a directory does not end, listing it does not. -/
theorem C65_endless_directory (ix : Ix) (o : UInt64) (srt : Sorter) (ft : Time → Bytes) (si : Bool) (dir : UInt64) (rc : Bool)
    (rd : Range × Slice) (h : ix.dirItems o dir = .ok rd) (he : Range.Endless rd) (rf fuel : Nat) :
    listDirectory rf srt ft ix o si fuel dir rc = .hang := by
  cases fuel with
  | zero => rfl
  | succ fuel =>
    unfold listDirectory
    rw [h, Go.ok_bind, collect_endless _ _ _ he]
    rfl

/-- C65 for the whole command, whatever paths it is given: if it does not end, however many iterations and however deep a
recursion it is allowed, then some directory has entries iterating over which does not end, or, if `--recursive` was given, from
some directory one can go down for ever. -/
theorem C65_run_hang_cause (ix : Ix) (srt : Sorter) (hs : SortOK srt) (ft : Time → Bytes) (o : LsOptions) (args : List Bytes)
    (h : ∀ N, ∃ rf ≥ N, ∃ fuel ≥ N, doListFiles rf fuel srt ft ix o args = .hang) :
    (∃ t d rd, ix.dirItems t d = .ok rd ∧ Range.Endless rd) ∨
    o.recursive = true ∧ ∃ s : Nat → UInt64, ∀ n, ix.getsDir 5 (s n) (s (n + 1)) := by
  refine Classical.byContradiction fun hno => ?_
  rw [not_or] at hno
  obtain ⟨hno1, hno2⟩ := hno
  obtain ⟨N1, h1⟩ := C38_hang_cause ix
  have hl : ∃ N, ∀ x : UInt64 × UInt64, ∀ rf ≥ N, ∀ fuel ≥ N, listDirectory rf srt ft ix 5 o.inode fuel x.1 o.recursive ≠ .hang := by
    refine uniform_bound (p := fun x n => ∀ rf ≥ n, ∀ fuel ≥ n, listDirectory rf srt ft ix 5 o.inode fuel x.1 o.recursive ≠ .hang)
      (fun x n m hp hm rf hrf fuel hf => hp rf (by omega) fuel (by omega)) fun x => ?_
    refine Classical.byContradiction fun hc => ?_
    have hh : ∀ N, ∃ rf ≥ N, ∃ fuel ≥ N, listDirectory rf srt ft ix 5 o.inode fuel x.1 o.recursive = .hang := by
      intro N
      refine Classical.byContradiction fun hc2 => hc ⟨N, fun rf hrf fuel hf hh => hc2 ⟨rf, hrf, fuel, hf, hh⟩⟩
    cases hrec : o.recursive with
    | true =>
      rcases C65_hang_cause ix 5 srt hs ft o.inode x.1 o.recursive hh with ⟨d, rd, -, h2, h3⟩ | ⟨s, -, h2⟩
      · exact hno1 ⟨5, d, rd, h2, h3⟩
      · exact hno2 ⟨hrec, s, h2⟩
    | false =>
      rw [hrec] at hh
      obtain ⟨N0, hN0⟩ := ix.bounded
      obtain ⟨rf, hrf, fuel, hf, hh⟩ := hh (N0 + 1)
      obtain ⟨f, rfl⟩ : ∃ f, fuel = f + 1 := ⟨fuel - 1, by omega⟩
      unfold listDirectory at hh
      rcases Go.bind_eq_hang.mp hh with h1 | ⟨rd, hrd, hh⟩
      · exact NH.out h1
      have hdir : Range.EndsIn rf rd := ((hN0.dirs 5 x.1 rd hrd).resolve_left fun he => hno1 ⟨5, x.1, rd, hrd, he⟩).mono (by omega)
      rcases Go.bind_eq_hang.mp hh with h1 | ⟨⟨dis, bk⟩, hdis, hh⟩
      · exact rangeLoop_nh (fun s r d => by unfold collectBody; infer_instance) hdir _ h1
      rcases Go.bind_eq_hang.mp hh with h1 | ⟨es, hes, hh⟩
      · exact NH.out h1
      rcases Go.bind_eq_hang.mp hh with h1 | ⟨⟨out, todo⟩, htodo, hh⟩
      · exact (listLoop_nh ft ix 5 false o.inode es).out h1
      have ht : todo = [] := by
        cases todo with
        | nil => rfl
        | cons e r => exact absurd htodo (listLoop_flat _ _ (by simp))
      subst ht
      cases hh
  obtain ⟨N2, h2⟩ := hl
  obtain ⟨rf, hrf, fuel, hf, hh⟩ := h (N1 + N2)
  have harg : ∀ s p, NH (lsArg rf ft ix o s p) := by
    intro s p
    have : NH (ix.findDirItemForPath rf 5 (goClean p)) := ⟨fun hh => by
      obtain ⟨_, _, _, t, d, rd, -, -, h3, h4⟩ := h1 rf (by omega) _ _ hh
      exact hno1 ⟨t, d, rd, h3, h4⟩⟩
    unfold lsArg
    rw [show FSTreeObjectID = 5 from rfl]
    dsimp only
    split
    · infer_instance
    · refine nh_bind inferInstance fun r => ?_
      cases r <;> infer_instance
  have hargs : ∀ ps s, lsArgsLoop rf ft ix o s ps ≠ .hang := by
    intro ps
    induction ps with
    | nil => intro s hh; cases hh
    | cons p r ih =>
      intro s hh
      rcases Go.bind_eq_hang.mp hh with h3 | ⟨s', -, h3⟩
      · exact (harg s p).out h3
      · exact ih _ h3
  have howner : ∀ ps s s', (∀ t ∈ s.todo, t.1 = 5) → lsArgsLoop rf ft ix o s ps = .ok s' → ∀ t ∈ s'.todo, t.1 = 5 := by
    intro ps
    induction ps with
    | nil => intro s s' hs hh; cases hh; exact hs
    | cons p r ih =>
      intro s s' hs hh
      obtain ⟨s1, h3, hh⟩ := Go.bind_eq_ok.mp hh
      refine ih s1 s' ?_ hh
      unfold lsArg at h3
      dsimp only at h3
      have happ : ∀ x : UInt64, ∀ t ∈ s.todo ++ [(FSTreeObjectID, x)], t.1 = 5 := fun x t ht => by
        rcases List.mem_append.mp ht with ht | ht
        · exact hs t ht
        · rw [List.mem_singleton.mp ht]; rfl
      split at h3
      · cases h3; exact happ _
      · obtain ⟨r, -, h3⟩ := Go.bind_eq_ok.mp h3
        cases r with
        | none => cases h3; exact hs
        | some di =>
          obtain ⟨b, -, h3⟩ := Go.bind_eq_ok.mp h3
          cases b with
          | false =>
            simp only [Bool.not_false, if_true] at h3
            obtain ⟨l, -, h3⟩ := Go.bind_eq_ok.mp h3
            cases h3; exact hs
          | true =>
            simp only [Bool.not_true, Bool.false_eq_true, if_false] at h3
            obtain ⟨k, -, h3⟩ := Go.bind_eq_ok.mp h3
            cases h3; exact happ _
  have htodo : ∀ ts, (∀ t ∈ ts, t.1 = 5) → lsTodoLoop rf fuel srt ft ix o ts ≠ .hang := by
    intro ts
    induction ts with
    | nil => intro _ hh; cases hh
    | cons t r ih =>
      intro ht hh
      rcases Go.bind_eq_hang.mp hh with h3 | ⟨a, -, h3⟩
      · rw [ht t List.mem_cons_self] at h3
        exact h2 (t.2, 0) rf (by omega) fuel (by omega) h3
      · rcases Go.bind_eq_hang.mp h3 with h4 | ⟨b, -, h4⟩
        · exact ih (fun t ht' => ht t (List.mem_cons_of_mem _ ht')) h4
        · cases h4
  unfold doListFiles at hh
  rcases Go.bind_eq_hang.mp hh with h3 | ⟨s, h3, hh⟩
  · exact hargs _ _ h3
  · rcases Go.bind_eq_hang.mp hh with h4 | ⟨t, -, h4⟩
    · exact htodo _ (howner _ _ _ (by simp) h3) h4
    · cases h4

/-- On the index of `exLoopStore`, where directory 256 has itself as an entry, no bound makes a listing end. -/
example (srt : Sorter) (hs : SortOK srt) (N : Nat) : ∃ rf ≥ N, ∃ fuel ≥ N,
    listDirectory rf srt (fun _ => []) ⟨exLoopStore.enc, ~~~0⟩ 5 false fuel 256 true = .hang :=
  ⟨N, le_refl _, N, le_refl _, C65_cycle_hangs srt hs _ N N false⟩

/-- The index of `exLostMain` has a directory whose entries are iterated over for ever (see the example beside
`C60_hang_cause`): no bound makes a listing of it end. -/
example (srt : Sorter) (rf fuel : Nat) : listDirectory rf srt (fun _ => []) ⟨exLostMain.enc, ~~~0⟩ 5 false fuel 256 true = .hang := by
  obtain ⟨rd, h, he⟩ := exLostMain_endless
  exact C65_endless_directory _ _ _ _ _ _ _ rd h he _ _

end Btrfscue
