import Verif.Props.RecoverReach
/-!
# A run of recover after another

The second run is followed step by step along the first. `fin` is what the first run leaves.
-/

namespace Btrfscue

open Cmd

/-- What every step of a run keeps is kept from wherever the run started. -/
theorem keeps_went {α : Type} {s0 : RecState} {c : Rec α} (h : ∀ s, Keeps (Stayed Grown s) c) : Keeps (Went Grown s0) c := by
  intro s hs
  refine wp_mono (h s s (FSRel.ofGrown.stayed_refl s)) (fun _ t ht => ?_) fun t ht => ?_
  · exact FSRel.ofGrown.went_trans hs ht.1
  · exact FSRel.ofGrown.went_trans hs ht.1

theorem went_inv (env : Env) (rf : Nat) (ix : Ix) (s0 : RecState) :
    RecInv env rf ix false (Went Grown s0) (fun _ => True) (fun _ => True) (fun _ => True) where
  calls s n h := ⟨h.1, h.2⟩
  cache s l c r _ h := ⟨h.1, h.2⟩
  openFile p s _ hs ho := by
    refine wp_mono ((FSRel.ofGrown.fileInv (env := env) (rf := rf) (ix := ix) (s := s) (clobber := false) (Or.inl rfl)).openFile p s trivial
      (FSRel.ofGrown.stayed_refl s) ho) (fun _ t ht => ⟨?_, fun _ _ => trivial⟩) fun t ht => ?_
    · exact FSRel.ofGrown.went_trans hs ht.1.1
    · exact FSRel.ofGrown.went_trans hs ht.1
  write fd b off _ := keeps_went fun s =>
    (FSRel.ofGrown.fileInv (env := env) (rf := rf) (ix := ix) (s := s) (clobber := false) (Or.inl rfl)).write fd b off trivial
  truncate fd n _ := keeps_went fun s =>
    (FSRel.ofGrown.fileInv (env := env) (rf := rf) (ix := ix) (s := s) (clobber := false) (Or.inl rfl)).truncate fd n trivial
  warn s p h := ⟨fun e he => List.mem_cons_of_mem _ (h.1 e he), h.2⟩
  visit s o d p _ h _ := ⟨fun e he => List.mem_cons_of_mem _ (h.1 e he), h.2⟩
  mkdirAll p _ := keeps_went fun s => FSRel.ofGrown.mkdirAll p
  link o i p _ _ _ _ := keeps_went fun s => FSRel.ofGrown.link rf ix o i p
  items _ _ _ _ _ _ := trivial
  join _ _ _ _ _ _ _ := trivial

theorem keeps_ok {σ α : Type} {I : σ → Prop} {c : Cmd σ α} (h : Keeps I c) {s t : σ} {a : α} (hs : I s) (hr : c s = .ok a t) : I t := by
  have := h s hs
  unfold wp at this
  rw [hr] at this
  exact this

theorem wp_ok {σ α : Type} {c : Cmd σ α} {Q : α → σ → Prop} {E : σ → Prop} {s t : σ} {a : α} (h : wp c Q E s) (hr : c s = .ok a t) :
    Q a t := by
  unfold wp at h
  rw [hr] at h
  exact h

theorem went_refl (s : RecState) : Went Grown s s := FSRel.ofGrown.went_refl s

/-- No directory entered, none visited. -/
theorem visited_of_dests {s t : RecState} (hs : Once s) (ht : Once t) (h : t.dests = s.dests) : t.visited = s.visited := by
  have he : ∀ u : RecState, u.entered = u.dests.map fun x => (x.1, x.2.1) := by
    intro u
    unfold RecState.entered RecState.dests
    rw [List.map_filterMap]
    congr 1
    funext e
    cases e <;> rfl
  rw [← hs.1, ← ht.1, he, he, h]

/-- The second command does nothing where the first has been before. -/
def Again (fin : RecState) {α β : Type} (c1 : Rec α) (c2 : Rec β) : Prop :=
  ∀ s1 a t1, Once s1 → c1 s1 = .ok a t1 → Went Grown t1 fin →
    ∀ s2 : RecState, s2.fs = fin.fs → s2.visited = s1.visited → s2.silent →
      ∃ b t2, c2 s2 = .ok b t2 ∧ t2.fs = fin.fs ∧ t2.visited = t1.visited ∧ t2.past = s2.past ∧ t2.silent

section
variable {fin : RecState} {env1 env2 : Env} {rf : Nat} {ix : Ix}

theorem again_file (hfin : fin.silent) (hst : ∀ n, env2.fails .stat n = false) (o i : UInt64) (p : Bytes) :
    Again fin (recoverFile env1 rf ix false o i p >>= report p) (recoverFile env2 rf ix false o i p >>= report p) := by
  intro s1 a t1 ho hr hw s2 hfs hvis hsil
  obtain ⟨r, m, h1, h2⟩ := bind_eq_ok.mp hr
  have h3 : r = none := by
    cases r with
    | none => rfl
    | some e =>
      cases h2
      exact absurd (hw.1 _ List.mem_cons_self) (hfin p)
  subst h3
  have hmt : m = t1 := by cases h2; rfl
  subst hmt
  have h4 := wp_ok wp_file_there h1 rfl
  have h5 : fin.fs.stat true p ≠ none := stat_grown hw.2 h4
  have hdests : m.dests = s1.dests := by
    exact (keeps_ok ((FSRel.ofGrown.fileInv (env := env1) (rf := rf) (ix := ix) (s := s1) (clobber := false) (Or.inl rfl)).file o i trivial)
      (FSRel.ofGrown.stayed_refl s1) h1).2
  have hv := visited_of_dests ho (keeps_ok ((Once.inv env1 rf ix false).file o i trivial) ho h1) hdests
  refine ⟨(), { s2 with calls := s2.calls + 1 }, ?_, hfs, hvis.trans hv.symm, rfl, hsil⟩
  rw [← hfs] at h5
  unfold recoverFile sysStat
  simp only [bind_def, tick, hst, Bool.false_eq_true, if_false, get_run, pure_run]
  cases hs : s2.fs.stat true p with
  | none => exact absurd hs h5
  | some b => rfl

theorem again_link (hfin : fin.silent) (hst : ∀ n, env2.fails .lstat n = false) (o i : UInt64) (p : Bytes) :
    Again fin (recoverSymlink env1 rf ix false o i p >>= report p) (recoverSymlink env2 rf ix false o i p >>= report p) := by
  intro s1 a t1 ho hr hw s2 hfs hvis hsil
  obtain ⟨r, m, h1, h2⟩ := bind_eq_ok.mp hr
  have h3 : r = none := by
    cases r with
    | none => rfl
    | some e =>
      cases h2
      exact absurd (hw.1 _ List.mem_cons_self) (hfin p)
  subst h3
  have hmt : m = t1 := by cases h2; rfl
  subst hmt
  have h4 := wp_ok wp_link_there h1 rfl
  have h5 : fin.fs.stat false p ≠ none := stat_grown hw.2 h4
  have hdests : m.dests = s1.dests := (keeps_ok (FSRel.ofGrown.link rf ix o i p) (FSRel.ofGrown.stayed_refl s1) h1).2
  have hv := visited_of_dests ho (keeps_ok (Keeps.recoverSymlink Once.calls rf ix (fun _ _ _ _ _ h => h) (fun _ => Once.remove p)
    (fun t => Once.symlink t p) o i) ho h1) hdests
  refine ⟨(), { s2 with calls := s2.calls + 1 }, ?_, hfs, hvis.trans hv.symm, rfl, hsil⟩
  rw [← hfs] at h5
  unfold recoverSymlink sysLstat
  simp only [bind_def, tick, hst, Bool.false_eq_true, if_false, get_run, pure_run]
  cases hs : s2.fs.stat false p with
  | none => exact absurd hs h5
  | some b => rfl

theorem again_bind {α1 α2 β1 β2 : Type} {x1 : Rec α1} {x2 : Rec α2} {f1 : α1 → Rec β1} {f2 : α2 → Rec β2}
    (ho : Keeps Once x1) (hwent : ∀ a s0, Keeps (Went Grown s0) (f1 a)) (hx : Again fin x1 x2) (hf : ∀ a b, Again fin (f1 a) (f2 b)) :
    Again fin (x1 >>= f1) (x2 >>= f2) := by
  intro s1 a t1 hs hr hw s2 hfs hvis hsil
  obtain ⟨r, m, h1, h2⟩ := bind_eq_ok.mp hr
  have hm := keeps_ok (hwent r m) (went_refl m) h2
  obtain ⟨b, u, g1, g2, g3, g4, g5⟩ := hx s1 r m hs h1 (FSRel.ofGrown.went_trans hm hw) s2 hfs hvis hsil
  obtain ⟨b', u', k1, k2, k3, k4, k5⟩ := hf r b m a t1 (keeps_ok ho hs h1) h2 hw u g2 g3 g5
  exact ⟨b', u', by rw [bind_ok g1]; exact k1, k2, k3, k4.trans g4, k5⟩

theorem again_lift {α β1 β2 : Type} {x : Go α} {f1 : α → Rec β1} {f2 : α → Rec β2} (h : ∀ a, x = .ok a → Again fin (f1 a) (f2 a)) :
    Again fin (Cmd.lift x >>= f1) (Cmd.lift x >>= f2) := by
  intro s1 a t1 hs hr hw s2 hfs hvis hsil
  obtain ⟨r, m, h1, h2⟩ := bind_eq_ok.mp hr
  obtain ⟨rfl, rfl⟩ := lift_eq_ok.mp h1
  obtain ⟨b', u', k1, k2, k3, k4, k5⟩ := h r rfl m a t1 hs h2 hw s2 hfs hvis hsil
  exact ⟨b', u', by rw [bind_ok (lift_ok r s2)]; exact k1, k2, k3, k4, k5⟩

theorem again_pure {α β : Type} {a : α} {b : β} : Again fin (pure a : Rec α) (pure b : Rec β) := by
  intro s1 a' t1 hs hr hw s2 hfs hvis hsil
  cases hr
  exact ⟨b, s2, rfl, hfs, hvis, rfl, hsil⟩

/-- The commands for one directory, with the report of what went wrong. -/
def AgainDir (fin : RecState) (rec1 rec2 : UInt64 → UInt64 → Bytes → Rec (Option RecErr)) : Prop :=
  ∀ o d p q, Again fin (rec1 o d p >>= report q) (rec2 o d p >>= report q)

theorem again_entry (hfin : fin.silent) (hst : ∀ n, env2.fails .stat n = false) (hls : ∀ n, env2.fails .lstat n = false)
    {rec1 rec2 : UInt64 → UInt64 → Bytes → Rec (Option RecErr)} (hrec : AgainDir fin rec1 rec2) (o : UInt64) (dest : Bytes) (di : DirItem) :
    Again fin (recoverEntry rec1 env1 rf ix false o dest di) (recoverEntry rec2 env2 rf ix false o dest di) := by
  unfold recoverEntry
  refine again_lift fun name _ => ?_
  by_cases hsk : skipName name = true
  · rw [if_pos hsk, if_pos hsk]; exact again_pure
  · rw [if_neg hsk, if_neg hsk]
    unfold recoverNamed
    refine again_lift fun isDir _ => again_lift fun isSub _ => again_lift fun loc _ => again_lift fun t _ => ?_
    by_cases h1 : (isDir || isSub) = true
    · rw [if_pos h1, if_pos h1]; exact hrec _ _ _ _
    · rw [if_neg h1, if_neg h1]
      by_cases h2 : t = FtRegFile
      · rw [if_pos h2, if_pos h2]; exact again_file hfin hst _ _ _
      · rw [if_neg h2, if_neg h2]
        by_cases h3 : t = FtSymlink
        · rw [if_pos h3, if_pos h3]; exact again_link hfin hls _ _ _
        · rw [if_neg h3, if_neg h3]; exact again_pure

theorem again_entries (hfin : fin.silent) (hst : ∀ n, env2.fails .stat n = false) (hls : ∀ n, env2.fails .lstat n = false)
    {rec1 rec2 : UInt64 → UInt64 → Bytes → Rec (Option RecErr)} (hrec : AgainDir fin rec1 rec2)
    (ho : ∀ o d p, Keeps Once (rec1 o d p)) (hw : ∀ s0 o d p, Keeps (Went Grown s0) (rec1 o d p)) (o : UInt64) (dest : Bytes) :
    ∀ dis : List DirItem, Again fin (recoverEntries rec1 env1 rf ix false o dest dis) (recoverEntries rec2 env2 rf ix false o dest dis) := by
  intro dis
  induction dis with
  | nil => exact again_pure
  | cons di r ih =>
    unfold recoverEntries
    refine again_bind ((Once.inv env1 rf ix false).entry (fun o d p _ => ho o d p) o trivial trivial) (fun _ s0 => ?_)
      (again_entry hfin hst hls hrec o dest di) fun _ _ => ih
    exact (went_inv env1 rf ix s0).entries (fun o d p _ => hw s0 o d p) o trivial r fun _ _ => trivial

theorem again_dir (hfin : fin.silent) (hst : ∀ n, env2.fails .stat n = false) (hls : ∀ n, env2.fails .lstat n = false) :
    ∀ fuel, AgainDir fin (recoverDir env1 rf ix false fuel) (recoverDir env2 rf ix false fuel) := by
  intro fuel
  induction fuel with
  | zero =>
    intro o d p q s1 a t1 ho hr
    obtain ⟨r, m, h1, -⟩ := bind_eq_ok.mp hr
    cases h1
  | succ fuel ih =>
    intro o d p q s1 a t1 ho hr hw s2 hfs hvis hsil
    obtain ⟨r, m, h1, h2⟩ := bind_eq_ok.mp hr
    unfold recoverDir at h1
    obtain ⟨u, m0, h3, h4⟩ := bind_eq_ok.mp h1
    cases h3
    have hr0 : r = none := by
      cases r with
      | none => rfl
      | some e =>
        cases h2
        exact absurd (hw.1 _ List.mem_cons_self) (hfin q)
    subst hr0
    have hmt : m = t1 := by cases h2; rfl
    subst hmt
    by_cases hv : s1.visited.contains (o, d) = true
    · rw [if_pos hv] at h4
      cases h4
      refine ⟨(), s2, ?_, hfs, hvis, rfl, hsil⟩
      have : recoverDir env2 rf ix false (fuel + 1) o d p s2 = .ok none s2 := by
        unfold recoverDir
        rw [bind_ok (get_run s2), hvis, if_pos hv]
        rfl
      rw [bind_ok this]; rfl
    · rw [if_neg hv] at h4
      obtain ⟨_, m1, h5, h6⟩ := bind_eq_ok.mp h4
      cases h5
      obtain ⟨_, m2, h7, h8⟩ := bind_eq_ok.mp h6
      cases h7
      obtain ⟨ok, m3, h9, h10⟩ := bind_eq_ok.mp h8
      have hv' : (o, d) ∉ s1.visited := by rw [List.contains_iff_mem] at hv; exact hv
      have ho2 := (Once.inv env1 rf ix false).visit s1 o d p trivial ho hv'
      have ho3 := keeps_ok ((Once.inv env1 rf ix false).mkdirAll p trivial) ho2 h9
      have hst3 := keeps_ok (FSRel.ofGrown.mkdirAll p) (FSRel.ofGrown.stayed_refl _) h9
      have hv3 := visited_of_dests ho2 ho3 hst3.2
      have hd3 := wp_ok wp_mkdirAll h9
      cases ok with
      | false =>
        rw [if_neg (by decide)] at h10
        cases h10
      | true =>
        rw [if_pos rfl] at h10
        obtain ⟨dis, m4, h11, h12⟩ := bind_eq_ok.mp h10
        obtain ⟨hdis, rfl⟩ := lift_eq_ok.mp h11
        obtain ⟨_, m5, h13, h14⟩ := bind_eq_ok.mp h12
        cases h14
        have hwm : Went Grown m4 m := keeps_ok ((went_inv env1 rf ix m4).entries
          (fun o d p _ => (went_inv env1 rf ix m4).recoverDir fuel o d p trivial) o trivial dis fun _ _ => trivial) (went_refl m4) h13
        have hstat : fin.fs.stat true p = some true := stat_dir_grown (FSRel.ofGrown.went_trans hwm hw).2 (hd3 rfl)
        let s2' : RecState := { s2 with visited := (o, d) :: s2.visited, log := .enter o d p :: s2.log, calls := s2.calls + 1 }
        have hmk : mkdirAll env2 p { s2 with visited := (o, d) :: s2.visited, log := .enter o d p :: s2.log } = .ok true s2' :=
          mkdirAll_exists (by rw [show (RecState.fs _) = s2.fs from rfl, hfs]; exact hstat) (hst _)
        obtain ⟨b, u, g1, g2, g3, g4, g5⟩ := again_entries (env1 := env1) (env2 := env2) (rf := rf) (ix := ix) hfin hst hls ih
          (fun o d p => (Once.inv env1 rf ix false).recoverDir fuel o d p trivial)
          (fun s0 o d p => (went_inv env1 rf ix s0).recoverDir fuel o d p trivial) o p dis m4 _ m ho3 h13 hw s2' hfs
          (by show (o, d) :: s2.visited = m4.visited; rw [hv3, hvis])
          (fun x hx => by
            rcases List.mem_cons.mp hx with hx | hx
            · cases hx
            · exact hsil x hx)
        refine ⟨(), u, ?_, g2, g3, g4, g5⟩
        have : recoverDir env2 rf ix false (fuel + 1) o d p s2 = .ok none u := by
          unfold recoverDir
          rw [bind_ok (get_run s2), hvis, if_neg hv, bind_ok (modify_run _ _)]
          unfold note
          rw [bind_ok (modify_run _ _), bind_ok hmk, if_pos rfl, hdis, bind_ok (lift_ok _ _), bind_ok g1]
          rfl
        rw [bind_ok this]; rfl

end

end Btrfscue
