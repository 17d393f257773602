import Verif.Proof.Again
/-!
# C100: recover can be run again
-/

namespace Btrfscue

open Cmd

section
variable {fin : RecState} {env1 env2 : Env} {rf : Nat} {ix : Ix}

theorem again_subvol (hfin : fin.silent) (hst : ∀ n, env2.fails .stat n = false) (hls : ∀ n, env2.fails .lstat n = false)
    (fuel : Nat) (dest : Bytes) (r : Range) (e : Slice) {s1 t1 s2 : RecState} {a : Option RecErr} (ho : Once s1)
    (hr : recoverSubvol env1 rf fuel ix false dest r e s1 = .ok a t1) (hw : Went Grown t1 fin)
    (hfs : s2.fs = fin.fs) (hvis : s2.visited = s1.visited) (hsil : s2.silent) :
    a = none ∧ Once t1 ∧ ∃ t2, recoverSubvol env2 rf fuel ix false dest r e s2 = .ok none t2 ∧ t2.fs = fin.fs ∧ t2.visited = t1.visited ∧
      t2.past = s2.past ∧ t2.silent := by
  unfold recoverSubvol at hr
  obtain ⟨k, m, h1, h2⟩ := bind_eq_ok.mp hr
  obtain ⟨hk, rfl⟩ := lift_eq_ok.mp h1
  obtain ⟨u, m0, h3, h4⟩ := bind_eq_ok.mp h2
  have hm0 : u = m ∧ m0 = m := by cases h3; exact ⟨rfl, rfl⟩
  obtain ⟨rfl, rfl⟩ := hm0
  have hgo : ∀ x, recoverSubvol env2 rf fuel ix false dest r e s2 = x ↔
      ((if s2.visited.contains (k.objectID, FirstFreeObjectID) then return none
        else do
          report (subvolDest dest k.objectID)
            (← recoverDir env2 rf ix false fuel k.objectID FirstFreeObjectID (subvolDest dest k.objectID))
          return none) : Rec (Option RecErr)) s2 = x := by
    intro x
    unfold recoverSubvol
    rw [hk, bind_ok (lift_ok _ _), bind_ok (get_run s2)]
  by_cases hv : m0.visited.contains (k.objectID, FirstFreeObjectID) = true
  · rw [if_pos hv] at h4
    cases h4
    refine ⟨rfl, ho, s2, ?_, hfs, hvis, rfl, hsil⟩
    rw [hgo, hvis, if_pos hv]
    rfl
  · rw [if_neg hv] at h4
    obtain ⟨x, m1, h5, h6⟩ := bind_eq_ok.mp h4
    obtain ⟨y, m2, h7, h8⟩ := bind_eq_ok.mp h6
    cases h8
    have h9 : (recoverDir env1 rf ix false fuel k.objectID FirstFreeObjectID (subvolDest dest k.objectID) >>=
        report (subvolDest dest k.objectID)) m0 = .ok y t1 := by rw [bind_ok h5]; exact h7
    obtain ⟨b, u, g1, g2, g3, g4, g5⟩ := again_dir (env1 := env1) (env2 := env2) (rf := rf) (ix := ix) hfin hst hls fuel k.objectID
      FirstFreeObjectID (subvolDest dest k.objectID) _ m0 y t1 ho h9 hw s2 hfs hvis hsil
    refine ⟨rfl, ?_, u, ?_, g2, g3, g4, g5⟩
    · exact keeps_ok (I := Once) (Keeps.bind ((Once.inv env1 rf ix false).recoverDir fuel _ _ _ trivial)
        fun _ => (Once.inv env1 rf ix false).report _ _) ho h9
    · rw [hgo, hvis, if_neg hv]
      obtain ⟨z, m3, k1, k2⟩ := bind_eq_ok.mp g1
      rw [bind_ok k1, bind_ok k2]
      rfl

theorem went_subvol (fuel : Nat) (dest : Bytes) (s0 : RecState) (r : Range) (e : Slice) :
    Keeps (Went Grown s0) (recoverSubvol env1 rf fuel ix false dest r e) := by
  unfold recoverSubvol
  refine Keeps.bind Keeps.lift fun k => Keeps.bind Keeps.get fun s => Keeps.ite (fun _ => Keeps.pure) fun _ => ?_
  exact Keeps.bind ((went_inv env1 rf ix s0).recoverDir _ _ _ _ trivial) fun e =>
    Keeps.bind ((went_inv env1 rf ix s0).report _ _) fun _ => Keeps.pure

theorem again_loop (hfin : fin.silent) (hst : ∀ n, env2.fails .stat n = false) (hls : ∀ n, env2.fails .lstat n = false)
    (fuel : Nat) (dest : Bytes) : ∀ (n : Nat) (rd : Range × Slice) (s1 : RecState) (a : Option RecErr) (t1 : RecState), Once s1 →
      rangeLoopRec (recoverSubvol env1 rf fuel ix false dest) n rd s1 = .ok a t1 → Went Grown t1 fin →
      ∀ s2 : RecState, s2.fs = fin.fs → s2.visited = s1.visited → s2.silent →
        ∃ b t2, rangeLoopRec (recoverSubvol env2 rf fuel ix false dest) n rd s2 = .ok b t2 ∧ t2.fs = fin.fs ∧ t2.past = s2.past ∧ t2.silent := by
  intro n
  induction n with
  | zero => intro rd s1 a t1 _ h; cases h
  | succ n ih =>
    intro rd s1 a t1 ho hr hw s2 hfs hvis hsil
    unfold rangeLoopRec at hr ⊢
    by_cases hn : rd.1.hasNext = true
    · rw [if_pos hn] at hr ⊢
      obtain ⟨x, m, h1, h2⟩ := bind_eq_ok.mp hr
      have hwm : Went Grown m t1 := by
        have hk : Keeps (Went Grown m) (match x with
          | some e => (return some e : Rec (Option RecErr))
          | none => do rangeLoopRec (recoverSubvol env1 rf fuel ix false dest) n (← Cmd.lift rd.1.next)) := by
          cases x with
          | some e => exact Keeps.pure
          | none => exact Keeps.bind Keeps.lift fun rd' => Keeps.rangeLoopRec (fun r e => went_subvol fuel dest m r e) _ _
        exact keeps_ok hk (went_refl m) h2
      obtain ⟨rfl, hom, u, g1, g2, g3, g4, g5⟩ := again_subvol hfin hst hls fuel dest rd.1 rd.2 ho h1
        (FSRel.ofGrown.went_trans hwm hw) hfs hvis hsil
      simp only at h2
      obtain ⟨rd', m', h3, h4⟩ := bind_eq_ok.mp h2
      obtain ⟨hnx, rfl⟩ := lift_eq_ok.mp h3
      obtain ⟨b, t2, k1, k2, k3, k4⟩ := ih rd' m' a t1 hom h4 hw u g2 g3 g5
      refine ⟨b, t2, ?_, k2, k3.trans g4, k4⟩
      rw [bind_ok g1, hnx]
      simp only
      rw [bind_ok (lift_ok _ _)]
      exact k1
    · rw [if_neg hn] at hr ⊢
      exact ⟨none, s2, rfl, hfs, rfl, hsil⟩

end

/-- C100: after a run of recover (without `--clobber`) that ended without a warning — from whatever
state of the destination, whatever the device said —, a second run with the same index and
destination changes nothing at all, at no point, and ends without a warning, provided that stat(2)
and lstat(2) do not fail. Whether other calls or the device fail does not matter. -/
theorem C100_second_run_changes_nothing (env1 env2 : Env) (hst : ∀ n, env2.fails .stat n = false) (hls : ∀ n, env2.fails .lstat n = false)
    (rf fuel : Nat) (ix : Ix) (dest : Bytes) (fs : HostFS) (s1 : RecState)
    (hrun : doRecoverFiles env1 rf fuel ix false dest (RecState.start fs) = .ok () s1) (hsil : s1.silent) :
    ∃ s2, doRecoverFiles env2 rf fuel ix false dest (RecState.start s1.fs) = .ok () s2 ∧ s2.silent ∧
      ∀ f, s2.reached f → f = s1.fs := by
  unfold doRecoverFiles at hrun
  obtain ⟨ok, m1, h1, h2⟩ := bind_eq_ok.mp hrun
  have ho0 : Once (RecState.start fs) := ⟨rfl, List.nodup_nil⟩
  have ho1 := keeps_ok ((Once.inv env1 rf ix false).mkdirAll dest trivial) ho0 h1
  have hv1 := visited_of_dests ho0 ho1 (keeps_ok (FSRel.ofGrown.mkdirAll dest) (FSRel.ofGrown.stayed_refl _) h1).2
  have hd1 := wp_ok wp_mkdirAll h1
  cases ok with
  | false => rw [if_neg (by decide)] at h2; cases h2
  | true =>
    rw [if_pos rfl] at h2
    obtain ⟨r, m2, h3, h4⟩ := bind_eq_ok.mp h2
    obtain ⟨_, m3, h5, h6⟩ := bind_eq_ok.mp h4
    obtain ⟨rd, m4, h7, h8⟩ := bind_eq_ok.mp h6
    obtain ⟨hrd, rfl⟩ := lift_eq_ok.mp h7
    obtain ⟨x, m5, h9, h10⟩ := bind_eq_ok.mp h8
    have hm5 : m5 = s1 := by cases h10; rfl
    subst hm5
    have h35 : (recoverDir env1 rf ix false fuel FSTreeObjectID FirstFreeObjectID dest >>= report dest) m1 = .ok () m4 := by
      rw [bind_ok h3]; exact h5
    have hw4 : Went Grown m4 m5 := keeps_ok (Keeps.rangeLoopRec (fun r e => went_subvol fuel dest m4 r e) _ _) (went_refl m4) h9
    have hw1 : Went Grown m1 m4 := keeps_ok (I := Went Grown m1) (Keeps.bind ((went_inv env1 rf ix m1).recoverDir fuel _ _ _ trivial)
        fun _ => (went_inv env1 rf ix m1).report _ _) (went_refl m1) h35
    have ho4 : Once m4 := keeps_ok (I := Once) (Keeps.bind ((Once.inv env1 rf ix false).recoverDir fuel _ _ _ trivial)
        fun _ => (Once.inv env1 rf ix false).report _ _) ho1 h35
    have hstat : m5.fs.stat true dest = some true := stat_dir_grown (FSRel.ofGrown.went_trans hw1 hw4).2 (hd1 rfl)
    let z : RecState := { RecState.start m5.fs with calls := 1 }
    have hmk : mkdirAll env2 dest (RecState.start m5.fs) = .ok true z := mkdirAll_exists hstat (hst _)
    obtain ⟨b, u, g1, g2, g3, g4, g5⟩ := again_dir (env1 := env1) (env2 := env2) (rf := rf) (ix := ix) hsil hst hls fuel FSTreeObjectID
      FirstFreeObjectID dest dest m1 () m4 ho1 h35 hw4 z rfl hv1.symm (fun q hq => by cases hq)
    obtain ⟨y, t2, k1, k2, k3, k4⟩ := again_loop (env1 := env1) (env2 := env2) (rf := rf) (ix := ix) hsil hst hls fuel dest rf rd m4 x m5 ho4 h9
      (went_refl m5) u g2 g3 g5
    obtain ⟨z', m', n1, n2⟩ := bind_eq_ok.mp g1
    refine ⟨t2, ?_, k4, ?_⟩
    · unfold doRecoverFiles
      rw [bind_ok hmk, if_pos rfl, bind_ok n1, bind_ok n2, hrd, bind_ok (lift_ok _ _), bind_ok k1]
      rfl
    · rintro f (rfl | hf)
      · exact k2
      · rw [k3, g4] at hf; cases hf

end Btrfscue
