import Verif.Proof.RecWent
/-!
# C61: recover reaches every listed entry
-/

namespace Btrfscue

open Cmd

/-- The invariant: directories are entered once, in their places. -/
def PlacedOnce (ix : Ix) (dest : Bytes) (s : RecState) : Prop :=
  Once s ∧ ∀ o d p, Ev.enter o d p ∈ s.log → ix.Placed dest o d p

section
variable {G : HostFS → HostFS → Prop} {F : HostFS → Nat → Prop} {C : Bool} {env : Env} {rf : Nat} {ix : Ix} {dest : Bytes}

theorem PlacedOnce.stayed {s t : RecState} (h : PlacedOnce ix dest s) (ho : Once t) (hs : Stayed G s t) : PlacedOnce ix dest t :=
  ⟨ho, fun o d p hx => h.2 o d p (by rw [← RecState.mem_dests, ← hs.2, RecState.mem_dests]; exact hx)⟩

theorem dests_warn (t : RecState) (p : Bytes) : RecState.dests { t with log := .warn p :: t.log } = t.dests := rfl

/-- A command that keeps everything, and then a report. -/
theorem wp_reported {c : Rec (Option RecErr)} {p : Bytes} {s : RecState} {D : RecState → Prop}
    (hR : FSRel G F C) (hs : PlacedOnce ix dest s)
    (ho : Keeps Once c) (hst : Keeps (Stayed G s) c) (hD : wp c (fun r t => r = none → D t) (fun _ => True) s) :
    wp (c >>= report p) (fun _ t => PlacedOnce ix dest t ∧ Went G s t ∧ t.dests = s.dests ∧ (D t ∨ Ev.warn p ∈ t.log))
      (fun _ => True) s := by
  rw [wp_bind]
  refine wp_mono (wp_and (wp_and (ho s hs.1) (hst s (hR.stayed_refl s))) hD) ?_ fun _ _ => trivial
  rintro r t ⟨⟨h1, h2⟩, h3⟩
  cases r with
  | none => exact ⟨hs.stayed h1 h2, h2.1, h2.2, Or.inl (h3 rfl)⟩
  | some e =>
    refine ⟨⟨h1, fun o d p' hx => ?_⟩, ⟨fun x hx => List.mem_cons_of_mem _ (h2.1.1 x hx), h2.1.2⟩, h2.2, Or.inr List.mem_cons_self⟩
    rcases List.mem_cons.mp hx with hx | hx
    · cases hx
    · exact (hs.stayed h1 h2).2 o d p' hx

/-- The run, with any relation between file systems and any fates of files and links. -/
theorem runInv_of (hR : FSRel G F C) (hC : C = true ∨ ∀ n, env.fails .stat n = false) (FD LD : Fate)
    (hf : ∀ s o d p di n i, PlacedOnce ix dest s → Ev.enter o d p ∈ s.log → Met rf ix o d di n → Leads di FtRegFile i →
      wp (recoverFile env rf ix false o i (goJoin p n)) (fun r t => r = none → FD t o i (goJoin p n)) (fun _ => True) s)
    (hl : ∀ s o d p di n i, PlacedOnce ix dest s → Ev.enter o d p ∈ s.log → Met rf ix o d di n → Leads di FtSymlink i →
      wp (recoverSymlink env rf ix false o i (goJoin p n)) (fun r t => r = none → LD t o i (goJoin p n)) (fun _ => True) s)
    (hfm : ∀ s t o i p, Went G s t → FD s o i p → FD t o i p) (hlm : ∀ s t o i p, Went G s t → LD s o i p → LD t o i p) :
    RunInv env rf ix false dest (PlacedOnce ix dest) (fun _ _ => True) (Went G) FD LD where
  hang _ _ := trivial
  crash _ _ _ := trivial
  refl := hR.went_refl
  trans _ _ _ h1 h2 := hR.went_trans h1 h2
  logs _ _ h := h.logs
  once s h := h.1.1
  placed s h := h.2
  visit s o d p h hp hv := by
    refine ⟨⟨(Once.inv env rf ix false).visit s o d p trivial h.1 hv, fun o' d' p' hx => ?_⟩,
      ⟨fun e he => List.mem_cons_of_mem _ he, hR.refl _⟩⟩
    rcases List.mem_cons.mp hx with hx | hx
    · cases hx; exact hp
    · exact h.2 o' d' p' hx
  mkdirAll o d p s _ hs := by
    refine wpE_of (wp_and ((Once.inv env rf ix false).mkdirAll p trivial s hs.1) (hR.mkdirAll p s (hR.stayed_refl s))) ?_
      fun _ _ _ => trivial
    rintro - t ⟨h1, h2⟩
    have hpo := hs.stayed h1 h2
    refine ⟨hpo, h2.1, h2.2, fun _ => ⟨⟨hpo.1, fun o d p' hx => ?_⟩, ⟨fun e he => List.mem_cons_of_mem _ he, hR.refl _⟩, trivial⟩⟩
    rcases List.mem_cons.mp hx with hx | hx
    · cases hx
    · exact hpo.2 o d p' hx
  file s o d p di n i hs he _ hm hi := by
    refine wpE_iff.mpr <| wp_reported hR hs ((Once.inv env rf ix false).file o i trivial) ?_ (hf s o d p di n i hs he hm hi)
    exact (hR.fileInv (hC.imp id fun h => ⟨rfl, h⟩)).file o i trivial
  link s o d p di n i hs he _ hm hi :=
    wpE_iff.mpr <| wp_reported hR hs ((Once.inv env rf ix false).link o i (goJoin p n) di trivial trivial hi.typ) (hR.link rf ix o i _)
      (hl s o d p di n i hs he hm hi)
  dmono _ _ _ _ _ _ h := stat_dir_grown (hR.grown _ _ h.fs)
  fmono := hfm
  lmono := hlm

end

/-- After a file has been recovered without an error, something is there. -/
theorem wp_file_there {env : Env} {rf : Nat} {ix : Ix} {clobber : Bool} {o i : UInt64} {p : Bytes} {s : RecState} :
    wp (recoverFile env rf ix clobber o i p) (fun r t => r = none → t.fs.stat true p ≠ none) (fun _ => True) s := by
  unfold recoverFile
  rw [wp_bind]
  refine wp_mono wp_statAt ?_ fun _ _ => trivial
  rintro st t ⟨t1, t2, t3⟩
  by_cases hst : (st.isSome && !clobber) = true
  · rw [if_pos hst]
    rw [Bool.and_eq_true] at hst
    exact fun _ => by rw [t1]; exact t3 hst.1
  · rw [if_neg hst, wp_bind]
    refine wp_lift_of (fun size _ => ?_) trivial
    rw [wp_bind]
    refine wp_mono wp_sysOpen ?_ fun _ _ => trivial
    rintro r u ⟨u1, u2, u3, u4⟩
    cases r with
    | none => exact fun h => by cases h
    | some fd =>
      obtain ⟨h1, e, h2⟩ := openTrunc_resolve (u2 fd rfl)
      simp only
      have hc := ((FSRel.ofGrown).fileInv (env := env) (rf := rf) (ix := ix) (s := u) (clobber := clobber) (Or.inl rfl)).contents
        (fd := fd) trivial o i size u (FSRel.ofGrown.stayed_refl u)
      generalize recoverContents env rf ix o i fd size = c at hc ⊢
      refine wp_mono hc ?_ fun _ _ => trivial
      rintro r v hv -
      refine stat_grown hv.1.2 ?_
      unfold HostFS.stat
      rw [h2]
      simp [h1]

/-- After a link has been recovered without an error, something is there. -/
theorem wp_link_there {env : Env} {rf : Nat} {ix : Ix} {clobber : Bool} {o i : UInt64} {p : Bytes} {s : RecState} :
    wp (recoverSymlink env rf ix clobber o i p) (fun r t => r = none → t.fs.stat false p ≠ none) (fun _ => True) s := by
  refine wp_mono wp_recoverSymlink (fun r t h hr => ?_) fun _ h => h
  rcases h hr with ⟨-, h1, h2⟩ | ⟨e, x, -, h1, -⟩
  · rw [h1]; exact h2
  · exact stat_of_readLink h1

/-- What the run leaves. -/
theorem reach_core {env : Env} {rf fuel : Nat} {ix : Ix} {dest : Bytes} {fs : HostFS} {s' : RecState}
    (hrun : doRecoverFiles env rf fuel ix false dest (RecState.start fs) = .ok () s') :
    (∀ o d p, Ev.enter o d p ∈ s'.log → ix.Placed dest o d p ∧
      DirDone rf ix (fun t _ _ p => t.fs.stat true p ≠ none) (fun t _ _ p => t.fs.stat false p ≠ none) s' o d p) ∧
    (∃ p, Ev.enter 5 256 p ∈ s'.log) ∧ ∀ o, ix.listsSubvolume o → ∃ p, Ev.enter o 256 p ∈ s'.log := by
  have h := runInv_of (env := env) (rf := rf) (ix := ix) (dest := dest) FSRel.ofGrown (Or.inl rfl)
    (fun t _ _ p => t.fs.stat true p ≠ none) (fun t _ _ p => t.fs.stat false p ≠ none)
    (fun s o d p di n i _ _ _ _ => wp_file_there) (fun s o d p di n i _ _ _ _ => wp_link_there)
    (fun s t o i p hw => stat_grown hw.fs) (fun s t o i p hw => stat_grown hw.fs)
  have hw := h.all fuel (s := RecState.start fs) ⟨⟨rfl, List.nodup_nil⟩, fun o d p hx => by cases hx⟩
  unfold wpE at hw
  rw [hrun] at hw
  obtain ⟨h1, h2, h3⟩ := hw
  refine ⟨fun o d p hx => ⟨h1.inv.2 o d p hx, ?_⟩, h2, ?_⟩
  · rcases h1.dirs o d p hx with hx | hx
    · cases hx
    · exact hx
  · rintro o ⟨rd, x, k, g1, g2, g3, rfl⟩
    exact h3 rd x k g1 g2 g3

theorem met_of {rf : Nat} {ix : Ix} {o d : UInt64} {di : DirItem} {n : Bytes} {dis : List DirItem}
    (h : readDirItems rf ix o d = .ok dis) (hl : ix.lists o d di) (hn : DirItem.name di = .ok n) (hu : usable n) (hb : 92 ∉ n) :
    Met rf ix o d di n := ⟨⟨dis, h, (readDirItems_lists h di).mpr hl⟩, hn, skipName_false.mpr ⟨hu, hb⟩⟩

theorem leads_of {di : DirItem} {n : Bytes} {t : UInt8} {loc : Key} (h : di.says n t loc) (ht : t ≠ 2) (hl : loc.typ ≠ 132) :
    Leads di t loc.objectID := by
  obtain ⟨-, h2, h3⟩ := h
  refine ⟨isDir_eq.mpr ⟨t, h2, ?_⟩, isSub_eq.mpr ⟨loc, h3, ?_⟩, h2, loc, h3, rfl⟩
  · exact beq_eq_false_iff_ne.mpr ht
  · exact beq_eq_false_iff_ne.mpr hl

/-- C61 (what is proved): if recover without `--clobber` ends, then for every directory it
has recovered to a path `p`, and every regular file listed there whose name can be used and
has no backslash, something is at `p/name` — or there was a warning about `p/name` or about
`p`. The same for links. Whatever system calls and device reads fail. Missing: names with
a backslash (`C61_backslash_skipped`). -/
theorem C61_entries_partial (env : Env) (rf fuel : Nat) (ix : Ix) (dest : Bytes) (fs : HostFS) (s' : RecState)
    (hrun : doRecoverFiles env rf fuel ix false dest (RecState.start fs) = .ok () s') :
    ∀ o d p, Ev.enter o d p ∈ s'.log → Ev.warn p ∉ s'.log →
      ∀ di name t loc, ix.lists o d di → di.says name t loc → loc.typ ≠ 132 → usable name → 92 ∉ name →
        (t = 1 → s'.fs.stat true (goJoin p name) ≠ none ∨ Ev.warn (goJoin p name) ∈ s'.log) ∧
        (t = 7 → s'.fs.stat false (goJoin p name) ≠ none ∨ Ev.warn (goJoin p name) ∈ s'.log) := by
  intro o d p he hw di name t loc hl hsay hty hu hb
  rcases ((reach_core hrun).1 o d p he).2 with h | ⟨⟨-, dis, hdis⟩, h⟩
  · exact absurd h hw
  · have hd := h di name (met_of hdis hl hsay.1 hu hb)
    refine ⟨fun ht => ?_, fun ht => ?_⟩
    · subst ht
      exact hd.file _ (leads_of hsay (by decide) hty)
    · subst ht
      exact hd.link _ (leads_of hsay (by decide) hty)

/-- C61 (what is proved): if recover without `--clobber` ends without a warning, then every
directory that has a place in the destination — in whatever tree, however deep — was
recovered to one of its places `p`: there is a directory, and everything listed in it is there: at `p/name` there
is something for every regular file and every link. Missing: names with a backslash
(`C61_backslash_skipped`). -/
theorem C61_reached_partial (env : Env) (rf fuel : Nat) (ix : Ix) (dest : Bytes) (fs : HostFS) (s' : RecState)
    (hrun : doRecoverFiles env rf fuel ix false dest (RecState.start fs) = .ok () s') (hsil : s'.silent) :
    ∀ o d p0, ix.Placed dest o d p0 → ∃ p, ix.Placed dest o d p ∧ s'.fs.stat true p = some true ∧
      ∀ di name t loc, ix.lists o d di → di.says name t loc → loc.typ ≠ 132 → usable name → 92 ∉ name →
        (t = 1 → s'.fs.stat true (goJoin p name) ≠ none) ∧ (t = 7 → s'.fs.stat false (goJoin p name) ≠ none) := by
  obtain ⟨h1, h2, h3⟩ := reach_core hrun
  have hent : ∀ o d p0, ix.Placed dest o d p0 → ∃ p, Ev.enter o d p ∈ s'.log := by
    intro o d p0 hp
    induction hp with
    | main => exact h2
    | subvolume h => exact h3 _ h
    | @dir o d p di name loc _ hl hsay hty hu hb ih =>
      obtain ⟨p', hp'⟩ := ih
      rcases (h1 _ _ _ hp').2 with h | ⟨⟨-, dis, hdis⟩, h⟩
      · exact absurd h (hsil _)
      · have := (h di name (met_of hdis hl hsay.1 hu hb)).dir true false loc
          (isDir_eq.mpr ⟨2, hsay.2.1, rfl⟩) (isSub_eq.mpr ⟨loc, hsay.2.2, beq_eq_false_iff_ne.mpr hty⟩) hsay.2.2 rfl
        exact this
    | @tree o d p di name t loc _ hl hsay hty hu hb ih =>
      obtain ⟨p', hp'⟩ := ih
      rcases (h1 _ _ _ hp').2 with h | ⟨⟨-, dis, hdis⟩, h⟩
      · exact absurd h (hsil _)
      · have := (h di name (met_of hdis hl hsay.1 hu hb)).dir (t == FtDir) true loc
          (isDir_eq.mpr ⟨t, hsay.2.1, rfl⟩) (isSub_eq.mpr ⟨loc, hsay.2.2, by rw [hty]; rfl⟩) hsay.2.2 (by simp)
        exact this
  intro o d p0 hp0
  obtain ⟨p, hp⟩ := hent o d p0 hp0
  refine ⟨p, (h1 _ _ _ hp).1, ((h1 _ _ _ hp).2.resolve_left (hsil p)).1.1, fun di name t loc hl hsay hty hu hb => ?_⟩
  have := C61_entries_partial env rf fuel ix dest fs s' hrun o d p hp (hsil p) di name t loc hl hsay hty hu hb
  exact ⟨fun ht => (this.1 ht).resolve_right (hsil _), fun ht => (this.2 ht).resolve_right (hsil _)⟩

/-! ## Examples and a counterexample -/

/-- What the first of these entries says. -/
def firstSays : List DirItem → Go (Bytes × UInt8 × Key)
  | [] => .panic
  | di :: _ => do return (← DirItem.name di, ← DirItem.typ di, ← DirItem.location di)

theorem lists_of_first {rf : Nat} {ix : Ix} {o d : UInt64} {name : Bytes} {t : UInt8} {loc : Key}
    (h : (readDirItems rf ix o d >>= firstSays) = .ok (name, t, loc)) : ∃ di, ix.lists o d di ∧ di.says name t loc := by
  obtain ⟨dis, h1, h2⟩ := Go.bind_eq_ok.mp h
  cases dis with
  | nil => cases h2
  | cons di dis =>
    unfold firstSays at h2
    obtain ⟨n, hn, h2⟩ := Go.bind_eq_ok.mp h2
    obtain ⟨y, hy, h2⟩ := Go.bind_eq_ok.mp h2
    obtain ⟨l, hl, h2⟩ := Go.bind_eq_ok.mp h2
    cases h2
    exact ⟨di, (readDirItems_lists h1 di).mp List.mem_cons_self, hn, hy, hl⟩

/-- The run ends without a warning. -/
def Out.silentOk : Out RecState Unit → Bool
  | .ok _ s => s.log.all fun e => match e with | .warn _ => false | _ => true
  | _ => false

theorem silent_of {o : Out RecState Unit} (h : o.silentOk = true) : ∃ s, o = .ok () s ∧ s.silent := by
  cases o with
  | ok u s =>
    refine ⟨s, rfl, fun p hp => ?_⟩
    have := List.all_eq_true.mp h _ hp
    cases this
  | exit _ => cases h
  | crash _ => cases h
  | hang _ => cases h

-- The hypotheses of `C61_reached_partial` and `C61_entries_partial` are met.
example : ∃ s', doRecoverFiles quietEnv 9 9 ⟨exOneFile.enc, ~~~0⟩ false (ascii "/d") (RecState.start exEmptyHost) = .ok () s' ∧
    s'.silent ∧ (⟨exOneFile.enc, ~~~0⟩ : Ix).Placed (ascii "/d") 5 256 (ascii "/d") ∧ 
    ∃ di, (⟨exOneFile.enc, ~~~0⟩ : Ix).lists 5 256 di ∧ di.says [97] 1 ⟨257, 1, 0⟩ ∧ usable [97] := by
  obtain ⟨s, h1, h2⟩ := silent_of (o := doRecoverFiles quietEnv 9 9 ⟨exOneFile.enc, ~~~0⟩ false (ascii "/d")
    (RecState.start exEmptyHost)) (by decide +kernel)
  obtain ⟨di, h3, h4⟩ := lists_of_first (rf := 9) (ix := ⟨exOneFile.enc, ~~~0⟩) (o := 5) (d := 256) (name := [97]) (t := 1)
    (loc := ⟨257, 1, 0⟩) (by decide +kernel)
  exact ⟨s, h1, h2, .main, di, h3, h4, by decide, by decide, by decide⟩

/-- A root directory with one file whose name is `a\b`. -/
def exBackslash : AStore :=
  [(⟨5, ⟨256, 84, 1⟩, 10⟩, mkItem ⟨256, 84, 1⟩ (exEntry ⟨257, 1, 0⟩ 1 [97, 92, 98])),
   (⟨5, ⟨256, 96, 2⟩, 10⟩, mkItem ⟨256, 96, 2⟩ []),
   (metadataVersionKey, [])]

/-- C61 is false of the code for names with a backslash, which are ordinary names on
Linux: the file is listed, the run ends without a warning, no system call failed, and
nothing is at its place. -/
theorem C61_backslash_skipped :
    (∃ di, (⟨exBackslash.enc, ~~~0⟩ : Ix).lists 5 256 di ∧ di.says [97, 92, 98] 1 ⟨257, 1, 0⟩) ∧ usable [97, 92, 98] ∧
    ∃ s', doRecoverFiles quietEnv 9 9 ⟨exBackslash.enc, ~~~0⟩ false (ascii "/d") (RecState.start exEmptyHost) = .ok () s' ∧
      s'.silent ∧ Ev.enter 5 256 (ascii "/d") ∈ s'.log ∧
      s'.fs.stat true (goJoin (ascii "/d") [97, 92, 98]) = none ∧ s'.fs.stat false (goJoin (ascii "/d") [97, 92, 98]) = none := by
  refine ⟨lists_of_first (rf := 9) (by decide +kernel), ⟨by decide, by decide, by decide⟩, ?_⟩
  obtain ⟨s, h1, h2⟩ := silent_of (o := doRecoverFiles quietEnv 9 9 ⟨exBackslash.enc, ~~~0⟩ false (ascii "/d")
    (RecState.start exEmptyHost)) (by decide +kernel)
  have hs : s = (doRecoverFiles quietEnv 9 9 ⟨exBackslash.enc, ~~~0⟩ false (ascii "/d") (RecState.start exEmptyHost)).state := by
    rw [h1]; rfl
  refine ⟨s, h1, h2, ?_, ?_, ?_⟩ <;> rw [hs] <;> decide +kernel

end Btrfscue
