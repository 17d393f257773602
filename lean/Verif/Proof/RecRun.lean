import Verif.Proof.RecInv
import Verif.Proof.WpE
import Verif.Proof.MkdirDone
import Verif.Spec.RecoverReach
/-!
# Whole runs of the recover command: what becomes of every entry
-/

namespace Btrfscue

open Cmd

/-- The directories entered, and where they are recovered to. -/
def RecState.dests (s : RecState) : List (UInt64 × UInt64 × Bytes) :=
  s.log.filterMap fun e =>
    match e with
    | .enter o d p => some (o, d, p)
    | _ => none

theorem RecState.mem_dests {s : RecState} {o d : UInt64} {p : Bytes} : (o, d, p) ∈ s.dests ↔ Ev.enter o d p ∈ s.log := by
  unfold RecState.dests
  rw [List.mem_filterMap]
  constructor
  · rintro ⟨e, he, h⟩
    cases e with
    | enter o' d' p' => simp only [Option.some.injEq, Prod.mk.injEq] at h; obtain ⟨rfl, rfl, rfl⟩ := h; exact he
    | op _ _ => cases h
    | warn _ => cases h
  · exact fun h => ⟨_, h, rfl⟩

theorem RecState.mem_entered {s : RecState} {o d : UInt64} : (o, d) ∈ s.entered ↔ ∃ p, Ev.enter o d p ∈ s.log := by
  unfold RecState.entered
  rw [List.mem_filterMap]
  constructor
  · rintro ⟨e, he, h⟩
    cases e with
    | enter o' d' p' => simp only [Option.some.injEq, Prod.mk.injEq] at h; obtain ⟨rfl, rfl⟩ := h; exact ⟨_, he⟩
    | op _ _ => cases h
    | warn _ => cases h
  · rintro ⟨p, h⟩
    exact ⟨_, h, rfl⟩

/-- Something that becomes of a file or a link of a tree, recovered to a path. -/
abbrev Fate := RecState → UInt64 → UInt64 → Bytes → Prop

/-- `di` is listed in directory `d` of tree `o` with a name that is not skipped. -/
structure Met (rf : Nat) (ix : Ix) (o d : UInt64) (di : DirItem) (n : Bytes) : Prop where
  listed : ∃ dis, readDirItems rf ix o d = .ok dis ∧ di ∈ dis
  name : DirItem.name di = .ok n
  kept : skipName n = false

theorem collect_visits : ∀ {fuel : Nat} {acc : List DirItem} {rd : Range × Slice} {r : List DirItem × Bool},
    rangeLoop collectBody fuel acc rd = .ok r → ∀ di, di ∈ r.1 ↔ di ∈ acc ∨ ∃ x, Range.Visits rd (x, di) := by
  intro fuel
  induction fuel with
  | zero => intro acc rd r h; cases h
  | succ n ih =>
    intro acc rd r h di
    unfold rangeLoop at h
    by_cases hn : rd.1.hasNext = true
    · rw [if_pos hn] at h
      simp only [collectBody, Go.ok_bind, Bool.false_eq_true, if_false] at h
      obtain ⟨rd', h1, h2⟩ := Go.bind_eq_ok.mp h
      rw [ih h2 di, List.mem_append, List.mem_singleton]
      constructor
      · rintro ((h | rfl) | ⟨x, h⟩)
        · exact Or.inl h
        · exact Or.inr ⟨rd.1, .here hn⟩
        · exact Or.inr ⟨x, .step hn h1 h⟩
      · rintro (h | ⟨x, h⟩)
        · exact Or.inl (Or.inl h)
        · cases h with
          | here _ => exact Or.inl (Or.inr rfl)
          | step _ h3 h4 =>
            rw [h1] at h3; cases h3
            exact Or.inr ⟨x, h4⟩
    · rw [if_neg hn] at h
      cases h
      simp only
      constructor
      · exact Or.inl
      · rintro (h | ⟨x, h⟩)
        · exact h
        · cases h with
          | here h1 => exact absurd h1 hn
          | step h1 _ _ => exact absurd h1 hn

theorem readDirItems_lists {rf : Nat} {ix : Ix} {o d : UInt64} {dis : List DirItem} (h : readDirItems rf ix o d = .ok dis)
    (di : DirItem) : di ∈ dis ↔ ix.lists o d di := by
  unfold readDirItems at h
  obtain ⟨rd, h1, h2⟩ := Go.bind_eq_ok.mp h
  obtain ⟨r, h3, h4⟩ := Go.bind_eq_ok.mp h2
  cases h4
  rw [collect_visits h3 di]
  constructor
  · rintro (h | ⟨x, h⟩)
    · cases h
    · exact ⟨rd, x, h1, h⟩
  · rintro ⟨rd', x, g1, g2⟩
    rw [h1] at g1; cases g1
    exact Or.inr ⟨x, g2⟩

theorem skipName_false {n : Bytes} : skipName n = false ↔ usable n ∧ 92 ∉ n := by
  unfold skipName usable
  simp only [Bool.or_eq_false_iff, beq_eq_false_iff_ne, ne_eq, List.contains_eq_mem, decide_eq_false_iff_not]
  constructor
  · rintro ⟨⟨⟨a, b⟩, c⟩, d⟩; exact ⟨⟨a, b, c⟩, d⟩
  · rintro ⟨⟨a, b, c⟩, d⟩; exact ⟨⟨⟨a, b⟩, c⟩, d⟩

theorem isDir_eq {di : DirItem} {b : Bool} : DirItem.isDir di = .ok b ↔ ∃ t, DirItem.typ di = .ok t ∧ (t == FtDir) = b := by
  unfold DirItem.isDir
  rw [Go.bind_eq_ok]
  simp only [Go.pure_eq, Go.ok.injEq]

theorem isSub_eq {di : DirItem} {b : Bool} :
    DirItem.isSubvolume di = .ok b ↔ ∃ k, DirItem.location di = .ok k ∧ (k.typ == RootItemKey) = b := by
  unfold DirItem.isSubvolume
  rw [Go.bind_eq_ok]
  simp only [Go.pure_eq, Go.ok.injEq]

theorem Met.placed {rf : Nat} {ix : Ix} {o d : UInt64} {di : DirItem} {n : Bytes} (h : Met rf ix o d di n) {dest p : Bytes}
    (hp : ix.Placed dest o d p) {isDir isSub : Bool} {loc : Key} (h1 : DirItem.isDir di = .ok isDir)
    (h2 : DirItem.isSubvolume di = .ok isSub) (h3 : DirItem.location di = .ok loc) (hd : (isDir || isSub) = true) :
    ix.Placed dest (subDir o loc isSub).1 (subDir o loc isSub).2 (goJoin p n) := by
  obtain ⟨dis, hl, hm⟩ := h.listed
  have hl' := (readDirItems_lists hl di).mp hm
  obtain ⟨hu, hbs⟩ := skipName_false.mp h.kept
  obtain ⟨t, ht, rfl⟩ := isDir_eq.mp h1
  obtain ⟨k, hk, rfl⟩ := isSub_eq.mp h2
  rw [h3] at hk
  cases hk
  unfold subDir
  by_cases hs : (loc.typ == RootItemKey) = true
  · rw [if_pos hs]
    exact .tree hp hl' ⟨h.name, ht, h3⟩ (eq_of_beq hs) hu hbs
  · rw [if_neg hs]
    simp only [hs, Bool.or_false] at hd
    have ht2 : t = 2 := eq_of_beq hd
    subst ht2
    exact .dir hp hl' ⟨h.name, ht, h3⟩ (fun hc => hs (by rw [hc]; rfl)) hu hbs

/-- `di` leads to the object `i` of the same tree and has type `t`. -/
structure Leads (di : DirItem) (t : UInt8) (i : UInt64) : Prop where
  dir : DirItem.isDir di = .ok false
  sub : DirItem.isSubvolume di = .ok false
  typ : DirItem.typ di = .ok t
  loc : ∃ k, DirItem.location di = .ok k ∧ k.objectID = i

/-- Nothing the run reads from the index makes the program crash: directories and
subvolumes can be listed, and entries read. -/
structure NoCrash (rf : Nat) (ix : Ix) (dest : Bytes) : Prop where
  lists : ∀ o d p, ix.Placed dest o d p → readDirItems rf ix o d ≠ .panic
  says : ∀ o d p di, ix.Placed dest o d p → ix.lists o d di → ∃ n t loc, DirItem.says di n t loc
  subs : ix.subvolumes ≠ .panic
  visits : ∀ rd x, ix.subvolumes = .ok rd → Range.Visits rd x → x.1.rKey ≠ .panic ∧ x.1.next ≠ .panic

/-- What is to be shown: `I` is an invariant, `E` holds whenever the run stops, `R` relates earlier and later states, `FD` and
`LD` become true of the files and links recovered. -/
structure RunInv (env : Env) (rf : Nat) (ix : Ix) (clobber : Bool) (dest : Bytes) (I : RecState → Prop) (E : Stop → RecState → Prop)
    (R : RecState → RecState → Prop) (FD LD : Fate) : Prop where
  hang : ∀ s, I s → E .hang s
  crash : ∀ s, I s → ¬ NoCrash rf ix dest → E .crash s
  refl : ∀ s, R s s
  trans : ∀ s t u, R s t → R t u → R s u
  logs : ∀ s t, R s t → ∀ e ∈ s.log, e ∈ t.log
  once : ∀ s, I s → s.entered = s.visited
  placed : ∀ s, I s → ∀ o d p, Ev.enter o d p ∈ s.log → ix.Placed dest o d p
  visit : ∀ s o d p, I s → ix.Placed dest o d p → (o, d) ∉ s.visited →
    I { s with visited := (o, d) :: s.visited, log := .enter o d p :: s.log } ∧
    R s { s with visited := (o, d) :: s.visited, log := .enter o d p :: s.log }
  mkdirAll : ∀ o d p s, ix.Placed dest o d p → I s → wpE (mkdirAll env p) (fun ok t => I t ∧ R s t ∧ t.dests = s.dests ∧
    (ok = false → I { t with log := .warn p :: t.log } ∧ R t { t with log := .warn p :: t.log } ∧ E .exit t)) E s
  file : ∀ s o d p di n i, I s → Ev.enter o d p ∈ s.log → s.fs.stat true p = some true → Met rf ix o d di n → Leads di FtRegFile i →
    wpE (recoverFile env rf ix clobber o i (goJoin p n) >>= report (goJoin p n))
      (fun _ t => I t ∧ R s t ∧ t.dests = s.dests ∧ (FD t o i (goJoin p n) ∨ Ev.warn (goJoin p n) ∈ t.log)) E s
  link : ∀ s o d p di n i, I s → Ev.enter o d p ∈ s.log → s.fs.stat true p = some true → Met rf ix o d di n → Leads di FtSymlink i →
    wpE (recoverSymlink env rf ix clobber o i (goJoin p n) >>= report (goJoin p n))
      (fun _ t => I t ∧ R s t ∧ t.dests = s.dests ∧ (LD t o i (goJoin p n) ∨ Ev.warn (goJoin p n) ∈ t.log)) E s
  dmono : ∀ s t o d p, ix.Placed dest o d p → R s t → s.fs.stat true p = some true → t.fs.stat true p = some true
  fmono : ∀ s t o i p, R s t → FD s o i p → FD t o i p
  lmono : ∀ s t o i p, R s t → LD s o i p → LD t o i p

/-- What has become of an entry of tree `o` recovered to `p`. -/
structure EntryDone (FD LD : Fate) (t : RecState) (o : UInt64) (p : Bytes) (di : DirItem) : Prop where
  dir : ∀ isDir isSub loc, DirItem.isDir di = .ok isDir → DirItem.isSubvolume di = .ok isSub →
    DirItem.location di = .ok loc → (isDir || isSub) = true →
    ∃ p', Ev.enter (subDir o loc isSub).1 (subDir o loc isSub).2 p' ∈ t.log
  file : ∀ i, Leads di FtRegFile i → FD t o i p ∨ Ev.warn p ∈ t.log
  link : ∀ i, Leads di FtSymlink i → LD t o i p ∨ Ev.warn p ∈ t.log

/-- What has become of a directory: there was a warning, or it is there, was listed and all
its entries are done. -/
def DirDone (rf : Nat) (ix : Ix) (FD LD : Fate) (t : RecState) (o d : UInt64) (p : Bytes) : Prop :=
  Ev.warn p ∈ t.log ∨ (t.fs.stat true p = some true ∧ ∃ dis, readDirItems rf ix o d = .ok dis) ∧ ∀ di n, Met rf ix o d di n → EntryDone FD LD t o (goJoin p n) di

section
variable {env : Env} {rf : Nat} {ix : Ix} {clobber : Bool} {I : RecState → Prop} {E : Stop → RecState → Prop}
  {R : RecState → RecState → Prop} {FD LD : Fate} {dest : Bytes}

theorem RunInv.entryMono (h : RunInv env rf ix clobber dest I E R FD LD) {s t : RecState} (hr : R s t) {o : UInt64} {p : Bytes}
    {di : DirItem} (hd : EntryDone FD LD s o p di) : EntryDone FD LD t o p di where
  dir a b c h1 h2 h3 h4 := by
    obtain ⟨p', hp⟩ := hd.dir a b c h1 h2 h3 h4
    exact ⟨p', h.logs _ _ hr _ hp⟩
  file i hi := (hd.file i hi).imp (h.fmono _ _ _ _ _ hr) (h.logs _ _ hr _)
  link i hi := (hd.link i hi).imp (h.lmono _ _ _ _ _ hr) (h.logs _ _ hr _)

theorem RunInv.dirMono (h : RunInv env rf ix clobber dest I E R FD LD) {s t : RecState} (hr : R s t) {o d : UInt64} {p : Bytes}
    (hp : ix.Placed dest o d p) (hd : DirDone rf ix FD LD s o d p) : DirDone rf ix FD LD t o d p :=
  hd.imp (h.logs _ _ hr _) fun hx => ⟨⟨h.dmono _ _ _ _ _ hp hr hx.1.1, hx.1.2⟩, fun di n hm => h.entryMono hr (hx.2 di n hm)⟩

/-- From `s` to `t`, every directory entered has been done. -/
structure Step (rf : Nat) (ix : Ix) (I : RecState → Prop) (R : RecState → RecState → Prop) (FD LD : Fate) (s t : RecState) :
    Prop where
  inv : I t
  rel : R s t
  dirs : ∀ o d p, Ev.enter o d p ∈ t.log → Ev.enter o d p ∈ s.log ∨ DirDone rf ix FD LD t o d p

theorem RunInv.stepTrans (h : RunInv env rf ix clobber dest I E R FD LD) {s t u : RecState} (h1 : Step rf ix I R FD LD s t)
    (h2 : Step rf ix I R FD LD t u) : Step rf ix I R FD LD s u :=
  ⟨h2.inv, h.trans _ _ _ h1.rel h2.rel, fun o d p hu => by
    rcases h2.dirs o d p hu with ht | hd
    · exact (h1.dirs o d p ht).imp id (h.dirMono h2.rel (h.placed _ h1.inv _ _ _ ht))
    · exact Or.inr hd⟩

theorem RunInv.stepRefl (h : RunInv env rf ix clobber dest I E R FD LD) {s : RecState} (hs : I s) : Step rf ix I R FD LD s s :=
  ⟨hs, h.refl s, fun _ _ _ he => Or.inl he⟩

theorem Step.same {s t : RecState} (hi : I t) (hr : R s t) (hd : t.dests = s.dests) : Step rf ix I R FD LD s t :=
  ⟨hi, hr, fun o d p he => Or.inl (by rw [← RecState.mem_dests, ← hd, RecState.mem_dests]; exact he)⟩

/-- What a call of `recoverDir` does. -/
def RecSpec (rf : Nat) (ix : Ix) (dest : Bytes) (I : RecState → Prop) (E : Stop → RecState → Prop) (R : RecState → RecState → Prop) (FD LD : Fate)
    (rec : UInt64 → UInt64 → Bytes → Rec (Option RecErr)) : Prop :=
  ∀ o d p s, I s → ix.Placed dest o d p → wpE (rec o d p >>= report p)
    (fun _ t => Step rf ix I R FD LD s t ∧ ∃ p', Ev.enter o d p' ∈ t.log) E s

theorem RunInv.entry (h : RunInv env rf ix clobber dest I E R FD LD) {rec : UInt64 → UInt64 → Bytes → Rec (Option RecErr)}
    (hrec : RecSpec rf ix dest I E R FD LD rec) {o d : UInt64} {p : Bytes} {di : DirItem}
    (hdi : ∃ dis, readDirItems rf ix o d = .ok dis ∧ di ∈ dis) {s : RecState} (hs : I s) (hp : ix.Placed dest o d p)
    (he : Ev.enter o d p ∈ s.log) (hdir : s.fs.stat true p = some true) :
    wpE (recoverEntry rec env rf ix clobber o p di) (fun _ t => Step rf ix I R FD LD s t ∧
      ∀ n, Met rf ix o d di n → EntryDone FD LD t o (goJoin p n) di) E s := by
  have hsay : ∀ {P : Prop}, (∀ n t loc, DirItem.says di n t loc → P → False) → P → E .crash s := fun hno hP =>
    h.crash s hs fun hN => by
      obtain ⟨dis, h1, h2⟩ := hdi
      obtain ⟨n, t, loc, h3⟩ := hN.says o d p di hp ((readDirItems_lists h1 di).mp h2)
      exact hno n t loc h3 hP
  unfold recoverEntry
  rw [wpE_bind]
  refine wpE_lift_of (fun name hname => ?_) (hsay fun n t loc h1 h2 => by rw [h1.1] at h2; cases h2) fun _ => h.hang s hs
  by_cases hsk : skipName name = true
  · simp only [hsk, if_true]
    refine ⟨h.stepRefl hs, fun n hn => ?_⟩
    have := hn.name
    rw [hname] at this
    cases this
    rw [hn.kept] at hsk
    cases hsk
  · simp only [Bool.not_eq_true] at hsk
    simp only [hsk, Bool.false_eq_true, if_false]
    have hmet : Met rf ix o d di name := ⟨hdi, hname, hsk⟩
    unfold recoverNamed
    rw [wpE_bind]
    refine wpE_lift_of (fun isDir h1 => wpE_bind.mpr <| wpE_lift_of (fun isSub h2 => wpE_bind.mpr <| wpE_lift_of (fun loc h3 =>
      wpE_bind.mpr <| wpE_lift_of (fun t h4 => ?_) (hsay fun n t loc h1 h2 => by rw [h1.2.1] at h2; cases h2) fun _ => h.hang s hs)
        (hsay fun n t loc h1 h2 => by rw [h1.2.2] at h2; cases h2) fun _ => h.hang s hs)
        (hsay fun n t loc h1 h2 => by rw [isSub_eq.mpr ⟨loc, h1.2.2, rfl⟩] at h2; cases h2) fun _ => h.hang s hs)
        (hsay fun n t loc h1 h2 => by rw [isDir_eq.mpr ⟨t, h1.2.1, rfl⟩] at h2; cases h2) fun _ => h.hang s hs
    by_cases hd : (isDir || isSub) = true
    · rw [if_pos hd]
      refine wpE_mono (hrec _ _ _ s hs (hmet.placed hp h1 h2 h3 hd)) ?_ fun _ _ h => h
      rintro - t ⟨ht, p', hp'⟩
      refine ⟨ht, fun n hn => ?_⟩
      have := hn.name
      rw [hname] at this
      cases this
      refine ⟨fun a b c g1 g2 g3 _ => ?_, fun i hi => ?_, fun i hi => ?_⟩
      · rw [h1] at g1; rw [h2] at g2; rw [h3] at g3
        cases g1; cases g2; cases g3
        exact ⟨p', hp'⟩
      · have g1 := hi.dir; have g2 := hi.sub
        rw [h1] at g1; rw [h2] at g2
        cases g1; cases g2; cases hd
      · have g1 := hi.dir; have g2 := hi.sub
        rw [h1] at g1; rw [h2] at g2
        cases g1; cases g2; cases hd
    · rw [if_neg hd]
      simp only [Bool.or_eq_true, not_or, Bool.not_eq_true] at hd
      obtain ⟨rfl, rfl⟩ := hd
      by_cases hf : t = FtRegFile
      · rw [if_pos hf]
        subst hf
        refine wpE_mono (h.file s o d p di name loc.objectID hs he hdir hmet ⟨h1, h2, h4, loc, h3, rfl⟩) ?_ fun _ _ h => h
        rintro - u ⟨u1, u2, u3, u4⟩
        refine ⟨Step.same u1 u2 u3, fun n hn => ?_⟩
        have := hn.name
        rw [hname] at this
        cases this
        refine ⟨fun a b c g1 g2 g3 g4 => ?_, fun i hi => ?_, fun i hi => ?_⟩
        · rw [h1] at g1; rw [h2] at g2
          cases g1; cases g2; cases g4
        · obtain ⟨k, hk, rfl⟩ := hi.loc
          rw [h3] at hk; cases hk
          exact u4
        · have g4 := hi.typ
          rw [h4] at g4; injection g4 with g4
          exact absurd g4 (by decide)
      · rw [if_neg hf]
        by_cases hl : t = FtSymlink
        · rw [if_pos hl]
          subst hl
          refine wpE_mono (h.link s o d p di name loc.objectID hs he hdir hmet ⟨h1, h2, h4, loc, h3, rfl⟩) ?_ fun _ _ h => h
          rintro - u ⟨u1, u2, u3, u4⟩
          refine ⟨Step.same u1 u2 u3, fun n hn => ?_⟩
          have := hn.name
          rw [hname] at this
          cases this
          refine ⟨fun a b c g1 g2 g3 g4 => ?_, fun i hi => ?_, fun i hi => ?_⟩
          · rw [h1] at g1; rw [h2] at g2
            cases g1; cases g2; cases g4
          · have g4 := hi.typ
            rw [h4] at g4; injection g4 with g4
            exact absurd g4 hf
          · obtain ⟨k, hk, rfl⟩ := hi.loc
            rw [h3] at hk; cases hk
            exact u4
        · rw [if_neg hl]
          refine ⟨h.stepRefl hs, fun n hn => ⟨fun a b c g1 g2 g3 g4 => ?_, fun i hi => ?_, fun i hi => ?_⟩⟩
          · rw [h1] at g1; rw [h2] at g2
            cases g1; cases g2; cases g4
          · have g4 := hi.typ
            rw [h4] at g4; injection g4 with g4
            exact absurd g4 hf
          · have g4 := hi.typ
            rw [h4] at g4; injection g4 with g4
            exact absurd g4 hl

theorem RunInv.entries (h : RunInv env rf ix clobber dest I E R FD LD) {rec : UInt64 → UInt64 → Bytes → Rec (Option RecErr)}
    (hrec : RecSpec rf ix dest I E R FD LD rec) {o d : UInt64} {p : Bytes} {all : List DirItem}
    (hall : readDirItems rf ix o d = .ok all) :
    ∀ (dis : List DirItem), (∀ di ∈ dis, di ∈ all) → ∀ s, I s → ix.Placed dest o d p → Ev.enter o d p ∈ s.log →
      s.fs.stat true p = some true → wpE (recoverEntries rec env rf ix clobber o p dis) (fun _ t => Step rf ix I R FD LD s t ∧
        ∀ di ∈ dis, ∀ n, Met rf ix o d di n → EntryDone FD LD t o (goJoin p n) di) E s := by
  intro dis
  induction dis with
  | nil => exact fun _ s hs _ _ _ => ⟨h.stepRefl hs, fun di hdi => (by cases hdi)⟩
  | cons di r ih =>
    intro hdis s hs hp he hdir
    unfold recoverEntries
    rw [wpE_bind]
    refine wpE_mono (h.entry hrec ⟨all, hall, hdis di List.mem_cons_self⟩ hs hp he hdir) ?_ fun _ _ h => h
    rintro - t ⟨t1, t2⟩
    refine wpE_mono (ih (fun x hx => hdis x (List.mem_cons_of_mem _ hx)) t t1.inv hp (h.logs _ _ t1.rel _ he) (h.dmono _ _ _ _ _ hp t1.rel hdir)) ?_ fun _ _ h => h
    rintro - u ⟨u1, u2⟩
    refine ⟨h.stepTrans t1 u1, fun x hx n hn => ?_⟩
    rcases List.mem_cons.mp hx with rfl | hx
    · exact h.entryMono u1.rel (t2 n hn)
    · exact u2 x hx n hn

theorem RunInv.recoverDir (h : RunInv env rf ix clobber dest I E R FD LD) :
    ∀ (fuel : Nat), RecSpec rf ix dest I E R FD LD (recoverDir env rf ix clobber fuel) := by
  intro fuel
  induction fuel with
  | zero => exact fun _ _ _ s hs _ => h.hang s hs
  | succ fuel ih =>
    intro o d p s hs hp
    unfold Btrfscue.recoverDir
    rw [wpE_bind, wpE_bind, wpE_get]
    by_cases hv : s.visited.contains (o, d) = true
    · simp only [if_pos hv]
      refine ⟨h.stepRefl hs, ?_⟩
      rw [List.contains_iff_mem, ← h.once s hs] at hv
      exact RecState.mem_entered.mp hv
    · simp only [if_neg hv]
      rw [wpE_bind, wpE_modify, wpE_bind]
      have hv' : (o, d) ∉ s.visited := by
        rw [List.contains_iff_mem] at hv; exact hv
      unfold note
      rw [wpE_modify, wpE_bind]
      obtain ⟨i1, r1⟩ := h.visit s o d p hs hp hv'
      refine wpE_mono (wpE_and (h.mkdirAll o d p _ hp i1) (wpE_iff.mpr wp_mkdirAll)) ?_ fun _ _ h => h.1
      rintro ok t ⟨⟨i2, r2, d2, w2⟩, hdir⟩
      have hst : Ev.enter o d p ∈ t.log := h.logs _ _ r2 _ List.mem_cons_self
      have hdirs : ∀ o' d' p', Ev.enter o' d' p' ∈ t.log → Ev.enter o' d' p' ∈ s.log ∨ (o' = o ∧ d' = d ∧ p' = p) := by
        intro o' d' p' hx
        rw [← RecState.mem_dests, d2, RecState.mem_dests] at hx
        rcases List.mem_cons.mp hx with hx | hx
        · injection hx with a b c
          exact Or.inr ⟨a, b, c⟩
        · exact Or.inl hx
      cases ok with
      | false =>
        simp only [Bool.false_eq_true, if_false]
        obtain ⟨i3, r3, -⟩ := w2 rfl
        refine ⟨⟨i3, h.trans _ _ _ (h.trans _ _ _ r1 r2) r3, fun o' d' p' hx => ?_⟩, p, List.mem_cons_of_mem _ hst⟩
        rcases List.mem_cons.mp hx with hx | hx
        · cases hx
        · rcases hdirs o' d' p' hx with hx | ⟨rfl, rfl, rfl⟩
          · exact Or.inl hx
          · exact Or.inr (Or.inl List.mem_cons_self)
      | true =>
        simp only [if_true]
        rw [wpE_bind]
        refine wpE_lift_of (fun dis hdis => ?_) (fun hx => h.crash t i2 fun hN => hN.lists o d p hp hx) fun _ => h.hang t i2
        rw [wpE_bind]
        refine wpE_mono (h.entries ih hdis dis (fun _ h => h) t i2 hp hst (hdir rfl)) ?_ fun _ _ h => h
        rintro - u ⟨u1, u2⟩
        refine ⟨⟨u1.inv, h.trans _ _ _ (h.trans _ _ _ r1 r2) u1.rel, fun o' d' p' hx => ?_⟩, p, h.logs _ _ u1.rel _ hst⟩
        rcases u1.dirs o' d' p' hx with hx | hx
        · rcases hdirs o' d' p' hx with hx | ⟨rfl, rfl, rfl⟩
          · exact Or.inl hx
          · refine Or.inr (Or.inr ⟨⟨h.dmono _ _ _ _ _ hp u1.rel (hdir rfl), dis, hdis⟩, fun di n hn => ?_⟩)
            obtain ⟨dis', hd', hdi⟩ := hn.listed
            rw [hdis] at hd'
            cases hd'
            exact u2 di hdi n hn
        · exact Or.inr hx

/-- One round of the loop over the subvolumes. -/
theorem RunInv.subvol (h : RunInv env rf ix clobber dest I E R FD LD) (fuel : Nat) (r : Range) (e : Slice) {s : RecState}
    (hs : I s) (hp : ∀ k, r.rKey = .ok k → ix.listsSubvolume k.objectID) (hc : NoCrash rf ix dest → r.rKey ≠ .panic) : wpE (recoverSubvol env rf fuel ix clobber dest r e) (fun x t => x = none ∧ Step rf ix I R FD LD s t ∧
      ∀ k, r.rKey = .ok k → ∃ p', Ev.enter k.objectID FirstFreeObjectID p' ∈ t.log) E s := by
  unfold recoverSubvol
  rw [wpE_bind]
  refine wpE_lift_of (fun k hk => ?_) (fun hx => h.crash s hs fun hN => hc hN hx) fun _ => h.hang s hs
  rw [wpE_bind, wpE_get]
  by_cases hv : s.visited.contains (k.objectID, FirstFreeObjectID) = true
  · simp only [if_pos hv]
    rw [List.contains_iff_mem, ← h.once s hs] at hv
    refine ⟨rfl, h.stepRefl hs, fun k' hk' => ?_⟩
    rw [hk] at hk'; cases hk'
    exact RecState.mem_entered.mp hv
  · simp only [if_neg hv]
    have hd := h.recoverDir fuel k.objectID FirstFreeObjectID (subvolDest dest k.objectID) s hs (.subvolume (hp k hk))
    generalize Btrfscue.recoverDir env rf ix clobber fuel k.objectID FirstFreeObjectID (subvolDest dest k.objectID) = c at hd ⊢
    rw [wpE_bind] at hd ⊢
    refine wpE_mono hd ?_ fun _ _ h => h
    rintro a t ht
    rw [wpE_bind]
    refine wpE_mono ht ?_ fun _ _ h => h
    rintro - u ⟨u1, u2⟩
    refine ⟨rfl, u1, fun k' hk' => ?_⟩
    rw [hk] at hk'; cases hk'
    exact u2

theorem RunInv.subvols (h : RunInv env rf ix clobber dest I E R FD LD) (fuel : Nat) :
    ∀ (n : Nat) (rd : Range × Slice) (s : RecState), I s →
      (∀ x k, Range.Visits rd x → x.1.rKey = .ok k → ix.listsSubvolume k.objectID) →
      (NoCrash rf ix dest → ∀ x, Range.Visits rd x → x.1.rKey ≠ .panic ∧ x.1.next ≠ .panic) →
      wpE (rangeLoopRec (recoverSubvol env rf fuel ix clobber dest) n rd) (fun _ t => Step rf ix I R FD LD s t ∧
        ∀ x k, Range.Visits rd x → x.1.rKey = .ok k → ∃ p', Ev.enter k.objectID FirstFreeObjectID p' ∈ t.log)
        E s := by
  intro n
  induction n with
  | zero => exact fun _ s hs _ _ => h.hang s hs
  | succ n ih =>
    intro rd s hs hp hc
    unfold rangeLoopRec
    by_cases hn : rd.1.hasNext = true
    · rw [if_pos hn, wpE_bind]
      refine wpE_mono (h.subvol fuel rd.1 rd.2 hs (fun k hk => hp rd k (.here hn) hk) fun hN => (hc hN rd (.here hn)).1) ?_ fun _ _ h => h
      rintro x t ⟨rfl, t1, t2⟩
      simp only
      rw [wpE_bind]
      refine wpE_lift_of (fun rd' hrd' => ?_) (fun hx => h.crash t t1.inv fun hN => (hc hN rd (.here hn)).2 hx) fun _ => h.hang t t1.inv
      refine wpE_mono (ih rd' t t1.inv (fun x k hx hk => hp x k (.step hn hrd' hx) hk) fun hN x hx => hc hN x (.step hn hrd' hx)) ?_ fun _ _ h => h
      rintro - u ⟨u1, u2⟩
      refine ⟨h.stepTrans t1 u1, fun y k hy hk => ?_⟩
      cases hy with
      | here _ =>
        obtain ⟨p', hp⟩ := t2 k hk
        exact ⟨p', h.logs _ _ u1.rel _ hp⟩
      | step _ h2 h3 =>
        rw [hrd'] at h2
        cases h2
        exact u2 y k h3 hk
    · rw [if_neg hn]
      refine ⟨h.stepRefl hs, fun y k hy hk => ?_⟩
      cases hy with
      | here h1 => exact absurd h1 hn
      | step h1 _ _ => exact absurd h1 hn

/-- The whole run. -/
theorem RunInv.all (h : RunInv env rf ix clobber dest I E R FD LD) (fuel : Nat) {s : RecState} (hs : I s) :
    wpE (doRecoverFiles env rf fuel ix clobber dest) (fun _ t => Step rf ix I R FD LD s t ∧
      (∃ p', Ev.enter FSTreeObjectID FirstFreeObjectID p' ∈ t.log) ∧
      ∀ rd x k, ix.subvolumes = .ok rd → Range.Visits rd x → x.1.rKey = .ok k →
        ∃ p', Ev.enter k.objectID FirstFreeObjectID p' ∈ t.log) E s := by
  unfold doRecoverFiles
  rw [wpE_bind]
  refine wpE_mono (h.mkdirAll _ _ dest s .main hs) ?_ fun _ _ h => h
  rintro ok t ⟨i1, r1, d1, x1⟩
  cases ok with
  | false => exact (x1 rfl).2.2
  | true =>
    simp only [if_true]
    have hd := h.recoverDir fuel FSTreeObjectID FirstFreeObjectID dest t i1 .main
    generalize Btrfscue.recoverDir env rf ix clobber fuel FSTreeObjectID FirstFreeObjectID dest = c at hd ⊢
    rw [wpE_bind] at hd ⊢
    refine wpE_mono hd ?_ fun _ _ h => h
    rintro a u hu
    rw [wpE_bind]
    refine wpE_mono hu ?_ fun _ _ h => h
    rintro - v ⟨v1, p', hp'⟩
    rw [wpE_bind]
    refine wpE_lift_of (fun rd hrd => ?_) (fun hx => h.crash v v1.inv fun hN => hN.subs hx) fun _ => h.hang v v1.inv
    rw [wpE_bind]
    refine wpE_mono (h.subvols fuel rf rd v v1.inv (fun x k hx hk => ⟨rd, x, k, hrd, hx, hk, rfl⟩) fun hN x hx => hN.visits rd x hrd hx) ?_ fun _ _ h => h
    rintro - w ⟨w1, w2⟩
    refine ⟨h.stepTrans (Step.same i1 r1 d1) (h.stepTrans v1 w1), ⟨p', h.logs _ _ w1.rel _ hp'⟩, fun rd' x k h1 h2 h3 => ?_⟩
    rw [hrd] at h1
    cases h1
    exact w2 x k h2 h3

end

end Btrfscue
