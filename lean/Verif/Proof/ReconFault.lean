import Verif.Model.ReconFault
import Verif.Proof.Recon
/-! # Runs with failing commits follow runs without -/

namespace Btrfscue

/-- All commits numbered `a` to `b - 1` succeed. -/
def WritesOK (w : Writes) (a b : Nat) : Prop := ∀ m, a ≤ m → m < b → w m = .ok

theorem WritesOK.refl (w : Writes) (a : Nat) : WritesOK w a a := fun m h1 h2 => absurd h2 (by omega)

theorem WritesOK.trans {w : Writes} {a b c : Nat} (h1 : WritesOK w a b) (h2 : WritesOK w b c) : WritesOK w a c :=
  fun m ha hc => if h : m < b then h1 m ha h else h2 m (by omega) hc

theorem WritesOK.left {w : Writes} {a b c : Nat} (h1 : WritesOK w a c) (h2 : b ≤ c) : WritesOK w a b :=
  fun m ha hc => h1 m ha (by omega)

theorem WritesOK.right {w : Writes} {a b c : Nat} (h1 : WritesOK w a c) (h2 : a ≤ b) : WritesOK w b c :=
  fun m ha hc => h1 m (by omega) hc

theorem WritesOK.one {w : Writes} {a : Nat} (h : w a = .ok) : WritesOK w a (a + 1) :=
  fun m h1 h2 => (by omega : m = a) ▸ h

/-- An outcome with the state changed. -/
def Out.mapS {σ τ α : Type} (g : σ → τ) : Out σ α → Out τ α
  | .ok a s => .ok a (g s)
  | .exit s => .exit (g s)
  | .crash s => .crash (g s)
  | .hang s => .hang (g s)

/-- The command `F` does what `C` does as long as all commits succeed; otherwise it ends
with an error. -/
def Sim (w : Writes) {α : Type} (F : Cmd FIndex α) (C : Cmd Index α) : Prop :=
  ∀ s : FIndex, ∃ n', s.n ≤ n' ∧
    ((WritesOK w s.n n' ∧ F s = (C s.ix).mapS (⟨·, n'⟩)) ∨
     (¬ WritesOK w s.n n' ∧ ∃ ix, F s = .exit ⟨ix, n'⟩))

theorem Sim.pure (w : Writes) {α : Type} (a : α) : Sim w (pure a) (pure a) := fun s =>
  ⟨s.n, Nat.le_refl _, Or.inl ⟨.refl _ _, rfl⟩⟩

theorem Sim.exit (w : Writes) {α : Type} : Sim w (Cmd.exit : Cmd FIndex α) Cmd.exit := fun s =>
  ⟨s.n, Nat.le_refl _, Or.inl ⟨.refl _ _, rfl⟩⟩

theorem Sim.lift (w : Writes) {α : Type} (x : Go α) : Sim w (Cmd.lift x) (Cmd.lift x) := fun s =>
  ⟨s.n, Nat.le_refl _, Or.inl ⟨.refl _ _, by cases x <;> rfl⟩⟩

theorem Sim.bind {w : Writes} {α β : Type} {F : Cmd FIndex α} {C : Cmd Index α} {F' : α → Cmd FIndex β}
    {C' : α → Cmd Index β} (h : Sim w F C) (h' : ∀ a, Sim w (F' a) (C' a)) : Sim w (F >>= F') (C >>= C') := by
  intro s
  obtain ⟨n1, hn1, ⟨h1, h2⟩ | ⟨h1, ix, h2⟩⟩ := h s
  · rw [Cmd.bind_def, h2, Cmd.bind_def]
    cases hc : C s.ix with
    | ok a t =>
      obtain ⟨n2, hn2, ⟨h3, h4⟩ | ⟨h3, ix, h4⟩⟩ := h' a ⟨t, n1⟩
      · exact ⟨n2, Nat.le_trans hn1 hn2, Or.inl ⟨h1.trans h3, h4⟩⟩
      · exact ⟨n2, Nat.le_trans hn1 hn2, Or.inr ⟨fun h5 => h3 (h5.right hn1), ix, h4⟩⟩
    | exit t => exact ⟨n1, hn1, Or.inl ⟨h1, rfl⟩⟩
    | crash t => exact ⟨n1, hn1, Or.inl ⟨h1, rfl⟩⟩
    | hang t => exact ⟨n1, hn1, Or.inl ⟨h1, rfl⟩⟩
  · exact ⟨n1, hn1, Or.inr ⟨h1, ix, by rw [Cmd.bind_exit h2]⟩⟩

/-- The same for a function returning an error. -/
def SimE (w : Writes) (s : FIndex) (F : FIndex × Option IxErr) (C : Index × Option IxErr) : Prop :=
  s.n ≤ F.1.n ∧ ((WritesOK w s.n F.1.n ∧ F = (⟨C.1, F.1.n⟩, C.2)) ∨ (¬ WritesOK w s.n F.1.n ∧ F.2 ≠ none))

theorem SimE.commit (w : Writes) (s : FIndex) : SimE w s (s.commit w) s.ix.commit := by
  simp only [SimE, FIndex.commit, Index.commit]
  cases ht : s.ix.tx with
  | none => exact ⟨Nat.le_refl _, Or.inl ⟨.refl _ _, rfl⟩⟩
  | some t =>
    simp only
    by_cases hw : t.writable = true
    · rw [if_pos hw, if_pos hw]
      cases hn : w s.n with
      | ok => exact ⟨Nat.le_succ _, Or.inl ⟨.one hn, rfl⟩⟩
      | failed d =>
        exact ⟨Nat.le_succ _, Or.inr ⟨fun h => (by
          have := h s.n (Nat.le_refl _) (Nat.lt_succ_self _)
          rw [hn] at this; cases this), by simp⟩⟩
    · rw [if_neg hw, if_neg hw]
      exact ⟨Nat.le_refl _, Or.inl ⟨.refl _ _, rfl⟩⟩

theorem SimE.ensureTx (w : Writes) (s : FIndex) (b : Bool) : SimE w s (s.ensureTx w b) (s.ix.ensureTx b) := by
  simp only [FIndex.ensureTx, Index.ensureTx]
  cases ht : s.ix.tx with
  | none => exact ⟨Nat.le_refl _, Or.inl ⟨.refl _ _, rfl⟩⟩
  | some t =>
    simp only
    by_cases hw : t.writable = b
    · rw [if_pos hw, if_pos hw]; exact ⟨Nat.le_refl _, Or.inl ⟨.refl _ _, rfl⟩⟩
    · rw [if_neg hw, if_neg hw]
      obtain ⟨h1, ⟨h2, h3⟩ | ⟨h2, h3⟩⟩ := SimE.commit w s
      · rw [h3]
        generalize (s.commit w).1.n = n at *
        obtain ⟨ix', e⟩ := s.ix.commit
        cases e with
        | none => exact ⟨h1, Or.inl ⟨h2, rfl⟩⟩
        | some e => exact ⟨h1, Or.inl ⟨h2, rfl⟩⟩
      · generalize s.commit w = q at *
        obtain ⟨s', e⟩ := q
        cases e with
        | none => exact absurd rfl h3
        | some e => exact ⟨h1, Or.inr ⟨h2, h3⟩⟩

theorem Sim.insert (w : Writes) (k : Key) (h : Header) (item data : Bytes) :
    Sim w (insertOrExitF w k h item data) (insertOrExit k h item data) := by
  intro s
  simp only [insertOrExitF, insertOrExit, FIndex.insertItem, Index.insertItem]
  obtain ⟨h1, ⟨h2, h3⟩ | ⟨h2, h3⟩⟩ := SimE.ensureTx w s true
  · rw [h3]
    generalize (s.ensureTx w true).1.n = n at *
    obtain ⟨ix', e⟩ := s.ix.ensureTx true
    cases e with
    | some e => exact ⟨n, h1, Or.inl ⟨h2, rfl⟩⟩
    | none =>
      simp only
      cases itemValue item data with
      | panic => exact ⟨s.n, Nat.le_refl _, Or.inl ⟨.refl _ _, rfl⟩⟩
      | hang => exact ⟨s.n, Nat.le_refl _, Or.inl ⟨.refl _ _, rfl⟩⟩
      | ok tc =>
      simp only [Go.ok_bind]
      cases Header.owner h with
      | panic => exact ⟨s.n, Nat.le_refl _, Or.inl ⟨.refl _ _, rfl⟩⟩
      | hang => exact ⟨s.n, Nat.le_refl _, Or.inl ⟨.refl _ _, rfl⟩⟩
      | ok o =>
      simp only [Go.ok_bind]
      cases Header.generation h with
      | panic => exact ⟨s.n, Nat.le_refl _, Or.inl ⟨.refl _ _, rfl⟩⟩
      | hang => exact ⟨s.n, Nat.le_refl _, Or.inl ⟨.refl _ _, rfl⟩⟩
      | ok g =>
      simp only [Go.ok_bind]
      cases ix'.view with
      | panic => exact ⟨s.n, Nat.le_refl _, Or.inl ⟨.refl _ _, rfl⟩⟩
      | hang => exact ⟨s.n, Nat.le_refl _, Or.inl ⟨.refl _ _, rfl⟩⟩
      | ok v =>
      simp only [Go.ok_bind, Go.pure_eq]
      by_cases hn : ix'.txNum + 1 > 10000
      · rw [if_pos hn, if_pos hn]
        generalize ({ ix' with tx := some ⟨true, some (v.bucket.put (newIndexKey o k g) tc)⟩, txNum := ix'.txNum + 1 } : Index) = jx
        obtain ⟨h4, ⟨h5, h6⟩ | ⟨h5, h6⟩⟩ := SimE.commit w ⟨jx, n⟩
        · rw [h6]
          generalize (FIndex.commit w ⟨jx, n⟩).1.n = n2 at *
          refine ⟨n2, Nat.le_trans h1 h4, Or.inl ⟨h2.trans h5, ?_⟩⟩
          simp only
          obtain ⟨jx', e⟩ := jx.commit
          cases e <;> rfl
        · refine ⟨(FIndex.commit w ⟨jx, n⟩).1.n, Nat.le_trans h1 h4, Or.inr ⟨fun h7 => h5 (h7.right h1), ?_⟩⟩
          generalize FIndex.commit w ⟨jx, n⟩ = q at *
          obtain ⟨s', e⟩ := q
          cases e with
          | none => exact absurd rfl h6
          | some e => exact ⟨s'.ix, rfl⟩
      · rw [if_neg hn, if_neg hn]
        exact ⟨n, h1, Or.inl ⟨h2, rfl⟩⟩
  · refine ⟨(s.ensureTx w true).1.n, h1, Or.inr ⟨h2, ?_⟩⟩
    generalize s.ensureTx w true = q at *
    obtain ⟨s', e⟩ := q
    cases e with
    | none => exact absurd rfl h3
    | some e => exact ⟨s'.ix, rfl⟩

theorem Sim.insertLoop (w : Writes) (l : Leaf) (is : List Nat) :
    Sim w (insertLoop (insertOrExitF w) l is) (insertLoop insertOrExit l is) := by
  induction is with
  | nil => exact .pure w ()
  | cons i r ih =>
    exact .bind (.lift w _) fun _ => .bind (.lift w _) fun _ => .bind (.lift w _) fun _ =>
      .bind (.insert w _ _ _ _) fun _ => ih

theorem Sim.scanBlock (w : Writes) (id : UUID) (l : Leaf) :
    Sim w (scanBlock (insertOrExitF w) id l) (scanBlock insertOrExit id l) := by
  unfold Btrfscue.scanBlock
  refine .bind (.lift w _) fun a => ?_
  by_cases h : a ≠ id
  · simp only [if_pos h]; exact .pure w ()
  · simp only [if_neg h]
    refine .bind (.lift w _) fun a => ?_
    by_cases h : a = 0
    · simp only [if_pos h]; exact .pure w ()
    · simp only [if_neg h]
      refine .bind (.lift w _) fun a => ?_
      by_cases h : (!a) = true
      · simp only [if_pos h]; exact .pure w ()
      · simp only [if_neg h]
        exact .bind (.lift w _) fun a => .insertLoop w _ _

theorem Sim.reconLoop (w : Writes) (r : ReaderAt) (id : UUID) (bs devSize : UInt64) (fuel : Nat) :
    ∀ (off : UInt64) (buf : Bytes), Sim w (reconLoop (insertOrExitF w) r id bs devSize fuel off buf)
      (reconLoop insertOrExit r id bs devSize fuel off buf) := by
  induction fuel with
  | zero => exact fun off buf s => ⟨s.n, Nat.le_refl _, Or.inl ⟨.refl _ _, rfl⟩⟩
  | succ fuel ih =>
    intro off buf
    simp only [Btrfscue.reconLoop]
    by_cases h : off < devSize
    · simp only [if_pos h]
      obtain ⟨buf', e⟩ := ReadBlockAt r buf off
      cases e with
      | none => exact .bind (.scanBlock w id _) fun _ => ih _ _
      | some e =>
        cases e with
        | eof => exact .pure w ()
        | other => exact .exit w
    · simp only [if_neg h]; exact .pure w ()

theorem commit_none (ix : Index) (h : ix.commit.2 = none) : ix.commit.1.tx = none := by
  simp only [Index.commit] at *
  cases ht : ix.tx with
  | none => simp only [ht]
  | some t =>
    simp only [ht] at *
    by_cases hw : t.writable = true
    · rw [if_pos hw]
    · rw [if_neg hw] at h; cases h

/-- The deferred function. -/
theorem Sim.defer (w : Writes) (s : FIndex) : s.n ≤ (reconDeferF w s).2.2 ∧
    ((WritesOK w s.n (reconDeferF w s).2.2 ∧ (reconDeferF w s).1 = (reconDefer s.ix).1 ∧
      (reconDeferF w s).2.1 = (reconDefer s.ix).2) ∨
     (¬ WritesOK w s.n (reconDeferF w s).2.2 ∧ (reconDeferF w s).2.1 = true)) := by
  simp only [reconDeferF, reconDefer]
  obtain ⟨h1, ⟨h2, h3⟩ | ⟨h2, h3⟩⟩ := SimE.commit w s
  · rw [h3]
    generalize (s.commit w).1.n = n at *
    have hc := commit_none s.ix
    generalize s.ix.commit = q at *
    obtain ⟨ix', e⟩ := q
    cases e with
    | some e => exact ⟨h1, Or.inl ⟨h2, rfl, rfl⟩⟩
    | none =>
      have ht := hc rfl
      simp only at ht
      have h4 : FIndex.commit w ⟨ix', n⟩ = (⟨ix', n⟩, none) := by simp only [FIndex.commit, ht]
      simp only [FIndex.close, Index.close, h4, ht, Index.commit]
      cases ix'.readOnly <;> exact ⟨h1, Or.inl ⟨h2, rfl, rfl⟩⟩
  · generalize s.commit w = q at *
    obtain ⟨s', e⟩ := q
    cases e with
    | none => exact absurd rfl h3
    | some e => exact ⟨h1, Or.inr ⟨h2, rfl⟩⟩

/-- Opening the index. -/
theorem Sim.open (w : Writes) (f : DBFile) (o : Options) (ho : o.readOnly = false) :
    (∃ f' n e, OpenF w f o = .ok (f', .error e, n) ∧ ¬ WritesOK w 0 n) ∨
    (OpenF w f o = .panic ∧ Open f o = .panic) ∨ (OpenF w f o = .hang ∧ Open f o = .hang) ∨
    (∃ f' x n, OpenF w f o = .ok (f', x, n) ∧ Open f o = .ok (f', x) ∧ WritesOK w 0 n) := by
  have key : ∀ b, (∃ f' n e, OpenF.openDB w o b = .ok (f', .error e, n) ∧ ¬ WritesOK w 0 n) ∨
      (OpenF.openDB w o b = .panic ∧ openIndex.openDB o b = .panic) ∨
      (OpenF.openDB w o b = .hang ∧ openIndex.openDB o b = .hang) ∨
      (∃ f' x n, OpenF.openDB w o b = .ok (f', x, n) ∧ openIndex.openDB o b = .ok (f', x) ∧ WritesOK w 0 n) := by
    intro b
    simp only [OpenF.openDB, openIndex.openDB]
    cases checkUpdateMetadata o b with
    | panic => exact Or.inr (Or.inl ⟨rfl, rfl⟩)
    | hang => exact Or.inr (Or.inr (Or.inl ⟨rfl, rfl⟩))
    | ok r =>
      simp only [Go.ok_bind]
      cases r with
      | error e => exact Or.inr (Or.inr (Or.inr ⟨_, _, 0, rfl, rfl, .refl _ _⟩))
      | ok b' =>
        simp only
        cases hw : w 0 with
        | failed d =>
          refine Or.inl ⟨_, 1, _, rfl, fun h => ?_⟩
          have := h 0 (Nat.le_refl _) (by omega)
          rw [hw] at this; cases this
        | ok =>
          refine Or.inr (Or.inr (Or.inr ?_))
          simp only [ho, Bool.not_false, Bool.false_eq_true, if_false]
          generalize Index.ensureTx _ true = q
          obtain ⟨ix, e⟩ := q
          cases e with
          | none => exact ⟨_, _, 1, rfl, rfl, .one hw⟩
          | some e => exact ⟨_, _, 1, rfl, rfl, .one hw⟩
  cases f with
  | invalid => exact Or.inr (Or.inr (Or.inr ⟨_, _, 0, rfl, rfl, .refl _ _⟩))
  | absent =>
    simp only [OpenF, Open, openIndex, ho, Bool.false_eq_true, if_false]
    exact key none
  | db b => exact key b

/-- The whole command: as without failures, or it ends with an error. -/
theorem Sim.scan (w : Writes) (fuel : Nat) (r : ReaderAt) (seek : Option UInt64) (bs : UInt64) (id : UUID) (f : DBFile) :
    ∃ f' e n, doScanFSF w fuel r seek bs id f = (f', e, n) ∧
      ((WritesOK w 0 n ∧ doScanFS fuel r seek bs id f = (f', e)) ∨ (¬ WritesOK w 0 n ∧ e = .exit)) := by
  simp only [doScanFSF, doScanFS]
  by_cases h0 : UUID.isZero id = true
  · rw [if_pos h0, if_pos h0]; exact ⟨_, _, _, rfl, Or.inl ⟨.refl _ _, rfl⟩⟩
  rw [if_neg h0, if_neg h0]
  cases CheckDeviceSize seek bs with
  | error e => exact ⟨_, _, _, rfl, Or.inl ⟨.refl _ _, rfl⟩⟩
  | ok size =>
    simp only
    by_cases hb : bs = 0
    · rw [if_pos hb, if_pos hb]; exact ⟨_, _, _, rfl, Or.inl ⟨.refl _ _, rfl⟩⟩
    rw [if_neg hb, if_neg hb]
    rcases Sim.open w f { blockSize := bs, fsid := id, generation := ~~~0 } rfl with
      ⟨f', n, e, h1, h2⟩ | ⟨h1, h2⟩ | ⟨h1, h2⟩ | ⟨f', x, n, h1, h2, h3⟩
    · rw [h1]; exact ⟨_, _, _, rfl, Or.inr ⟨h2, rfl⟩⟩
    · rw [h1, h2]; exact ⟨_, _, _, rfl, Or.inl ⟨.refl _ _, rfl⟩⟩
    · rw [h1, h2]; exact ⟨_, _, _, rfl, Or.inl ⟨.refl _ _, rfl⟩⟩
    · rw [h1, h2]
      cases x with
      | error e => exact ⟨_, _, _, rfl, Or.inl ⟨h3, rfl⟩⟩
      | ok ix =>
        simp only
        obtain ⟨n1, hn1, ⟨h4, h5⟩ | ⟨h4, ix', h5⟩⟩ := Sim.reconLoop w r id bs (size - size % bs) fuel
          (UInt64.ofNat SuperInfoOffset + bs) (List.replicate bs.toNat 0) ⟨ix, n⟩
        · rw [h5]
          have h6 := h3.trans h4
          cases Btrfscue.reconLoop insertOrExit r id bs (size - size % bs) fuel
              (UInt64.ofNat SuperInfoOffset + bs) (List.replicate bs.toNat 0) ix with
          | ok a t =>
            simp only [Out.mapS]
            obtain ⟨h7, ⟨h8, h9, h10⟩ | ⟨h8, h9⟩⟩ := Sim.defer w ⟨t, n1⟩
            · exact ⟨_, _, _, rfl, Or.inl ⟨h6.trans h8, by rw [h9, h10]⟩⟩
            · exact ⟨_, _, _, rfl, Or.inr ⟨fun h => h8 (h.right (Nat.zero_le _)), by rw [h9]; rfl⟩⟩
          | crash t =>
            simp only [Out.mapS]
            obtain ⟨h7, ⟨h8, h9, h10⟩ | ⟨h8, h9⟩⟩ := Sim.defer w ⟨t, n1⟩
            · exact ⟨_, _, _, rfl, Or.inl ⟨h6.trans h8, by rw [h9, h10]⟩⟩
            · exact ⟨_, _, _, rfl, Or.inr ⟨fun h => h8 (h.right (Nat.zero_le _)), by rw [h9]; rfl⟩⟩
          | exit t => exact ⟨_, _, _, rfl, Or.inl ⟨h6, rfl⟩⟩
          | hang t => exact ⟨_, _, _, rfl, Or.inl ⟨h6, rfl⟩⟩
        · rw [h5]
          exact ⟨_, _, _, rfl, Or.inr ⟨fun h => h4 (h.right (Nat.zero_le _)), rfl⟩⟩

/-! ## What a failed commit leaves -/

theorem commitF_disk (w : Writes) (s : FIndex) :
    (s.commit w).1.ix.disk = s.ix.disk ∨ (s.commit w).1.ix.disk = s.ix.commit.1.disk := by
  simp only [FIndex.commit, Index.commit]
  cases s.ix.tx with
  | none => exact Or.inl rfl
  | some t =>
    simp only
    by_cases hw : t.writable = true
    · rw [if_pos hw, if_pos hw]
      cases w s.n with
      | ok => exact Or.inr rfl
      | failed d => cases d with
        | true => exact Or.inr rfl
        | false => exact Or.inl rfl
    · rw [if_neg hw]; exact Or.inl rfl

/-- Inserting one item: as without failures, or an error with the durable content of
before or after. -/
theorem insertF_cases (w : Writes) {ix ix1 : Index} (n : Nat) (i : Ins) (hg : ix.Good)
    (h : ix.insertItem i.key i.h i.item i.data = .ok (ix1, none)) :
    (∃ n', insertOrExitF w i.key i.h i.item i.data ⟨ix, n⟩ = .ok () ⟨ix1, n'⟩) ∨
    (∃ s, insertOrExitF w i.key i.h i.item i.data ⟨ix, n⟩ = .exit s ∧ (s.ix.disk = ix.disk ∨ s.ix.disk = ix1.disk)) := by
  obtain ⟨l, d, m, hi⟩ := hg
  have hens : FIndex.ensureTx w ⟨ix, n⟩ true = (⟨(ix.ensureTx true).1, n⟩, (ix.ensureTx true).2) := by
    obtain ⟨h1, h2, h3, h4, h5, h6⟩ := hi
    simp only [FIndex.ensureTx, Index.ensureTx]
    rcases h6 with ⟨ht, -⟩ | ⟨ht, -⟩
    · rw [ht]; rfl
    · rw [ht]; simp
  have hd : (ix.ensureTx true).1.disk = ix.disk := by
    obtain ⟨h1, h2, h3, h4, h5, h6⟩ := hi
    simp only [Index.ensureTx]
    rcases h6 with ⟨ht, -⟩ | ⟨ht, -⟩
    · rw [ht]; simp only [Index.begin, h1, Bool.and_false, Bool.false_eq_true, if_false]
    · rw [ht]; simp
  obtain ⟨ix', he, -, hv, -⟩ := hi.ensure
  rw [he] at hens hd
  simp only [Index.insertItem, he, itemValue_eq _ _ i.item_len, i.owner_ok, i.gen_ok, hv, Go.ok_bind, Go.pure_eq] at h
  simp only [insertOrExitF, FIndex.insertItem, hens, itemValue_eq _ _ i.item_len, i.owner_ok, i.gen_ok, hv, Go.ok_bind,
    Go.pure_eq]
  by_cases hn : ix'.txNum + 1 > 10000
  · rw [if_pos hn] at h ⊢
    have hx := commitF_disk w ⟨{ ix' with tx := some ⟨true, some (Bucket.put l.enc (newIndexKey i.owner i.key i.gen) (i.item ++ i.data))⟩, txNum := ix'.txNum + 1 }, n⟩
    have hs := SimE.commit w ⟨{ ix' with tx := some ⟨true, some (Bucket.put l.enc (newIndexKey i.owner i.key i.gen) (i.item ++ i.data))⟩, txNum := ix'.txNum + 1 }, n⟩
    simp only [Go.ok.injEq] at h
    simp only at hx hs
    rw [h] at hx hs
    obtain ⟨-, ⟨-, h3⟩ | ⟨-, h3⟩⟩ := hs
    · rw [h3]; exact Or.inl ⟨_, rfl⟩
    · generalize FIndex.commit w _ = q at *
      obtain ⟨s', e⟩ := q
      cases e with
      | none => exact absurd rfl h3
      | some e => exact Or.inr ⟨s', rfl, hx.imp_left fun h => h.trans hd⟩
  · rw [if_neg hn] at h ⊢
    simp only [Go.ok.injEq, Prod.mk.injEq, and_true] at h
    exact Or.inl ⟨n, by rw [← h]⟩

theorem replayF_cases (w : Writes) {ix : Index} (hg : ix.Good) (is : List Ins) (n : Nat) :
    (∃ ix' n', ix'.Good ∧ ix.run (is.map .insert) = .ok (ix', none) ∧ replay (insertOrExitF w) is ⟨ix, n⟩ = .ok () ⟨ix', n'⟩) ∨
    (∃ s p q ix', is = p ++ q ∧ ix.run (p.map .insert) = .ok (ix', none) ∧ s.ix.disk = ix'.disk ∧
      replay (insertOrExitF w) is ⟨ix, n⟩ = .exit s) := by
  induction is generalizing ix n with
  | nil => exact Or.inl ⟨ix, n, hg, rfl, rfl⟩
  | cons i r ih =>
    obtain ⟨ix1, h4, hg1⟩ := hg.step i
    rcases insertF_cases w n i hg h4 with ⟨n1, h5⟩ | ⟨s, h5, h6⟩
    · have hrun : ∀ p, ix.run ((i :: p).map .insert) = ix1.run (p.map .insert) := by
        intro p
        simp only [List.map_cons, Index.run, Index.step, h4, Go.ok_bind]
      rcases ih hg1 n1 with ⟨ix', n', h6, h7, h8⟩ | ⟨s, p, q, ix', h6, h7, h8, h9⟩
      · exact Or.inl ⟨ix', n', h6, by rw [hrun, h7], by rw [replay, Cmd.bind_ok h5, h8]⟩
      · exact Or.inr ⟨s, i :: p, q, ix', by rw [h6]; rfl, by rw [hrun, h7], h8, by rw [replay, Cmd.bind_ok h5, h9]⟩
    · refine Or.inr ?_
      rcases h6 with h6 | h6
      · exact ⟨s, [], i :: r, ix, rfl, rfl, h6, by rw [replay, Cmd.bind_exit h5]⟩
      · exact ⟨s, [i], r, ix1, rfl, by simp only [List.map_cons, List.map_nil, Index.run, Index.step, h4, Go.ok_bind], h6,
          by rw [replay, Cmd.bind_exit h5]⟩

theorem deferF_disk (w : Writes) (ix : Index) (n : Nat) :
    (reconDeferF w ⟨ix, n⟩).1 = .db ix.disk ∨ (reconDeferF w ⟨ix, n⟩).1 = .db ix.commit.1.disk := by
  have h := commitF_disk w ⟨ix, n⟩
  have ht : (FIndex.commit w ⟨ix, n⟩).1.ix.tx = none := by
    simp only [FIndex.commit]
    cases ht : ix.tx with
    | none => exact ht
    | some t =>
      simp only
      by_cases hw : t.writable = true
      · rw [if_pos hw]; cases w n <;> rfl
      · rw [if_neg hw]
  simp only [reconDeferF]
  generalize FIndex.commit w ⟨ix, n⟩ = q at *
  obtain ⟨s, e⟩ := q
  simp only at h ht
  cases e with
  | some e => rcases h with h | h <;> simp only [h] <;> simp
  | none =>
    have h4 : FIndex.commit w s = (s, none) := by simp only [FIndex.commit, ht]
    simp only [FIndex.close, h4, ht]
    cases s.ix.readOnly <;> rcases h with h | h <;> simp only [Bool.not_false, Bool.not_true, Bool.false_eq_true, if_true, if_false, h] <;> simp

/-- The next commit fails without a trace. -/
theorem insertF_lost (w : Writes) {ix : Index} {n : Nat} (hw : w n = .failed false) (i : Ins) (hg : ix.Good) (ht : ix.tx ≠ none) :
    (∃ ix', ix'.Good ∧ ix'.tx ≠ none ∧ ix'.disk = ix.disk ∧ insertOrExitF w i.key i.h i.item i.data ⟨ix, n⟩ = .ok () ⟨ix', n⟩) ∨
    (∃ ix', ix'.disk = ix.disk ∧ insertOrExitF w i.key i.h i.item i.data ⟨ix, n⟩ = .exit ⟨ix', n + 1⟩) := by
  obtain ⟨ix1, hins, hg1⟩ := hg.step i
  obtain ⟨l, d, m, hi⟩ := hg
  obtain ⟨h1, h2, h3, h4, h5, ⟨h6, -⟩ | ⟨h6, h7⟩⟩ := hi
  · exact absurd h6 ht
  have hens : ix.ensureTx true = (ix, none) := by simp only [Index.ensureTx, h6, if_true]
  have hensF : FIndex.ensureTx w ⟨ix, n⟩ true = (⟨ix, n⟩, none) := by simp only [FIndex.ensureTx, h6, if_true]
  have hv : ix.view = .ok ⟨l.enc, ix.generation⟩ := by simp only [Index.view, h7, h6, if_true]
  simp only [Index.insertItem, hens, itemValue_eq _ _ i.item_len, i.owner_ok, i.gen_ok, hv, Go.ok_bind, Go.pure_eq] at hins
  simp only [insertOrExitF, FIndex.insertItem, hensF, itemValue_eq _ _ i.item_len, i.owner_ok, i.gen_ok, hv, Go.ok_bind,
    Go.pure_eq]
  by_cases hn : ix.txNum + 1 > 10000
  · rw [if_pos hn]
    simp only [FIndex.commit, if_true, hw, Bool.false_eq_true, if_false]
    exact Or.inr ⟨{ ix with tx := none, txNum := 0, bucketSet := false }, rfl, rfl⟩
  · rw [if_neg hn] at hins ⊢
    simp only [Go.ok.injEq, Prod.mk.injEq, and_true] at hins
    refine Or.inl ⟨ix1, hg1, ?_, ?_, by rw [← hins]⟩ <;> rw [← hins] <;> simp

theorem replayF_lost (w : Writes) {n : Nat} (hw : w n = .failed false) (is : List Ins) {ix : Index} (hg : ix.Good)
    (ht : ix.tx ≠ none) :
    (∃ ix', ix'.Good ∧ ix'.tx ≠ none ∧ ix'.disk = ix.disk ∧ replay (insertOrExitF w) is ⟨ix, n⟩ = .ok () ⟨ix', n⟩) ∨
    (∃ ix', ix'.disk = ix.disk ∧ replay (insertOrExitF w) is ⟨ix, n⟩ = .exit ⟨ix', n + 1⟩) := by
  induction is generalizing ix with
  | nil => exact Or.inl ⟨ix, hg, ht, rfl, rfl⟩
  | cons i r ih =>
    rcases insertF_lost w hw i hg ht with ⟨ix1, h1, h2, h3, h4⟩ | ⟨ix1, h1, h2⟩
    · rcases ih h1 h2 with ⟨ix2, h5, h6, h7, h8⟩ | ⟨ix2, h5, h6⟩
      · exact Or.inl ⟨ix2, h5, h6, h7.trans h3, by rw [replay, Cmd.bind_ok h4, h8]⟩
      · exact Or.inr ⟨ix2, h5.trans h3, by rw [replay, Cmd.bind_ok h4, h6]⟩
    · exact Or.inr ⟨ix1, h1, by rw [replay, Cmd.bind_exit h2]⟩

theorem deferF_lost (w : Writes) {n : Nat} (hw : w n = .failed false) {ix : Index} (hg : ix.Good) (ht : ix.tx ≠ none) :
    reconDeferF w ⟨ix, n⟩ = (.db ix.disk, true, n + 1) := by
  obtain ⟨l, d, m, h1, h2, h3, h4, h5, ⟨h6, -⟩ | ⟨h6, h7⟩⟩ := hg
  · exact absurd h6 ht
  simp only [reconDeferF, FIndex.commit, h6, if_true, hw]
  rfl

end Btrfscue
