import Verif.Spec.RecoverTold
import Verif.Proof.RecoverSay
import Verif.Proof.RecRun
/-!
# What `recover --verbose` says
-/

namespace Btrfscue

open Cmd

/-! ## States that follow one another -/

/-- `t'` comes after `t`. -/
structure Talk.Later (t t' : Talk) : Prop where
  log : ∀ e ∈ t.rs.log, e ∈ t'.rs.log
  said : ∀ l ∈ t.said, l ∈ t'.said
  once : ∀ f, t.once f → t'.once f

theorem Talk.Later.refl (t : Talk) : t.Later t := ⟨fun _ h => h, fun _ h => h, fun _ h => h⟩

theorem Talk.Later.trans {a b c : Talk} (h : a.Later b) (h' : b.Later c) : a.Later c :=
  ⟨fun _ k => h'.log _ (h.log _ k), fun _ k => h'.said _ (h.said _ k), fun _ k => h'.once _ (h.once _ k)⟩

/-- In between no directory was entered, and only stripe messages and the message `l` were printed. -/
structure Talk.Calm (P : Line → Prop) (t t' : Talk) : Prop extends t.Later t' where
  visited : t'.rs.visited = t.rs.visited
  enter : ∀ o d p, Ev.enter o d p ∈ t'.rs.log → Ev.enter o d p ∈ t.rs.log
  only : ∀ l ∈ t'.said, l ∈ t.said ∨ l.isStripe = true ∨ P l

variable {P : Line → Prop}

theorem Talk.Calm.refl (t : Talk) : t.Calm P t := ⟨.refl t, rfl, fun _ _ _ h => h, fun _ h => .inl h⟩

theorem Talk.Calm.trans {a b c : Talk} (h : a.Calm P b) (h' : b.Calm P c) : a.Calm P c :=
  ⟨h.toLater.trans h'.toLater, h'.visited.trans h.visited, fun _ _ _ k => h.enter _ _ _ (h'.enter _ _ _ k), fun l k =>
    (h'.only l k).elim (fun k => h.only l k) .inr⟩

theorem Talk.Calm.mono {Q : Line → Prop} {a b : Talk} (h : a.Calm P b) (hq : ∀ l, P l → Q l) : a.Calm Q b :=
  ⟨h.toLater, h.visited, h.enter, fun l k => (h.only l k).imp_right fun k => k.imp_right (hq l)⟩

theorem wp_quietly {α : Type} {p : Rec α} {Q : α → Talk → Prop} {E : Talk → Prop} {t : Talk} :
    wp (quietly p) Q E t ↔ wp p (fun a r => Q a ⟨r, t.said⟩) (fun r => E ⟨r, t.said⟩) t.rs := by
  unfold wp quietly
  cases p t.rs <;> rfl

theorem keeps_quietly {α : Type} {p : Rec α} {J : Talk → Prop} (h : ∀ said, Keeps (fun r => J ⟨r, said⟩) p) : Keeps J (quietly p) :=
  fun t ht => wp_quietly.mpr (h t.said t.rs ht)

/-- What the parts that work on the host keep. -/
theorem calm_host (t : Talk) (said : List Line) : OnHost fun r => t.Calm P ⟨r, said⟩ where
  calls s n h := ⟨⟨h.log, h.said, h.once⟩, h.visited, h.enter, h.only⟩
  fs s f h := ⟨⟨h.log, h.said, fun x hx => (h.once x hx).elim (fun k => .inr (by rw [k]; exact List.mem_cons_self ..))
    fun k => .inr (List.mem_cons_of_mem _ k)⟩, h.visited, h.enter, h.only⟩
  op s k p h := ⟨⟨fun e he => List.mem_cons_of_mem _ (h.log e he), h.said, h.once⟩, h.visited,
    fun o d q hq => h.enter o d q ((List.mem_cons.mp hq).resolve_left (by intro h; cases h)), h.only⟩

theorem calm_quietly {α : Type} {p : Rec α} (t : Talk) (h : ∀ I, OnHost I → Keeps I p) : Keeps (t.Calm P) (quietly p) :=
  keeps_quietly fun said => h _ (calm_host t said)

theorem physicalLines_isStripe {rf : Nat} {ix : Ix} {c : Option (List StripeMapEntry)} {l : Line} (h : l ∈ physicalLines rf ix c) :
    l.isStripe = true := by
  rw [← physicalLines_stripes] at h
  exact (List.mem_filter.mp h).2

theorem calm_physical (t : Talk) (rf : Nat) (ix : Ix) (l : UInt64) : Keeps (t.Calm P) (sayPhysical rf ix l) := by
  have key : ∀ (r : RecState) (s : Talk) , t.Calm P s → r.log = s.rs.log → r.visited = s.rs.visited → r.fs = s.rs.fs → r.past = s.rs.past →
      t.Calm P ⟨r, s.said ++ physicalLines rf ix s.rs.cache⟩ := by
    intro r s h h1 h2 h3 h4
    refine ⟨⟨fun e he => ?_, fun l hl => List.mem_append_left _ (h.said l hl), fun f hf => ?_⟩, ?_, fun o d p hp => ?_, fun l hl => ?_⟩
    · simp only [h1]; exact h.log e he
    · simp only [Talk.once, h3, h4]; exact h.once f hf
    · simp only [h2]; exact h.visited
    · simp only [h1] at hp; exact h.enter o d p hp
    · rcases List.mem_append.mp hl with hl | hl
      · exact h.only l hl
      · exact .inr (.inl (physicalLines_isStripe hl))
  intro s hs
  unfold wp sayPhysical
  cases ix.physical rf s.rs.cache l with
  | ok r => exact key _ s hs rfl rfl rfl rfl
  | panic => exact key _ s hs rfl rfl rfl rfl
  | hang => exact key _ s hs rfl rfl rfl rfl

theorem calm_say (t : Talk) (v : Bool) {l : Line} (hl : P l) : Keeps (t.Calm P) (sayVerbose v l) := by
  unfold sayVerbose
  refine .ite (fun _ => .modify fun s h => ?_) fun _ => .pure
  exact ⟨⟨h.log, fun l hl => List.mem_append_left _ (h.said l hl), h.once⟩, h.visited, h.enter, fun l' hl' =>
    (List.mem_append.mp hl').elim (fun k => h.only l' k) fun k => .inr (.inr (by rw [List.mem_singleton.mp k]; exact hl))⟩

section

variable (env : Env) (rf : Nat) (ix : Ix)

theorem calm_data (t : Talk) (fd : Nat) (fo n : UInt64) (e : FileExtentItem) : Keeps (t.Calm P) (sayData env rf ix fd fo n e) :=
  .bind .lift fun _ => .bind (calm_physical _ _ _ _) fun _ => .bind .lift fun _ => calm_quietly _ fun _ h => h.copyLoop _ _ _ _ _ _ _

theorem calm_extent (t : Talk) (fd : Nat) (size : Option UInt64) (r : Range) (e : FileExtentItem) :
    Keeps (t.Calm P) (sayExtent env rf ix fd size r e) :=
  .bind .lift fun _ => .bind .lift fun _ => .ite (fun _ => .bind .lift fun _ => calm_quietly _ fun _ h => h.inline _ _ _ _ _) fun _ =>
    .bind .lift fun _ => .bind .lift fun _ => .ite (fun _ => calm_quietly _ fun _ h => h.hole _ _ _ _) fun _ => calm_data env rf ix t _ _ _ _

theorem keeps_loop {J : Talk → Prop} {body : Range → Slice → Say (Option RecErr)} (h : ∀ r s, Keeps J (body r s)) (fuel : Nat) :
    ∀ rd, Keeps J (rangeLoopSay body fuel rd) := by
  induction fuel with
  | zero => exact fun _ => .hang
  | succ fuel ih =>
    intro rd
    unfold rangeLoopSay
    refine .ite (fun _ => .bind (h _ _) fun e => ?_) fun _ => .pure
    cases e with
    | some e => exact .pure
    | none => exact .bind .lift fun rd' => ih rd'

theorem calm_contents (t : Talk) (owner inode : UInt64) (fd : Nat) (size : Option UInt64) :
    Keeps (t.Calm P) (sayContents env rf ix owner inode fd size) := by
  refine .bind .lift fun rd => .ite (fun _ => calm_quietly _ fun _ h => h.finishEmpty _ _ _) fun _ =>
    .bind (keeps_loop (fun r s => calm_extent env rf ix t fd size r s) rf rd) fun e => ?_
  cases e with
  | some e => exact .pure
  | none => exact calm_quietly _ fun _ h => h.finishFile _ _ _

theorem calm_target (t : Talk) (e : FileExtentItem) : Keeps (t.Calm P) (sayTarget env rf ix e) :=
  .bind .lift fun _ => .ite (fun _ => .bind .lift fun _ => .pure) fun _ => .bind .lift fun _ => .ite (fun _ =>
    .bind .lift fun _ => .bind (calm_physical _ _ _ _) fun _ => .bind .lift fun _ => .bind .lift fun _ =>
      .bind (calm_quietly _ fun _ h => h.devRead _ _ _) fun _ => .ite (fun _ => .pure) fun _ => .pure) fun _ => .pure

/-! ## Files and links -/

theorem wp_note {e : Ev} {Q : Unit → RecState → Prop} {E : RecState → Prop} {s : RecState} :
    wp (note e) Q E s ↔ Q () { s with log := e :: s.log } := Iff.rfl

theorem wp_stat (p : Bytes) (s : RecState) :
    wp (sysStat env p) (fun r t => t = { s with calls := s.calls + 1 } ∧ (r.isSome → s.fs.stat true p ≠ none)) (fun _ => True) s := by
  unfold wp sysStat
  simp only [bind_def, tick]
  by_cases hf : env.fails .stat s.calls = true
  · simp only [hf, if_true, pure_run]
    exact ⟨trivial, fun h => by cases h⟩
  · simp only [hf, Bool.false_eq_true, if_false, bind_def, get_run, pure_run]
    exact ⟨trivial, fun h k => by rw [k] at h; cases h⟩

theorem wp_lstat (p : Bytes) (s : RecState) :
    wp (sysLstat env p) (fun r t => t = { s with calls := s.calls + 1 } ∧ (r.isSome → s.fs.stat false p ≠ none)) (fun _ => True) s := by
  unfold wp sysLstat
  simp only [bind_def, tick]
  by_cases hf : env.fails .lstat s.calls = true
  · simp only [hf, if_true, pure_run]
    exact ⟨trivial, fun h => by cases h⟩
  · simp only [hf, Bool.false_eq_true, if_false, bind_def, get_run, pure_run]
    exact ⟨trivial, fun h k => by rw [k] at h; cases h⟩

theorem Talk.Calm.calls {t : Talk} {s : Talk} (h : t.Calm P s) (n : Nat) : t.Calm P ⟨{ s.rs with calls := n }, s.said⟩ :=
  (calm_host t s.said).calls s.rs n h

/-- What is said of a file. -/
def FileLine (ix : Ix) (clobber : Bool) (o i : UInt64) (q : Bytes) (t : Talk) (l : Line) : Prop :=
  (l = .fileExists q ∧ clobber = false ∧ ∃ f, t.once f ∧ f.stat true q ≠ none) ∨
  ∃ size, (do inodeSize (← ix.findInodeItem o i)) = .ok size ∧ l = .file q (size.getD 0) ∧ Ev.op .open q ∈ t.rs.log

/-- What is said of a link. -/
def LinkLine (ix : Ix) (clobber : Bool) (o i : UInt64) (q : Bytes) (t : Talk) (l : Line) : Prop :=
  (l = .linkExists q ∧ clobber = false ∧ ∃ f, t.once f ∧ f.stat false q ≠ none) ∨ ∃ x, l = .link q x ∧ Ev.op .symlink q ∈ t.rs.log ∧
    ∃ e, ix.findFileExtentItem o i = .ok (some e) ∧ (FileExtentItem.isInline e = .ok true → FileExtentItem.data e = .ok x)

theorem said_mem (s : Talk) (l : Line) : l ∈ ({ s with said := s.said ++ [l] } : Talk).said := by simp

attribute [local irreducible] sayContents in
theorem wp_sayFile (clobber : Bool) (o i : UInt64) (q : Bytes) (t : Talk) :
    wp (sayFile true env rf ix clobber o i q) (fun e t' => t.Calm (FileLine ix clobber o i q t') t' ∧
      (e = none → Line.fileExists q ∈ t'.said ∨ ∃ n, Line.file q n ∈ t'.said)) (fun _ => True) t := by
  unfold sayFile
  refine wp_bind.mpr (wp_quietly.mpr (wp_mono (wp_stat env q t.rs) (fun st r h => ?_) fun _ h => h))
  obtain ⟨rfl, hst⟩ := h
  by_cases hc : (st.isSome && !clobber) = true
  · rw [if_pos hc]
    simp only [Bool.and_eq_true, Bool.not_eq_true'] at hc
    have hk : t.Calm (fun l => l = .fileExists q) ⟨{ t.rs with calls := t.rs.calls + 1 }, t.said⟩ := (Talk.Calm.refl t).calls _
    have := calm_say t true (l := .fileExists q) (P := fun l => l = .fileExists q) rfl _ hk
    refine wp_bind.mpr ?_
    refine ⟨this.mono fun l hl => .inl ⟨hl, hc.2, t.rs.fs, .inl rfl, hst hc.1⟩, fun _ => .inl (said_mem _ _)⟩
  · rw [if_neg hc]
    refine wp_bind.mpr (wp_lift_of (fun size hsize => ?_) trivial)
    refine wp_bind.mpr (wp_quietly.mpr ?_)
    have hopen : wp (sysOpen env q) (fun _ r => (∀ Q, t.Calm Q ⟨r, t.said⟩) ∧ Ev.op .open q ∈ r.log) (fun _ => True)
        { t.rs with calls := t.rs.calls + 1 } := by
      have h1 : ∀ Q, wp (sysOpen env q) (fun _ r => t.Calm Q ⟨r, t.said⟩) (fun r => t.Calm Q ⟨r, t.said⟩) { t.rs with calls := t.rs.calls + 1 } :=
        fun Q => (calm_host t t.said).open env q _ ((Talk.Calm.refl t).calls _)
      have h2 : wp (sysOpen env q) (fun _ r => Ev.op .open q ∈ r.log) (fun _ => True) { t.rs with calls := t.rs.calls + 1 } := by
        have hI : OnHost fun r => Ev.op .open q ∈ r.log := ⟨fun _ _ h => h, fun _ _ h => h, fun _ _ _ h => List.mem_cons_of_mem _ h⟩
        unfold sysOpen
        refine wp_bind.mpr (wp_note.mpr ?_)
        have hk : Keeps (fun r => Ev.op .open q ∈ r.log) (do
            if ← tick env .open then return none
            else applyOpen ((← Cmd.get).fs.openTrunc q) : Rec (Option Nat)) :=
          .bind (Keeps.tick hI.calls) fun _ => .ite (fun _ => .pure) fun _ => .bind .get fun _ => by
            unfold applyOpen; split
            · exact .pure
            · exact .bind (fun s hs => hI.fs s _ hs) fun _ => .pure
        exact wp_mono (hk _ (List.mem_cons_self ..)) (fun _ _ h => h) fun _ _ => trivial
      unfold wp at h2 ⊢
      cases hx : sysOpen env q { t.rs with calls := t.rs.calls + 1 } with
      | ok a r =>
        rw [hx] at h2
        refine ⟨fun Q => ?_, h2⟩
        have := h1 Q
        unfold wp at this
        rw [hx] at this
        exact this
      | exit => trivial
      | crash => trivial
      | hang => trivial
    refine wp_mono hopen (fun fd r h => ?_) fun _ h => h
    cases fd with
    | none => exact ⟨h.1 _, fun h => by cases h⟩
    | some fd =>
      simp only
      refine wp_bind.mpr ?_
      have hs : wp (sayVerbose true (.file q (size.getD 0)) : Say Unit) (fun _ t' => (t.Calm (fun l => l = .file q (size.getD 0)) t' ∧
          Ev.op .open q ∈ t'.rs.log) ∧ Line.file q (size.getD 0) ∈ t'.said) (fun _ => True) ⟨r, t.said⟩ :=
        ⟨⟨calm_say t true (l := .file q (size.getD 0)) (P := fun l => l = .file q (size.getD 0)) rfl _ (h.1 _), h.2⟩, said_mem _ _⟩
      refine wp_mono hs (fun _ t1 h1 => ?_) fun _ h => h
      have hcc := calm_contents (P := fun _ => False) env rf ix t1 o i fd size t1 (Talk.Calm.refl t1)
      refine wp_mono hcc (fun e t2 h2 => ?_) fun _ _ => trivial
      refine ⟨(h1.1.1.mono fun l hl => .inr ⟨size, hsize, hl, h2.log _ h1.1.2⟩).trans (h2.mono fun _ h => h.elim), fun _ =>
        .inr ⟨_, h2.said _ h1.2⟩⟩

theorem wp_sayMakeLink (q : Bytes) (x : Except RecErr Bytes) (t : Talk) :
    wp (sayMakeLink true env q x) (fun e t' => t.Calm (fun l => ∃ y, x = .ok y ∧ l = .link q y ∧ Ev.op .symlink q ∈ t'.rs.log) t' ∧
      (e = none → ∃ x, Line.link q x ∈ t'.said)) (fun _ => True) t := by
  cases x with
  | error e => exact wp_pure' ⟨Talk.Calm.refl t, fun h => by cases h⟩
  | ok x =>
    unfold sayMakeLink
    simp only
    refine wp_bind.mpr ?_
    have hs : wp (sayVerbose true (.link q x) : Say Unit) (fun _ t' => t.Calm (fun l => l = .link q x) t' ∧ Line.link q x ∈ t'.said)
        (fun _ => True) t := ⟨calm_say t true (l := .link q x) (P := fun l => l = .link q x) rfl _ (Talk.Calm.refl t), said_mem _ _⟩
    refine wp_mono hs (fun _ t1 h1 => ?_) fun _ h => h
    refine wp_bind.mpr (wp_quietly.mpr ?_)
    have hk : wp (sysSymlink env x q) (fun _ r => t1.Calm (fun _ => False) ⟨r, t1.said⟩ ∧ Ev.op .symlink q ∈ r.log) (fun _ => True) t1.rs := by
      unfold sysSymlink
      refine wp_bind.mpr (wp_note.mpr ?_)
      have hI : OnHost fun r => t1.Calm (fun _ => False) ⟨r, t1.said⟩ ∧ Ev.op .symlink q ∈ r.log :=
        ⟨fun s n h => ⟨(calm_host t1 _).calls s n h.1, h.2⟩, fun s n h => ⟨(calm_host t1 _).fs s n h.1, h.2⟩,
          fun s k p h => ⟨(calm_host t1 _).op s k p h.1, List.mem_cons_of_mem _ h.2⟩⟩
      have hk : Keeps (fun r => t1.Calm (fun _ => False) ⟨r, t1.said⟩ ∧ Ev.op .symlink q ∈ r.log) (do
          if ← tick env .symlink then return false
          else applyFS ((← Cmd.get).fs.symlink x q) : Rec Bool) :=
        .bind (Keeps.tick hI.calls) fun _ => .ite (fun _ => .pure) fun _ => .bind .get fun _ => hI.applyFS _
      exact wp_mono (hk _ ⟨(calm_host t1 _).op _ _ _ (Talk.Calm.refl t1), List.mem_cons_self ..⟩) (fun _ _ h => h) fun _ _ => trivial
    refine wp_mono hk (fun b r h2 => ?_) fun _ h => h
    have key : t.Calm (fun l => ∃ y, Except.ok (ε := RecErr) x = .ok y ∧ l = .link q y ∧ Ev.op .symlink q ∈ r.log) ⟨r, t1.said⟩ :=
      (h1.1.mono fun l hl => ⟨x, rfl, hl, h2.2⟩).trans (h2.1.mono fun _ h => h.elim)
    by_cases hb : b = true
    · rw [if_pos hb]; exact ⟨key, fun _ => ⟨x, h1.2⟩⟩
    · rw [if_neg hb]; exact ⟨key, fun h => by cases h⟩

theorem target_inline (e : FileExtentItem) (t : Talk) :
    wp (sayTarget env rf ix e) (fun x _ => FileExtentItem.isInline e = .ok true → ∀ y, x = .ok y → FileExtentItem.data e = .ok y)
      (fun _ => True) t := by
  unfold sayTarget
  refine wp_bind.mpr (wp_lift_of (fun b hb => ?_) trivial)
  cases b with
  | true =>
    rw [if_pos rfl]
    refine wp_bind.mpr (wp_lift_of (fun d hd => ?_) trivial)
    refine wp_pure' fun _ y hy => ?_
    rw [hd]; cases hy; rfl
  | false =>
    have : ∀ c : Say (Except RecErr Bytes), wp c (fun x _ => FileExtentItem.isInline e = .ok true → ∀ y, x = .ok y → FileExtentItem.data e = .ok y)
        (fun _ => True) t := by
      intro c
      unfold wp
      cases c t with
      | ok a s => exact fun h => by rw [hb] at h; cases h
      | _ => trivial
    exact this _

theorem wp_sayLink (clobber : Bool) (o i : UInt64) (q : Bytes) (t t0 : Talk) (h0 : t0.Calm (fun _ => False) t) :
    wp (sayLink true env rf ix o i q) (fun e t' => t0.Calm (LinkLine ix clobber o i q t') t' ∧
      (e = none → Line.linkExists q ∈ t'.said ∨ ∃ x, Line.link q x ∈ t'.said)) (fun _ => True) t := by
  unfold sayLink
  refine wp_bind.mpr (wp_lift_of (fun e he => ?_) trivial)
  cases e with
  | none => exact ⟨h0.mono fun _ h => h.elim, fun h => by cases h⟩
  | some e =>
    simp only
    refine wp_bind.mpr (wp_mono (wp_and (calm_target env rf ix t0 e t h0) (target_inline env rf ix e t)) (fun x t1 h1 => ?_) fun _ _ => trivial)
    obtain ⟨h1, hx⟩ := h1
    refine wp_mono (wp_sayMakeLink env q x t1) (fun e' t2 h2 => ?_) fun _ h => h
    exact ⟨(h1.mono fun _ h => h.elim).trans (h2.1.mono fun l ⟨y, hy, hl, hop⟩ => .inr ⟨y, hl, hop, e, he, fun hi => hx hi y hy⟩),
      fun he => .inr (h2.2 he)⟩

theorem wp_saySymlink (clobber : Bool) (o i : UInt64) (q : Bytes) (t : Talk) :
    wp (saySymlink true env rf ix clobber o i q) (fun e t' => t.Calm (LinkLine ix clobber o i q t') t' ∧
      (e = none → Line.linkExists q ∈ t'.said ∨ ∃ x, Line.link q x ∈ t'.said)) (fun _ => True) t := by
  unfold saySymlink
  refine wp_bind.mpr (wp_quietly.mpr (wp_mono (wp_lstat env q t.rs) (fun st r h => ?_) fun _ h => h))
  obtain ⟨rfl, hst⟩ := h
  have h0 : ∀ Q, t.Calm Q ⟨{ t.rs with calls := t.rs.calls + 1 }, t.said⟩ := fun Q => (Talk.Calm.refl t).calls _
  by_cases hc : st.isSome = true
  · rw [if_pos hc]
    by_cases hcl : (!clobber) = true
    · rw [if_pos hcl]
      have := calm_say t true (l := .linkExists q) (P := fun l => l = .linkExists q) rfl _ (h0 _)
      refine wp_bind.mpr ?_
      exact ⟨this.mono fun l hl => .inl ⟨hl, by simpa using hcl, t.rs.fs, .inl rfl, hst hc⟩, fun _ => .inl (said_mem _ _)⟩
    · rw [if_neg hcl]
      refine wp_bind.mpr (wp_mono (calm_quietly (P := fun _ => False) t (fun _ h => h.remove env q) _ (h0 _)) (fun _ t1 h1 => ?_) fun _ _ => trivial)
      exact wp_sayLink env rf ix clobber o i q t1 t h1
  · rw [if_neg hc]
    exact wp_sayLink env rf ix clobber o i q _ t (h0 _)

end

end Btrfscue
