import Verif.Spec.RecoverCrash
import Verif.Props.FileCrash
import Verif.Proof.MountCrash
import Verif.Props.RecoverEnd
/-!
# What can crash a run of recover
-/

namespace Btrfscue

open Cmd

/-- If the command returns, `Q` holds; if it crashes, `K` holds of the state it was left in. -/
def Cmd.nc {σ α : Type} (c : Cmd σ α) (Q : α → σ → Prop) (K : σ → Prop) (s : σ) : Prop :=
  match c s with
  | .ok a t => Q a t
  | .crash t => K t
  | .exit _ => True
  | .hang _ => True

section
variable {σ α β : Type}

theorem nc_bind {x : Cmd σ α} {f : α → Cmd σ β} {Q : β → σ → Prop} {K : σ → Prop} {s : σ} :
    nc (x >>= f) Q K s ↔ nc x (fun a => nc (f a) Q K) K s := by
  unfold nc
  rw [bind_def]
  cases x s <;> rfl

theorem nc_get {f : σ → Cmd σ β} {Q : β → σ → Prop} {K : σ → Prop} {s : σ} (h : nc (f s) Q K s) : nc (Cmd.get >>= f) Q K s := h
theorem nc_modify {g : σ → σ} {f : Unit → Cmd σ β} {Q : β → σ → Prop} {K : σ → Prop} {s : σ} (h : nc (f ()) Q K (g s)) :
    nc (Cmd.modify g >>= f) Q K s := h

theorem nc_mono {c : Cmd σ α} {Q Q' : α → σ → Prop} {K K' : σ → Prop} {s : σ} (h : nc c Q K s)
    (hq : ∀ a t, Q a t → Q' a t) (hk : ∀ t, K t → K' t) : nc c Q' K' s := by
  unfold nc at h ⊢
  cases hc : c s <;> rw [hc] at h <;> simp only at h ⊢
  · exact hq _ _ h
  · exact hk _ h

theorem nc_of_wp {c : Cmd σ α} {Q : α → σ → Prop} {K : σ → Prop} {s : σ} (h : wp c Q K s) : nc c Q K s := by
  unfold wp at h
  unfold nc
  cases hc : c s <;> rw [hc] at h <;> first | exact h | trivial

end

/-- The command keeps the stripe map as `C` says; if it crashes, `K` holds. -/
def Safe {α : Type} (C : Option (List StripeMapEntry) → Prop) (K : RecState → Prop) (c : Rec α) : Prop :=
  ∀ s, C s.cache → nc c (fun _ t => C t.cache) K s

section
variable {α β : Type} {C : Option (List StripeMapEntry) → Prop} {K : RecState → Prop} {env : Env}

theorem Ends.safe {c : Rec α} (h : Ends C c) : Safe C K c := fun s hs =>
  nc_of_wp (wp_mono (h s hs) (fun _ _ h => h) fun _ h => h.elim)
theorem Safe.pure {a : α} : Safe C K (Pure.pure a : Rec α) := fun _ h => h
theorem Safe.hang : Safe C K (fun s => .hang s : Rec α) := fun _ _ => trivial
theorem Safe.bind {x : Rec α} {f : α → Rec β} (hx : Safe C K x) (hf : ∀ a, Safe C K (f a)) : Safe C K (x >>= f) :=
  fun s h => nc_bind.mpr (nc_mono (hx s h) (fun a t ht => hf a t ht) fun _ h => h)
theorem Safe.ite {p : Prop} [Decidable p] {x y : Rec α} (hx : p → Safe C K x) (hy : ¬ p → Safe C K y) : Safe C K (if p then x else y) := by
  by_cases h : p
  · rw [if_pos h]; exact hx h
  · rw [if_neg h]; exact hy h
theorem Safe.lift {x : Go α} {a : α} (h : x = .ok a) : Safe C K (Cmd.lift x : Rec α) := (Ends.lift h).safe
theorem Safe.lift_bind {x : Go α} {a : α} {f : α → Rec β} (h : x = .ok a) (hf : Safe C K (f a)) : Safe C K (Cmd.lift x >>= f) := by
  subst h
  exact fun s hs => nc_bind.mpr (hf s hs)
theorem Safe.ok_bind {a : α} {f : α → Rec β} (hf : Safe C K (f a)) : Safe C K (Cmd.lift (.ok a) >>= f) := Safe.lift_bind rfl hf
theorem Safe.lift_nh {x : Go α} (h : x ≠ .panic) : Safe C K (Cmd.lift x : Rec α) := by
  cases x with
  | ok a => exact Safe.lift rfl
  | panic => exact absurd rfl h
  | hang => exact fun _ _ => trivial

theorem Ends.sysLstat {p : Bytes} : Ends C (sysLstat env p) :=
  Ends.bind Ends.tick fun _ => Ends.ite (fun _ => Ends.pure) fun _ => Ends.bind Ends.get fun _ => Ends.pure
theorem Ends.sysMkdir {p : Bytes} : Ends C (sysMkdir env p) :=
  Ends.bind Ends.note fun _ => Ends.bind Ends.tick fun _ => Ends.ite (fun _ => Ends.pure) fun _ => Ends.bind Ends.get fun _ => Ends.applyFS
theorem Ends.sysRemove {p : Bytes} : Ends C (sysRemove env p) :=
  Ends.bind Ends.note fun _ => Ends.bind Ends.tick fun _ => Ends.ite (fun _ => Ends.pure) fun _ => Ends.bind Ends.get fun _ => Ends.applyFS
theorem Ends.sysSymlink {t p : Bytes} : Ends C (sysSymlink env t p) :=
  Ends.bind Ends.note fun _ => Ends.bind Ends.tick fun _ => Ends.ite (fun _ => Ends.pure) fun _ => Ends.bind Ends.get fun _ => Ends.applyFS
theorem Ends.devRead {off : Int} {n : Nat} : Ends C (devRead env off n) := fun _ h => h
theorem Ends.report {p : Bytes} {e : Option RecErr} : Ends C (report p e) := by
  cases e with
  | none => exact Ends.pure
  | some _ => exact Ends.note

theorem Safe.mkdirAllAux : ∀ (n : Nat) (p : Bytes), Safe C K (mkdirAllAux env n p) := by
  intro n
  induction n with
  | zero => exact fun _ => Safe.hang
  | succ n ih =>
    intro p
    have hlast : Safe C K (mkdirLast env p) := by
      unfold mkdirLast
      exact Safe.bind Ends.sysMkdir.safe fun _ => Safe.ite (fun _ => Safe.pure) fun _ =>
        Safe.bind Ends.sysLstat.safe fun _ => Safe.pure
    unfold Btrfscue.mkdirAllAux
    refine Safe.bind Ends.sysStat.safe fun r => ?_
    cases r with
    | some d => exact Safe.pure
    | none =>
      exact Safe.ite (fun _ => hlast) fun _ => Safe.bind (ih _) fun _ => Safe.ite (fun _ => hlast) fun _ => Safe.pure

theorem Safe.mkdirAll {p : Bytes} : Safe C K (mkdirAll env p) := Safe.mkdirAllAux _ _

theorem Safe.rangeLoopRec {body : Range → Slice → Rec (Option RecErr)} {rd : Range × Slice} {items : List (Range × Slice)}
    (h : Range.Yields rd items) (hb : ∀ e ∈ items, Safe C K (body e.1 e.2)) :
    ∀ fuel : Nat, Safe C K (rangeLoopRec body fuel rd) := by
  induction h with
  | @done r d h =>
    intro fuel
    cases fuel with
    | zero => exact Safe.hang
    | succ n =>
      unfold Btrfscue.rangeLoopRec
      rw [if_neg (by simp only [h]; decide)]
      exact Safe.pure
  | @step r d r' d' rest h1 h2 _ ih =>
    intro fuel
    cases fuel with
    | zero => exact Safe.hang
    | succ n =>
      unfold Btrfscue.rangeLoopRec
      rw [if_pos h1]
      refine Safe.bind (hb (r, d) List.mem_cons_self) fun x => ?_
      cases x with
      | some e => exact Safe.pure
      | none => exact Safe.lift_bind h2 (ih (fun e he => hb e (List.mem_cons_of_mem _ he)) n)

end

/-! ## What there is to iterate over -/

theorem range_any {b : Bucket} (hb : b.WF) {m : Bytes} (hm : b.stores metadataVersionKey m) {o : UInt64} (ho : o ≠ ~~~0)
    (hex : ∀ v x, b.stores v x → v.owner ≠ ~~~0 → ∃ d, holdsExactly x d) {first last : Key} (hlast : last.before KL0)
    (hok : ∀ k, b.hasKey o k → k.typ = first.typ → k.objectID = first.objectID → b.RangeOK o last) :
    ∃ rd its, (Ix.mk b (~~~0)).range o first last = .ok rd ∧ Range.Yields rd its ∧
      ∀ e ∈ its, ∃ k k0 g, e.1.rKey = .ok k ∧ k0.typ = first.typ ∧ ¬ k.before k0 ∧ ¬ (VKey.mk o last (~~~0)).before ⟨o, k, g⟩ := by
  obtain ⟨l, hl, rfl⟩ := hb.exists_abs
  by_cases hk : ∃ k, l.enc.hasKey o k ∧ k.typ = first.typ ∧ k.objectID = first.objectID
  · obtain ⟨k, h1, h2, h3⟩ := hk
    obtain ⟨rd, items, hr, hy, -, hs⟩ := range_yields hl (first := first) ⟨m, hm⟩ (hok k h1 h2 h3) (~~~0)
    refine ⟨rd, _, hr, hy, fun e he => ?_⟩
    obtain ⟨⟨⟨w, y⟩, sl⟩, he', rfl⟩ := List.mem_map.mp he
    rcases hs with ⟨-, rfl⟩ | ⟨k0, g0, h4, -, h6⟩
    · cases he'
    · obtain ⟨k', rfl, -, -, h7, h8, -⟩ := (h6 w y sl).mp he'
      exact ⟨k', k0, g0, by simp only [Range.at, Range.rKey, key_encode], h4.2.1, h7, h8⟩
  · have hr : ∃ rd, (Ix.mk l.enc (~~~0)).range o first last = .ok rd := by
      unfold Ix.range
      obtain ⟨k0, hk0⟩ : ∃ k0, lowerBound l.enc o first (~~~0) keyV2Offset = .ok k0 := ⟨_, lowerBound_enc ..⟩
      rw [hk0, Go.ok_bind]
      have hm' := enc_stores.mp hm
      cases hf : find l.enc o k0 (~~~0) with
      | panic =>
        rw [find_panic_iff hl] at hf
        have := hf _ hm'
        have hge : (VKey.mk o k0 (~~~0)).num < metadataVersionKey.num := num_lt_of_owner (ne_max_lt ho)
        simp only at this
        omega
      | hang => exact absurd hf (find_ne_hang _ _ _ _)
      | ok r =>
        cases r with
        | none =>
          simp only [Go.ok_bind, Range.setTo, Range.current]
          exact ⟨_, rfl⟩
        | some e =>
          obtain ⟨ik, v⟩ := e
          obtain ⟨g, rfl, h2, -⟩ := find_some hl hf
          obtain ⟨d, hd⟩ := hex _ _ (enc_stores.mpr h2) ho
          simp only [Go.ok_bind, Range.setTo, Range.current, hd.data]
          exact ⟨_, rfl⟩
    obtain ⟨⟨r, d⟩, hr⟩ := hr
    exact ⟨_, [], hr, .done (range_absent hl hlast hk hr), fun e he => by cases he⟩

/-- `seen_run`, also where there is nothing. -/
theorem seen_any {b : Bucket} (hb : b.WF) {m : Bytes} (hm : b.stores metadataVersionKey m) {o : UInt64} (ho : o ≠ ~~~0)
    (hex : ∀ v x, b.stores v x → v.owner ≠ ~~~0 → ∃ d, holdsExactly x d) {t : UInt8} (ht : t.toNat < 255) {id : UInt64}
    (hok : ∀ off, b.hasKey o ⟨id, t, off⟩ → b.RangeOK o (KL2 t id)) :
    ∃ rd, ∃ its : List (UInt64 × Range × Bytes), (Ix.mk b (~~~0)).rangeAll o t id = .ok rd ∧
      Range.Yields rd (its.map fun e => (e.2.1, ⟨e.2.2, []⟩)) ∧
      (∀ e ∈ its, e.2.1.rKey = .ok ⟨id, t, e.1⟩) ∧ (∀ off d, (∃ r, (off, r, d) ∈ its) ↔ b.seenData o t id off d) := by
  by_cases hk : ∃ off, b.hasKey o ⟨id, t, off⟩
  · obtain ⟨off, hk⟩ := hk
    obtain ⟨rd, its, h1, h2, -, h3, h4⟩ := seen_run hb hm (hok off hk) fun v x h1 h2 => hex v x h1 (by rw [h2]; exact ho)
    exact ⟨rd, its, h1, h2, h3, h4⟩
  · obtain ⟨rd, its, h1, h2, -⟩ := range_any hb hm ho hex (KL2_before (t := t) (id := id) ht) (first := KF t id) (by
      rintro ⟨i, t', off⟩ h3 h4 h5
      simp only [KF] at h4 h5
      subst h4; subst h5
      exact absurd ⟨off, h3⟩ hk)
    have hno : rd.1.hasNext = false := by
      obtain ⟨l, hl, rfl⟩ := hb.exists_abs
      refine range_absent hl (KL2_before (t := t) (id := id) ht) ?_ h1
      rintro ⟨⟨i, t', off⟩, h3, h4, h5⟩
      simp only [KF] at h4 h5
      subst h4; subst h5
      exact absurd ⟨off, h3⟩ hk
    obtain ⟨r, d⟩ := rd
    refine ⟨(r, d), [], h1, .done hno, fun e he => (by cases he), fun off d => ⟨fun ⟨r, hr⟩ => (by cases hr), ?_⟩⟩
    rintro ⟨g, x, -, h, -⟩
    exact absurd ⟨off, g, x, h⟩ hk

/-- Collecting the entries does not crash, and collects all. -/
theorem collect_any {rd : Range × Slice} {items : List (Range × Slice)} (h : Range.Yields rd items) :
    ∀ (fuel : Nat) (s : List DirItem), rangeLoop collectBody fuel s rd ≠ .panic := by
  induction h with
  | @done r d h =>
    intro fuel s
    cases fuel with
    | zero => exact fun h => by cases h
    | succ n => simp [rangeLoop, h]
  | @step r d r' d' rest h1 h2 _ ih =>
    intro fuel s
    cases fuel with
    | zero => exact fun h => by cases h
    | succ n =>
      simp only [rangeLoop, h1, if_true, collectBody, Go.ok_bind, Bool.false_eq_true, if_false, h2]
      exact ih n _

theorem readDirItems_any {b : Bucket} {o dir : UInt64} {rd : Range × Slice} {its : List (UInt64 × Range × Bytes)}
    (h1 : (Ix.mk b (~~~0)).rangeAll o 84 dir = .ok rd) (h2 : Range.Yields rd (its.map fun e => (e.2.1, ⟨e.2.2, []⟩))) (rf : Nat) :
    readDirItems rf ⟨b, ~~~0⟩ o dir ≠ .panic ∧
      ∀ dis, readDirItems rf ⟨b, ~~~0⟩ o dir = .ok dis → dis = its.map fun e => (⟨e.2.2, []⟩ : Slice) := by
  unfold readDirItems
  rw [show (Ix.mk b (~~~0)).dirItems o dir = .ok rd from h1, Go.ok_bind]
  constructor
  · intro hp
    rcases Go.bind_eq_panic.mp hp with h | ⟨a, -, h⟩
    · exact collect_any h2 _ _ h
    · cases h
  · intro dis hd
    obtain ⟨a, h3, h4⟩ := Go.bind_eq_ok.mp hd
    have := rangeLoop_fold _ h2 h3
    rw [foldCollect] at this
    cases this
    cases h4
    simp [Function.comp_def]

/-- Subvolumes have ids below the greatest. -/
theorem subvol_id {k k0 : Key} {g : UInt64} (h0 : k0.typ = 132) (h1 : ¬ k.before k0)
    (h2 : ¬ (VKey.mk 1 (KL2 132 LastFreeObjectID) (~~~0)).before ⟨1, k, g⟩) : k.objectID ≠ ~~~0 := by
  intro hc
  have e0 : k0.typ.toNat = 132 := by rw [h0]; decide
  have e1 : (KL2 132 LastFreeObjectID).typ.toNat = 132 := by decide
  have e2 : (KL2 132 LastFreeObjectID).objectID.toNat < k.objectID.toNat := by rw [hc]; decide
  simp only [Key.before, Key.fields, VKey.before, VKey.fields, lexLt, List.cons_append, not_or, not_and] at h1 h2
  by_cases ht : k.typ.toNat = 132
  · exact (h2.2 trivial).2 (by omega) |>.1 e2
  · have := h1.1
    have := (h2.2 trivial).1
    omega

/-! ## Looking up addresses -/

theorem phys_any {b : Bucket} (hb : b.WF) {m : Bytes} (hm : b.stores metadataVersionKey m)
    (hchunks : b.RangeOK 3 (KL2 228 256)) (hseen : b.SeenIntact) :
    ∃ N map, ∀ rf, N ≤ rf → ∀ c, (c = none ∨ c = some map) → ∀ a,
      (∀ c' x, (Ix.mk b (~~~0)).physical rf c a = .ok (c', x) → c' = some map) ∧
      ((∃ start s, b.chunkSeen start s) → ∃ x, (Ix.mk b (~~~0)).physical rf c a = .ok (some map, x)) := by
  obtain ⟨N, map, hbuilt, hphys⟩ := physical_core hb hm hchunks hseen
  refine ⟨N, map, fun rf hrf c hc a => ⟨fun c' x h => ?_, fun hex => ?_⟩⟩
  · unfold Ix.physical at h
    rcases hc with rfl | rfl
    · simp only [hbuilt rf hrf, Go.ok_bind, Go.bind_eq_ok] at h
      obtain ⟨y, -, h⟩ := h
      cases h; rfl
    · simp only [Go.ok_bind, Go.bind_eq_ok] at h
      obtain ⟨y, -, h⟩ := h
      cases h; rfl
  obtain ⟨k1, k2, -⟩ := hphys rf hrf c hc a
  have hmin : ∀ n : Nat, ∀ start s, b.chunkSeen start s → start.toNat = n →
      ∃ start s, b.chunkSeen start s ∧ ∀ start' s', b.chunkSeen start' s' → start ≤ start' := by
    intro n
    induction n using Nat.strong_induction_on with
    | _ n ih =>
      intro start st h1 h2
      by_cases hmin : ∀ start' s', b.chunkSeen start' s' → start ≤ start'
      · exact ⟨start, st, h1, hmin⟩
      · simp only [not_forall] at hmin
        obtain ⟨start', s', h3, h4⟩ := hmin
        rw [UInt64.le_iff_toNat_le] at h4
        exact ih start'.toNat (by omega) start' s' h3 rfl
  by_cases hz : ∃ start s, b.chunkSeen start s ∧ start ≤ a
  · have hmax : ∀ n : Nat, ∀ start s, b.chunkSeen start s → start ≤ a → a.toNat - start.toNat = n →
        ∃ start s, b.chunkSeen start s ∧ start ≤ a ∧ ∀ start' s', b.chunkSeen start' s' → start' ≤ a → start' ≤ start := by
      intro n
      induction n using Nat.strong_induction_on with
      | _ n ih =>
        intro start st h1 h0 h2
        by_cases hmax : ∀ start' s', b.chunkSeen start' s' → start' ≤ a → start' ≤ start
        · exact ⟨start, st, h1, h0, hmax⟩
        · simp only [not_forall] at hmax
          obtain ⟨start', s', h3, h5, h4⟩ := hmax
          rw [UInt64.le_iff_toNat_le] at h4
          have h6 := UInt64.le_iff_toNat_le.mp h5
          exact ih (a.toNat - start'.toNat) (by omega) start' s' h3 h5 rfl
    obtain ⟨start, st, h1, h2⟩ := hz
    obtain ⟨start, st, h1, h2, h3⟩ := hmax _ start st h1 h2 rfl
    exact ⟨_, k1 start st h1 h2 h3⟩
  · obtain ⟨start, st, h1⟩ := hex
    obtain ⟨start, st, h1, h2⟩ := hmin _ start st h1 rfl
    refine ⟨_, k2 start st h1 ?_ h2⟩
    rw [UInt64.lt_iff_toNat_lt]
    rcases Nat.lt_or_ge a.toNat start.toNat with h | h
    · exact h
    · exact absurd ⟨start, st, h1, UInt64.le_iff_toNat_le.mpr h⟩ hz

/-! ## Files and links -/

section
variable {b : Bucket} {C : Option (List StripeMapEntry) → Prop} {K : RecState → Prop} {env : Env} {rf : Nat}

/-- What is known of looking up addresses. -/
def PhysOK (b : Bucket) (C : Option (List StripeMapEntry) → Prop) (rf : Nat) : Prop :=
  (∃ start s, b.chunkSeen start s) → ∀ c, C c → ∀ a, ∃ c' x, (Ix.mk b (~~~0)).physical rf c a = .ok (c', x) ∧ C c'

theorem sizeThere.size {d : Bytes} (h : sizeThere d) : ∃ sz : UInt64, InodeItem.size ⟨d, []⟩ = .ok sz ∧ sz.toNat < 2 ^ 63 := by
  obtain ⟨front, sz, rest, rfl, h1, h2⟩ := h
  refine ⟨sz, ?_, h2⟩
  have : inodeItemSize = 16 := by decide
  unfold InodeItem.size
  rw [this, u64at_skip _ _ _ _ (by omega), h1]
  exact u64at_zero _ _ _

theorem Safe.file (hb : b.WF) {m : Bytes} (hm : b.stores metadataVersionKey m) (hr : b.Runnable) (hph : PhysOK b C rf)
    {o i : UInt64} (ho : o ≠ ~~~0) (hgood : ¬ b.fileBad o i) (clobber : Bool) (p : Bytes) :
    Safe C K (recoverFile env rf ⟨b, ~~~0⟩ clobber o i p) := by
  have hsz : ∃ size : Option UInt64, (do inodeSize (← (Ix.mk b (~~~0)).findInodeItem o i) : Go (Option UInt64)) = .ok size ∧
      ∀ sz, size = some sz → sz.toNat < 2 ^ 63 := by
    rcases findData_now hb hm ho ⟨i, 1, 0⟩ (fun g x h => hr.exact _ _ h ho) with ⟨d, h1, -, h2⟩ | ⟨-, h2⟩
    · have hs : sizeThere d := by
        by_contra hc
        exact hgood (Or.inl ⟨d, h1, hc⟩)
      obtain ⟨sz, h3, h4⟩ := hs.size
      refine ⟨some sz, ?_, fun sz' h => by cases h; exact h4⟩
      rw [show (Ix.mk b (~~~0)).findInodeItem o i = _ from h2, Go.ok_bind]
      simp only [inodeSize, h3, Go.ok_bind]
      rfl
    · refine ⟨none, ?_, fun sz' h => by cases h⟩
      rw [show (Ix.mk b (~~~0)).findInodeItem o i = _ from h2, Go.ok_bind]
      rfl
  obtain ⟨size, hsz, hlt⟩ := hsz
  obtain ⟨rd, its, h1, h2, h3, h4⟩ := seen_any hb hm ho hr.exact (t := 108) (by decide) (id := i) (hr.ranges.extents o i)
  have hfin : ∀ fd, Ends C (finishFile env fd size) := by
    intro fd
    unfold finishFile
    cases size with
    | none => exact Ends.pure
    | some sz => exact Ends.bind Ends.sysTruncate fun _ => Ends.ite (fun _ => Ends.pure) fun _ => Ends.pure
  have hemp : ∀ fd, Ends C (finishEmpty env fd size) := by
    intro fd
    unfold finishEmpty
    cases size with
    | none => exact Ends.pure
    | some sz => exact Ends.bind Ends.sysTruncate fun _ => Ends.pure
  have hcont : ∀ fd, Safe C K (recoverContents env rf ⟨b, ~~~0⟩ o i fd size) := by
    intro fd
    unfold recoverContents
    refine Safe.lift_bind (show (Ix.mk b (~~~0)).fileExtentItems o i = .ok rd from h1) ?_
    refine Safe.ite (fun _ => (hemp fd).safe) fun _ => Safe.bind (Safe.rangeLoopRec h2 (fun e he => ?_) rf) fun r => ?_
    · obtain ⟨⟨off, r, d⟩, he', rfl⟩ := List.mem_map.mp he
      have hs : b.soundExtent d := by
        by_contra hc
        exact hgood (Or.inr ⟨off, d, (h4 off d).mp ⟨r, he'⟩, hc⟩)
      exact (Ends.extent hs hph hlt (h3 _ he')).safe
    · cases r with
      | some e => exact Safe.pure
      | none => exact (hfin fd).safe
  unfold recoverFile
  refine Safe.bind Ends.sysStat.safe fun st => Safe.ite (fun _ => Safe.pure) fun _ => Safe.lift_bind hsz ?_
  refine Safe.bind Ends.sysOpen.safe fun fd => ?_
  cases fd with
  | none => exact Safe.pure
  | some fd => exact hcont fd

theorem Safe.target (hph : PhysOK b C rf) {d : Bytes} (h : b.soundTarget d) :
    Safe C K (symlinkTarget env rf ⟨b, ~~~0⟩ ⟨d, []⟩) := by
  obtain ⟨pc, hp, hf⟩ := h
  unfold symlinkTarget
  cases pc with
  | inline data =>
    obtain ⟨f, rest, rfl, g1, g2⟩ := hp
    obtain ⟨i1, i2⟩ := inline_data f data rest [] g1 g2
    rw [i1, i2]
    refine Safe.ok_bind ?_
    rw [if_pos rfl]
    exact Safe.ok_bind Safe.pure
  | raw f =>
    obtain ⟨hft, rest, rfl⟩ := hp
    obtain ⟨-, -, -, -, -, -, d6, d7, d8, d9, d10⟩ := C07_FileExtentItem_decodes f rest []
    have hin : FileExtentItem.isInline ⟨f.layout ++ rest, []⟩ = .ok false := by
      rw [C07_FileExtentItem_isInline]; simp [hft]
    rw [hin]
    refine Safe.ok_bind ?_
    rw [if_neg (by decide), d7]
    refine Safe.ok_bind ?_
    refine Safe.ite (fun h0 => ?_) fun _ => Safe.pure
    have hnz : f.diskByteNr ≠ 0 := by
      intro h
      rw [h] at h0
      exact absurd h0 (by decide)
    obtain ⟨hlen, hex⟩ := hf f rfl hnz
    unfold readTarget
    rw [d7, d9, d10]
    refine Safe.ok_bind (Safe.bind ?_ fun ph => Safe.ok_bind ?_)
    · intro s hs
      obtain ⟨c', x, k1, k2⟩ := hph hex _ hs f.diskByteNr
      unfold nc recPhysical
      rw [k1]
      exact k2
    · refine Safe.lift_bind (a := List.replicate f.numBytes.toNat 0) ?_ ?_
      · rw [Go.ok_bind]
        unfold goMake
        rw [if_neg (by omega)]
      · exact Safe.bind Ends.devRead.safe fun _ => Safe.ite (fun _ => Safe.pure) fun _ => Safe.pure

theorem Safe.link (hb : b.WF) {m : Bytes} (hm : b.stores metadataVersionKey m) (hr : b.Runnable) (hph : PhysOK b C rf)
    {o i : UInt64} (ho : o ≠ ~~~0) (hgood : ¬ b.linkBad o i) (clobber : Bool) (p : Bytes) :
    Safe C K (recoverSymlink env rf ⟨b, ~~~0⟩ clobber o i p) := by
  have hl : Safe C K (recoverLink env rf ⟨b, ~~~0⟩ o i p) := by
    unfold recoverLink
    rcases findData_now hb hm ho ⟨i, 108, 0⟩ (fun g x h => hr.exact _ _ h ho) with ⟨d, h1, -, h2⟩ | ⟨-, h2⟩
    · refine Safe.lift_bind (show (Ix.mk b (~~~0)).findFileExtentItem o i = _ from h2) (Safe.bind ?_ fun t => ?_)
      · have hs : b.soundTarget d := by
          by_contra hc
          exact hgood ⟨d, h1, hc⟩
        obtain ⟨pc, hp, hf⟩ := hs
        exact Safe.target hph ⟨pc, hp, hf⟩
      · cases t with
        | error e => exact Safe.pure
        | ok t => exact Safe.bind Ends.sysSymlink.safe fun _ => Safe.ite (fun _ => Safe.pure) fun _ => Safe.pure
    · exact Safe.lift_bind (show (Ix.mk b (~~~0)).findFileExtentItem o i = _ from h2) Safe.pure
  unfold recoverSymlink
  refine Safe.bind Ends.sysLstat.safe fun r => Safe.ite (fun _ => ?_) fun _ => hl
  exact Safe.ite (fun _ => Safe.pure) fun _ => Safe.bind Ends.sysRemove.safe fun _ => hl

/-! ## Directories -/

theorem skip_of {n : Bytes} (h : skipName n = false) : n ≠ [46] ∧ n ≠ [46, 46] ∧ 47 ∉ n ∧ 92 ∉ n := by
  simp only [skipName, Bool.or_eq_false_iff, beq_eq_false_iff_ne, dot, dotdot] at h
  obtain ⟨⟨⟨h1, h2⟩, h3⟩, h4⟩ := h
  refine ⟨h1, h2, fun h => ?_, fun h => ?_⟩
  · rw [List.contains_iff_mem.mpr h] at h3; cases h3
  · rw [List.contains_iff_mem.mpr h] at h4; cases h4

theorem Safe.entry (hb : b.WF) {m : Bytes} (hm : b.stores metadataVersionKey m) (hr : b.Runnable) (hph : PhysOK b C rf)
    {G : UInt64 → Prop} {o dir : UInt64} (hg : G o)
    (hG : ∀ off x e n, b.seenData o 84 dir off x → namedBy x e n → e.location.typ = 132 → G e.location.objectID)
    (ho : o ≠ ~~~0) (hgood : ¬ b.dirBad o dir) (clobber : Bool) (dest : Bytes) {off : UInt64} {d : Bytes} (hd : b.seenData o 84 dir off d)
    {rec : UInt64 → UInt64 → Bytes → Rec (Option RecErr)} (hrec : ∀ o d p, G o → Safe C K (rec o d p)) :
    Safe C K (recoverEntry rec env rf ⟨b, ~~~0⟩ clobber o dest ⟨d, []⟩) := by
  have hn : named d := by
    by_contra hc
    exact hgood ⟨off, d, hd, Or.inl hc⟩
  obtain ⟨e, n, hn⟩ := hn
  obtain ⟨f1, f2, -, -⟩ := hn.fields (t := [])
  unfold recoverEntry
  refine Safe.lift_bind hn.name (Safe.ite (fun _ => Safe.pure) fun hsk => ?_)
  have hsk := skip_of (Bool.eq_false_iff.mpr hsk)
  have hdir : DirItem.isDir ⟨d, []⟩ = .ok (e.typ == 2) := by
    simp only [DirItem.isDir, f2, Go.ok_bind]
    rfl
  obtain ⟨isSub, hsub, hsv⟩ : ∃ s, DirItem.isSubvolume ⟨d, []⟩ = .ok s ∧ (s = true → e.location.typ = 132) := by
    simp only [DirItem.isSubvolume, f1, Go.ok_bind]
    exact ⟨_, rfl, fun h => by simpa [RootItemKey] using h⟩
  have hsubG : ∀ s : Bool, (s = true → e.location.typ = 132) → G (subDir o e.location s).1 := by
    intro s hs
    cases s with
    | false => exact hg
    | true => exact hG off d e n hd hn (hs rfl)
  unfold recoverNamed
  refine Safe.lift_bind hdir (Safe.lift_bind hsub (Safe.lift_bind f1 (Safe.lift_bind f2 ?_)))
  refine Safe.ite (fun _ => Safe.bind (hrec _ _ _ (hsubG isSub hsv)) fun _ => Ends.report.safe) fun _ => ?_
  refine Safe.ite (fun ht => ?_) fun _ => Safe.ite (fun ht => ?_) fun _ => Safe.pure
  · refine Safe.bind (Safe.file hb hm hr hph ho (fun hbad => hgood ?_) _ _) fun _ => Ends.report.safe
    exact ⟨off, d, hd, Or.inr ⟨e, n, hn, hsk, Or.inl ⟨ht, hbad⟩⟩⟩
  · refine Safe.bind (Safe.link hb hm hr hph ho (fun hbad => hgood ?_) _ _) fun _ => Ends.report.safe
    exact ⟨off, d, hd, Or.inr ⟨e, n, hn, hsk, Or.inr ⟨ht, hbad⟩⟩⟩

theorem Safe.entries (hb : b.WF) {m : Bytes} (hm : b.stores metadataVersionKey m) (hr : b.Runnable) (hph : PhysOK b C rf)
    {G : UInt64 → Prop} {o dir : UInt64} (hg : G o)
    (hG : ∀ off x e n, b.seenData o 84 dir off x → namedBy x e n → e.location.typ = 132 → G e.location.objectID)
    (ho : o ≠ ~~~0) (hgood : ¬ b.dirBad o dir) (clobber : Bool) (dest : Bytes)
    {rec : UInt64 → UInt64 → Bytes → Rec (Option RecErr)} (hrec : ∀ o d p, G o → Safe C K (rec o d p)) :
    ∀ (dis : List DirItem), (∀ di ∈ dis, ∃ off d, di = ⟨d, []⟩ ∧ b.seenData o 84 dir off d) →
      Safe C K (recoverEntries rec env rf ⟨b, ~~~0⟩ clobber o dest dis) := by
  intro dis
  induction dis with
  | nil => exact fun _ => Safe.pure
  | cons di r ih =>
    intro h
    unfold recoverEntries
    obtain ⟨off, d, rfl, hd⟩ := h di List.mem_cons_self
    exact Safe.bind (Safe.entry hb hm hr hph hg hG ho hgood clobber dest hd hrec) fun _ => ih fun x hx => h x (List.mem_cons_of_mem _ hx)

end

end Btrfscue
