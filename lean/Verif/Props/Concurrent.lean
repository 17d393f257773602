import Verif.Model.Concurrent
import Verif.Props.Physical
import Verif.Props.RescueNode
import Verif.Props.Ls
import Verif.Spec.RecoverReach
/-!
# C76, C77: requests at the same time
-/

namespace Btrfscue

/-! ## Goroutines -/

section
variable {σ τ : Type} {f : σ → τ → ThreadStep σ τ}

theorem Threads.run_append (x : Threads σ τ) (a b : List Nat) : Threads.run f x (a ++ b) = Threads.run f (Threads.run f x a) b :=
  List.foldl_append ..

theorem Threads.run_none (a : List Nat) : Threads.run f none a = none := by
  induction a with
  | nil => rfl
  | cons i a ih => exact ih

theorem Threads.run_cons (x : Threads σ τ) (i : Nat) (a : List Nat) :
    Threads.run f x (i :: a) = Threads.run f (Threads.step f x i) a := rfl

theorem Threads.run_one (x : Threads σ τ) (i : Nat) : Threads.run f x (List.replicate 1 i) = Threads.step f x i := rfl

/-- What every step keeps, every schedule keeps. -/
theorem Threads.run_inv (I : Threads σ τ → Prop) (h : ∀ x i, I x → I (Threads.step f x i)) :
    ∀ (sched : List Nat) (x : Threads σ τ), I x → I (Threads.run f x sched) := by
  intro sched
  induction sched with
  | nil => exact fun x hx => hx
  | cons i a ih => exact fun x hx => ih _ (h x i hx)

/-- One step of the first goroutine. -/
theorem Threads.step_head {s s' : σ} {t t' : τ} {ts : List τ} (h : f s t = .next s' t') :
    Threads.step f (some (s, t :: ts)) 0 = some (s', t' :: ts) := by
  unfold Threads.step
  simp [h]

/-- An invariant of the shared state and of every goroutine, and what a panic implies. -/
theorem Threads.run_local (S : σ → Prop) (T : σ → τ → Prop) (P : Prop)
    (h : ∀ s t, S s → T s t → match f s t with
      | .next s' t' => S s' ∧ T s' t' ∧ ∀ u, T s u → T s' u
      | .ended => True
      | .panic => P) :
    ∀ (sched : List Nat) (s : σ) (ts : List τ), S s → (∀ t ∈ ts, T s t) →
      match Threads.run f (some (s, ts)) sched with
      | none => P
      | some x => S x.1 ∧ ∀ t ∈ x.2, T x.1 t := by
  intro sched s ts hs hts
  refine Threads.run_inv (f := f) (fun x => match x with | none => P | some x => S x.1 ∧ ∀ t ∈ x.2, T x.1 t) ?_ sched
    (some (s, ts)) ⟨hs, hts⟩
  intro x i hx
  match x with
  | none => exact hx
  | some (s, ts) =>
    unfold Threads.step
    simp only
    cases hi : ts[i]? with
    | none => exact hx
    | some t =>
      have ht := List.mem_of_getElem? hi
      have h' := h s t hx.1 (hx.2 t ht)
      simp only
      revert h'
      cases f s t with
      | ended => exact fun _ => hx
      | panic => exact fun hP => hP
      | next s' t' =>
        rintro ⟨h1, h2, h3⟩
        refine ⟨h1, fun u hu => ?_⟩
        rcases List.mem_or_eq_of_mem_set hu with hu | rfl
        · exact h3 u (hx.2 u hu)
        · exact h2

end

/-! ## C76: the stripe map -/

theorem lookupStripe_ends (m : List StripeMapEntry) (l : UInt64) : lookupStripe m l ≠ .hang := by
  intro h
  unfold lookupStripe at h
  simp only at h
  repeat' split at h
  all_goals cases h

/-- A call that runs alone does what the call does. -/
theorem physFill_alone {ix : Ix} {logical : UInt64} {ts : List PhysCall} :
    ∀ {fuel : Nat} {s : List StripeMapEntry} {rd : Range × Slice} {m : List StripeMapEntry} {brk : Bool},
      rangeLoop stripeMapBody fuel s rd = .ok (m, brk) →
      ∃ n, Threads.run (PhysCall.step ix) (some (some s, ⟨logical, .fill rd⟩ :: ts)) (List.replicate n 0) =
        some (some m, ⟨logical, .look⟩ :: ts) := by
  intro fuel
  induction fuel with
  | zero => intro s rd m brk h; cases h
  | succ fuel ih =>
    rintro s ⟨r, d⟩ m brk h
    unfold rangeLoop at h
    by_cases hn : r.hasNext = true
    · rw [if_pos hn] at h
      obtain ⟨⟨s', b⟩, h1, h2⟩ := Go.bind_eq_ok.mp h
      have hb : b = false := by
        unfold stripeMapBody at h1
        obtain ⟨ns, -, h3⟩ := Go.bind_eq_ok.mp h1
        by_cases hz : ns = 0
        · rw [if_pos hz] at h3; cases h3; rfl
        · rw [if_neg hz] at h3
          obtain ⟨_, -, h3⟩ := Go.bind_eq_ok.mp h3
          obtain ⟨_, -, h3⟩ := Go.bind_eq_ok.mp h3
          obtain ⟨_, -, h3⟩ := Go.bind_eq_ok.mp h3
          obtain ⟨_, -, h3⟩ := Go.bind_eq_ok.mp h3
          cases h3; rfl
      subst hb
      simp only [Bool.false_eq_true, if_false] at h2
      obtain ⟨rd', h4, h5⟩ := Go.bind_eq_ok.mp h2
      obtain ⟨n, hn'⟩ := ih h5
      refine ⟨n + 1, ?_⟩
      rw [List.replicate_succ, Threads.run_cons]
      have hst : PhysCall.step ix (some s) ⟨logical, .fill (r, d)⟩ = .next (some s') ⟨logical, .fill rd'⟩ := by
        unfold PhysCall.step
        simp [hn, h1, h4, ThreadStep.ofGo]
      rw [Threads.step_head hst, hn']
    · rw [if_neg hn] at h
      cases h
      refine ⟨1, ?_⟩
      have hst : PhysCall.step ix (some s) ⟨logical, .fill (r, d)⟩ = .next (some s) ⟨logical, .look⟩ := by
        unfold PhysCall.step
        simp [hn]
      exact Threads.step_head hst

theorem physical_alone {ix : Ix} {fuel : Nat} {logical : UInt64} {m : List StripeMapEntry} {r : UInt64 × UInt64}
    {ts : List PhysCall} (h : ix.physical fuel none logical = .ok (some m, r)) :
    ∃ n, Threads.run (PhysCall.step ix) (some (none, ⟨logical, .check⟩ :: ts)) (List.replicate n 0) =
      some (some m, ⟨logical, .done r⟩ :: ts) := by
  unfold Ix.physical at h
  simp only at h
  obtain ⟨m', h1, h2⟩ := Go.bind_eq_ok.mp h
  obtain ⟨r', h3, h4⟩ := Go.bind_eq_ok.mp h2
  cases h4
  unfold Ix.buildStripeMap at h1
  obtain ⟨rd, h5, h6⟩ := Go.bind_eq_ok.mp h1
  obtain ⟨⟨s, b⟩, h7, h8⟩ := Go.bind_eq_ok.mp h6
  cases h8
  obtain ⟨n, hn⟩ := physFill_alone (ix := ix) (logical := logical) (ts := ts) h7
  refine ⟨1 + (1 + (n + 1)), ?_⟩
  rw [List.replicate_add, List.replicate_add, List.replicate_add, Threads.run_append, Threads.run_append, Threads.run_append]
  have e1 : Threads.run (PhysCall.step ix) (some (none, ⟨logical, .check⟩ :: ts)) (List.replicate 1 0) =
      some (none, ⟨logical, .make⟩ :: ts) := Threads.step_head rfl
  have e2 : Threads.run (PhysCall.step ix) (some (none, ⟨logical, .make⟩ :: ts)) (List.replicate 1 0) =
      some (some [], ⟨logical, .fill rd⟩ :: ts) := Threads.step_head (by unfold PhysCall.step; simp [h5, ThreadStep.ofGo])
  have e3 : Threads.run (PhysCall.step ix) (some (some m, ⟨logical, .look⟩ :: ts)) (List.replicate 1 0) =
      some (some m, ⟨logical, .done r⟩ :: ts) := Threads.step_head (by unfold PhysCall.step; simp [h3, ThreadStep.ofGo])
  rw [e1, e2, hn, e3]

/-- Once the map is filled and nobody fills it, every schedule gives everyone the answer of
the filled map. -/
theorem physical_filled {ix : Ix} {m : List StripeMapEntry} (cs : List PhysCall)
    (h : ∀ c ∈ cs, c.pc = .check ∨ c.pc = .look ∨ ∃ r, c.pc = .done r ∧ lookupStripe m c.logical = .ok r) (sched : List Nat) :
    match Threads.run (PhysCall.step ix) (some (some m, cs)) sched with
    | none => ∃ l ∈ cs.map (·.logical), lookupStripe m l = .panic
    | some x => x.1 = some m ∧ x.2.map (·.logical) = cs.map (·.logical) ∧
        ∀ c ∈ x.2, ∀ r, c.pc = .done r → lookupStripe m c.logical = .ok r := by
  have hh := Threads.run_local (f := PhysCall.step ix) (fun s => s = some m)
    (fun _ c => c.logical ∈ cs.map (·.logical) ∧
      (c.pc = .check ∨ c.pc = .look ∨ ∃ r, c.pc = .done r ∧ lookupStripe m c.logical = .ok r))
    (∃ l ∈ cs.map (·.logical), lookupStripe m l = .panic) ?_ sched (some m) cs rfl
    fun c hc => ⟨List.mem_map_of_mem hc, h c hc⟩
  · have hl : ∀ (sched : List Nat) (x : Threads (Option (List StripeMapEntry)) PhysCall) (L : List UInt64),
        (∀ y, x = some y → y.2.map (·.logical) = L) →
        ∀ y, Threads.run (PhysCall.step ix) x sched = some y → y.2.map (·.logical) = L := by
      intro sched x L hx
      refine Threads.run_inv (f := PhysCall.step ix) (fun x => ∀ y, x = some y → y.2.map (·.logical) = L) ?_ sched x hx
      rintro (_ | ⟨s, ts⟩) i hx y hy
      · cases hy
      · unfold Threads.step at hy
        simp only at hy
        have hx := hx _ rfl
        cases hi : ts[i]? with
        | none => rw [hi] at hy; cases hy; exact hx
        | some t =>
          rw [hi] at hy
          simp only at hy
          have hlog : ∀ s' t', PhysCall.step ix s t = .next s' t' → t'.logical = t.logical := by
            intro s' t' hst
            have hof : ∀ {g : Go (Option (List StripeMapEntry) × PhysCall)}, ThreadStep.ofGo g = .next s' t' → g = .ok (s', t') := by
              rintro (_ | _ | _) hg <;> cases hg; rfl
            unfold PhysCall.step at hst
            split at hst
            · cases hst; rfl
            · obtain ⟨_, -, hg⟩ := Go.bind_eq_ok.mp (hof hst); cases hg; rfl
            · split at hst
              · obtain ⟨_, -, hg⟩ := Go.bind_eq_ok.mp (hof hst)
                obtain ⟨_, -, hg⟩ := Go.bind_eq_ok.mp hg; cases hg; rfl
              · cases hst; rfl
            · obtain ⟨_, -, hg⟩ := Go.bind_eq_ok.mp (hof hst); cases hg; rfl
            · cases hst
          cases hst : PhysCall.step ix s t with
          | ended => rw [hst] at hy; cases hy; exact hx
          | panic => rw [hst] at hy; cases hy
          | next s' t' =>
            rw [hst] at hy; cases hy
            rw [List.map_set, hlog s' t' hst]
            rw [← hx]
            apply List.ext_getElem?
            intro j
            rw [List.getElem?_set]
            by_cases hj : i = j
            · subst hj
              have hlt := (List.getElem?_eq_some_iff.mp hi).1
              rw [if_pos rfl, List.length_map, if_pos hlt, List.getElem?_map, hi]; rfl
            · rw [if_neg hj]
    have hl := hl sched (some (some m, cs)) (cs.map (·.logical)) (by rintro y hy; cases hy; rfl)
    cases hr : Threads.run (PhysCall.step ix) (some (some m, cs)) sched with
    | none => rw [hr] at hh; exact hh
    | some x =>
      rw [hr] at hh
      obtain ⟨h1, h2⟩ := hh
      refine ⟨h1, hl x hr, fun c hc r hpc => ?_⟩
      rcases (h2 c hc).2 with h3 | h3 | ⟨r', h3, h4⟩
      · rw [h3] at hpc; cases hpc
      · rw [h3] at hpc; cases hpc
      · rw [h3] at hpc; cases hpc; exact h4
  · rintro s ⟨lg, pc⟩ rfl ⟨hm, hpc⟩
    simp only at hm hpc
    rcases hpc with rfl | rfl | ⟨r, rfl, hr⟩
    · exact ⟨rfl, ⟨hm, Or.inr (Or.inl rfl)⟩, fun _ hu => hu⟩
    · unfold PhysCall.step
      simp only [Option.getD_some]
      cases hls : lookupStripe m lg with
      | ok r => exact ⟨rfl, ⟨hm, Or.inr (Or.inr ⟨r, rfl, hls⟩)⟩, fun _ hu => hu⟩
      | panic => exact ⟨lg, hm, hls⟩
      | hang =>
        exact absurd hls (lookupStripe_ends _ _)
    · trivial

/-- C76 (what is proved): if one call of `Physical` has ended before any other begins,
then whatever the schedule of the other calls (any number, any addresses), each call that
ends has the answer it has when it is the only one; and if the program dies then one of
the calls dies when it is the only one. Missing: calls that overlap the first one
(`C76_overlapping_crash`, `C76_overlapping_wrong`). -/
theorem C76_after_first_partial (ix : Ix) (fuel : Nat) (first : UInt64) (m : List StripeMapEntry) (r0 : UInt64 × UInt64)
    (h : ix.physical fuel none first = .ok (some m, r0)) (others : List UInt64) :
    ∃ n, ∀ sched, match Threads.run (PhysCall.step ix) (some (none, (first :: others).map fun l => ⟨l, .check⟩))
        (List.replicate n 0 ++ sched) with
      | none => ∃ l ∈ others, ix.physical fuel none l = .panic
      | some x => x.2.map (·.logical) = first :: others ∧
          ∀ c ∈ x.2, ∀ r, c.pc = .done r → ∃ m', ix.physical fuel none c.logical = .ok (m', r) := by
  obtain ⟨n, hn⟩ := physical_alone (ts := others.map fun l => ⟨l, .check⟩) h
  have hb : ix.buildStripeMap fuel = .ok m ∧ lookupStripe m first = .ok r0 := by
    unfold Ix.physical at h
    obtain ⟨m', h1, h2⟩ := Go.bind_eq_ok.mp h
    obtain ⟨r', h3, h4⟩ := Go.bind_eq_ok.mp h2
    cases h4
    exact ⟨h1, h3⟩
  have hp : ∀ l, ix.physical fuel none l = (do return (some m, ← lookupStripe m l)) := by
    intro l
    unfold Ix.physical
    simp only [hb.1, Go.ok_bind]
  refine ⟨n, fun sched => ?_⟩
  rw [Threads.run_append]
  simp only [List.map_cons] at hn ⊢
  rw [hn]
  have := physical_filled (ix := ix) (m := m) (⟨first, .done r0⟩ :: others.map fun l => ⟨l, .check⟩) (by
    intro c hc
    rcases List.mem_cons.mp hc with rfl | hc
    · exact Or.inr (Or.inr ⟨r0, rfl, hb.2⟩)
    · obtain ⟨l, -, rfl⟩ := List.mem_map.mp hc
      exact Or.inl rfl) sched
  revert this
  generalize Threads.run (PhysCall.step ix) (some (some m, ⟨first, .done r0⟩ :: others.map fun l => ⟨l, .check⟩)) sched = x
  cases x with
  | none =>
    rintro ⟨l, hl, hl'⟩
    rw [List.map_cons, List.map_map] at hl
    rcases List.mem_cons.mp hl with rfl | hl
    · rw [hb.2] at hl'; cases hl'
    · simp only [List.mem_map, Function.comp_apply, exists_eq_right] at hl
      exact ⟨l, hl, by rw [hp, hl']; rfl⟩
  | some x =>
    rintro ⟨-, h2, h3⟩
    refine ⟨?_, fun c hc r hr => ⟨some m, by rw [hp, h3 c hc r hr]; rfl⟩⟩
    rw [h2, List.map_cons, List.map_map]
    congr 1
    exact List.map_id' others

/-! ### Counterexamples -/

-- The hypotheses of `C76_after_first_partial` are met.
example : (Ix.mk exChunks.enc (~~~0)).physical 9 none 0x1800010 =
    .ok (some [⟨0x1000000, 1, 0x100000⟩, ⟨0x1800000, 2, 0x900000⟩], (2, 0x900010)) := by decide +kernel

/-- C76 is false of the code: two calls for the same mapped address. Alone, each gives an
answer; if the second one begins right after the first one has set the map to an empty,
non-nil slice, the program dies. -/
theorem C76_overlapping_crash :
    (Ix.mk exChunks.enc (~~~0)).physical 9 none 0x1800010 =
      .ok (some [⟨0x1000000, 1, 0x100000⟩, ⟨0x1800000, 2, 0x900000⟩], (2, 0x900010)) ∧
    Threads.run (PhysCall.step (Ix.mk exChunks.enc (~~~0))) (some (none, [⟨0x1800010, .check⟩, ⟨0x1800010, .check⟩]))
      [0, 0, 1, 1] = none := by decide +kernel

/-- The answers of the calls that have ended. -/
def physAnswers (x : Threads (Option (List StripeMapEntry)) PhysCall) : Option (List (Option (UInt64 × UInt64))) :=
  x.map fun y => y.2.map fun c => match c.pc with | .done r => some r | _ => none

/-- C76 is false of the code: if the second call begins after the first chunk was put in
the map, it ends with another device and address than alone: the data read there is not
the file's. -/
theorem C76_overlapping_wrong :
    physAnswers (Threads.run (PhysCall.step (Ix.mk exChunks.enc (~~~0)))
      (some (none, [⟨0x1800010, .check⟩, ⟨0x1800010, .check⟩])) [0, 0, 0, 1, 1, 0, 0, 0]) =
      some [some (2, 0x900010), some (1, 0x900010)] := by decide +kernel

/-! ## C77: the directory map -/

theorem ofGo_next {σ τ : Type} {g : Go (σ × τ)} {s : σ} {t : τ} (h : ThreadStep.ofGo g = .next s t) : g = .ok (s, t) := by
  cases g <;> cases h; rfl

theorem dirMap_mem_put {m : DirMap} {name : Bytes} {d : DirItem} {e : Bytes × DirItem} (h : e ∈ m.put name d) :
    e ∈ m ∨ e = (name, d) := by
  induction m with
  | nil => exact Or.inr (List.mem_singleton.mp h)
  | cons x r ih =>
    unfold DirMap.put at h
    by_cases hx : x.1 = name
    · rw [if_pos hx] at h
      rcases List.mem_cons.mp h with h | h
      · exact Or.inr h
      · exact Or.inl (List.mem_cons_of_mem _ h)
    · rw [if_neg hx] at h
      rcases List.mem_cons.mp h with h | h
      · exact Or.inl (h ▸ List.mem_cons_self)
      · exact (ih h).imp (List.mem_cons_of_mem _) id

theorem dirMap_mem_find {m : DirMap} {name : Bytes} {d : DirItem} (h : m.find name = some d) : (name, d) ∈ m := by
  induction m with
  | nil => cases h
  | cons x r ih =>
    unfold DirMap.find at h
    by_cases hx : x.1 = name
    · rw [if_pos hx] at h; cases h; rw [← hx]; exact List.mem_cons_self
    · rw [if_neg hx] at h; exact List.mem_cons_of_mem _ (ih h)

/-- C77 (what is proved of overlapping calls): whatever the number of `Lookup` calls on a
directory of the mount and whatever the schedule, an entry found by a call is an entry
listed in the directory, with the name asked for. -/
theorem C77_found_listed_partial (ix : Ix) (owner inode : UInt64) (names : List Bytes) (sched : List Nat)
    (m : DirMap) (calls : List LookupCall)
    (h : Threads.run (LookupCall.step ix owner inode) (some ([], names.map fun n => ⟨n, .check⟩)) sched = some (m, calls)) :
    ∀ c ∈ calls, ∀ d, c.pc = .done (some d) → ix.lists owner inode d ∧ DirItem.name d = .ok c.name := by
  have hh := Threads.run_local (f := LookupCall.step ix owner inode)
    (fun m => ∀ e ∈ m, ix.lists owner inode e.2 ∧ DirItem.name e.2 = .ok e.1)
    (fun _ c => (∀ d, c.pc = .done (some d) → ix.lists owner inode d ∧ DirItem.name d = .ok c.name) ∧
      (∀ rd, c.pc = .fill rd → ∃ rd0, ix.dirItems owner inode = .ok rd0 ∧ ∀ x, Range.Visits rd x → Range.Visits rd0 x))
    True ?_ sched [] (names.map fun n => ⟨n, .check⟩) (by simp) ?_
  · rw [h] at hh
    exact fun c hc => (hh.2 c hc).1
  · rintro s ⟨n, pc⟩ hs ⟨h1, h2⟩
    unfold LookupCall.step
    cases pc with
    | check =>
      simp only
      by_cases hm : 0 < s.length
      · rw [if_pos hm]
        exact ⟨hs, ⟨fun d hd => (by cases hd), fun rd hd => by cases hd⟩, fun _ hu => hu⟩
      · rw [if_neg hm]
        cases hd : ix.dirItems owner inode with
        | panic => trivial
        | hang => trivial
        | ok rd0 =>
          refine ⟨hs, ⟨fun d hd => (by cases hd), fun rd hd' => ?_⟩, fun _ hu => hu⟩
          cases hd'
          exact ⟨rd0, rfl, fun _ hx => hx⟩
    | fill rd =>
      simp only
      obtain ⟨rd0, h3, h4⟩ := h2 rd rfl
      by_cases hn : rd.1.hasNext = true
      · rw [if_pos hn]
        cases hb : dirMapBody s rd.1 rd.2 with
        | panic => trivial
        | hang => trivial
        | ok sb =>
          cases hnx : rd.1.next with
          | panic => simp only [Go.ok_bind, hnx, Go.panic_bind]; trivial
          | hang => simp only [Go.ok_bind, hnx, Go.hang_bind]; trivial
          | ok rd' =>
            simp only [Go.ok_bind, hnx, Go.pure_eq, ThreadStep.ofGo]
            refine ⟨?_, ⟨fun d hd => (by cases hd), fun rd1 hd' => ?_⟩, fun _ hu => hu⟩
            · unfold dirMapBody at hb
              obtain ⟨nm, h5, h6⟩ := Go.bind_eq_ok.mp hb
              cases h6
              intro e he
              rcases dirMap_mem_put he with he | rfl
              · exact hs e he
              · exact ⟨⟨rd0, rd.1, h3, h4 _ (.here hn)⟩, h5⟩
            · cases hd'
              exact ⟨rd0, h3, fun x hx => h4 x (.step hn hnx hx)⟩
      · rw [if_neg hn]
        exact ⟨hs, ⟨fun d hd => (by cases hd), fun rd hd => by cases hd⟩, fun _ hu => hu⟩
    | find =>
      refine ⟨hs, ⟨fun d hd => ?_, fun rd hd => by cases hd⟩, fun _ hu => hu⟩
      simp only [LookupPC.done.injEq] at hd
      exact hs _ (dirMap_mem_find hd)
    | done d => trivial
  · intro c hc
    obtain ⟨n, -, rfl⟩ := List.mem_map.mp hc
    exact ⟨fun d hd => (by cases hd), fun rd hd => by cases hd⟩

/-- A call that runs alone fills the map as `ensureDirItems` does. -/
theorem lookupFill_alone {ix : Ix} {owner inode : UInt64} {name : Bytes} {ts : List LookupCall} :
    ∀ {fuel : Nat} {s : DirMap} {rd : Range × Slice} {m : DirMap} {brk : Bool},
      rangeLoop dirMapBody fuel s rd = .ok (m, brk) →
      ∃ n, Threads.run (LookupCall.step ix owner inode) (some (s, ⟨name, .fill rd⟩ :: ts)) (List.replicate n 0) =
        some (m, ⟨name, .find⟩ :: ts) := by
  intro fuel
  induction fuel with
  | zero => intro s rd m brk h; cases h
  | succ fuel ih =>
    rintro s ⟨r, d⟩ m brk h
    unfold rangeLoop at h
    by_cases hn : r.hasNext = true
    · rw [if_pos hn] at h
      obtain ⟨⟨s', b⟩, h1, h2⟩ := Go.bind_eq_ok.mp h
      have hb : b = false := by
        unfold dirMapBody at h1
        obtain ⟨ns, -, h3⟩ := Go.bind_eq_ok.mp h1
        cases h3; rfl
      subst hb
      simp only [Bool.false_eq_true, if_false] at h2
      obtain ⟨rd', h4, h5⟩ := Go.bind_eq_ok.mp h2
      obtain ⟨n, hn'⟩ := ih h5
      refine ⟨n + 1, ?_⟩
      rw [List.replicate_succ, Threads.run_cons]
      have hst : LookupCall.step ix owner inode s ⟨name, .fill (r, d)⟩ = .next s' ⟨name, .fill rd'⟩ := by
        unfold LookupCall.step
        simp [hn, h1, h4, ThreadStep.ofGo]
      rw [Threads.step_head hst, hn']
    · rw [if_neg hn] at h
      cases h
      refine ⟨1, ?_⟩
      have hst : LookupCall.step ix owner inode s ⟨name, .fill (r, d)⟩ = .next s ⟨name, .find⟩ := by
        unfold LookupCall.step
        simp [hn]
      exact Threads.step_head hst

theorem dirMap_put_ne_nil (m : DirMap) (name : Bytes) (d : DirItem) : m.put name d ≠ [] := by
  cases m with
  | nil => exact fun h => by cases h
  | cons x r =>
    unfold DirMap.put
    split <;> exact fun h => by cases h

theorem fill_ne_nil : ∀ {fuel : Nat} {s : DirMap} {rd : Range × Slice} {m : DirMap} {brk : Bool},
      rangeLoop dirMapBody fuel s rd = .ok (m, brk) → s ≠ [] ∨ rd.1.hasNext = true → m ≠ [] := by
  intro fuel
  induction fuel with
  | zero => intro s rd m brk h; cases h
  | succ fuel ih =>
    rintro s ⟨r, d⟩ m brk h hne
    unfold rangeLoop at h
    by_cases hn : r.hasNext = true
    · rw [if_pos hn] at h
      obtain ⟨⟨s', b⟩, h1, h2⟩ := Go.bind_eq_ok.mp h
      unfold dirMapBody at h1
      obtain ⟨ns, -, h3⟩ := Go.bind_eq_ok.mp h1
      cases h3
      simp only [Bool.false_eq_true, if_false] at h2
      obtain ⟨rd', h4, h5⟩ := Go.bind_eq_ok.mp h2
      exact ih h5 (Or.inl (dirMap_put_ne_nil _ _ _))
    · rw [if_neg hn] at h
      cases h
      exact hne.resolve_right hn

/-- C77 (what is proved): if one `Lookup` on a directory of the mount has ended before any
other begins, then whatever the number, names and schedule of the others, no call dies, and
each that ends has found what it finds when it is the only one. Missing: calls that overlap
the first one (`C77_overlapping_missing`). -/
theorem C77_after_first_partial (ix : Ix) (fuel : Nat) (owner inode : UInt64) (n : RescueNode)
    (h : (newRescueNode owner inode).ensureDirItems fuel ix = .ok n) (first : Bytes) (others : List Bytes) :
    ∃ k, ∀ sched, ∃ calls, Threads.run (LookupCall.step ix owner inode)
        (some ([], (first :: others).map fun l => ⟨l, .check⟩)) (List.replicate k 0 ++ sched) = some (n.dirItems, calls) ∧
      ∀ c ∈ calls, ∀ d, c.pc = .done d → n.dirItems.find c.name = d := by
  unfold RescueNode.ensureDirItems at h
  rw [if_neg (by simp [newRescueNode])] at h
  obtain ⟨rd, h1, h2⟩ := Go.bind_eq_ok.mp h
  obtain ⟨⟨m, b⟩, h3, h4⟩ := Go.bind_eq_ok.mp h2
  cases h4
  simp only [newRescueNode] at h1 h3 ⊢
  obtain ⟨k, hk⟩ := lookupFill_alone (ix := ix) (owner := owner) (inode := inode) (name := first)
    (ts := others.map fun l => ⟨l, .check⟩) h3
  refine ⟨1 + (k + 1), fun sched => ?_⟩
  rw [List.replicate_add, List.replicate_add, Threads.run_append, Threads.run_append, Threads.run_append]
  have e0 : LookupCall.step ix owner inode [] ⟨first, .check⟩ = .next [] ⟨first, .fill rd⟩ := by
    unfold LookupCall.step; simp [h1, ThreadStep.ofGo]
  have e1 : Threads.run (LookupCall.step ix owner inode) (some ([], (first :: others).map fun l => ⟨l, .check⟩))
      (List.replicate 1 0) = some ([], ⟨first, .fill rd⟩ :: others.map fun l => ⟨l, .check⟩) :=
    by rw [Threads.run_one, List.map_cons]; rw [Threads.step_head e0]
  have e3 : Threads.run (LookupCall.step ix owner inode) (some (m, ⟨first, .find⟩ :: others.map fun l => ⟨l, .check⟩))
      (List.replicate 1 0) = some (m, ⟨first, .done (m.find first)⟩ :: others.map fun l => ⟨l, .check⟩) := Threads.step_head rfl
  rw [e1, hk, e3]
  have hh := Threads.run_local (f := LookupCall.step ix owner inode) (fun s => s = m)
    (fun _ c => (∀ d, c.pc = .done d → m.find c.name = d) ∧ ∀ rd', c.pc = .fill rd' → rd'.1.hasNext = false) False ?_ sched m
    (⟨first, .done (m.find first)⟩ :: others.map fun l => ⟨l, .check⟩) rfl ?_
  · cases hr : Threads.run (LookupCall.step ix owner inode)
      (some (m, ⟨first, .done (m.find first)⟩ :: others.map fun l => ⟨l, .check⟩)) sched with
    | none => rw [hr] at hh; exact absurd hh id
    | some x =>
      rw [hr] at hh
      obtain ⟨x1, x2⟩ := x
      obtain ⟨rfl, h6⟩ := hh
      exact ⟨x2, rfl, fun c hc => (h6 c hc).1⟩
  · rintro s ⟨nm, pc⟩ rfl ⟨h5, h6⟩
    unfold LookupCall.step
    cases pc with
    | check =>
      simp only
      by_cases hm : 0 < s.length
      · rw [if_pos hm]
        exact ⟨rfl, ⟨fun d hd => (by cases hd), fun rd hd => by cases hd⟩, fun _ hu => hu⟩
      · rw [if_neg hm, h1]
        refine ⟨rfl, ⟨fun d hd => (by cases hd), fun rd' hd => ?_⟩, fun _ hu => hu⟩
        cases hd
        by_contra hc
        exact fill_ne_nil h3 (Or.inr (by simpa using hc)) (List.length_eq_zero_iff.mp (by omega))
    | fill rd' =>
      simp only
      rw [if_neg (by rw [h6 rd' rfl]; decide)]
      exact ⟨rfl, ⟨fun d hd => (by cases hd), fun rd hd => by cases hd⟩, fun _ hu => hu⟩
    | find =>
      refine ⟨rfl, ⟨fun d hd => ?_, fun rd hd => by cases hd⟩, fun _ hu => hu⟩
      simp only [LookupPC.done.injEq] at hd
      exact hd
    | done d => trivial
  · intro c hc
    rcases List.mem_cons.mp hc with rfl | hc
    · exact ⟨fun d hd => (by cases hd; rfl), fun rd hd => by cases hd⟩
    · obtain ⟨n, -, rfl⟩ := List.mem_map.mp hc
      exact ⟨fun d hd => (by cases hd), fun rd hd => by cases hd⟩

/-- Which calls have ended, and have they found something? -/
def lookupAnswers (x : Threads DirMap LookupCall) : Option (List (Option Bool)) :=
  x.map fun y => y.2.map fun c => match c.pc with | .done d => some d.isSome | _ => none

/-- C77 is false of the code: the directory has the entry "a". A `Lookup` that begins
while another one is filling the map reports that there is no such file; alone it finds it. -/
theorem C77_overlapping_missing :
    lookupAnswers (Threads.run (LookupCall.step ⟨exLsStore.enc, ~~~0⟩ 5 256) (some ([], [⟨[97], .check⟩, ⟨[97], .check⟩]))
      [0, 0, 1, 1, 0, 0, 0, 0]) = some [some true, some false] ∧
    lookupAnswers (Threads.run (LookupCall.step ⟨exLsStore.enc, ~~~0⟩ 5 256) (some ([], [⟨[97], .check⟩]))
      [0, 0, 0, 0, 0, 0]) = some [some true] := by decide +kernel

-- The hypothesis of `C77_after_first_partial` is met.
example : ((newRescueNode 5 256).ensureDirItems 9 ⟨exLsStore.enc, ~~~0⟩).isOk = true := by decide +kernel

end Btrfscue
