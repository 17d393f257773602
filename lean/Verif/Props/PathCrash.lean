import Verif.Spec.PathCrash
import Verif.Props.LsCrash
import Verif.Props.PathHang
import Verif.Proof.RecoverCrash
/-!
# C117: which damage a path lookup survives
-/

namespace Btrfscue

theorem namedBy.typ {d : Bytes} {e e' : DirItemRec} {n n' : Bytes} (h : namedBy d e n) (h' : namedBy d e' n') : e.typ = e'.typ := by
  have h1 := (h.fields (t := [])).2.1
  rw [(h'.fields (t := [])).2.1] at h1
  exact (Go.ok.inj h1).symm

section
variable {b : Bucket} {o : UInt64} {m : Bytes}

theorem fastDir_findData (ix : Ix) (dir : UInt64) (name : Bytes) : fastDir ix o dir name =
    (ix.findData o ⟨dir, 84, (NameHash name).toUInt64⟩ >>= fun r => match r with
      | none => .ok none
      | some d => DirItem.name d >>= fun n => if n = name then .ok (some d) else .ok none) := by
  unfold fastDir Ix.findData
  rw [show KF3 DirItemKey dir (NameHash name).toUInt64 = ⟨dir, 84, (NameHash name).toUInt64⟩ from rfl]
  cases ix.findItem o ⟨dir, 84, (NameHash name).toUInt64⟩ with
  | panic => rfl
  | hang => rfl
  | ok r =>
    cases r with
    | none => rfl
    | some v =>
      simp only [Go.ok_bind, Go.pure_eq]
      cases Item.data v with
      | panic => rfl
      | hang => rfl
      | ok d => rfl

theorem slow_cases (name : Bytes) (last : Bool) (r : Range) (d : Bytes) :
    (¬ named d ∧ slowBody name last none r ⟨d, []⟩ = .panic) ∨
    (∃ e, wantedBy d e name last ∧ slowBody name last none r ⟨d, []⟩ = .ok (some ⟨d, []⟩, true)) ∨
    ((named d ∧ ∀ e, ¬ wantedBy d e name last) ∧ slowBody name last none r ⟨d, []⟩ = .ok (none, false)) := by
  by_cases hn : named d
  · obtain ⟨e, n, hen⟩ := hn
    unfold slowBody
    simp only [hen.name, Go.ok_bind]
    by_cases hnn : n = name
    · subst hnn
      rw [if_pos rfl, hen.isDir]
      simp only [Go.ok_bind, Go.pure_eq]
      by_cases ht : last = true ∨ e.typ = 2
      · refine Or.inr (Or.inl ⟨e, ⟨hen, ht⟩, ?_⟩)
        rw [if_pos (by rcases ht with h | h <;> simp [h])]
      · refine Or.inr (Or.inr ⟨⟨⟨e, n, hen⟩, fun e' h' => ht ?_⟩, ?_⟩)
        · rw [hen.typ h'.1]; exact h'.2
        · rw [if_neg]
          intro h
          simp only [Bool.or_eq_true, beq_iff_eq] at h
          exact ht h.symm
    · rw [if_neg hnn]
      exact Or.inr (Or.inr ⟨⟨⟨e, n, hen⟩, fun e' h' => hnn (hen.unique h'.1).1⟩, rfl⟩)
  · refine Or.inl ⟨hn, ?_⟩
    unfold slowBody
    rw [not_named hn]
    rfl

theorem foldSlow_cases (name : Bytes) (last : Bool) : ∀ its : List (UInt64 × Range × Bytes),
    (∃ l1 x l2, its = l1 ++ x :: l2 ∧ (∀ y ∈ l1, named y.2.2 ∧ ∀ e, ¬ wantedBy y.2.2 e name last) ∧
      ((¬ named x.2.2 ∧ foldRange (slowBody name last) none (its.map fun e => (e.2.1, ⟨e.2.2, []⟩)) = .panic) ∨
        ∃ e, wantedBy x.2.2 e name last ∧
          foldRange (slowBody name last) none (its.map fun e => (e.2.1, ⟨e.2.2, []⟩)) = .ok (some ⟨x.2.2, []⟩, true))) ∨
    ((∀ y ∈ its, named y.2.2 ∧ ∀ e, ¬ wantedBy y.2.2 e name last) ∧
      foldRange (slowBody name last) none (its.map fun e => (e.2.1, ⟨e.2.2, []⟩)) = .ok (none, false)) := by
  intro its
  induction its with
  | nil => exact Or.inr ⟨by simp, rfl⟩
  | cons x its ih =>
    simp only [List.map_cons, foldRange]
    rcases slow_cases name last x.2.1 x.2.2 with ⟨h1, h2⟩ | ⟨e, h1, h2⟩ | ⟨h1, h2⟩
    · rw [h2]
      exact Or.inl ⟨[], x, its, rfl, by simp, Or.inl ⟨h1, rfl⟩⟩
    · rw [h2]
      exact Or.inl ⟨[], x, its, rfl, by simp, Or.inr ⟨e, h1, rfl⟩⟩
    · rw [h2]
      simp only [Go.ok_bind, Bool.false_eq_true, if_false]
      rcases ih with ⟨l1, y, l2, rfl, k2, k3⟩ | ⟨k1, k2⟩
      · refine Or.inl ⟨x :: l1, y, l2, rfl, ?_, k3⟩
        intro z hz
        rcases List.mem_cons.mp hz with rfl | hz
        · exact h1
        · exact k2 z hz
      · refine Or.inr ⟨?_, k2⟩
        intro z hz
        rcases List.mem_cons.mp hz with rfl | hz
        · exact h1
        · exact k1 z hz

/-- `seen_any`, in order and with a bound. -/
theorem seen_dir (hb : b.WF) (hm : b.stores metadataVersionKey m) (ho : o ≠ ~~~0)
    (hex : ∀ v x, b.stores v x → v.owner ≠ ~~~0 → ∃ d, holdsExactly x d) {dir : UInt64}
    (hr : ∀ off, b.hasKey o ⟨dir, 84, off⟩ → b.RangeOK o (KL2 84 dir)) :
    ∃ rd, ∃ its : List (UInt64 × Range × Bytes), (Ix.mk b (~~~0)).dirItems o dir = .ok rd ∧
      Range.Yields rd (its.map fun e => (e.2.1, ⟨e.2.2, []⟩)) ∧ its.Pairwise (fun x y => x.1 < y.1) ∧
      its.length ≤ b.length ∧ (∀ off d, (∃ r, (off, r, d) ∈ its) ↔ b.seenData o 84 dir off d) := by
  by_cases hk : ∃ off, b.hasKey o ⟨dir, 84, off⟩
  · obtain ⟨off, hk⟩ := hk
    obtain ⟨rd, its, h1, h2, hpw, h3, hs⟩ := seen_run hb hm (hr off hk) fun v x h1 h2 => hex v x h1 (by rw [h2]; exact ho)
    refine ⟨rd, its, h1, h2, hpw, ?_, hs⟩
    obtain ⟨l, -, rfl⟩ := hb.exists_abs
    have hn : (its.map (·.1)).Nodup := by
      rw [List.nodup_iff_pairwise_ne, List.pairwise_map]
      exact hpw.imp fun h he => by rw [he, UInt64.lt_iff_toNat_lt] at h; exact absurd h (Nat.lt_irrefl _)
    have hsub : its.map (·.1) ⊆ l.map fun e => e.1.key.offset := fun x hx => by
      obtain ⟨⟨off, r, d⟩, he, rfl⟩ := List.mem_map.mp hx
      obtain ⟨g, y, -, hy', -⟩ := (hs off d).mp ⟨r, he⟩
      exact List.mem_map.mpr ⟨_, enc_stores.mp hy', rfl⟩
    have := (List.subperm_of_subset hn hsub).length_le
    rw [List.length_map, List.length_map] at this
    simpa [AStore.enc] using this
  · obtain ⟨rd, its, h1, h2, -, h4⟩ := seen_any hb hm ho hex (t := 84) (id := dir) (by decide) hr
    have : its = [] := by
      cases its with
      | nil => rfl
      | cons x l =>
        obtain ⟨off, r, d⟩ := x
        obtain ⟨g, y, -, k, -⟩ := (h4 off d).mp ⟨r, List.mem_cons_self⟩
        exact absurd ⟨off, g, y, k⟩ hk
    subst this
    exact ⟨rd, [], h1, h2, .nil, Nat.zero_le _, h4⟩

/-- One name. -/
theorem findComp_crash (hb : b.WF) (hm : b.stores metadataVersionKey m) (ho : o ≠ ~~~0)
    (hex : ∀ v x, b.stores v x → v.owner ≠ ~~~0 → ∃ d, holdsExactly x d) {dir : UInt64}
    (hr : ∀ off, b.hasKey o ⟨dir, 84, off⟩ → b.RangeOK o (KL2 84 dir)) (name : Bytes) (last : Bool)
    (fuel : Nat) (hf : b.length + 1 ≤ fuel) :
    (b.lookupTorn o dir name last ∧ findComp fuel ⟨b, ~~~0⟩ o dir name last = .panic) ∨
    (¬ b.lookupTorn o dir name last ∧
      ((∃ d e, namedBy d e name ∧ (∃ v x, b.stores v x ∧ v.owner = o ∧ v.key.typ = 84 ∧ holdsExactly x d) ∧
          b.lookupMeets o dir name last e ∧ (∀ e', b.lookupMeets o dir name last e' → e'.location = e.location ∧ e'.typ = e.typ) ∧
          findComp fuel ⟨b, ~~~0⟩ o dir name last = .ok (some ⟨d, []⟩)) ∨
        ((∀ e, ¬ b.lookupMeets o dir name last e) ∧ findComp fuel ⟨b, ~~~0⟩ o dir name last = .ok none))) := by
  obtain ⟨rd, its, s1, s2, s3, s4, s5⟩ := seen_dir hb hm ho hex hr
  have hslow : fastDir ⟨b, ~~~0⟩ o dir name = .ok none → findComp fuel ⟨b, ~~~0⟩ o dir name last =
      (foldRange (slowBody name last) none (its.map fun e => (e.2.1, ⟨e.2.2, []⟩)) >>= fun r => .ok r.1) := by
    intro h
    unfold findComp
    rw [h]
    simp only [Go.ok_bind, s1, Go.pure_eq]
    rw [rangeLoop_eq _ s2 fuel none (by rw [List.length_map]; omega)]
  have key : (∀ d, b.nowData o ⟨dir, 84, (NameHash name).toUInt64⟩ d → named d ∧ ∀ e', ¬ namedBy d e' name) →
      fastDir ⟨b, ~~~0⟩ o dir name = .ok none →
      (b.lookupTorn o dir name last ∧ findComp fuel ⟨b, ~~~0⟩ o dir name last = .panic) ∨
      (¬ b.lookupTorn o dir name last ∧
        ((∃ d e, namedBy d e name ∧ (∃ v x, b.stores v x ∧ v.owner = o ∧ v.key.typ = 84 ∧ holdsExactly x d) ∧
            b.lookupMeets o dir name last e ∧ (∀ e', b.lookupMeets o dir name last e' → e'.location = e.location ∧ e'.typ = e.typ) ∧
            findComp fuel ⟨b, ~~~0⟩ o dir name last = .ok (some ⟨d, []⟩)) ∨
          ((∀ e, ¬ b.lookupMeets o dir name last e) ∧ findComp fuel ⟨b, ~~~0⟩ o dir name last = .ok none))) := by
    intro hnow hfast
    rw [hslow hfast]
    rcases foldSlow_cases name last its with ⟨l1, ⟨off, r, d⟩, l2, rfl, k2, k3⟩ | ⟨k1, k2⟩
    · have hlt : ∀ y ∈ l1, y.1 < off := fun y hy => (List.pairwise_append.mp s3).2.2 y hy _ List.mem_cons_self
      have hgt : ∀ y ∈ l2, off < y.1 := fun y hy => (List.pairwise_cons.mp (List.pairwise_append.mp s3).2.1).1 y hy
      have hpos : ∀ off' d', b.seenData o 84 dir off' d' →
          (off' < off ∧ named d' ∧ ∀ e, ¬ wantedBy d' e name last) ∨ (off' = off ∧ d' = d) ∨ off < off' := by
        intro off' d' h
        obtain ⟨r', hm'⟩ := (s5 off' d').mpr h
        rcases List.mem_append.mp hm' with h1 | h1
        · exact Or.inl ⟨hlt _ h1, k2 _ h1⟩
        · rcases List.mem_cons.mp h1 with h1 | h1
          · cases h1; exact Or.inr (Or.inl ⟨rfl, rfl⟩)
          · exact Or.inr (Or.inr (hgt _ h1))
      have hseen : b.seenData o 84 dir off d := (s5 off d).mp ⟨r, by simp⟩
      rcases k3 with ⟨k3, k4⟩ | ⟨e, k3, k4⟩
      · refine Or.inl ⟨Or.inr ⟨fun d' e' h => (hnow d' h).2 e', off, d, hseen, k3, ?_⟩, by rw [k4]; rfl⟩
        intro off' d' e' h hw
        rcases hpos off' d' h with ⟨-, -, h1⟩ | ⟨-, rfl⟩ | h1
        · exact absurd hw (h1 e')
        · exact absurd ⟨e', _, hw.1⟩ k3
        · exact h1
      · refine Or.inr ⟨?_, Or.inl ⟨d, e, k3.1, ?_, ?_, ?_, by rw [k4]; rfl⟩⟩
        · rintro (⟨d', h1, h2⟩ | ⟨-, off', d', h1, h2, h3⟩)
          · exact h2 (hnow d' h1).1
          · have h4 := h3 off d e hseen k3
            rcases hpos off' d' h1 with ⟨-, h5, -⟩ | ⟨-, rfl⟩ | h5
            · exact h2 h5
            · exact h2 ⟨e, _, k3.1⟩
            · rw [UInt64.lt_iff_toNat_lt] at h4 h5; omega
        · obtain ⟨g, x, -, h1, h2⟩ := hseen
          exact ⟨_, x, h1, rfl, rfl, h2⟩
        · refine Or.inr ⟨hnow, off, d, hseen, k3, fun off' d' h hl => ?_⟩
          rcases hpos off' d' h with ⟨-, h5⟩ | ⟨rfl, -⟩ | h5
          · exact h5
          · exact absurd hl (UInt64.lt_irrefl _)
          · rw [UInt64.lt_iff_toNat_lt] at hl h5; omega
        · rintro e' (⟨d', h1, h2⟩ | ⟨-, off', d', h1, h2, h3⟩)
          · exact absurd h2 ((hnow d' h1).2 e')
          · rcases hpos off' d' h1 with ⟨-, -, h5⟩ | ⟨-, rfl⟩ | h5
            · exact absurd h2 (h5 e')
            · exact ⟨(h2.1.unique k3.1).2.1, h2.1.typ k3.1⟩
            · exact absurd k3 ((h3 off d hseen h5).2 e)
    · have hall : ∀ off d, b.seenData o 84 dir off d → named d ∧ ∀ e, ¬ wantedBy d e name last := by
        intro off d h
        obtain ⟨r, hr'⟩ := (s5 off d).mpr h
        exact k1 _ hr'
      refine Or.inr ⟨?_, Or.inr ⟨?_, by rw [k2]; rfl⟩⟩
      · rintro (⟨d', h1, h2⟩ | ⟨-, off', d', h1, h2, h3⟩)
        · exact h2 (hnow d' h1).1
        · exact h2 (hall _ _ h1).1
      · rintro e' (⟨d', h1, h2⟩ | ⟨-, off', d', h1, h2, h3⟩)
        · exact (hnow d' h1).2 e' h2
        · exact (hall _ _ h1).2 e' h2
  have hfd := fastDir_findData (o := o) ⟨b, ~~~0⟩ dir name
  rcases findData_now hb hm ho ⟨dir, 84, (NameHash name).toUInt64⟩ (fun g x h => hex _ x h ho) with ⟨d, h1, h2, h3⟩ | ⟨h1, h2⟩
  · rw [h3] at hfd
    simp only [Go.ok_bind] at hfd
    by_cases hn : named d
    · obtain ⟨e, n, hen⟩ := hn
      rw [hen.name] at hfd
      simp only [Go.ok_bind] at hfd
      by_cases hnn : n = name
      · subst hnn
        rw [if_pos rfl] at hfd
        refine Or.inr ⟨?_, Or.inl ⟨d, e, hen, ?_, Or.inl ⟨d, h1, hen⟩, ?_, ?_⟩⟩
        · rintro (⟨d', k1, k2⟩ | ⟨k1, -⟩)
          · rw [h2 d' k1] at k2; exact k2 ⟨e, n, hen⟩
          · exact k1 d e h1 hen
        · obtain ⟨g, x, -, k1, k2⟩ := h1
          exact ⟨_, x, k1, rfl, rfl, k2⟩
        · rintro e' (⟨d', k1, k2⟩ | ⟨k1, -⟩)
          · rw [h2 d' k1] at k2; exact ⟨(k2.unique hen).2.1, k2.typ hen⟩
          · exact absurd hen ((k1 d h1).2 e)
        · unfold findComp
          rw [hfd]; rfl
      · rw [if_neg hnn] at hfd
        refine key (fun d' hd' => ?_) hfd
        rw [h2 d' hd']
        exact ⟨⟨e, n, hen⟩, fun e' h' => hnn (hen.unique h').1⟩
    · rw [not_named hn] at hfd
      refine Or.inl ⟨Or.inl ⟨d, h1, hn⟩, ?_⟩
      unfold findComp
      rw [hfd]; rfl
  · rw [h2] at hfd
    exact key (fun d hd => absurd hd (h1 d)) hfd

end

/-- All names of a path. -/
theorem findPathLoop_crash {b : Bucket} (hb : b.WF) {m : Bytes} (hm : b.stores metadataVersionKey m)
    (hex : ∀ v x, b.stores v x → v.owner ≠ ~~~0 → ∃ d, holdsExactly x d)
    (hr : ∀ o d off, o ≠ ~~~0 → b.hasKey o ⟨d, 84, off⟩ → b.RangeOK o (KL2 84 d))
    (hsub : ∀ v x d e n, b.stores v x → v.owner ≠ ~~~0 → v.key.typ = 84 → holdsExactly x d → namedBy d e n →
      e.location.typ = 132 → e.location.objectID ≠ ~~~0) (fuel : Nat) (hf : b.length + 1 ≤ fuel) :
    ∀ (rest : List Bytes) (n : Bytes) (o dir : UInt64) (res : Option DirItem), o ≠ ~~~0 →
      (b.lookupCrash o dir (n :: rest) ∧ findPathLoop fuel ⟨b, ~~~0⟩ o dir res (n :: rest) = .panic) ∨
      (¬ b.lookupCrash o dir (n :: rest) ∧
        ((∃ d e nm, namedBy d e nm ∧ b.lookupEnds o dir (n :: rest) e ∧
            (∀ e', b.lookupEnds o dir (n :: rest) e' → e'.location = e.location ∧ e'.typ = e.typ) ∧
            findPathLoop fuel ⟨b, ~~~0⟩ o dir res (n :: rest) = .ok (some ⟨d, []⟩)) ∨
          ((∀ e, ¬ b.lookupEnds o dir (n :: rest) e) ∧ findPathLoop fuel ⟨b, ~~~0⟩ o dir res (n :: rest) = .ok none))) := by
  have hstep : ∀ (rest : List Bytes) (n : Bytes) (o dir : UInt64) (res : Option DirItem) (d : Bytes) (e : DirItemRec), namedBy d e n →
      findComp fuel ⟨b, ~~~0⟩ o dir n rest.isEmpty = .ok (some ⟨d, []⟩) →
      findPathLoop fuel ⟨b, ~~~0⟩ o dir res (n :: rest) =
        findPathLoop fuel ⟨b, ~~~0⟩ (target o e.location).1 (target o e.location).2 (some ⟨d, []⟩) rest := by
    intro rest n o dir res d e h2 h5
    rw [show findPathLoop fuel ⟨b, ~~~0⟩ o dir res (n :: rest) = (findComp fuel ⟨b, ~~~0⟩ o dir n rest.isEmpty >>= fun r =>
      match r with
      | none => pure none
      | some d => DirItem.isSubvolume d >>= fun sv => if !sv then DirItem.location d >>= fun loc =>
            findPathLoop fuel ⟨b, ~~~0⟩ o loc.objectID (some d) rest
          else DirItem.location d >>= fun loc => findPathLoop fuel ⟨b, ~~~0⟩ loc.objectID FirstFreeObjectID (some d) rest) from rfl]
    rw [h5]
    simp only [Go.ok_bind, DirItem.isSubvolume, (h2.fields (t := [])).1, Go.pure_eq]
    unfold target
    by_cases ht : e.location.typ = 132
    · have : (e.location.typ == RootItemKey) = true := beq_iff_eq.mpr ht
      simp only [this, Bool.not_true, Bool.false_eq_true, if_false, if_pos ht, FirstFreeObjectID]
    · have : (e.location.typ == RootItemKey) = false := beq_eq_false_iff_ne.mpr ht
      simp only [this, Bool.not_false, if_true, if_neg ht]
  have hbad : ∀ (rest : List Bytes) (n : Bytes) (o dir : UInt64) (res : Option DirItem),
      findComp fuel ⟨b, ~~~0⟩ o dir n rest.isEmpty = .panic → findPathLoop fuel ⟨b, ~~~0⟩ o dir res (n :: rest) = .panic := by
    intro rest n o dir res h
    unfold findPathLoop
    rw [h]; rfl
  have hnone : ∀ (rest : List Bytes) (n : Bytes) (o dir : UInt64) (res : Option DirItem),
      findComp fuel ⟨b, ~~~0⟩ o dir n rest.isEmpty = .ok none → findPathLoop fuel ⟨b, ~~~0⟩ o dir res (n :: rest) = .ok none := by
    intro rest n o dir res h
    unfold findPathLoop
    rw [h]; rfl
  intro rest
  induction rest with
  | nil =>
    intro n o dir res ho
    rcases findComp_crash hb hm ho hex (hr o dir · ho) n true fuel hf with
      ⟨h1, h2⟩ | ⟨h1, ⟨d, e, h2, -, h3, h4, h5⟩ | ⟨h2, h3⟩⟩
    · exact Or.inl ⟨.here h1, hbad [] n o dir res h2⟩
    · refine Or.inr ⟨?_, Or.inl ⟨d, e, n, h2, .last h3, ?_, by rw [hstep [] n o dir res d e h2 h5]; rfl⟩⟩
      · intro h
        cases h with
        | here h => exact h1 h
        | later _ h => cases h
      · intro e' h
        cases h with
        | last h => exact h4 _ h
    · refine Or.inr ⟨?_, Or.inr ⟨?_, hnone [] n o dir res h3⟩⟩
      · intro h
        cases h with
        | here h => exact h1 h
        | later _ h => cases h
      · intro e' h
        cases h with
        | last h => exact h2 _ h
  | cons n' rest ih =>
    intro n o dir res ho
    rcases findComp_crash hb hm ho hex (hr o dir · ho) n false fuel hf with
      ⟨h1, h2⟩ | ⟨h1, ⟨d, e, h2, ⟨v, x, q1, q2, q3, q4⟩, h3, h4, h5⟩ | ⟨h2, h3⟩⟩
    · exact Or.inl ⟨.here h1, hbad (n' :: rest) n o dir res h2⟩
    · have hto : (target o e.location).1 ≠ ~~~0 := by
        unfold target
        by_cases ht : e.location.typ = 132
        · rw [if_pos ht]; exact hsub v x d e n q1 (by rw [q2]; exact ho) q3 q4 h2 ht
        · rw [if_neg ht]; exact ho
      rw [hstep (n' :: rest) n o dir res d e h2 h5]
      rcases ih n' _ (target o e.location).2 (some ⟨d, []⟩) hto with ⟨k1, k2⟩ | ⟨k1, ⟨d', e', nm, k2, k3, k4, k5⟩ | ⟨k2, k3⟩⟩
      · exact Or.inl ⟨.later h3 k1, k2⟩
      · refine Or.inr ⟨?_, Or.inl ⟨d', e', nm, k2, .step h3 k3, ?_, k5⟩⟩
        · intro h
          cases h with
          | here h => exact h1 h
          | later h h' => rw [(h4 _ h).1] at h'; exact k1 h'
        · intro e'' h
          cases h with
          | step h h' => rw [(h4 _ h).1] at h'; exact k4 _ h'
      · refine Or.inr ⟨?_, Or.inr ⟨?_, k3⟩⟩
        · intro h
          cases h with
          | here h => exact h1 h
          | later h h' => rw [(h4 _ h).1] at h'; exact k1 h'
        · intro e'' h
          cases h with
          | step h h' => rw [(h4 _ h).1] at h'; exact k2 _ h'
    · refine Or.inr ⟨?_, Or.inr ⟨?_, hnone (n' :: rest) n o dir res h3⟩⟩
      · intro h
        cases h with
        | here h => exact h1 h
        | later h _ => exact h2 _ h
      · intro e' h
        cases h with
        | step h _ => exact h2 _ h

/-- C117, exactly, for a path lookup: it crashes if and only if, name by name, it gets to an entry that ends before its name does;
whatever the items contain otherwise, it returns. -/
theorem C117_lookup_crash_iff (b : Bucket) (hb : b.WF) (m : Bytes) (hm : b.stores metadataVersionKey m)
    (hex : ∀ v x, b.stores v x → v.owner ≠ ~~~0 → ∃ d, holdsExactly x d)
    (hr : ∀ o d off, o ≠ ~~~0 → b.hasKey o ⟨d, 84, off⟩ → b.RangeOK o (KL2 84 d))
    (hsub : ∀ v x d e n, b.stores v x → v.owner ≠ ~~~0 → v.key.typ = 84 → holdsExactly x d → namedBy d e n →
      e.location.typ = 132 → e.location.objectID ≠ ~~~0) :
    ∃ N, ∀ fuel, N ≤ fuel → ∀ o, o ≠ ~~~0 → ∀ path,
      ((Ix.mk b (~~~0)).findDirItemForPath fuel o path = .panic ↔ b.lookupCrash o 256 (pathComps path)) ∧
      (Ix.mk b (~~~0)).findDirItemForPath fuel o path ≠ .hang := by
  refine ⟨b.length + 1, fun fuel hf o ho path => ?_⟩
  unfold Ix.findDirItemForPath
  rw [show FirstFreeObjectID = 256 from rfl]
  cases pathComps path with
  | nil => exact ⟨⟨fun h => (by cases h), fun h => (by cases h)⟩, fun h => (by cases h)⟩
  | cons n rest =>
    rcases findPathLoop_crash hb hm hex hr hsub fuel hf rest n o 256 none ho with ⟨h1, h2⟩ | ⟨h1, ⟨_, _, _, -, -, -, h2⟩ | ⟨-, h2⟩⟩
    · rw [h2]; exact ⟨⟨fun _ => h1, fun _ => rfl⟩, fun h => (by cases h)⟩
    · rw [h2]; exact ⟨⟨fun h => (by cases h), fun h => absurd h h1⟩, fun h => (by cases h)⟩
    · rw [h2]; exact ⟨⟨fun h => (by cases h), fun h => absurd h h1⟩, fun h => (by cases h)⟩

/-- An argument leads to one directory at most. -/
theorem lsTarget_unique {b : Bucket} (hb : b.WF) {m : Bytes} (hm : b.stores metadataVersionKey m)
    (hex : ∀ v x, b.stores v x → v.owner ≠ ~~~0 → ∃ d, holdsExactly x d)
    (hr : ∀ o d off, o ≠ ~~~0 → b.hasKey o ⟨d, 84, off⟩ → b.RangeOK o (KL2 84 d))
    (hsub : ∀ v x d e n, b.stores v x → v.owner ≠ ~~~0 → v.key.typ = 84 → holdsExactly x d → namedBy d e n →
      e.location.typ = 132 → e.location.objectID ≠ ~~~0) {p : Bytes} (hc : goClean p = [47] ∨ ¬ b.lookupCrash 5 256 (pathComps (goClean p)))
    {d d' : UInt64} (h : b.lsTarget p d) (h' : b.lsTarget p d') : d = d' := by
  rcases h with ⟨h1, rfl⟩ | ⟨h1, e, h2, -, rfl⟩
  · rcases h' with ⟨-, rfl⟩ | ⟨h1', -⟩
    · rfl
    · exact absurd h1 h1'
  · rcases h' with ⟨h1', -⟩ | ⟨-, e', h2', -, rfl⟩
    · exact absurd h1' h1
    have hc := hc.resolve_left h1
    revert h2 h2' hc
    cases pathComps (goClean p) with
    | nil => intro h; cases h
    | cons n rest =>
      intro h2 h2' hc
      rcases findPathLoop_crash hb hm hex hr hsub _ (Nat.le_refl _) rest n 5 256 none (by decide) with
        ⟨k1, -⟩ | ⟨-, ⟨d, e0, nm, -, -, k4, -⟩ | ⟨k2, -⟩⟩
      · exact absurd k1 hc
      · rw [(k4 _ h2).1, (k4 _ h2').1]
      · exact absurd h2 (k2 _)

/-- An argument of `ls`. -/
theorem lsArg_crash {b : Bucket} (hb : b.WF) {m : Bytes} (hm : b.stores metadataVersionKey m)
    (hex : ∀ v x, b.stores v x → v.owner ≠ ~~~0 → ∃ d, holdsExactly x d)
    (hr : ∀ o d off, o ≠ ~~~0 → b.hasKey o ⟨d, 84, off⟩ → b.RangeOK o (KL2 84 d))
    (hsub : ∀ v x d e n, b.stores v x → v.owner ≠ ~~~0 → v.key.typ = 84 → holdsExactly x d → namedBy d e n →
      e.location.typ = 132 → e.location.objectID ≠ ~~~0) (bad : UInt64 → Prop)
    (rf : Nat) (hrf : b.length + 1 ≤ rf) (ft : Time → Bytes) (opt : LsOptions) (s : LsArgs) (p : Bytes) :
    ∃ A : Prop, ∃ extra : List (UInt64 × UInt64), (∀ t ∈ extra, t.1 = 5 ∧ b.lsTarget p t.2 ∧
        (goClean p = [47] ∨ ¬ b.lookupCrash 5 256 (pathComps (goClean p)))) ∧
      (b.lsArgBad bad p ↔ A ∨ ∃ t ∈ extra, bad t.2) ∧
      ((A ∧ lsArg rf ft ⟨b, ~~~0⟩ opt s p = .panic) ∨
        (¬ A ∧ ∃ s', lsArg rf ft ⟨b, ~~~0⟩ opt s p = .ok s' ∧ s'.todo = s.todo ++ extra)) := by
  have hex5 : ∀ v x, b.stores v x → v.owner = 5 → ∃ d, holdsExactly x d := fun v x h1 h2 => hex v x h1 (by rw [h2]; decide)
  unfold lsArg Bucket.lsArgBad Bucket.lsTarget
  simp only
  by_cases hroot : goClean p = [47]
  · rw [if_pos hroot]
    exact ⟨False, [(5, 256)], by simp [hroot], by simp [hroot], Or.inr ⟨id, _, rfl, rfl⟩⟩
  · rw [if_neg hroot]
    unfold Ix.findDirItemForPath
    rw [show FirstFreeObjectID = 256 from rfl, show FSTreeObjectID = (5 : UInt64) from rfl]
    cases pathComps (goClean p) with
    | nil =>
      refine ⟨False, [], by simp, ?_, Or.inr ⟨id, _, rfl, by simp⟩⟩
      constructor
      · rintro (⟨d, ⟨h, -⟩ | ⟨-, e, h, -⟩, -⟩ | ⟨-, h | ⟨e, h, -⟩⟩)
        · exact absurd h hroot
        · cases h
        · cases h
        · cases h
      · rintro (h | ⟨t, h, -⟩)
        · exact h.elim
        · cases h
    | cons n rest =>
      rcases findPathLoop_crash hb hm hex hr hsub rf hrf rest n 5 256 none (by decide) with
        ⟨h1, h2⟩ | ⟨h1, ⟨d, e, nm, h2, h3, h4, h5⟩ | ⟨h2, h3⟩⟩
      · rw [h2]
        exact ⟨True, [], by simp, ⟨fun _ => Or.inl trivial, fun _ => Or.inr ⟨hroot, Or.inl h1⟩⟩, Or.inl ⟨trivial, rfl⟩⟩
      · rw [h5]
        simp only [Go.ok_bind, h2.isDir]
        by_cases ht : e.typ = 2
        · have : (e.typ == 2) = true := beq_iff_eq.mpr ht
          simp only [this, Bool.not_true, Bool.false_eq_true, if_false, (h2.fields (t := [])).1, Go.ok_bind, Go.pure_eq]
          have htar : (goClean p = [47] ∧ e.location.objectID = 256) ∨ (goClean p ≠ [47] ∧
              ∃ e', b.lookupEnds 5 256 (n :: rest) e' ∧ e'.typ = 2 ∧ e'.location.objectID = e.location.objectID) :=
            Or.inr ⟨hroot, e, h3, ht, rfl⟩
          refine ⟨False, [(5, e.location.objectID)], ?_, ?_, Or.inr ⟨id, _, rfl, rfl⟩⟩
          · intro t h
            rw [List.mem_singleton] at h
            subst h
            exact ⟨rfl, htar, Or.inr h1⟩
          constructor
          · rintro (⟨d, ⟨h, -⟩ | ⟨-, e', h, -, rfl⟩, h'⟩ | ⟨-, h | ⟨e', h, h', -⟩⟩)
            · exact absurd h hroot
            · rw [(h4 _ h).1] at h'; exact Or.inr ⟨_, List.mem_cons_self, h'⟩
            · exact absurd h h1
            · rw [(h4 _ h).2] at h'; exact absurd ht h'
          · rintro (h | ⟨t, h, h'⟩)
            · exact h.elim
            · rw [List.mem_singleton] at h
              subst h
              exact Or.inl ⟨_, htar, h'⟩
        · have : (e.typ == 2) = false := beq_eq_false_iff_ne.mpr ht
          simp only [this, Bool.not_false, if_true]
          refine ⟨b.lsTorn 5 e.location.objectID, [], by simp, ?_, ?_⟩
          · constructor
            · rintro (⟨d, ⟨h, -⟩ | ⟨-, e', h, h', -⟩, -⟩ | ⟨-, h | ⟨e', h, -, h'⟩⟩)
              · exact absurd h hroot
              · rw [(h4 _ h).2] at h'; exact absurd h' ht
              · exact absurd h h1
              · rw [(h4 _ h).1] at h'; exact Or.inl h'
            · rintro (h | ⟨t, h, -⟩)
              · exact Or.inr ⟨hroot, Or.inr ⟨e, h3, ht, h⟩⟩
              · cases h
          · rcases line_crash hb hm (by decide : (5 : UInt64) ≠ ~~~0) hex5 ft opt.inode h2 with ⟨k1, k2⟩ | ⟨k1, l, k2⟩
            · rw [k2]; exact Or.inl ⟨k1, rfl⟩
            · rw [k2]; exact Or.inr ⟨k1, _, rfl, by simp⟩
      · rw [h3]
        refine ⟨False, [], by simp, ?_, Or.inr ⟨id, _, rfl, by simp⟩⟩
        constructor
        · rintro (⟨d, ⟨h, -⟩ | ⟨-, e, h, -⟩, -⟩ | ⟨-, h | ⟨e, h, -⟩⟩)
          · exact absurd h hroot
          · exact absurd h (h2 e)
          · exact absurd h h1
          · exact absurd h (h2 e)
        · rintro (h | ⟨t, h, -⟩)
          · exact h.elim
          · cases h

/-- The whole command, given how listing one directory ends. -/
theorem doListFiles_crash {b : Bucket} (hb : b.WF) {m : Bytes} (hm : b.stores metadataVersionKey m)
    (hex : ∀ v x, b.stores v x → v.owner ≠ ~~~0 → ∃ d, holdsExactly x d)
    (hr : ∀ o d off, o ≠ ~~~0 → b.hasKey o ⟨d, 84, off⟩ → b.RangeOK o (KL2 84 d))
    (hsub : ∀ v x d e n, b.stores v x → v.owner ≠ ~~~0 → v.key.typ = 84 → holdsExactly x d → namedBy d e n →
      e.location.typ = 132 → e.location.objectID ≠ ~~~0) (bad : UInt64 → Prop)
    (rf : Nat) (hrf : b.length + 1 ≤ rf) (fuel : Nat) (srt : Sorter) (ft : Time → Bytes) (opt : LsOptions) (args : List Bytes)
    (hargs : args ≠ []) (hlist : ∀ p ∈ args, ∀ d, b.lsTarget p d → (goClean p = [47] ∨ ¬ b.lookupCrash 5 256 (pathComps (goClean p))) →
      (listDirectory rf srt ft ⟨b, ~~~0⟩ 5 opt.inode fuel d opt.recursive).CrashIff (bad d)) :
    (doListFiles rf fuel srt ft ⟨b, ~~~0⟩ opt args).CrashIff (∃ p ∈ args, b.lsArgBad bad p) := by
  have harg := lsArg_crash hb hm hex hr hsub bad rf hrf ft opt
  have hargs' : ∀ (args : List Bytes) (s : LsArgs), ∃ A : Prop, ∃ extra : List (UInt64 × UInt64),
      (∀ t ∈ extra, t.1 = 5 ∧ ∃ p ∈ args, b.lsTarget p t.2 ∧ (goClean p = [47] ∨ ¬ b.lookupCrash 5 256 (pathComps (goClean p)))) ∧
      ((∃ p ∈ args, b.lsArgBad bad p) ↔ A ∨ ∃ t ∈ extra, bad t.2) ∧
      ((A ∧ lsArgsLoop rf ft ⟨b, ~~~0⟩ opt s args = .panic) ∨
        (¬ A ∧ ∃ s', lsArgsLoop rf ft ⟨b, ~~~0⟩ opt s args = .ok s' ∧ s'.todo = s.todo ++ extra)) := by
    intro args
    induction args with
    | nil => intro s; exact ⟨False, [], by simp, by simp, Or.inr ⟨id, s, rfl, by simp⟩⟩
    | cons p args ih =>
      intro s
      obtain ⟨A, ex, h1, h2, h3⟩ := harg s p
      simp only [lsArgsLoop]
      rcases h3 with ⟨h3, h4⟩ | ⟨h3, s', h4, h5⟩
      · rw [h4]
        exact ⟨True, [], by simp, ⟨fun _ => Or.inl trivial, fun _ => ⟨p, List.mem_cons_self, h2.mpr (Or.inl h3)⟩⟩, Or.inl ⟨trivial, rfl⟩⟩
      · rw [h4]
        simp only [Go.ok_bind]
        obtain ⟨A', ex', k1, k2, k3⟩ := ih s'
        refine ⟨A', ex ++ ex', ?_, ?_, ?_⟩
        · intro t ht
          rcases List.mem_append.mp ht with ht | ht
          · exact ⟨(h1 t ht).1, p, List.mem_cons_self, (h1 t ht).2⟩
          · obtain ⟨a1, q, a2, a3⟩ := k1 t ht
            exact ⟨a1, q, List.mem_cons_of_mem _ a2, a3⟩
        · constructor
          · rintro ⟨q, hq, hbq⟩
            rcases List.mem_cons.mp hq with rfl | hq
            · rcases h2.mp hbq with h | ⟨t, h, h'⟩
              · exact absurd h h3
              · exact Or.inr ⟨t, List.mem_append_left _ h, h'⟩
            · rcases k2.mp ⟨q, hq, hbq⟩ with h | ⟨t, h, h'⟩
              · exact Or.inl h
              · exact Or.inr ⟨t, List.mem_append_right _ h, h'⟩
          · rintro (h | ⟨t, h, h'⟩)
            · obtain ⟨q, hq, hbq⟩ := k2.mpr (Or.inl h)
              exact ⟨q, List.mem_cons_of_mem _ hq, hbq⟩
            · rcases List.mem_append.mp h with h | h
              · exact ⟨p, List.mem_cons_self, h2.mpr (Or.inr ⟨t, h, h'⟩)⟩
              · obtain ⟨q, hq, hbq⟩ := k2.mpr (Or.inr ⟨t, h, h'⟩)
                exact ⟨q, List.mem_cons_of_mem _ hq, hbq⟩
        · rcases k3 with k3 | ⟨k3, s2, k4, k5⟩
          · exact Or.inl k3
          · exact Or.inr ⟨k3, s2, k4, by rw [k5, h5, List.append_assoc]⟩
  have htodo : ∀ ts : List (UInt64 × UInt64), (∀ t ∈ ts, t.1 = 5 ∧ ∃ p ∈ args, b.lsTarget p t.2 ∧
        (goClean p = [47] ∨ ¬ b.lookupCrash 5 256 (pathComps (goClean p)))) →
      (lsTodoLoop rf fuel srt ft ⟨b, ~~~0⟩ opt ts).CrashIff (∃ t ∈ ts, bad t.2) := by
    intro ts
    induction ts with
    | nil => intro _; exact Or.inr ⟨by simp, _, rfl⟩
    | cons t ts ih =>
      intro h5
      obtain ⟨o, d⟩ := t
      obtain ⟨ho, p, hp, h6, h7⟩ := h5 _ List.mem_cons_self
      simp only at ho
      subst ho
      simp only [lsTodoLoop]
      refine ((hlist p hp d h6 h7).bind fun a _ => (ih fun t ht => h5 t (List.mem_cons_of_mem _ ht)).then fun c _ => ⟨_, rfl⟩).of ?_
      simp
  obtain ⟨A, extra, h1, h2, h3⟩ := hargs' args {}
  have hemp : args.isEmpty = false := by
    cases args with
    | nil => exact absurd rfl hargs
    | cons _ _ => rfl
  unfold doListFiles
  rw [hemp]
  simp only [Bool.false_eq_true, if_false]
  rcases h3 with ⟨h3, h4⟩ | ⟨h3, s', h4, h5⟩
  · rw [h4]
    exact Or.inl ⟨h2.mpr (Or.inl h3), rfl⟩
  · rw [h4]
    simp only [Go.ok_bind]
    have : s'.todo = extra := by rw [h5]; rfl
    rw [this]
    refine ((htodo extra h1).then fun c _ => ⟨_, rfl⟩).of ?_
    rw [h2]
    exact ⟨Or.inr, fun h => h.resolve_left h3⟩

theorem Go.CrashIff.iff {α : Type} {x : Go α} {P : Prop} (h : x.CrashIff P) : (x = .panic ↔ P) ∧ x ≠ .hang := by
  rcases h with ⟨k1, k2⟩ | ⟨k1, a, k2⟩
  · rw [k2]; exact ⟨⟨fun _ => k1, fun _ => rfl⟩, fun h => (by cases h)⟩
  · rw [k2]; exact ⟨⟨fun h => (by cases h), fun h => absurd h k1⟩, fun h => (by cases h)⟩

/-- C117 for the whole command, without `--recursive`: `ls` crashes exactly because of one of its arguments; the others do not
matter. -/
theorem C117_ls_paths_crash_iff (b : Bucket) (hb : b.WF) (m : Bytes) (hm : b.stores metadataVersionKey m)
    (hex : ∀ v x, b.stores v x → v.owner ≠ ~~~0 → ∃ d, holdsExactly x d)
    (hr : ∀ o d off, o ≠ ~~~0 → b.hasKey o ⟨d, 84, off⟩ → b.RangeOK o (KL2 84 d)) (hr5 : ∀ d, b.RangeOK 5 (KL2 84 d))
    (hsub : ∀ v x d e n, b.stores v x → v.owner ≠ ~~~0 → v.key.typ = 84 → holdsExactly x d → namedBy d e n →
      e.location.typ = 132 → e.location.objectID ≠ ~~~0) :
    ∃ N, ∀ rf, N ≤ rf → ∀ fuel, N ≤ fuel → ∀ srt, SortOK srt → ∀ ft si args, args ≠ [] →
      (doListFiles rf fuel srt ft ⟨b, ~~~0⟩ ⟨false, si⟩ args = .panic ↔ ∃ p ∈ args, b.lsArgBad (b.lsBad 5) p) ∧
      doListFiles rf fuel srt ft ⟨b, ~~~0⟩ ⟨false, si⟩ args ≠ .hang := by
  refine ⟨b.length + 1, fun rf hrf fuel hfuel srt hsrt ft si args hargs => ?_⟩
  refine (doListFiles_crash hb hm hex hr hsub (b.lsBad 5) rf hrf fuel srt ft ⟨false, si⟩ args hargs fun _ _ d _ _ => ?_).iff
  obtain ⟨ds, -, hlen, hstep⟩ := listDirectory_crash hb hm (hr5 d) fun v x h1 h2 => hex v x h1 (by rw [h2]; decide)
  obtain ⟨f, rfl⟩ : ∃ f, fuel = f + 1 := ⟨fuel - 1, by omega⟩
  rcases hstep rf (by omega) srt hsrt ft si f false with h | ⟨h1, out, todo, h2, h3⟩
  · exact Or.inl h
  · have : todo = [] := by
      cases todo with
      | nil => rfl
      | cons x r => exact absurd ((h2 x).mp List.mem_cons_self).1 (by decide)
    subst this
    exact Or.inr ⟨h1, _, h3⟩

/-- C117 for the whole command, with `--recursive`, where one cannot go down for ever from the directories that the arguments lead
to: it crashes exactly because of one of the arguments, or of an entry somewhere below it. -/
theorem C117_ls_recursive_paths_crash_iff (b : Bucket) (hb : b.WF) (m : Bytes) (hm : b.stores metadataVersionKey m)
    (hex : ∀ v x, b.stores v x → v.owner ≠ ~~~0 → ∃ d, holdsExactly x d)
    (hr : ∀ o d off, o ≠ ~~~0 → b.hasKey o ⟨d, 84, off⟩ → b.RangeOK o (KL2 84 d)) (hr5 : ∀ d, b.RangeOK 5 (KL2 84 d))
    (hsub : ∀ v x d e n, b.stores v x → v.owner ≠ ~~~0 → v.key.typ = 84 → holdsExactly x d → namedBy d e n →
      e.location.typ = 132 → e.location.objectID ≠ ~~~0)
    (args : List Bytes) (hargs : args ≠ []) (hacc : ∀ p ∈ args, ∀ d, b.lsTarget p d → Acc (b.lsChild 5) d) :
    ∃ N, ∀ rf, N ≤ rf → ∀ fuel, N ≤ fuel → ∀ srt, SortOK srt → ∀ ft si,
      (doListFiles rf fuel srt ft ⟨b, ~~~0⟩ ⟨true, si⟩ args = .panic ↔
        ∃ p ∈ args, b.lsArgBad (fun d => ∃ d', b.lsBelow 5 d' d ∧ b.lsBad 5 d') p) ∧
      doListFiles rf fuel srt ft ⟨b, ~~~0⟩ ⟨true, si⟩ args ≠ .hang := by
  have hex5 : ∀ v x, b.stores v x → v.owner = 5 → ∃ d, holdsExactly x d := fun v x h1 h2 => hex v x h1 (by rw [h2]; decide)
  have key : ∀ as : List Bytes, (∀ p ∈ as, p ∈ args) → ∃ N, ∀ p ∈ as, ∀ d, b.lsTarget p d →
      (goClean p = [47] ∨ ¬ b.lookupCrash 5 256 (pathComps (goClean p))) → ∀ rf, N ≤ rf → ∀ fuel, N ≤ fuel → ∀ srt, SortOK srt →
      ∀ ft si, (listDirectory rf srt ft ⟨b, ~~~0⟩ 5 si fuel d true = .panic ↔ ∃ d', b.lsBelow 5 d' d ∧ b.lsBad 5 d') ∧
        listDirectory rf srt ft ⟨b, ~~~0⟩ 5 si fuel d true ≠ .hang := by
    intro as
    induction as with
    | nil => intro _; exact ⟨0, fun p hp => by cases hp⟩
    | cons p as ih =>
      intro hin
      obtain ⟨N, hN⟩ := ih fun q hq => hin q (List.mem_cons_of_mem _ hq)
      by_cases hd : ∃ d, b.lsTarget p d ∧ (goClean p = [47] ∨ ¬ b.lookupCrash 5 256 (pathComps (goClean p)))
      · obtain ⟨d, h1, h2⟩ := hd
        obtain ⟨M, hM⟩ := C117_recursive_crash_iff b hb m hm 5 d hr5 hex5 (hacc p (hin p List.mem_cons_self) d h1)
        refine ⟨max N M, fun q hq d' hd' hc rf hrf fuel hf => ?_⟩
        rcases List.mem_cons.mp hq with rfl | hq
        · obtain rfl := lsTarget_unique hb hm hex hr hsub h2 h1 hd'
          exact hM rf (by omega) fuel (by omega)
        · exact hN q hq d' hd' hc rf (by omega) fuel (by omega)
      · refine ⟨N, fun q hq d' hd' hc => ?_⟩
        rcases List.mem_cons.mp hq with rfl | hq
        · exact absurd ⟨d', hd', hc⟩ hd
        · exact hN q hq d' hd' hc
  obtain ⟨N, hN⟩ := key args fun _ h => h
  refine ⟨max N (b.length + 1), fun rf hrf fuel hfuel srt hsrt ft si => ?_⟩
  refine (doListFiles_crash hb hm hex hr hsub _ rf (by omega) fuel srt ft ⟨true, si⟩ args hargs fun p hp d hd hc => ?_).iff
  obtain ⟨h1, h2⟩ := hN p hp d hd hc rf (by omega) fuel (by omega) srt hsrt ft si
  show (listDirectory rf srt ft ⟨b, ~~~0⟩ 5 si fuel d true).CrashIff _
  cases hx : listDirectory rf srt ft ⟨b, ~~~0⟩ 5 si fuel d true with
  | ok r => exact Or.inr ⟨fun h => (by rw [hx] at h1; cases h1.mpr h), r, rfl⟩
  | panic => exact Or.inl ⟨h1.mp hx, rfl⟩
  | hang => exact absurd hx h2

theorem exTornDir_seen_a : exTornDir.enc.seenData 5 84 256 1 (exEntry ⟨257, 1, 0⟩ 1 [97]) := by
  obtain ⟨g, x, h1, h2, h3⟩ := exTornDir_seen
  have hg : ∀ e ∈ exTornDir, e.1.owner = 5 → e.1.gen = 10 := by decide +kernel
  have : g = 10 := hg _ (enc_stores.mp h2) rfl
  subst this
  refine ⟨10, mkItem ⟨256, 84, 1⟩ (exEntry ⟨257, 1, 0⟩ 1 [97]), ⟨h1.1, fun off' hk _ => ?_⟩,
    enc_stores.mpr (by simp only [exTornDir, List.mem_cons, true_or, or_true]), mkItem_exactly _ _ (by decide +kernel)⟩
  obtain ⟨g, y, hy⟩ := enc_hasKey.mp hk
  have := hg _ hy rfl
  simp only at this
  subst this
  exact enc_hasVersion.mpr ⟨y, hy⟩

theorem exTornDir_named : namedBy (exEntry ⟨257, 1, 0⟩ 1 [97]) ⟨⟨257, 1, 0⟩, 7, 0, 1, 1⟩ [97] :=
  ⟨[], by decide +kernel, by decide +kernel⟩

theorem exTornDir_entry {off : UInt64} {x d : Bytes} {g : UInt64} (h : exTornDir.enc.stores ⟨5, ⟨256, 84, off⟩, g⟩ x)
    (hd : holdsExactly x d) : (off = 1 ∧ d = exEntry ⟨257, 1, 0⟩ 1 [97]) ∨ (off = 2 ∧ d = [9, 9]) := by
  rcases exTornDir_items _ (enc_stores.mp h) rfl rfl with h' | h'
  · simp only [Prod.mk.injEq, VKey.mk.injEq, Key.mk.injEq] at h'
    obtain ⟨⟨-, ⟨-, -, rfl⟩, rfl⟩, rfl⟩ := h'
    exact Or.inl ⟨rfl, hd.holds.unique (mkItem_exactly _ (exEntry ⟨257, 1, 0⟩ 1 [97]) (by decide +kernel)).holds⟩
  · simp only [Prod.mk.injEq, VKey.mk.injEq, Key.mk.injEq] at h'
    obtain ⟨⟨-, ⟨-, -, rfl⟩, rfl⟩, rfl⟩ := h'
    exact Or.inr ⟨rfl, hd.holds.unique (mkItem_exactly _ [9, 9] (by decide)).holds⟩

theorem exTornDir_ranges (o d off : UInt64) (_ : o ≠ ~~~0) (hk : exTornDir.enc.hasKey o ⟨d, 84, off⟩) :
    exTornDir.enc.RangeOK o (KL2 84 d) := by
  obtain ⟨g, x, hx⟩ := enc_hasKey.mp hk
  have : o = 5 := (by decide +kernel : ∀ e ∈ exTornDir, e.1.key.typ = 84 → e.1.owner = 5) _ hx rfl
  subst this
  exact exTornDir_all d

theorem exTornDir_sub (v : VKey) (x d : Bytes) (e : DirItemRec) (n : Bytes) (hv : exTornDir.enc.stores v x) (ho : v.owner ≠ ~~~0)
    (ht : v.key.typ = 84) (hd : holdsExactly x d) (hn : namedBy d e n) (hloc : e.location.typ = 132) : e.location.objectID ≠ ~~~0 := by
  obtain ⟨o, ⟨i, t, off⟩, g⟩ := v
  simp only at ht
  subst ht
  obtain ⟨h1, h2⟩ := (by decide +kernel : ∀ e ∈ exTornDir, e.1.key.typ = 84 → e.1.owner = 5 ∧ e.1.key.objectID = 256) _
    (enc_stores.mp hv) rfl
  simp only at h1 h2
  subst h1; subst h2
  rcases exTornDir_entry hv hd with ⟨rfl, rfl⟩ | ⟨rfl, rfl⟩
  · rw [(hn.unique exTornDir_named).2.1] at hloc
    exact absurd hloc (by decide)
  · exact absurd ⟨e, n, hn⟩ short_not_named

theorem exTornDir_unhashed (nm : Bytes) (h1 : NameHash nm ≠ 1) (h2 : NameHash nm ≠ 2) (d : Bytes) :
    ¬ exTornDir.enc.nowData 5 ⟨256, 84, (NameHash nm).toUInt64⟩ d := by
  rintro ⟨g, x, -, k1, k2⟩
  rcases exTornDir_entry k1 k2 with ⟨h3, -⟩ | ⟨h3, -⟩
  · refine h1 ?_
    rw [← UInt32.toNat_inj]
    rw [← UInt64.toNat_inj] at h3
    simpa using h3
  · refine h2 ?_
    rw [← UInt32.toNat_inj]
    rw [← UInt64.toNat_inj] at h3
    simpa using h3

theorem exTornDir_b : exTornDir.enc.lookupCrash 5 256 [[98]] := by
  refine .here (Or.inr ⟨fun d _ hd => absurd hd (exTornDir_unhashed _ (by decide +kernel) (by decide +kernel) d), 2, _,
    exTornDir_seen, short_not_named, ?_⟩)
  rintro off' d' e ⟨g, x, -, k1, k2⟩ hw
  rcases exTornDir_entry k1 k2 with ⟨rfl, rfl⟩ | ⟨rfl, rfl⟩
  · exact absurd (hw.1.unique exTornDir_named).1 (by decide)
  · exact absurd ⟨_, _, hw.1⟩ short_not_named

theorem exTornDir_a : ¬ exTornDir.enc.lookupCrash 5 256 [[97]] := by
  intro this
  cases this with
  | here ht =>
    rcases ht with ⟨d, hd, -⟩ | ⟨-, off, d, ⟨g, x, -, k1, k2⟩, k3, k4⟩
    · exact exTornDir_unhashed _ (by decide +kernel) (by decide +kernel) d hd
    · rcases exTornDir_entry k1 k2 with ⟨rfl, rfl⟩ | ⟨rfl, rfl⟩
      · exact k3 ⟨_, _, exTornDir_named⟩
      · exact absurd (k4 1 _ _ exTornDir_seen_a ⟨exTornDir_named, Or.inl rfl⟩) (by decide)
  | later _ h' => cases h'

/-- In the store of `C117_one_torn_entry_refuted`, looking up "/b" crashes, and looking up "/a" does not: iterating gets to its
entry before it gets to the one that is cut off. -/
theorem C117_lookup_order : ∃ N, ∀ fuel, N ≤ fuel →
    (Ix.mk exTornDir.enc (~~~0)).findDirItemForPath fuel 5 [47, 98] = .panic ∧
    (Ix.mk exTornDir.enc (~~~0)).findDirItemForPath fuel 5 [47, 97] ≠ .panic := by
  obtain ⟨N, h⟩ := C117_lookup_crash_iff exTornDir.enc (AStore.enc_wf exTornDir_sorted) [] (enc_stores.mpr (by simp [exTornDir]))
    (fun v x hv ho => exTornDir_exact _ (enc_stores.mp hv) ho) exTornDir_ranges exTornDir_sub
  refine ⟨N, fun fuel hf => ⟨(h fuel hf 5 (by decide) _).1.mpr ?_, fun hp => ?_⟩⟩
  · rw [show pathComps [47, 98] = [[98]] by decide]
    exact exTornDir_b
  · have := (h fuel hf 5 (by decide) _).1.mp hp
    rw [show pathComps [47, 97] = [[97]] by decide] at this
    exact exTornDir_a this

/-- There, `ls /a` returns, and `ls /a /b` crashes. -/
theorem C117_ls_order : ∃ N, ∀ rf, N ≤ rf → ∀ fuel, N ≤ fuel → ∀ srt, SortOK srt → ∀ ft si,
    doListFiles rf fuel srt ft ⟨exTornDir.enc, ~~~0⟩ ⟨false, si⟩ [[47, 97], [47, 98]] = .panic ∧
    ∃ r, doListFiles rf fuel srt ft ⟨exTornDir.enc, ~~~0⟩ ⟨false, si⟩ [[47, 97]] = .ok r := by
  obtain ⟨N, h⟩ := C117_ls_paths_crash_iff exTornDir.enc (AStore.enc_wf exTornDir_sorted) [] (enc_stores.mpr (by simp [exTornDir]))
    (fun v x hv ho => exTornDir_exact _ (enc_stores.mp hv) ho) exTornDir_ranges exTornDir_all exTornDir_sub
  have hcl : ∀ c, c = 97 ∨ c = 98 → goClean [47, c] = [47, c] ∧ pathComps [47, c] = [[c]] := by
    rintro c (rfl | rfl) <;> decide
  refine ⟨N, fun rf hrf fuel hf srt hsrt ft si => ⟨(h rf hrf fuel hf srt hsrt ft si _ (by simp)).1.mpr ⟨[47, 98], by simp, ?_⟩, ?_⟩⟩
  · refine Or.inr ⟨by rw [(hcl 98 (Or.inr rfl)).1]; decide, Or.inl ?_⟩
    rw [(hcl 98 (Or.inr rfl)).1, (hcl 98 (Or.inr rfl)).2]
    exact exTornDir_b
  · obtain ⟨h1, h2⟩ := h rf hrf fuel hf srt hsrt ft si [[47, 97]] (by simp)
    cases hx : doListFiles rf fuel srt ft ⟨exTornDir.enc, ~~~0⟩ ⟨false, si⟩ [[47, 97]] with
    | ok r => exact ⟨r, rfl⟩
    | hang => exact absurd hx h2
    | panic =>
      exfalso
      obtain ⟨p, hp, hbad⟩ := h1.mp hx
      rw [List.mem_singleton] at hp
      subst hp
      unfold Bucket.lsArgBad Bucket.lsTarget at hbad
      rw [(hcl 97 (Or.inl rfl)).1, (hcl 97 (Or.inl rfl)).2] at hbad
      have hend : ∀ e, exTornDir.enc.lookupEnds 5 256 [[97]] e → e.typ = 1 := by
        intro e h
        cases h with
        | last hmeet =>
          have hn : ∃ off d, exTornDir.enc.seenData 5 84 256 off d ∧ namedBy d e [97] := by
            rcases hmeet with ⟨d, hd, -⟩ | ⟨-, off, d, k1, k2, -⟩
            · exact absurd hd (exTornDir_unhashed _ (by decide +kernel) (by decide +kernel) d)
            · exact ⟨off, d, k1, k2.1⟩
          obtain ⟨off, d, ⟨g, x, -, k1, k2⟩, k3⟩ := hn
          rcases exTornDir_entry k1 k2 with ⟨rfl, rfl⟩ | ⟨rfl, rfl⟩
          · exact k3.typ exTornDir_named
          · exact absurd ⟨_, _, k3⟩ short_not_named
      rcases hbad with ⟨d, ⟨h, -⟩ | ⟨-, e, h, h', -⟩, -⟩ | ⟨-, h | ⟨e, h, -, dd, ⟨g', x', -, q, -⟩, -⟩⟩
      · exact absurd h (by decide)
      · rw [hend e h] at h'; exact absurd h' (by decide)
      · exact exTornDir_a h
      · exact (by decide +kernel : ∀ e ∈ exTornDir, e.1.key.typ ≠ 1) _ (enc_stores.mp q) rfl

/-- `C117_ls_recursive_paths_crash_iff` applies there too: `ls -R /` crashes. -/
example : ∃ N, ∀ rf, N ≤ rf → ∀ fuel, N ≤ fuel → ∀ srt, SortOK srt → ∀ ft si,
    doListFiles rf fuel srt ft ⟨exTornDir.enc, ~~~0⟩ ⟨true, si⟩ [[47]] = .panic := by
  have hcl : goClean [47] = [47] := by decide
  obtain ⟨N, h⟩ := C117_ls_recursive_paths_crash_iff exTornDir.enc (AStore.enc_wf exTornDir_sorted) []
    (enc_stores.mpr (by simp [exTornDir])) (fun v x hv ho => exTornDir_exact _ (enc_stores.mp hv) ho) exTornDir_ranges exTornDir_all
    exTornDir_sub [[47]] (by simp) (by
      intro p hp d hd
      rw [List.mem_singleton] at hp
      subst hp
      rcases hd with ⟨-, rfl⟩ | ⟨hd, -⟩
      · refine ⟨_, ?_⟩
        rintro d' ⟨off, d, e, n, ⟨g, x, -, h2, h3⟩, h4, h5, -⟩
        rcases exTornDir_entry h2 h3 with ⟨rfl, rfl⟩ | ⟨rfl, rfl⟩
        · rw [h4.typ exTornDir_named] at h5
          exact absurd h5 (by decide)
        · exact absurd ⟨_, _, h4⟩ short_not_named
      · exact absurd hcl hd)
  exact ⟨N, fun rf hrf fuel hf srt hsrt ft si => (h rf hrf fuel hf srt hsrt ft si).1.mpr
    ⟨[47], by simp, Or.inl ⟨256, Or.inl ⟨hcl, rfl⟩, 256, .refl, 2, _, exTornDir_seen, Or.inl short_not_named⟩⟩⟩

end Btrfscue
