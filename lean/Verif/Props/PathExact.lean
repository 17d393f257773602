import Verif.Spec.PathExact
import Verif.Props.MountExact
/-!
# C39: what looking up a path finds, exactly
-/

namespace Btrfscue

variable {b : Bucket}

theorem exists_newest (hb : b.WF) {m : Bytes} (hm : b.stores metadataVersionKey m) {o : UInt64} (ho : o ≠ ~~~0) {k : Key}
    (hk : b.hasKey o k) : ∃ g x, b.newest o k g ∧ b.stores ⟨o, k, g⟩ x := by
  obtain ⟨l, hl, rfl⟩ := hb.exists_abs
  rcases C22_lookup_safe_partial l.enc (AStore.enc_wf hl) (~~~0) o k m hm (ordinary_lookup ho k _) with
    ⟨-, hno⟩ | ⟨g', x', hf, -⟩
  · obtain ⟨g, x, hx⟩ := hk
    exact absurd ⟨x, hx⟩ (hno g)
  · obtain ⟨g2, hc, hst, -⟩ := C21_lookup_at_generation_partial l.enc (AStore.enc_wf hl) _ _ _ _ hf
    refine ⟨g2, x', ⟨hc.1, fun g' hg' => ?_⟩, hst⟩
    rcases hc.2 with ⟨h0, h⟩ | ⟨-, h⟩
    · exact UInt64.le_trans (le_max64 g') h0
    · exact h g' hg'

/-- Iterating over a directory of a well-behaved index. -/
theorem seen_dirs (hb : b.WF) {m : Bytes} (hm : b.stores metadataVersionKey m) (hok : b.DirsOK) {o : UInt64} (dir : UInt64)
    (ho : o ≠ ~~~0) :
    ∃ rd its vs, (Ix.mk b (~~~0)).dirItems o dir = .ok rd ∧ Range.Yields rd its ∧ b.seenItems o 84 dir vs ∧
      its.map (·.2) = vs.map (·.2) := by
  by_cases hk : ∃ off, b.hasKey o ⟨dir, 84, off⟩
  · obtain ⟨off, hk⟩ := hk
    exact seen_yields hb hm (hok.ranges o _ ho hk rfl)
  · obtain ⟨l, hl, rfl⟩ := hb.exists_abs
    have hr' := range_none hl (first := KF 84 dir) (last := KL2 84 dir) (o := o) (~~~0)
      ⟨_, enc_stores.mp hm, Nat.le_of_lt (num_lt_of_owner (ne_max_lt ho))⟩
      (fun g x hx => hok.noKL o ho (enc_hasKey.mpr ⟨g, x, hx⟩))
      (fun k g x hx hc => hk ⟨k.offset, enc_hasKey.mpr ⟨g, x, by
        obtain ⟨k1, k2, k3⟩ := k
        obtain ⟨hc1, hc2⟩ := hc
        simp only [KF] at hc1 hc2
        subst hc1; subst hc2
        exact hx⟩⟩)
    refine ⟨_, [], [], hr', .done rfl, ⟨.nil, fun off d => ⟨(fun h => by cases h), ?_⟩⟩, rfl⟩
    rintro ⟨g, x, -, h1, -⟩
    exact absurd ⟨off, g, x, h1⟩ hk

theorem seenItems_unique {o id : UInt64} {t : UInt8} {vs vs' : List (UInt64 × Slice)} (h : b.seenItems o t id vs)
    (h' : b.seenItems o t id vs') {off : UInt64} {d : Slice} : (off, d) ∈ vs ↔ (off, d) ∈ vs' := by
  rw [h.2, h'.2]

theorem foldSlow_exact (name : Bytes) (last : Bool) : ∀ (its : List (Range × Slice)),
    (∀ x ∈ its, wholeEntry (Slice.data x.2)) →
    ((∀ d ∈ its.map (·.2), ∀ e, startsEntry (Slice.data d) name e → ¬ (last = true ∨ e.typ = 2)) ∧
        foldRange (slowBody name last) none its = .ok (none, false)) ∨
     ∃ l1 d l2 e, its.map (·.2) = l1 ++ d :: l2 ∧
        (∀ d' ∈ l1, ∀ e, startsEntry (Slice.data d') name e → ¬ (last = true ∨ e.typ = 2)) ∧
        startsEntry (Slice.data d) name e ∧ (last = true ∨ e.typ = 2) ∧
        foldRange (slowBody name last) none its = .ok (some d, true) := by
  intro its
  induction its with
  | nil => intro _; exact Or.inl ⟨by simp, rfl⟩
  | cons x r ih =>
    intro hw
    have i3 := ih fun y hy => hw y (List.mem_cons_of_mem _ hy)
    obtain ⟨rg, d⟩ := x
    obtain ⟨nm, e, w1, w2, w3, -⟩ := (hw _ List.mem_cons_self).named
    simp only at w1 w2 w3
    have hisd : DirItem.isDir d = .ok (e.typ == 2) := isDir_eq.mpr ⟨_, w3, rfl⟩
    by_cases h : nm = name ∧ (last = true ∨ e.typ = 2)
    · obtain ⟨rfl, h⟩ := h
      right
      refine ⟨[], d, r.map (·.2), e, rfl, by simp, w1, h, ?_⟩
      have hc : ((e.typ == 2) || last) = true := by
        rcases h with h | h
        · rw [h]; simp
        · rw [h]; rfl
      simp only [foldRange, slowBody, w2, hisd, Go.ok_bind, if_true, hc, Go.pure_eq]
    · have hno : ∀ e', startsEntry (Slice.data d) name e' → ¬ (last = true ∨ e'.typ = 2) := by
        intro e' h' hc
        obtain ⟨rfl, rfl⟩ := startsEntry_unique w1 h'
        exact h ⟨rfl, hc⟩
      have hstep : foldRange (slowBody name last) none ((rg, d) :: r) = foldRange (slowBody name last) none r := by
        simp only [foldRange, slowBody, w2, hisd, Go.ok_bind]
        by_cases hn : nm = name
        · have hc : ((e.typ == 2) || last) = false := by
            have : ¬ (last = true ∨ e.typ = 2) := fun hc => h ⟨hn, hc⟩
            rw [not_or] at this
            rw [Bool.or_eq_false_iff]
            exact ⟨beq_false_of_ne this.2, by simpa using this.1⟩
          simp only [if_pos hn, hc, Bool.false_eq_true, if_false, Go.pure_eq, Go.ok_bind]
        · simp only [if_neg hn, Go.pure_eq, Go.ok_bind, Bool.false_eq_true, if_false]
      rw [hstep]
      rcases i3 with ⟨k1, k2⟩ | ⟨l1, d', l2, e', k1, k2, k3, k4, k5⟩
      · left
        refine ⟨fun d' hd => ?_, k2⟩
        rcases List.mem_cons.mp hd with rfl | hd
        · exact hno
        · exact k1 d' hd
      · right
        refine ⟨d :: l1, d', l2, e', by rw [List.map_cons, k1]; rfl, fun d'' hd => ?_, k3, k4, k5⟩
        rcases List.mem_cons.mp hd with rfl | hd
        · exact hno
        · exact k2 d'' hd

theorem fastDir_exact (hb : b.WF) {m : Bytes} (hm : b.stores metadataVersionKey m) (hok : b.DirsOK)
    (hfull : ∀ o dir d, o ≠ ~~~0 → b.dirItem o dir d → wholeEntry (Slice.data d)) {o : UInt64} (dir : UInt64) (ho : o ≠ ~~~0)
    (name : Bytes) :
    (∃ e d, b.underHash o dir name e d ∧ fastDir ⟨b, ~~~0⟩ o dir name = .ok (some d)) ∨
    ((∀ e d, ¬ b.underHash o dir name e d) ∧ fastDir ⟨b, ~~~0⟩ o dir name = .ok none) := by
  have hk : KF3 DirItemKey dir (NameHash name).toUInt64 = ⟨dir, 84, (NameHash name).toUInt64⟩ := rfl
  by_cases h : b.hasKey o ⟨dir, 84, (NameHash name).toUInt64⟩
  · obtain ⟨g, x, h1, h2⟩ := exists_newest hb hm ho h
    have hf := findItem_newest hb hm ho h1 h2
    obtain ⟨p, hp⟩ := (hok.ranges o _ ho h rfl).intact _ _ h2 rfl
    obtain ⟨d, hd, -⟩ := hp.data
    obtain ⟨nm, e, w1, w2, -, -⟩ := (hfull o dir d ho ⟨_, g, x, h2, hd⟩).named
    by_cases hn : nm = name
    · subst hn
      left
      refine ⟨e, d, ⟨g, x, h1, h2, hd, w1⟩, ?_⟩
      simp only [fastDir, hk, hf, Go.ok_bind, hd, w2, if_true, Go.pure_eq]
    · right
      refine ⟨?_, ?_⟩
      · rintro e' d' ⟨g', x', q1, q2, q3, q4⟩
        have hg : g' = g := by
          have a1 := h1.2 g' q1.1
          have a2 := q1.2 g h1.1
          rw [UInt64.le_iff_toNat_le] at a1 a2
          rw [← UInt64.toNat_inj]; omega
        subst hg
        obtain ⟨l, hl, rfl⟩ := hb.exists_abs
        obtain rfl := hl.unique (enc_stores.mp q2) (enc_stores.mp h2)
        rw [hd] at q3
        cases q3
        exact hn (startsEntry_unique w1 q4).1
      · simp only [fastDir, hk, hf, Go.ok_bind, hd, w2, if_neg hn, Go.pure_eq]
  · right
    refine ⟨?_, ?_⟩
    · rintro e' d' ⟨g', x', q1, q2, -, -⟩
      exact h ⟨g', x', q2⟩
    · simp only [fastDir, hk, findItem_none hb hm ho (~~~0) h, Go.ok_bind, Go.pure_eq]

/-- What looking up one name of a path does. -/
theorem findComp_exact (hb : b.WF) {m : Bytes} (hm : b.stores metadataVersionKey m) (hok : b.DirsOK)
    (hfull : ∀ o dir d, o ≠ ~~~0 → b.dirItem o dir d → wholeEntry (Slice.data d)) {o : UInt64} (dir : UInt64) (ho : o ≠ ~~~0)
    (name : Bytes) (last : Bool) :
    ∃ N, (∃ e d, b.stepFinds o dir name last e d ∧ b.dirItem o dir d ∧ startsEntry (Slice.data d) name e ∧
        ∀ fuel, N ≤ fuel → findComp fuel ⟨b, ~~~0⟩ o dir name last = .ok (some d)) ∨
      ((∀ e d, ¬ b.stepFinds o dir name last e d) ∧
        ∀ fuel, N ≤ fuel → findComp fuel ⟨b, ~~~0⟩ o dir name last = .ok none) := by
  rcases fastDir_exact hb hm hok hfull dir ho name with ⟨e, d, h1, h2⟩ | ⟨h1, h2⟩
  · refine ⟨0, Or.inl ⟨e, d, Or.inl h1, ?_, ?_, fun fuel _ => ?_⟩⟩
    · obtain ⟨g, x, -, q1, q2, -⟩ := h1
      exact ⟨_, g, x, q1, q2⟩
    · obtain ⟨g, x, -, q1, q2, q3⟩ := h1
      exact q3
    · simp only [findComp, h2, Go.ok_bind, Go.pure_eq]
  · obtain ⟨rd, its, vs, k1, k2, k3, k4⟩ := seen_dirs hb hm hok dir ho
    have hw : ∀ x ∈ its, wholeEntry (Slice.data x.2) := by
      intro x hx
      have : x.2 ∈ vs.map (·.2) := by rw [← k4]; exact List.mem_map_of_mem hx
      obtain ⟨⟨off, d⟩, hv, hve⟩ := List.mem_map.mp this
      obtain ⟨g, y, -, q2, q3⟩ := (k3.2 off d).mp hv
      rw [← hve]
      exact hfull o dir d ho ⟨off, g, y, q2, q3⟩
    refine ⟨its.length + 1, ?_⟩
    rcases foldSlow_exact name last its hw with ⟨f1, f2⟩ | ⟨l1, d, l2, e, f1, f2, f3, f4, f5⟩
    · right
      refine ⟨?_, fun fuel hf => ?_⟩
      · rintro e d (h | ⟨-, vs', off, q1, q2, q3, q4, -⟩)
        · exact h1 _ _ h
        · have := (seenItems_unique q1 k3).mp q2
          exact f1 d (by rw [k4]; exact List.mem_map.mpr ⟨_, this, rfl⟩) e q3 q4
      · simp only [findComp, h2, k1, Go.ok_bind, rangeLoop_eq _ k2 fuel none (by omega), f2, Go.pure_eq]
    · left
      rw [k4] at f1
      obtain ⟨v1, v2, rfl, e1, e2⟩ := List.map_eq_append_iff.mp f1
      obtain ⟨⟨off, d0⟩, v3, rfl, e3, e4⟩ := List.map_eq_cons_iff.mp e2
      simp only at e3
      subst e3
      have hmem : (off, d0) ∈ v1 ++ (off, d0) :: v3 := by simp
      refine ⟨e, d0, Or.inr ⟨h1, _, off, k3, hmem, f3, f4, fun off' d' e' hv hs hl => ?_⟩, ?_, f3, fun fuel hf => ?_⟩
      · rcases List.mem_append.mp hv with hv | hv
        · exact absurd hl (f2 d' (by rw [← e1]; exact List.mem_map.mpr ⟨_, hv, rfl⟩) e' hs)
        · rcases List.mem_cons.mp hv with hv | hv
          · cases hv; exact UInt64.le_refl _
          · have := (List.pairwise_append.mp k3.1).2.1
            rw [List.pairwise_cons] at this
            exact UInt64.le_of_lt (this.1 _ hv)
      · obtain ⟨g, x, -, q1, q2⟩ := (k3.2 off d0).mp hmem
        exact ⟨off, g, x, q1, q2⟩
      · simp only [findComp, h2, k1, Go.ok_bind, rangeLoop_eq _ k2 fuel none (by omega), f5, Go.pure_eq]

theorem stepFinds_unique (hb : b.WF) {o dir : UInt64} {name : Bytes} {last : Bool} {e e' : DirItemRec} {d d' : Slice}
    (h : b.stepFinds o dir name last e d) (h' : b.stepFinds o dir name last e' d') : e = e' ∧ d = d' := by
  have hst : ∀ {off g x x'}, b.stores ⟨o, ⟨dir, 84, off⟩, g⟩ x → b.stores ⟨o, ⟨dir, 84, off⟩, g⟩ x' → x = x' := by
    intro off g x x' h1 h2
    obtain ⟨l, hl, rfl⟩ := hb.exists_abs
    exact hl.unique (enc_stores.mp h1) (enc_stores.mp h2)
  rcases h with h | ⟨h0, vs, off, k1, k2, k3, k4, k5⟩
  · rcases h' with h' | ⟨h0', -⟩
    · obtain ⟨g, x, q1, q2, q3, q4⟩ := h
      obtain ⟨g', x', p1, p2, p3, p4⟩ := h'
      have hg : g' = g := by
        have a1 := q1.2 g' p1.1
        have a2 := p1.2 g q1.1
        rw [UInt64.le_iff_toNat_le] at a1 a2
        rw [← UInt64.toNat_inj]; omega
      subst hg
      obtain rfl := hst q2 p2
      rw [q3] at p3
      cases p3
      exact ⟨(startsEntry_unique q4 p4).2, rfl⟩
    · exact absurd h (h0' _ _)
  · rcases h' with h' | ⟨-, vs', off', p1, p2, p3, p4, p5⟩
    · exact absurd h' (h0 _ _)
    · have p2' := (seenItems_unique p1 k1).mp p2
      have k2' := (seenItems_unique k1 p1).mp k2
      have a1 := k5 _ _ _ p2' p3 p4
      have a2 := p5 _ _ _ k2' k3 k4
      have : off' = off := by
        rw [UInt64.le_iff_toNat_le] at a1 a2
        rw [← UInt64.toNat_inj]; omega
      subst this
      have hnd : (vs.map (·.1)).Nodup := by
        rw [List.Nodup, List.pairwise_map]
        exact k1.1.imp fun hlt hc => by rw [hc] at hlt; exact absurd hlt (UInt64.lt_irrefl _)
      have hd : d = d' := (Prod.mk.inj (List.inj_on_of_nodup_map hnd k2 p2' rfl)).2
      subst hd
      exact ⟨(startsEntry_unique k3 p3).2, rfl⟩

theorem Bucket.PathFinds.unique (hb : b.WF) {o dir : UInt64} {names : List Bytes} {r r' : Option Bytes}
    (h : b.PathFinds o dir names r) (h' : b.PathFinds o dir names r') : r = r' := by
  induction h generalizing r' with
  | last h1 =>
    cases h' with
    | last h2 => rw [(stepFinds_unique hb h1 h2).2]
    | missing h2 => exact absurd h1 (h2 _ _)
  | step h1 _ ih =>
    cases h' with
    | step h2 h3 =>
      obtain ⟨rfl, rfl⟩ := stepFinds_unique hb h1 h2
      exact ih h3
    | missing h2 => exact absurd h1 (h2 _ _)
  | missing h1 =>
    cases h' with
    | last h2 => exact absurd h2 (h1 _ _)
    | step h2 _ => exact absurd h2 (h1 _ _)
    | missing _ => rfl

theorem findPathLoop_exact (hb : b.WF) {m : Bytes} (hm : b.stores metadataVersionKey m) (hok : b.DirsOK)
    (hfull : ∀ o dir d, o ≠ ~~~0 → b.dirItem o dir d → wholeEntry (Slice.data d)) :
    ∀ (rest : List Bytes) (n : Bytes) (o dir : UInt64) (res : Option DirItem), o ≠ ~~~0 →
      ∃ N r, b.PathFinds o dir (n :: rest) (r.map Slice.data) ∧
        ∀ fuel, N ≤ fuel → findPathLoop fuel ⟨b, ~~~0⟩ o dir res (n :: rest) = .ok r := by
  intro rest
  induction rest with
  | nil =>
    intro n o dir res ho
    obtain ⟨N, ⟨e, d, h1, h2, h3, h4⟩ | ⟨h1, h2⟩⟩ := findComp_exact hb hm hok hfull dir ho n true
    · obtain ⟨nm, e', w1, -, -, w2⟩ := (hfull o dir d ho h2).named
      obtain ⟨-, rfl⟩ := startsEntry_unique h3 w1
      refine ⟨N, some d, .last h1, fun fuel hf => ?_⟩
      simp only [findPathLoop, List.isEmpty_nil, h4 fuel hf, Go.ok_bind, DirItem.isSubvolume, w2, Go.pure_eq]
      split <;> rfl
    · exact ⟨N, none, .missing (by simpa using h1), fun fuel hf => by
        simp only [findPathLoop, List.isEmpty_nil, h2 fuel hf, Go.ok_bind, Go.pure_eq]⟩
  | cons n' rest ih =>
    intro n o dir res ho
    obtain ⟨N, ⟨e, d, h1, h2, h3, h4⟩ | ⟨h1, h2⟩⟩ := findComp_exact hb hm hok hfull dir ho n false
    · obtain ⟨nm, e', w1, -, -, w2⟩ := (hfull o dir d ho h2).named
      obtain ⟨-, rfl⟩ := startsEntry_unique h3 w1
      have hto : (target o e.location).1 ≠ ~~~0 := by
        unfold target
        by_cases ht : e.location.typ = 132
        · rw [if_pos ht]; exact hok.noMetaTree o dir d _ ho h2 w2 ht
        · rw [if_neg ht]; exact ho
      obtain ⟨N', r, k1, k2⟩ := ih n' _ (target o e.location).2 (some d) hto
      refine ⟨max N N', r, .step h1 k1, fun fuel hf => ?_⟩
      rw [← k2 fuel (by omega)]
      have e1 : findComp fuel ⟨b, ~~~0⟩ o dir n (n' :: rest).isEmpty = .ok (some d) := h4 fuel (by omega)
      rw [show findPathLoop fuel ⟨b, ~~~0⟩ o dir res (n :: n' :: rest) = (findComp fuel ⟨b, ~~~0⟩ o dir n (n' :: rest).isEmpty >>= fun r =>
        match r with
        | none => pure none
        | some d => DirItem.isSubvolume d >>= fun sv => if !sv then DirItem.location d >>= fun loc =>
              findPathLoop fuel ⟨b, ~~~0⟩ o loc.objectID (some d) (n' :: rest)
            else DirItem.location d >>= fun loc => findPathLoop fuel ⟨b, ~~~0⟩ loc.objectID FirstFreeObjectID (some d) (n' :: rest)) from rfl]
      rw [e1]
      simp only [Go.ok_bind, DirItem.isSubvolume, w2, Go.pure_eq]
      unfold target
      by_cases ht : e.location.typ = 132
      · have : (e.location.typ == RootItemKey) = true := beq_iff_eq.mpr ht
        simp only [this, Bool.not_true, Bool.false_eq_true, if_false, if_pos ht, FirstFreeObjectID]
      · have : (e.location.typ == RootItemKey) = false := beq_eq_false_iff_ne.mpr ht
        simp only [this, Bool.not_false, if_true, if_neg ht]
    · refine ⟨N, none, .missing h1, fun fuel hf => ?_⟩
      have e1 : findComp fuel ⟨b, ~~~0⟩ o dir n (n' :: rest).isEmpty = .ok none := h2 fuel hf
      simp only [findPathLoop, e1, Go.ok_bind, Go.pure_eq]

/-- C39, exactly: on an index open for reading whose directories can be iterated over, with whole
entries of whatever generations, looking up a path — leading slashes do not count — finds what
`PathFinds` says: name by name the newest item under the hash of the name, if it starts with an
entry of that name, or else the first item with that name that iterating over the directory gets
to. That is a single answer. -/
theorem C39_lookup_exact (b : Bucket) (hb : b.WF) (m : Bytes) (hm : b.stores metadataVersionKey m) (hok : b.DirsOK)
    (hfull : ∀ o dir d, o ≠ ~~~0 → b.dirItem o dir d → wholeEntry (Slice.data d)) (o : UInt64) (ho : o ≠ ~~~0)
    (k : Nat) (n : Bytes) (rest : List Bytes) (hne : n ≠ []) (hs : ∀ x ∈ n :: rest, 47 ∉ x) :
    ∃ N r, (∀ fuel, N ≤ fuel → (Ix.mk b (~~~0)).findDirItemForPath fuel o (List.replicate k 47 ++ joinPath (n :: rest)) = .ok r) ∧
      ∀ q, b.PathFinds o 256 (n :: rest) q ↔ q = r.map Slice.data := by
  obtain ⟨N, r, h1, h2⟩ := findPathLoop_exact hb hm hok hfull rest n o 256 none ho
  refine ⟨N, r, fun fuel hf => ?_, fun q => ⟨fun hq => hq.unique hb h1, fun hq => by rw [hq]; exact h1⟩⟩
  simp only [Ix.findDirItemForPath, pathComps_join k n rest hne hs]
  exact h2 fuel hf

/-- In a directory with entries of two generations not stored under the hashes of their names, the
lookup finds the first by going through the directory, and misses the second. -/
example : exMixedList.enc.WF ∧ exMixedList.enc.stores metadataVersionKey [] ∧ exMixedList.enc.DirsOK ∧
    (∀ o dir d, o ≠ ~~~0 → exMixedList.enc.dirItem o dir d → wholeEntry (Slice.data d)) ∧
    (Ix.mk exMixedList.enc (~~~0)).findDirItemForPath 5 5 [47, 97] = .ok (some ⟨exEntry ⟨257, 1, 0⟩ 1 [97], []⟩) ∧
    (Ix.mk exMixedList.enc (~~~0)).findDirItemForPath 5 5 [47, 98] = .ok none := by
  refine ⟨AStore.enc_wf (sorted_of_before (by decide +kernel)), enc_stores.mpr (by simp [exMixedList]), ?_, ?_,
    by decide +kernel, by decide +kernel⟩
  · refine dirsOK_of (by decide +kernel) ?_ (by decide +kernel) ?_
    · intro e he ho
      simp only [exMixedList, List.mem_cons, List.not_mem_nil, or_false] at he
      rcases he with rfl | rfl | rfl | rfl
      · exact ⟨_, mkItem_holds _ _ (by decide)⟩
      · exact ⟨_, mkItem_holds _ _ (by decide)⟩
      · exact ⟨_, mkItem_holds _ _ (by decide)⟩
      · exact absurd rfl ho
    · intro e he ho ht
      simp only [exMixedList, List.mem_cons, List.not_mem_nil, or_false] at he
      rcases he with rfl | rfl | rfl | rfl
      · exact ⟨_, item_data_mk _ _ (by decide), _, entry_location _ _ _, fun h => absurd h (by decide)⟩
      · exact ⟨_, item_data_mk _ _ (by decide), _, entry_location _ _ _, fun h => absurd h (by decide)⟩
      · exact absurd ht (by decide)
      · exact absurd rfl ho
  · refine dirItem_of ?_
    intro e he ho ht
    simp only [exMixedList, List.mem_cons, List.not_mem_nil, or_false] at he
    rcases he with rfl | rfl | rfl | rfl
    · exact ⟨_, item_data_mk _ _ (by decide), entry_whole _ _ _ (by decide)⟩
    · exact ⟨_, item_data_mk _ _ (by decide), entry_whole _ _ _ (by decide)⟩
    · exact absurd ht (by decide)
    · exact absurd rfl ho

/-! ## C70 -/

theorem Bucket.ShownAt.unique {o d : UInt64} {names : List Bytes} {o1 i1 o2 i2 : UInt64}
    (h1 : b.ShownAt o d names o1 i1) (h2 : b.ShownAt o d names o2 i2) : o1 = o2 ∧ i1 = i2 := by
  induction h1 with
  | here => cases h2; exact ⟨rfl, rfl⟩
  | step s1 l1 _ _ ih =>
    cases h2 with
    | step s2 l2 _ k2 =>
      obtain rfl := lastEntry_unique s1 s2 l1 l2
      exact ih k2

theorem lastEntry_says {o dir : UInt64} {t : UInt8} {vs : List (UInt64 × Slice)} (h : b.seenItems o t dir vs) {name : Bytes}
    {e : DirItemRec} (hl : lastEntry vs name e) :
    ∃ off g x d, b.stores ⟨o, ⟨dir, t, off⟩, g⟩ x ∧ Item.data ⟨x, []⟩ = .ok d ∧ startsEntry (Slice.data d) name e := by
  obtain ⟨off, d, k1, k2, -⟩ := hl
  obtain ⟨g, x, -, q1, q2⟩ := (h.2 off d).mp k1
  exact ⟨off, g, x, d, q1, q2, k2⟩

theorem walk_exact (hb : b.WF) {m : Bytes} (hm : b.stores metadataVersionKey m) (hok : b.DirsOK)
    (hfull : ∀ o dir d, o ≠ ~~~0 → b.dirItem o dir d → wholeEntry (Slice.data d))
    (hin : ∀ o, o ≠ ~~~0 → b.TreeInodesOK o) : ∀ (names : List Bytes) (o d : UInt64), o ≠ ~~~0 →
    ∃ N, ∀ fuel, N ≤ fuel → ∀ n, NodeOK fuel ⟨b, ~~~0⟩ o d n → ∃ r, walk fuel ⟨b, ~~~0⟩ n names = .ok r ∧
      ((∃ c o' i, r = some c ∧ b.ShownAt o d names o' i ∧ c.owner = o' ∧ c.ixInode = i) ∨
        (r = none ∧ ∀ o' i, ¬ b.ShownAt o d names o' i)) := by
  intro names
  induction names with
  | nil =>
    intro o d ho
    exact ⟨0, fun fuel _ n hn => ⟨some n, rfl, Or.inl ⟨n, o, d, rfl, .here, hn.owner, hn.inode⟩⟩⟩
  | cons name rest ih =>
    intro o d ho
    obtain ⟨rd, its, vs, k1, k2, k3, k4⟩ := seen_dirs hb hm hok d ho
    have hw : ∀ off g x s, b.stores ⟨o, ⟨d, 84, off⟩, g⟩ x → Item.data ⟨x, []⟩ = .ok s → wholeEntry (Slice.data s) :=
      fun off g x s h1 h2 => hfull o d s ho ⟨off, g, x, h1, h2⟩
    have hsub : ∀ off g x s name e, b.stores ⟨o, ⟨d, 84, off⟩, g⟩ x → Item.data ⟨x, []⟩ = .ok s →
        startsEntry (Slice.data s) name e → e.location.typ = 132 → e.location.objectID ≠ ~~~0 := by
      intro off g x s name e h1 h2 h3
      obtain ⟨nm, e', w1, -, -, w2⟩ := (hw off g x s h1 h2).named
      obtain ⟨-, rfl⟩ := startsEntry_unique h3 w1
      exact hok.noMetaTree o d s _ ho ⟨off, g, x, h1, h2⟩ w2
    by_cases hex : ∃ e, lastEntry vs name e
    · obtain ⟨e, he⟩ := hex
      have hto : (target o e.location).1 ≠ ~~~0 := by
        obtain ⟨off, g, x, s, q1, q2, q3⟩ := lastEntry_says k3 he
        unfold target
        by_cases ht : e.location.typ = 132
        · rw [if_pos ht]; exact hsub off g x s name e q1 q2 q3 ht
        · rw [if_neg ht]; exact ho
      obtain ⟨N, hN⟩ := ih _ (target o e.location).2 hto
      refine ⟨max N (its.length + 1), fun fuel hf n hn => ?_⟩
      obtain ⟨-, c2⟩ := dir_core hb hm ho k1 k2 k3 k4 hw hin hsub (by omega) hn
      rcases c2 name with ⟨h, -⟩ | ⟨e', n', c, a, q1, q2, -, q3, q4⟩
      · exfalso
        obtain ⟨off, s, p1, p2, -⟩ := he
        exact h _ _ _ p1 p2
      · obtain rfl := lastEntry_unique k3 k3 he q1
        rcases q4 with ⟨hk, x, rfl⟩ | ⟨hk, rfl⟩
        · obtain ⟨r, r1, r2⟩ := hN fuel (by omega) c q3
          refine ⟨r, by simp only [walk, q2, Go.ok_bind]; exact r1, ?_⟩
          rcases r2 with ⟨c', o', i, p1, p2, p3⟩ | ⟨p1, p2⟩
          · exact Or.inl ⟨c', o', i, p1, .step k3 he hk p2, p3⟩
          · refine Or.inr ⟨p1, fun o' i hs => ?_⟩
            cases hs with
            | step s2 l2 _ t2 =>
              obtain rfl := lastEntry_unique k3 s2 he l2
              exact p2 _ _ t2
        · refine ⟨none, by simp only [walk, q2, Go.ok_bind]; rfl, Or.inr ⟨rfl, fun o' i hs => ?_⟩⟩
          cases hs with
          | step s2 l2 hk' t2 =>
            obtain rfl := lastEntry_unique k3 s2 he l2
            exact hk hk'
    · refine ⟨its.length + 1, fun fuel hf n hn => ?_⟩
      obtain ⟨-, c2⟩ := dir_core hb hm ho k1 k2 k3 k4 hw hin hsub (by omega) hn
      rcases c2 name with ⟨-, n', h⟩ | ⟨e', n', c, a, q1, q2, -, q3⟩
      · refine ⟨none, by simp only [walk, h, Go.ok_bind]; rfl, Or.inr ⟨rfl, fun o' i hs => ?_⟩⟩
        cases hs with
        | step s2 l2 _ t2 =>
          obtain ⟨off, s, p1, p2, p3⟩ := l2
          refine hex ⟨_, off, s, (seenItems_unique s2 k3).mp p1, p2, fun off' d' e' hv hs' => ?_⟩
          exact p3 _ _ _ ((seenItems_unique k3 s2).mp hv) hs'
      · exact absurd ⟨e', q1⟩ hex

/-- C70, exactly: on an index whose directories can be iterated over, with whole entries of whatever
generations and intact inode items, walking down any path by `Lookup`s below `rescue` in the mounted
file system ends, and leads where the entries shown under these names lead, or to nothing if one
of them is not shown or leads to an object without inode item. -/
theorem C70_walk_exact (b : Bucket) (hb : b.WF) (m : Bytes) (hm : b.stores metadataVersionKey m) (hok : b.DirsOK)
    (hfull : ∀ o dir d, o ≠ ~~~0 → b.dirItem o dir d → wholeEntry (Slice.data d))
    (hin : ∀ o, o ≠ ~~~0 → b.TreeInodesOK o) (names : List Bytes) :
    ∃ N, ∀ fuel, N ≤ fuel → ∃ r, mountWalk fuel ⟨b, ~~~0⟩ (ascii "rescue" :: names) = .ok r ∧
      ∀ o i, (∃ c, r = some c ∧ c.owner = o ∧ c.ixInode = i) ↔ b.ShownAt 5 256 names o i := by
  obtain ⟨N, hN⟩ := walk_exact hb hm hok hfull hin names 5 256 (by decide)
  refine ⟨N, fun fuel hf => ?_⟩
  obtain ⟨r, h1, h2⟩ := hN fuel hf _ (nodeOK_fresh fuel ⟨b, ~~~0⟩ 5 256)
  refine ⟨r, by simp only [mountWalk, mountTop_rescue]; exact h1, fun o i => ?_⟩
  rcases h2 with ⟨c, o', i', rfl, k1, rfl, rfl⟩ | ⟨rfl, k1⟩
  · constructor
    · rintro ⟨c', h, rfl, rfl⟩
      cases h
      exact k1
    · intro h
      obtain ⟨rfl, rfl⟩ := k1.unique h
      exact ⟨c, rfl, rfl, rfl⟩
  · constructor
    · rintro ⟨c', h, -⟩
      cases h
    · intro h
      exact absurd h (k1 o i)

/-- The hypotheses are met by the store with entries of two generations; `a` leads to object 257, and
`b` to nothing. Without the inode items `a` leads to nothing, too. -/
example : exMixedInodes.enc.WF ∧ exMixedInodes.enc.stores metadataVersionKey [] ∧ exMixedInodes.enc.DirsOK ∧
    (∀ o dir d, o ≠ ~~~0 → exMixedInodes.enc.dirItem o dir d → wholeEntry (Slice.data d)) ∧
    (∀ o, o ≠ ~~~0 → exMixedInodes.enc.TreeInodesOK o) ∧
    (mountWalk 5 ⟨exMixedInodes.enc, ~~~0⟩ [ascii "rescue", [97]] >>= fun r => pure (r.map fun c => (c.owner, c.ixInode))) = .ok (some (5, 257)) ∧
    mountWalk 5 ⟨exMixedInodes.enc, ~~~0⟩ [ascii "rescue", [98]] = .ok none ∧
    mountWalk 5 ⟨exMixedList.enc, ~~~0⟩ [ascii "rescue", [97]] = .ok none := by
  have hS : exMixedInodes.Sorted := sorted_of_before (by decide +kernel)
  have hlen : ∀ (k : Key), ∃ d, holdsItem (mkItem k (exInode 5).layout) d :=
    fun k => ⟨_, mkItem_holds _ _ (by simp [InodeItemRec.layout, exInode])⟩
  refine ⟨AStore.enc_wf hS, enc_stores.mpr (by simp [exMixedInodes, exMixedList]), ?_, ?_, fun o ho ino hk => ?_,
    by decide +kernel, by decide +kernel, by decide +kernel⟩
  · refine dirsOK_of (by decide +kernel) ?_ (by decide +kernel) ?_
    · intro e he ho
      simp only [exMixedInodes, exMixedList, List.mem_cons, List.not_mem_nil, or_false] at he
      rcases he with rfl | rfl | rfl | rfl | rfl | rfl
      · exact hlen _
      · exact hlen _
      · exact ⟨_, mkItem_holds _ _ (by decide)⟩
      · exact ⟨_, mkItem_holds _ _ (by decide)⟩
      · exact ⟨_, mkItem_holds _ _ (by decide)⟩
      · exact absurd rfl ho
    · intro e he ho ht
      simp only [exMixedInodes, exMixedList, List.mem_cons, List.not_mem_nil, or_false] at he
      rcases he with rfl | rfl | rfl | rfl | rfl | rfl
      · exact absurd ht (by decide)
      · exact absurd ht (by decide)
      · exact ⟨_, item_data_mk _ _ (by decide), _, entry_location _ _ _, fun h => absurd h (by decide)⟩
      · exact ⟨_, item_data_mk _ _ (by decide), _, entry_location _ _ _, fun h => absurd h (by decide)⟩
      · exact absurd ht (by decide)
      · exact absurd rfl ho
  · refine dirItem_of ?_
    intro e he ho ht
    simp only [exMixedInodes, exMixedList, List.mem_cons, List.not_mem_nil, or_false] at he
    rcases he with rfl | rfl | rfl | rfl | rfl | rfl
    · exact absurd ht (by decide)
    · exact absurd ht (by decide)
    · exact ⟨_, item_data_mk _ _ (by decide), entry_whole _ _ _ (by decide)⟩
    · exact ⟨_, item_data_mk _ _ (by decide), entry_whole _ _ _ (by decide)⟩
    · exact absurd ht (by decide)
    · exact absurd rfl ho
  · obtain ⟨g', x, hx⟩ := enc_hasKey.mp hk
    have key : ∀ e ∈ exMixedInodes, e.1.key.typ = 1 → e.1.owner = 5 ∧ e.1.gen = 10 ∧ e.2 = mkItem e.1.key (exInode 5).layout ∧
        ∀ e' ∈ exMixedInodes, e'.1.owner = e.1.owner → e'.1.key = e.1.key → e'.1.gen = 10 := by decide +kernel
    obtain ⟨h1, h2, h3, h4⟩ := key _ hx rfl
    simp only at h1 h2 h3 h4
    subst h1 h2
    refine ⟨10, x, exInode 5, [], ⟨enc_hasVersion.mpr ⟨x, hx⟩, fun g hg => ?_⟩, enc_stores.mpr hx, ?_⟩
    · obtain ⟨y, hy⟩ := enc_hasVersion.mp hg
      have := h4 _ hy rfl rfl
      simp only at this
      rw [this]; exact UInt64.le_refl _
    · rw [h3, List.append_nil]
      exact mkItem_holds _ _ (by simp [InodeItemRec.layout, exInode])

end Btrfscue
