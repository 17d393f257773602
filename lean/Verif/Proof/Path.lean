import Verif.Spec.Path
import Verif.Proof.RangeAll
import Verif.Props.Items
/-! # Path lookup -/

namespace Btrfscue

theorem joinPath_cons (n : Bytes) {r : List Bytes} (h : r ≠ []) :
    joinPath (n :: r) = n ++ 47 :: joinPath r := by
  cases r with
  | nil => exact absurd rfl h
  | cons a b => rfl

theorem splitSlash_ne (p : Bytes) : splitSlash p ≠ [] := by
  cases p with
  | nil => simp [splitSlash]
  | cons c r =>
    simp only [splitSlash]
    split
    · simp
    · split <;> simp

theorem join_split (p : Bytes) : joinPath (splitSlash p) = p := by
  induction p with
  | nil => rfl
  | cons c r ih =>
    simp only [splitSlash]
    by_cases h : c = 47
    · rw [if_pos h, joinPath_cons _ (splitSlash_ne r), ih, h]; rfl
    · rw [if_neg h]
      cases hs : splitSlash r with
      | nil => exact absurd hs (splitSlash_ne r)
      | cons a b =>
        rw [hs] at ih
        simp only
        cases b with
        | nil => simp only [joinPath] at ih ⊢; rw [ih]
        | cons b1 b2 =>
          rw [joinPath_cons _ (by simp)] at ih ⊢
          rw [List.cons_append, ih]

theorem split_noslash (n : Bytes) (h : 47 ∉ n) : splitSlash n = [n] := by
  induction n with
  | nil => rfl
  | cons c r ih =>
    simp only [List.mem_cons, not_or] at h
    simp only [splitSlash, if_neg (fun hc : c = 47 => h.1 hc.symm), ih h.2]

theorem split_append (n : Bytes) (h : 47 ∉ n) (p : Bytes) :
    splitSlash (n ++ 47 :: p) = n :: splitSlash p := by
  induction n with
  | nil => simp [splitSlash]
  | cons c r ih =>
    simp only [List.mem_cons, not_or] at h
    simp only [List.cons_append, splitSlash, if_neg (fun hc : c = 47 => h.1 hc.symm), ih h.2]

theorem split_join (names : List Bytes) (hne : names ≠ []) (h : ∀ n ∈ names, 47 ∉ n) :
    splitSlash (joinPath names) = names := by
  induction names with
  | nil => exact absurd rfl hne
  | cons n r ih =>
    by_cases hr : r = []
    · subst hr
      exact split_noslash n (h n List.mem_cons_self)
    · rw [joinPath_cons n hr, split_append n (h n List.mem_cons_self),
        ih hr fun m hm => h m (List.mem_cons_of_mem _ hm)]

theorem pathComps_join (k : Nat) (n : Bytes) (r : List Bytes) (hn : n ≠ [])
    (h : ∀ m ∈ n :: r, 47 ∉ m) :
    pathComps (List.replicate k 47 ++ joinPath (n :: r)) = n :: r := by
  have hd : (List.replicate k (47 : UInt8) ++ joinPath (n :: r)).dropWhile (· == 47) =
      joinPath (n :: r) := by
    induction k with
    | zero =>
      obtain ⟨c, n', rfl⟩ := List.exists_cons_of_ne_nil hn
      have hc : c ≠ 47 := by
        intro hc; subst hc
        exact h _ List.mem_cons_self List.mem_cons_self
      have : ∃ q, joinPath ((c :: n') :: r) = c :: q := by
        cases r with
        | nil => exact ⟨n', rfl⟩
        | cons a b => exact ⟨n' ++ 47 :: joinPath (a :: b), rfl⟩
      obtain ⟨q, hq⟩ := this
      simp [hq, hc]
    | succ k ih => simp [List.replicate_succ, ih]
  rw [pathComps, hd, split_join _ (by simp) h]

theorem takeWhile_slash (p : Bytes) : ∀ b ∈ p.takeWhile (· == 47), b = 47 := by
  induction p with
  | nil => intro b hb; cases hb
  | cons c r ih =>
    intro b hb
    rw [List.takeWhile_cons] at hb
    split at hb
    · rename_i hc
      rcases List.mem_cons.mp hb with rfl | hb
      · exact beq_iff_eq.mp hc
      · exact ih b hb
    · cases hb

/-- A path is some slashes and its components, joined. -/
theorem pathComps_spec (path : Bytes) :
    ∃ k, path = List.replicate k 47 ++ joinPath (pathComps path) := by
  refine ⟨(path.takeWhile (· == 47)).length, ?_⟩
  rw [pathComps, join_split]
  have : path.takeWhile (· == 47) = List.replicate (path.takeWhile (· == 47)).length 47 := by
    rw [List.eq_replicate_iff]
    exact ⟨rfl, takeWhile_slash path⟩
  rw [← this, List.takeWhile_append_dropWhile]

/-! ## One component -/

theorem isSubvolume_iff {d : DirItem} {b : Bool} (h : DirItem.isSubvolume d = .ok b) :
    ∃ loc, DirItem.location d = .ok loc ∧ (b = true ↔ loc.typ = 132) := by
  simp only [DirItem.isSubvolume, Go.bind_eq_ok, Go.pure_eq, Go.ok.injEq] at h
  obtain ⟨loc, h1, h2⟩ := h
  refine ⟨loc, h1, ?_⟩
  rw [← h2]
  exact beq_iff_eq

theorem fastDir_sound {l : AStore} (hl : l.Sorted) {G o dir : UInt64} {comp : Bytes} {d : DirItem}
    (h : fastDir ⟨l.enc, G⟩ o dir comp = .ok (some d)) :
    l.enc.dirItem o dir d ∧ DirItem.name d = .ok comp := by
  simp only [fastDir, Go.bind_eq_ok] at h
  obtain ⟨r, h1, h2⟩ := h
  cases r with
  | none => cases h2
  | some v =>
    simp only [Go.bind_eq_ok] at h2
    obtain ⟨d', h3, n, h4, h5⟩ := h2
    by_cases hn : n = comp
    · rw [if_pos hn] at h5
      cases h5
      subst hn
      simp only [Ix.findItem, Go.bind_eq_ok] at h1
      obtain ⟨e, h6, h7⟩ := h1
      cases e with
      | none => cases h7
      | some e =>
        obtain ⟨ik, x⟩ := e
        cases h7
        obtain ⟨g, -, h8, -⟩ := find_some hl h6
        exact ⟨⟨_, g, x, enc_stores.mpr h8, h3⟩, h4⟩
    · rw [if_neg hn] at h5; cases h5

theorem foldSlow_sound (comp : Bytes) (last : Bool) (P : DirItem → Prop)
    (items : List (Range × Slice)) (hP : ∀ e ∈ items, P e.2) (s : Option DirItem) {d : DirItem} {b : Bool}
    (h : foldRange (slowBody comp last) s items = .ok (some d, b)) :
    s = some d ∨ (P d ∧ DirItem.name d = .ok comp) := by
  induction items generalizing s with
  | nil =>
    simp only [foldRange, Go.ok.injEq, Prod.mk.injEq] at h
    exact Or.inl h.1
  | cons e r ih =>
    obtain ⟨r1, d1⟩ := e
    simp only [foldRange, Go.bind_eq_ok] at h
    obtain ⟨⟨s', bk⟩, h1, h2⟩ := h
    have hbody : (s' = s ∧ bk = false) ∨ (s' = some d1 ∧ bk = true ∧ DirItem.name d1 = .ok comp) := by
      simp only [slowBody, Go.bind_eq_ok] at h1
      obtain ⟨n, h3, h4⟩ := h1
      by_cases hn : n = comp
      · subst hn
        rw [if_pos rfl] at h4
        simp only [Go.bind_eq_ok] at h4
        obtain ⟨isd, -, h5⟩ := h4
        by_cases hc : (isd || last) = true
        · rw [if_pos hc] at h5; cases h5; exact Or.inr ⟨rfl, rfl, h3⟩
        · rw [if_neg hc] at h5; cases h5; exact Or.inl ⟨rfl, rfl⟩
      · rw [if_neg hn] at h4; cases h4; exact Or.inl ⟨rfl, rfl⟩
    rcases hbody with ⟨rfl, rfl⟩ | ⟨rfl, rfl, hn⟩
    · exact ih (fun e he => hP e (List.mem_cons_of_mem _ he)) _ h2
    · simp only [if_true, Go.pure_eq, Go.ok.injEq, Prod.mk.injEq, Option.some.injEq] at h2
      obtain ⟨rfl, -⟩ := h2
      exact Or.inr ⟨hP _ List.mem_cons_self, hn⟩

/-- Listing a directory visits stored directory items only, and ends. -/
theorem dirItems_yields {l : AStore} (hl : l.Sorted) (hm : ∃ m, l.enc.stores metadataVersionKey m)
    (hok : l.enc.DirsOK) (G : UInt64) {o : UInt64} (dir : UInt64) (ho : o ≠ ~~~0) :
    ∃ rd items, (Ix.mk l.enc G).dirItems o dir = .ok rd ∧ Range.Yields rd items ∧
      ∀ e ∈ items, l.enc.dirItem o dir e.2 := by
  have he : (Ix.mk l.enc G).dirItems o dir = (Ix.mk l.enc G).range o (KF 84 dir) (KL2 84 dir) := rfl
  rw [he]
  by_cases hk : ∃ off, l.enc.hasKey o ⟨dir, 84, off⟩
  · obtain ⟨off, hk⟩ := hk
    have hrok := hok.ranges o _ ho hk rfl
    obtain ⟨rd', items, hr', hy, -, hs⟩ := range_yields hl (first := KF 84 dir) hm hrok G
    refine ⟨_, _, hr', hy, ?_⟩
    rintro ⟨r, s⟩ hmem
    simp only [List.mem_map, Prod.mk.injEq] at hmem
    obtain ⟨⟨⟨w, y⟩, s'⟩, hmem, -, rfl⟩ := hmem
    rcases hs with ⟨-, rfl⟩ | ⟨k0, g0, h4, -, h6⟩
    · cases hmem
    · obtain ⟨k, rfl, h7, h8, h9, h10, -⟩ := (h6 w y s').mp hmem
      obtain ⟨hkt, hki⟩ := between_same_prefix (k0 := k0) h4.2.1 h4.2.2.1 h9 h10
      obtain ⟨k1, k2, k3⟩ := k
      simp only at hkt hki
      subst hkt; subst hki
      exact ⟨k3, g0, y, h7, h8⟩
  · obtain ⟨m, hm⟩ := hm
    have hr' := range_none hl (first := KF 84 dir) (last := KL2 84 dir) (o := o) G
      ⟨_, enc_stores.mp hm, Nat.le_of_lt (num_lt_of_owner (ne_max_lt ho))⟩
      (fun g x hx => hok.noKL o ho (enc_hasKey.mpr ⟨g, x, hx⟩))
      (fun k g x hx hc => hk ⟨k.offset, enc_hasKey.mpr ⟨g, x, by
        obtain ⟨k1, k2, k3⟩ := k
        obtain ⟨hc1, hc2⟩ := hc
        simp only [KF] at hc1 hc2
        subst hc1; subst hc2
        exact hx⟩⟩)
    exact ⟨_, [], hr', .done rfl, fun e he => absurd he (List.not_mem_nil)⟩

/-- The slow path only finds stored directory items. -/
theorem slow_sound {l : AStore} (hl : l.Sorted) (hm : ∃ m, l.enc.stores metadataVersionKey m)
    (hok : l.enc.DirsOK) {G o dir : UInt64} (ho : o ≠ ~~~0) {comp : Bytes} {last : Bool} {d : DirItem}
    {fuel : Nat} {rd : Range × Slice} {b : Bool}
    (hr : (Ix.mk l.enc G).dirItems o dir = .ok rd)
    (h : rangeLoop (slowBody comp last) fuel none rd = .ok (some d, b)) :
    l.enc.dirItem o dir d ∧ DirItem.name d = .ok comp := by
  obtain ⟨rd', items, h1, h2, h3⟩ := dirItems_yields hl hm hok G dir ho
  rw [h1] at hr
  cases hr
  rcases foldSlow_sound comp last (l.enc.dirItem o dir) _ h3 none (rangeLoop_fold _ h2 h) with h | h
  · cases h
  · exact h

theorem findComp_sound {l : AStore} (hl : l.Sorted) (hm : ∃ m, l.enc.stores metadataVersionKey m)
    (hok : l.enc.DirsOK) {G o dir : UInt64} (ho : o ≠ ~~~0) {comp : Bytes} {last : Bool} {d : DirItem}
    {fuel : Nat} (h : findComp fuel ⟨l.enc, G⟩ o dir comp last = .ok (some d)) :
    l.enc.dirItem o dir d ∧ DirItem.name d = .ok comp := by
  simp only [findComp, Go.bind_eq_ok] at h
  obtain ⟨r, h1, h2⟩ := h
  cases r with
  | some d' =>
    cases h2
    exact fastDir_sound hl h1
  | none =>
    simp only [Go.bind_eq_ok] at h2
    obtain ⟨rd, h3, ⟨s, b⟩, h4, h5⟩ := h2
    cases h5
    exact slow_sound hl hm hok ho h3 h4

theorem findPathLoop_sound {l : AStore} (hl : l.Sorted) (hm : ∃ m, l.enc.stores metadataVersionKey m)
    (hok : l.enc.DirsOK) {G : UInt64} {fuel : Nat} :
    ∀ (names : List Bytes) (o dir : UInt64) (res : Option DirItem) (d : DirItem), o ≠ ~~~0 →
      names ≠ [] → findPathLoop fuel ⟨l.enc, G⟩ o dir res names = .ok (some d) →
      l.enc.PathTo o dir names d := by
  intro names
  induction names with
  | nil => intro _ _ _ _ _ h; exact absurd rfl h
  | cons n rest ih =>
    intro o dir res d ho _ h
    simp only [findPathLoop, Go.bind_eq_ok] at h
    obtain ⟨r, h1, h2⟩ := h
    cases r with
    | none => cases h2
    | some d1 =>
      obtain ⟨h3, h4⟩ := findComp_sound hl hm hok ho h1
      simp only [Go.bind_eq_ok] at h2
      obtain ⟨sv, h5, h6⟩ := h2
      obtain ⟨loc, h7, h8⟩ := isSubvolume_iff h5
      have hnext : findPathLoop fuel ⟨l.enc, G⟩ (target o loc).1 (target o loc).2 (some d1) rest =
          .ok (some d) := by
        by_cases hsv : sv = true
        · simp only [hsv, Bool.not_true, Bool.false_eq_true, if_false, h7, Go.ok_bind] at h6
          simpa only [target, if_pos (h8.mp hsv), FirstFreeObjectID] using h6
        · have hsf : sv = false := by simpa using hsv
          simp only [hsf, Bool.not_false, if_true, h7, Go.ok_bind] at h6
          simpa only [target, if_neg (fun hc => hsv (h8.mpr hc))] using h6
      by_cases hr : rest = []
      · subst hr
        simp only [findPathLoop, Go.ok.injEq, Option.some.injEq] at hnext
        subst hnext
        exact .last h3 h4
      · refine .step h3 h4 h7 (ih _ _ _ _ ?_ hr hnext)
        unfold target
        split
        · rename_i hc
          exact hok.noMetaTree o dir d1 loc ho h3 h7 hc
        · exact ho

theorem split_noslash_mem (p : Bytes) : ∀ n ∈ splitSlash p, 47 ∉ n := by
  induction p with
  | nil => simp [splitSlash]
  | cons c r ih =>
    intro n hn
    simp only [splitSlash] at hn
    by_cases hc : c = 47
    · rw [if_pos hc] at hn
      rcases List.mem_cons.mp hn with rfl | hn
      · simp
      · exact ih n hn
    · rw [if_neg hc] at hn
      cases hs : splitSlash r with
      | nil => exact absurd hs (splitSlash_ne r)
      | cons a t =>
        rw [hs] at hn ih
        simp only at hn
        rcases List.mem_cons.mp hn with rfl | hn
        · intro hm
          rcases List.mem_cons.mp hm with h | h
          · exact hc h.symm
          · exact ih a List.mem_cons_self h
        · exact ih n (List.mem_cons_of_mem _ hn)

theorem pathComps_noslash (p : Bytes) : ∀ n ∈ pathComps p, 47 ∉ n := split_noslash_mem _

/-! ## The lookup returns -/

theorem wholeEntry.fields {d : DirItem} (h : wholeEntry (Slice.data d)) :
    (∃ n, DirItem.name d = .ok n) ∧ (∃ loc, DirItem.location d = .ok loc) ∧ ∃ t, DirItem.typ d = .ok t := by
  obtain ⟨dd, dt⟩ := d
  obtain ⟨e, name, rest, h1, h2, h3⟩ := h
  simp only at h1
  subst h1
  obtain ⟨-, h4, -, -, -, h5⟩ := C07_DirItem_decodes e (name ++ rest) dt
  exact ⟨⟨_, C09_dir_item_name e name rest dt h2 h3⟩, ⟨_, h4⟩, ⟨_, h5⟩⟩

theorem foldSlow_returns (comp : Bytes) (last : Bool) (items : List (Range × Slice))
    (hP : ∀ e ∈ items, wholeEntry (Slice.data e.2)) (s : Option DirItem) :
    ∃ r, foldRange (slowBody comp last) s items = .ok r := by
  induction items generalizing s with
  | nil => exact ⟨_, rfl⟩
  | cons e r ih =>
    obtain ⟨r1, d1⟩ := e
    obtain ⟨⟨n, hn⟩, -, t, ht⟩ := (hP _ List.mem_cons_self).fields
    have : ∃ sb, slowBody comp last s r1 d1 = .ok sb := by
      simp only [slowBody, hn, Go.ok_bind, DirItem.isDir, ht]
      by_cases h : n = comp
      · rw [if_pos h]
        simp only [Go.pure_eq, Go.ok_bind]
        split <;> exact ⟨_, rfl⟩
      · rw [if_neg h]; exact ⟨_, rfl⟩
    obtain ⟨⟨s', bk⟩, hb⟩ := this
    simp only [foldRange, hb, Go.ok_bind]
    cases bk with
    | true => exact ⟨_, rfl⟩
    | false => exact ih (fun e he => hP e (List.mem_cons_of_mem _ he)) s'

theorem fastDir_returns {l : AStore} (hl : l.Sorted) (hm : ∃ m, l.enc.stores metadataVersionKey m)
    (hfull : ∀ o dir d, o ≠ ~~~0 → l.enc.dirItem o dir d → wholeEntry (Slice.data d))
    (hok : l.enc.DirsOK) (G : UInt64) {o : UInt64} (dir : UInt64) (ho : o ≠ ~~~0) (comp : Bytes) :
    ∃ r, fastDir ⟨l.enc, G⟩ o dir comp = .ok r := by
  obtain ⟨m, hm⟩ := hm
  have hk : KF3 DirItemKey dir (NameHash comp).toUInt64 = ⟨dir, 84, (NameHash comp).toUInt64⟩ := rfl
  rcases C22_lookup_safe_partial l.enc (AStore.enc_wf hl) G o ⟨dir, 84, (NameHash comp).toUInt64⟩ m
    hm (by
      rw [← VKey.num_lt_iff]
      exact Nat.not_lt.mpr (Nat.le_of_lt (num_lt_of_owner (ne_max_lt ho)))) with ⟨hf, -⟩ | ⟨g, x, hf, hx⟩
  · exact ⟨none, by simp only [fastDir, hk, hf, Go.ok_bind, Go.pure_eq]⟩
  · obtain ⟨d, hd⟩ := (hok.ranges o _ ho ⟨g, x, hx⟩ rfl).intact _ _ hx rfl
    obtain ⟨s, hs, -⟩ := hd.data
    obtain ⟨⟨n, hn⟩, -⟩ := (hfull o dir s ho ⟨_, g, x, hx, hs⟩).fields
    simp only [fastDir, hk, hf, Go.ok_bind, hs, hn]
    split <;> exact ⟨_, rfl⟩

theorem findComp_returns {l : AStore} (hl : l.Sorted) (hm : ∃ m, l.enc.stores metadataVersionKey m)
    (hfull : ∀ o dir d, o ≠ ~~~0 → l.enc.dirItem o dir d → wholeEntry (Slice.data d))
    (hok : l.enc.DirsOK) (G : UInt64) {o : UInt64} (dir : UInt64) (ho : o ≠ ~~~0) (comp : Bytes)
    (last : Bool) :
    ∃ N r, ∀ fuel, N ≤ fuel → findComp fuel ⟨l.enc, G⟩ o dir comp last = .ok r := by
  obtain ⟨r, hr⟩ := fastDir_returns hl hm hfull hok G dir ho comp
  cases r with
  | some d => exact ⟨0, some d, fun fuel _ => by simp only [findComp, hr, Go.ok_bind, Go.pure_eq]⟩
  | none =>
    obtain ⟨rd, items, h1, h2, h3⟩ := dirItems_yields hl hm hok G dir ho
    obtain ⟨⟨s, bk⟩, h4⟩ := foldSlow_returns comp last items (fun e he => hfull o dir _ ho (h3 e he)) none
    refine ⟨items.length + 1, s, fun fuel hf => ?_⟩
    simp only [findComp, hr, Go.ok_bind, h1, rangeLoop_eq _ h2 fuel none (by omega), h4, Go.pure_eq]

theorem findPathLoop_returns {l : AStore} (hl : l.Sorted)
    (hm : ∃ m, l.enc.stores metadataVersionKey m) (hok : l.enc.DirsOK)
    (hfull : ∀ o dir d, o ≠ ~~~0 → l.enc.dirItem o dir d → wholeEntry (Slice.data d)) {G : UInt64} :
    ∀ (names : List Bytes) (o dir : UInt64) (res : Option DirItem), o ≠ ~~~0 →
      ∃ N r, ∀ fuel, N ≤ fuel → findPathLoop fuel ⟨l.enc, G⟩ o dir res names = .ok r := by
  intro names
  induction names with
  | nil => intro o dir res _; exact ⟨0, res, fun _ _ => rfl⟩
  | cons n rest ih =>
    intro o dir res ho
    obtain ⟨N, r, hr⟩ := findComp_returns hl hm hfull hok G dir ho n rest.isEmpty
    cases r with
    | none => exact ⟨N, none, fun fuel hf => by simp only [findPathLoop, hr fuel hf, Go.ok_bind, Go.pure_eq]⟩
    | some d =>
      obtain ⟨h1, h2⟩ := findComp_sound hl hm hok ho (hr N (Nat.le_refl _))
      obtain ⟨-, ⟨loc, hloc⟩, -⟩ := (hfull o dir d ho h1).fields
      by_cases ht : loc.typ = 132
      · obtain ⟨N', r', hr'⟩ := ih loc.objectID FirstFreeObjectID (some d) (hok.noMetaTree o dir d loc ho h1 hloc ht)
        refine ⟨max N N', r', fun fuel hf => ?_⟩
        simp only [findPathLoop, hr fuel (by omega), Go.ok_bind, DirItem.isSubvolume, hloc, Go.pure_eq, ht]
        exact hr' fuel (by omega)
      · obtain ⟨N', r', hr'⟩ := ih o loc.objectID (some d) ho
        refine ⟨max N N', r', fun fuel hf => ?_⟩
        have hf2 : (loc.typ == RootItemKey) = false := beq_eq_false_iff_ne.mpr ht
        simp only [findPathLoop, hr fuel (by omega), Go.ok_bind, DirItem.isSubvolume, hloc, Go.pure_eq, hf2,
          Bool.not_false, if_true]
        exact hr' fuel (by omega)

/-- The fast path hits. -/
theorem fastDir_hit {l : AStore} (hl : l.Sorted) (hm : ∃ m, l.enc.stores metadataVersionKey m)
    {o dir : UInt64} (ho : o ≠ ~~~0) {name p : Bytes} {e : DirItemRec}
    (h : l.enc.hashedEntry o dir name e p) :
    ∃ s : Slice, fastDir ⟨l.enc, ~~~0⟩ o dir name = .ok (some s) ∧ s.data = p ∧
      DirItem.location s = .ok e.location := by
  obtain ⟨g, x, rest, h1, h2, h3, rfl, h5, h6⟩ := h
  obtain ⟨m, hm⟩ := hm
  have hfi : (Ix.mk l.enc (~~~0)).findItem o ⟨dir, 84, (NameHash name).toUInt64⟩ = .ok (some ⟨x, []⟩) := by
    rcases C22_lookup_safe_partial l.enc (AStore.enc_wf hl) (~~~0) o ⟨dir, 84, (NameHash name).toUInt64⟩ m
      hm (by
        have := C20_ordinary_owner o ⟨dir, 84, (NameHash name).toUInt64⟩ ho
        rw [← VKey.num_lt_iff] at this ⊢
        omega) with ⟨-, hno⟩ | ⟨g', x', hf, -⟩
    · exact absurd ⟨x, h2⟩ (hno g)
    · obtain ⟨g2, hc, hst, -⟩ := C21_lookup_at_generation_partial l.enc (AStore.enc_wf hl) _ _ _ _ hf
      have := actualChoice_max hc h1
      subst this
      have hx : x' = x := by
        have a1 := enc_stores.mp hst
        have a2 := enc_stores.mp h2
        exact hl.unique a1 a2
      subst hx
      exact hf
  obtain ⟨s, hs, hsd⟩ := h3.data
  obtain ⟨sd, st⟩ := s
  simp only at hsd
  subst hsd
  refine ⟨⟨e.layout ++ (name ++ rest), st⟩, ?_, rfl, ?_⟩
  · have hn := C09_dir_item_name e name rest st h5 h6
    have hk : KF3 DirItemKey dir (NameHash name).toUInt64 = ⟨dir, 84, (NameHash name).toUInt64⟩ := rfl
    simp only [fastDir, hk, hfi, Go.ok_bind, hs, hn, if_true, Go.pure_eq]
  · exact (C07_DirItem_decodes e (name ++ rest) st).2.1

theorem findPathLoop_hit {l : AStore} (hl : l.Sorted) (hm : ∃ m, l.enc.stores metadataVersionKey m)
    {names : List Bytes} {o dir : UInt64} {p : Bytes} (h : l.enc.HashedPath o dir names p)
    (fuel : Nat) (res : Option DirItem) :
    ∃ s : Slice, findPathLoop fuel ⟨l.enc, ~~~0⟩ o dir res names = .ok (some s) ∧ s.data = p := by
  have key : ∀ {o dir : UInt64} {n p : Bytes} {e : DirItemRec} (res : Option DirItem) (rest : List Bytes),
      o ≠ ~~~0 → l.enc.hashedEntry o dir n e p → ∃ s : Slice, s.data = p ∧
        findPathLoop fuel ⟨l.enc, ~~~0⟩ o dir res (n :: rest) =
          findPathLoop fuel ⟨l.enc, ~~~0⟩ (target o e.location).1 (target o e.location).2 (some s) rest := by
    intro o dir n p e res rest ho he
    obtain ⟨s, h1, h2, h3⟩ := fastDir_hit hl hm ho he
    refine ⟨s, h2, ?_⟩
    simp only [findPathLoop, findComp, h1, Go.ok_bind, Go.pure_eq, DirItem.isSubvolume, h3, target]
    by_cases ht : e.location.typ = 132
    · have : (e.location.typ == RootItemKey) = true := beq_iff_eq.mpr ht
      simp only [this, Bool.not_true, Bool.false_eq_true, if_false, if_pos ht, FirstFreeObjectID]
    · have : (e.location.typ == RootItemKey) = false := beq_eq_false_iff_ne.mpr ht
      simp only [this, Bool.not_false, if_true, if_neg ht]
  induction h generalizing res with
  | @last o dir n e p ho he =>
    obtain ⟨s, h1, h2⟩ := key res [] ho he
    exact ⟨s, by rw [h2]; rfl, h1⟩
  | @step o dir n e p rest p' ho he _ ih =>
    obtain ⟨s, h1, h2⟩ := key res rest ho he
    rw [h2]
    exact ih (some s)

theorem findComp_mono {ix : Ix} {o dir : UInt64} {comp : Bytes} {last : Bool} {r : Option DirItem}
    {fuel fuel' : Nat} (h : findComp fuel ix o dir comp last = .ok r) (hf : fuel ≤ fuel') :
    findComp fuel' ix o dir comp last = .ok r := by
  simp only [findComp, Go.bind_eq_ok] at h ⊢
  obtain ⟨r1, h1, h2⟩ := h
  refine ⟨r1, h1, ?_⟩
  cases r1 with
  | some d => exact h2
  | none =>
    simp only [Go.bind_eq_ok] at h2 ⊢
    obtain ⟨rd, h3, x, h4, h5⟩ := h2
    exact ⟨rd, h3, x, rangeLoop_mono _ h4 hf, h5⟩

theorem findPathLoop_mono {ix : Ix} {o dir : UInt64} {res : Option DirItem} {names : List Bytes}
    {r : Option DirItem} {fuel fuel' : Nat} (h : findPathLoop fuel ix o dir res names = .ok r)
    (hf : fuel ≤ fuel') : findPathLoop fuel' ix o dir res names = .ok r := by
  induction names generalizing o dir res with
  | nil => exact h
  | cons n rest ih =>
    simp only [findPathLoop, Go.bind_eq_ok] at h ⊢
    obtain ⟨r1, h1, h2⟩ := h
    refine ⟨r1, findComp_mono h1 hf, ?_⟩
    cases r1 with
    | none => exact h2
    | some d =>
      simp only [Go.bind_eq_ok] at h2 ⊢
      obtain ⟨b, h3, h4⟩ := h2
      refine ⟨b, h3, ?_⟩
      cases b with
      | false =>
        simp only [Bool.not_false, if_true, Go.bind_eq_ok] at h4 ⊢
        obtain ⟨k, h5, h6⟩ := h4
        exact ⟨k, h5, ih h6⟩
      | true =>
        simp only [Bool.not_true, Bool.false_eq_true, if_false, Go.bind_eq_ok] at h4 ⊢
        obtain ⟨k, h5, h6⟩ := h4
        exact ⟨k, h5, ih h6⟩

end Btrfscue
