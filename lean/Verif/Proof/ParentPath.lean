import Verif.Proof.GoPath
import Verif.Model.Recover
/-!
# Parent paths
-/

namespace Btrfscue

theorem joinSlash_splitSlash (p : Bytes) : joinSlash (splitSlash p) = p := by
  induction p with
  | nil => rfl
  | cons c r ih =>
    unfold splitSlash
    by_cases hc : c = 47
    · rw [if_pos hc, joinSlash_cons _ (splitSlash_ne_nil r), ih, hc]; rfl
    · rw [if_neg hc]
      cases hs : splitSlash r with
      | nil => exact absurd hs (splitSlash_ne_nil r)
      | cons h t =>
        rw [hs] at ih
        simp only [joinSlash] at ih ⊢
        by_cases ht : t.isEmpty = true
        · rw [if_pos ht] at ih ⊢; rw [ih]
        · rw [if_neg ht] at ih ⊢; rw [List.cons_append, ih]

/-- A parent path is a front part, empty or with a slash at its end. -/
theorem parentPath_prefix (p : Bytes) :
    (∃ rest, p = parentPath p ++ rest) ∧ (parentPath p = [] ∨ ∃ q, parentPath p = q ++ [47]) := by
  unfold parentPath
  constructor
  · have h : (p.reverse.dropWhile (· == 47)).dropWhile (· != 47) <:+ p.reverse :=
      (List.dropWhile_suffix _).trans (List.dropWhile_suffix _)
    obtain ⟨t, ht⟩ := h
    refine ⟨t.reverse, ?_⟩
    rw [← List.reverse_append, ht, List.reverse_reverse]
  · generalize p.reverse.dropWhile (· == 47) = l
    cases hl : l.dropWhile (· != 47) with
    | nil => exact Or.inl rfl
    | cons c r =>
      right
      have := List.head_dropWhile_not (· != 47) (l := l) (by rw [hl]; simp)
      simp only [hl, List.head_cons, bne_eq_false_iff_eq] at this
      refine ⟨r.reverse, ?_⟩
      rw [List.reverse_cons, this]

theorem parents_prefix (p : Bytes) (k : Nat) :
    (∃ rest, p = Nat.repeat parentPath k p ++ rest) ∧
      (k = 0 ∨ Nat.repeat parentPath k p = [] ∨ ∃ q, Nat.repeat parentPath k p = q ++ [47]) := by
  induction k with
  | zero => exact ⟨⟨[], by simp [Nat.repeat]⟩, Or.inl rfl⟩
  | succ k ih =>
    obtain ⟨⟨rest, hr⟩, -⟩ := ih
    obtain ⟨⟨rest', hr'⟩, h2⟩ := parentPath_prefix (Nat.repeat parentPath k p)
    refine ⟨⟨rest' ++ rest, ?_⟩, Or.inr h2⟩
    show p = parentPath (Nat.repeat parentPath k p) ++ _
    rw [← List.append_assoc, ← hr']
    exact hr

/-- The components of a front part with a slash at its end of a clean path. -/
theorem pathParts_front {p q rest : Bytes} (hp : goClean p = p) (h : p = q ++ 47 :: rest) :
    isRooted (q ++ [47]) = isRooted p ∧ ∃ r, pathParts p = pathParts (q ++ [47]) ++ r := by
  have hroot : isRooted (q ++ [47]) = isRooted p := by
    subst h
    cases q <;> simp [isRooted]
  refine ⟨hroot, ?_⟩
  have hc := pathParts_clean p
  have hs : splitSlash p = splitSlash q ++ splitSlash rest := by rw [h, splitSlash_append]
  have hq : splitSlash (q ++ [47]) = splitSlash q ++ [[]] := splitSlash_append q []
  have hq2 : pathParts (q ++ [47]) = cleanComps (isRooted p) (splitSlash q) [] := by
    unfold pathParts
    rw [hroot, hq, cleanComps_append]
    simp [cleanComps]
  rw [hq2]
  have hgc := goClean_eq p
  rw [hp] at hgc
  by_cases hl : pathParts p = []
  · refine ⟨[], ?_⟩
    rw [List.append_nil, hl]
    rw [hl] at hgc
    by_cases hr : isRooted p = true
    · rw [if_pos hr] at hgc
      have hpq : q = [] ∧ rest = [] := by
        rw [h] at hgc
        cases q with
        | nil => simp [joinSlash] at hgc; exact ⟨rfl, hgc⟩
        | cons c q => simp [joinSlash] at hgc
      rw [hpq.1]
      simp [splitSlash, cleanComps]
    · rw [if_neg hr] at hgc
      simp only [joinSlash, if_true] at hgc
      rw [h] at hgc
      cases q with
      | nil => simp [dot] at hgc
      | cons c q => simp [dot] at hgc
  · have hj : splitSlash (joinSlash (pathParts p)) = pathParts p := splitSlash_join _ hl hc.noslash
    have hpre : ∀ X Y, CleanAcc (isRooted p) (X ++ Y) → cleanComps (isRooted p) X [] = X := by
      intro X Y hXY
      refine CleanAcc.again ?_
      obtain ⟨k, names, h1, h2, h3⟩ := hXY
      rcases Nat.lt_or_ge X.length k with hlt | hge
      · refine ⟨X.length, [], ?_, fun hr => by rw [h2 hr] at hlt; omega, by simp⟩
        have := congrArg (List.take X.length) h1
        rw [List.take_left, List.take_append_of_le_length (by simp; omega), List.take_replicate] at this
        rw [this, List.append_nil, Nat.min_eq_left (by omega)]
        simp
      · refine ⟨k, names.take (X.length - k), ?_, h2, fun n hn => h3 n (List.mem_of_mem_take hn)⟩
        have := congrArg (List.take X.length) h1
        rw [List.take_left, List.take_append, List.take_of_length_le (by simp; omega)] at this
        simpa using this
    by_cases hr : isRooted p = true
    · rw [if_pos hr] at hgc
      have h1 : splitSlash p = [] :: pathParts p := by
        refine (congrArg splitSlash hgc).trans ?_
        simp only [splitSlash, if_true, hj]
      rw [hs] at h1
      cases hsq : splitSlash q with
      | nil => exact absurd hsq (splitSlash_ne_nil q)
      | cons x X =>
        rw [hsq] at h1
        simp only [List.cons_append, List.cons.injEq] at h1
        obtain ⟨rfl, h1⟩ := h1
        refine ⟨splitSlash rest, ?_⟩
        have : cleanComps (isRooted p) ([] :: X) [] = cleanComps (isRooted p) X [] := by simp [cleanComps]
        rw [this, hpre X (splitSlash rest) (by rw [h1]; exact hc), h1]
    · rw [if_neg hr, if_neg (fun h => hl ((joinSlash_eq_nil hc.ne_nil).mp h))] at hgc
      have h1 : splitSlash p = pathParts p := by
        refine (congrArg splitSlash hgc).trans ?_
        exact hj
      refine ⟨splitSlash rest, ?_⟩
      rw [hpre (splitSlash q) (splitSlash rest) (by rw [← hs, h1]; exact hc), ← hs, h1]

theorem goJoin_nil (d : Bytes) (hd : d ≠ []) :
    pathParts (goJoin d []) = pathParts d ∧ isRooted (goJoin d []) = isRooted d ∧ goClean (goJoin d []) = goJoin d [] := by
  have h1 : goJoin d [] = goClean (d ++ 47 :: []) := if_pos hd
  have hroot : isRooted (d ++ 47 :: []) = isRooted d := by
    cases d with
    | nil => exact absurd rfl hd
    | cons c r => simp [isRooted]
  have h2 : pathParts (d ++ 47 :: []) = pathParts d := by
    unfold pathParts
    rw [hroot, splitSlash_append, cleanComps_append]
    simp [splitSlash, cleanComps]
  refine ⟨?_, ?_, ?_⟩
  · rw [h1, pathParts_goClean, h2]
  · rw [h1, goClean_rooted, hroot]
  · rw [h1, goClean_idem]

theorem joinSlash_append {C D : List Bytes} (hC : C ≠ []) (hD : D ≠ []) :
    joinSlash (C ++ D) = joinSlash C ++ 47 :: joinSlash D := by
  induction C with
  | nil => exact absurd rfl hC
  | cons c C ih =>
    by_cases h : C = []
    · subst h
      rw [List.cons_append, List.nil_append, joinSlash_cons c hD]; rfl
    · rw [List.cons_append, joinSlash_cons c (by simp [h]), ih h, joinSlash_cons c h]
      simp

theorem parentPath_one {x c : Bytes} (hc : c ≠ []) (hs : 47 ∉ c) (tail : Bytes) (ht : ∀ b ∈ tail, b = 47) :
    parentPath (c ++ tail) = [] ∧ parentPath (x ++ 47 :: (c ++ tail)) = x ++ [47] := by
  have h1 : ∀ (l : Bytes), (tail.reverse ++ l).dropWhile (· == 47) = l.dropWhile (· == 47) := by
    intro l
    have ht' : ∀ b ∈ tail.reverse, b = 47 := fun b hb => ht b (List.mem_reverse.mp hb)
    generalize tail.reverse = t at ht'
    induction t with
    | nil => rfl
    | cons a t ih =>
      rw [List.cons_append, List.dropWhile_cons_of_pos (by simp [ht' a List.mem_cons_self])]
      exact ih fun b hb => ht' b (List.mem_cons_of_mem _ hb)
  have h2 : ∀ l, (c.reverse ++ l).dropWhile (· == 47) = c.reverse ++ l := by
    intro l
    cases hr : c.reverse with
    | nil => simp at hr; exact absurd hr hc
    | cons a t =>
      have : a ≠ 47 := by
        rintro rfl
        exact hs (List.mem_reverse.mp (by rw [hr]; exact List.mem_cons_self))
      rw [List.cons_append, List.dropWhile_cons_of_neg (by simp [this])]
  have h3 : ∀ l : Bytes, (c.reverse ++ l).dropWhile (· != 47) = l.dropWhile (· != 47) := by
    intro l
    have hs' : 47 ∉ c.reverse := fun h => hs (List.mem_reverse.mp h)
    generalize c.reverse = t at hs'
    induction t with
    | nil => rfl
    | cons a t ih =>
      have : a ≠ 47 := by rintro rfl; exact hs' List.mem_cons_self
      rw [List.cons_append, List.dropWhile_cons_of_pos (by simp [this])]
      exact ih fun h => hs' (List.mem_cons_of_mem _ h)
  unfold parentPath
  constructor
  · rw [List.reverse_append, h1, ← List.append_nil c.reverse, h2, h3]
    rfl
  · rw [List.reverse_append, List.reverse_cons, List.reverse_append, List.append_assoc, List.append_assoc, h1, h2, h3]
    simp

/-- The components of a parent path. -/
theorem parentPath_split {p c : Bytes} {C tail : List Bytes} (hp : splitSlash p = C ++ c :: tail) (hc : c ≠ [])
    (ht : tail = [] ∨ tail = [[]]) :
    (C = [] → parentPath p = []) ∧ (C ≠ [] → splitSlash (parentPath p) = C ++ [[]]) := by
  have hns := splitSlash_mem p
  rw [hp] at hns
  have hs : 47 ∉ c := hns c (by simp)
  have hj := joinSlash_splitSlash p
  rw [hp] at hj
  obtain ⟨tl, htl, hct⟩ : ∃ tl : Bytes, (∀ b ∈ tl, b = 47) ∧ joinSlash (c :: tail) = c ++ tl := by
    rcases ht with rfl | rfl
    · exact ⟨[], by simp, by simp [joinSlash]⟩
    · exact ⟨[47], by simp, by simp [joinSlash]⟩
  refine ⟨fun hC => ?_, fun hC => ?_⟩
  · subst hC
    rw [List.nil_append, hct] at hj
    rw [← hj]
    exact (parentPath_one (x := []) hc hs tl htl).1
  · rw [joinSlash_append hC (by simp), hct] at hj
    rw [← hj, (parentPath_one hc hs tl htl).2, splitSlash_append, splitSlash_join C hC fun n hn => hns n (by simp [hn])]
    rfl

theorem isRooted_front {p q rest : Bytes} (h : p = q ++ rest) (hq : q ≠ []) : isRooted q = isRooted p := by
  subst h
  cases q with
  | nil => exact absurd rfl hq
  | cons c q => rfl

/-- The components of a clean path. -/
theorem splitSlash_clean {p : Bytes} (hp : goClean p = p) (hl : pathParts p ≠ []) :
    splitSlash p = (if isRooted p then [[]] else []) ++ pathParts p := by
  have hc := pathParts_clean p
  have hj : splitSlash (joinSlash (pathParts p)) = pathParts p := splitSlash_join _ hl hc.noslash
  have hgc := goClean_eq p
  rw [hp] at hgc
  by_cases hr : isRooted p = true
  · rw [if_pos hr] at hgc ⊢
    refine (congrArg splitSlash hgc).trans ?_
    simp only [splitSlash, if_true, hj]
    rfl
  · rw [if_neg hr, if_neg (fun h => hl ((joinSlash_eq_nil hc.ne_nil).mp h))] at hgc
    rw [if_neg hr]
    exact (congrArg splitSlash hgc).trans hj

theorem clean_ext {p q : Bytes} (hp : goClean p = p) (hq : goClean q = q) (hr : isRooted p = isRooted q)
    (h : pathParts p = pathParts q) : p = q := by
  rw [← hp, ← hq, goClean_eq, goClean_eq, hr, h]

end Btrfscue
