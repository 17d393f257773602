import Verif.Go.Path
/-!
# Lemmas about path cleaning
-/

namespace Btrfscue

theorem joinSlash_cons (n : Bytes) {r : List Bytes} (h : r ≠ []) : joinSlash (n :: r) = n ++ 47 :: joinSlash r := by
  cases r with
  | nil => exact absurd rfl h
  | cons => rfl

theorem splitSlash_ne_nil (p : Bytes) : splitSlash p ≠ [] := by
  cases p with
  | nil => simp [splitSlash]
  | cons c r =>
    simp only [splitSlash]
    split
    · simp
    · split <;> simp

theorem splitSlash_noslash (n : Bytes) (h : 47 ∉ n) : splitSlash n = [n] := by
  induction n with
  | nil => rfl
  | cons c r ih =>
    have hc : c ≠ 47 := fun hc => h (by simp [hc])
    simp only [splitSlash, if_neg hc, ih (fun hr => h (by simp [hr]))]

theorem splitSlash_append (n : Bytes) (p : Bytes) :
    splitSlash (n ++ 47 :: p) = splitSlash n ++ splitSlash p := by
  induction n with
  | nil => simp [splitSlash]
  | cons c r ih =>
    by_cases hc : c = 47
    · simp only [List.cons_append, splitSlash, if_pos hc, ih]
    · simp only [List.cons_append, splitSlash, if_neg hc, ih]
      cases h : splitSlash r with
      | nil => exact absurd h (splitSlash_ne_nil r)
      | cons a b => rfl

theorem splitSlash_join (names : List Bytes) (hne : names ≠ []) (h : ∀ n ∈ names, 47 ∉ n) :
    splitSlash (joinSlash names) = names := by
  induction names with
  | nil => exact absurd rfl hne
  | cons n r ih =>
    by_cases hr : r = []
    · subst hr
      exact splitSlash_noslash n (h n (by simp))
    · rw [joinSlash_cons n hr, splitSlash_append, splitSlash_noslash n (h n (by simp)),
        ih hr (fun x hx => h x (by simp [hx]))]
      rfl

theorem splitSlash_mem (p : Bytes) : ∀ n ∈ splitSlash p, 47 ∉ n := by
  induction p with
  | nil => simp [splitSlash]
  | cons c r ih =>
    intro n hn
    simp only [splitSlash] at hn
    by_cases hc : c = 47
    · rw [if_pos hc] at hn
      rcases List.mem_cons.mp hn with rfl | hn
      · simp
      · exact ih n hn
    · rw [if_neg hc] at hn
      cases hs : splitSlash r with
      | nil => exact absurd hs (splitSlash_ne_nil r)
      | cons a b =>
        rw [hs] at hn
        rcases List.mem_cons.mp hn with rfl | hn
        · simp only [List.mem_cons, not_or]
          exact ⟨fun h => hc h.symm, ih a (by rw [hs]; simp)⟩
        · exact ih n (by rw [hs]; simp [hn])

/-- Components that are kept are kept. -/
theorem cleanComps_plain (rooted : Bool) (names acc : List Bytes) (h : ∀ n ∈ names, n ≠ [] ∧ n ≠ dot ∧ n ≠ dotdot) :
    cleanComps rooted names acc = acc.reverse ++ names := by
  induction names generalizing acc with
  | nil => simp [cleanComps]
  | cons n r ih =>
    obtain ⟨h1, h2, h3⟩ := h n (by simp)
    simp only [cleanComps, h1, h2, h3, or_self, if_false]
    rw [ih _ (fun x hx => h x (by simp [hx]))]
    simp

theorem cleanComps_append (rooted : Bool) (a b acc : List Bytes) :
    cleanComps rooted (a ++ b) acc = cleanComps rooted b (cleanComps rooted a acc).reverse := by
  induction a generalizing acc with
  | nil => simp [cleanComps]
  | cons c r ih =>
    simp only [List.cons_append, cleanComps]
    split
    · exact ih acc
    · split
      · cases acc with
        | nil => dsimp only; split <;> exact ih _
        | cons x t => dsimp only; split <;> exact ih _
      · exact ih _

/-- What cleaning leaves: leading ".." (only if not rooted), then plain components. -/
def CleanAcc (rooted : Bool) (l : List Bytes) : Prop :=
  ∃ k names, l = List.replicate k dotdot ++ names ∧ (rooted = true → k = 0) ∧ ∀ n ∈ names, Plain n

theorem cleanComps_clean (rooted : Bool) (a acc : List Bytes) (ha : ∀ n ∈ a, 47 ∉ n) (h : CleanAcc rooted acc.reverse) :
    CleanAcc rooted (cleanComps rooted a acc) := by
  induction a generalizing acc with
  | nil => exact h
  | cons c r ih =>
    have hr : ∀ n ∈ r, 47 ∉ n := fun n hn => ha n (by simp [hn])
    simp only [cleanComps]
    split
    · exact ih acc hr h
    · rename_i hc
      simp only [not_or] at hc
      split
      · rename_i hdd
        cases acc with
        | nil =>
          dsimp only
          split
          · exact ih [] hr h
          · rename_i hroot
            exact ih [dotdot] hr ⟨1, [], by simp, fun hx => absurd hx hroot, by simp⟩
        | cons x t =>
          dsimp only
          obtain ⟨k, names, h1, h2, h3⟩ := h
          by_cases hx : x = dotdot
          · rw [if_pos hx]
            apply ih _ hr
            have hnil : names = [] := by
              rcases List.eq_nil_or_concat names with h | ⟨p, q, rfl⟩
              · exact h
              · exfalso
                have := congrArg List.getLast? h1
                simp at this
                exact (h3 q (by simp)).2.2.1 (this ▸ hx)
            subst hnil
            rw [List.append_nil] at h1
            refine ⟨k + 1, [], ?_, ?_, by simp⟩
            · rw [List.reverse_cons, h1, List.append_nil, List.replicate_succ']
            · intro hroot
              exfalso
              rw [h2 hroot] at h1
              simp at h1
          · rw [if_neg hx]
            apply ih _ hr
            rcases List.eq_nil_or_concat names with rfl | ⟨p, q, rfl⟩
            · exfalso
              rw [List.append_nil] at h1
              have hm : x ∈ (x :: t).reverse := by simp
              rw [h1] at hm
              exact hx (List.eq_of_mem_replicate hm)
            · refine ⟨k, p, ?_, h2, fun n hn => h3 n (by simp [hn])⟩
              have h1' : t.reverse ++ [x] = (List.replicate k dotdot ++ p) ++ [q] := by
                rw [← List.reverse_cons, h1]; simp
              exact (List.append_inj' h1' rfl).1
      · rename_i hdd
        apply ih _ hr
        obtain ⟨k, names, h1, h2, h3⟩ := h
        refine ⟨k, names ++ [c], by rw [List.reverse_cons, h1]; simp, h2, ?_⟩
        intro n hn
        rcases List.mem_append.mp hn with hn | hn
        · exact h3 n hn
        · rw [List.mem_singleton.mp hn]
          exact ⟨hc.1, hc.2, hdd, ha c (by simp)⟩

/-- The components of a cleaned path. -/
def pathParts (p : Bytes) : List Bytes := cleanComps (isRooted p) (splitSlash p) []

theorem pathParts_clean (p : Bytes) : CleanAcc (isRooted p) (pathParts p) :=
  cleanComps_clean _ _ _ (splitSlash_mem p) ⟨0, [], rfl, fun _ => rfl, by simp⟩

theorem CleanAcc.noslash {r : Bool} {l : List Bytes} (h : CleanAcc r l) : ∀ n ∈ l, 47 ∉ n := by
  obtain ⟨k, names, rfl, -, h3⟩ := h
  intro n hn
  rcases List.mem_append.mp hn with hn | hn
  · rw [List.eq_of_mem_replicate hn]; decide
  · exact (h3 n hn).2.2.2

theorem CleanAcc.ne_nil {r : Bool} {l : List Bytes} (h : CleanAcc r l) : ∀ n ∈ l, n ≠ [] := by
  obtain ⟨k, names, rfl, -, h3⟩ := h
  intro n hn
  rcases List.mem_append.mp hn with hn | hn
  · rw [List.eq_of_mem_replicate hn]; decide
  · exact (h3 n hn).1

theorem goClean_eq (p : Bytes) : goClean p =
    if isRooted p then 47 :: joinSlash (pathParts p) else if joinSlash (pathParts p) = [] then dot else joinSlash (pathParts p) := rfl

theorem joinSlash_eq_nil {l : List Bytes} (h : ∀ n ∈ l, n ≠ []) : joinSlash l = [] ↔ l = [] := by
  cases l with
  | nil => simp [joinSlash]
  | cons n r =>
    by_cases hr : r = []
    · subst hr
      simp only [joinSlash, List.isEmpty_nil, if_true, List.cons_ne_nil, iff_false]
      exact h n (by simp)
    · rw [joinSlash_cons n hr]; simp

theorem joinSlash_head {l : List Bytes} (h : ∀ n ∈ l, n ≠ []) (hs : ∀ n ∈ l, 47 ∉ n) (hl : l ≠ []) :
    isRooted (joinSlash l) = false := by
  cases l with
  | nil => exact absurd rfl hl
  | cons n r =>
    have h1 := h n (by simp)
    have h2 := hs n (by simp)
    cases n with
    | nil => exact absurd rfl h1
    | cons c n =>
      have hc : c ≠ 47 := fun hc => h2 (by simp [hc])
      by_cases hr : r = []
      · subst hr; simp [joinSlash, isRooted, hc]
      · rw [joinSlash_cons _ hr]; simp [isRooted, hc]

theorem goClean_rooted (p : Bytes) : isRooted (goClean p) = isRooted p := by
  have hc := pathParts_clean p
  rw [goClean_eq]
  by_cases h : isRooted p = true
  · rw [if_pos h, h]; rfl
  · rw [if_neg h]
    simp only [Bool.not_eq_true] at h
    rw [h]
    split
    · rfl
    · rename_i hj
      exact joinSlash_head hc.ne_nil hc.noslash (fun hl => hj (by rw [hl]; rfl))

theorem CleanAcc.again {r : Bool} {l : List Bytes} (h : CleanAcc r l) : cleanComps r l [] = l := by
  obtain ⟨k, names, rfl, h2, h3⟩ := h
  rw [cleanComps_append, cleanComps_plain _ names _ (fun n hn => ⟨(h3 n hn).1, (h3 n hn).2.1, (h3 n hn).2.2.1⟩),
    List.reverse_reverse]
  congr 1
  cases hr : r with
  | true => rw [h2 hr]; rfl
  | false =>
    have hk : ∀ k j, cleanComps false (List.replicate k dotdot) (List.replicate j dotdot) = List.replicate (j + k) dotdot := by
      intro k
      induction k with
      | zero => intro j; simp [cleanComps]
      | succ k ih =>
        intro j
        simp only [List.replicate_succ, cleanComps]
        rw [if_neg (by decide), if_pos trivial]
        cases j with
        | zero =>
          simp only [List.replicate_zero, Bool.false_eq_true, if_false]
          have := ih 1
          simp only [List.replicate_one] at this
          rw [this, Nat.zero_add, Nat.add_comm]
        | succ j =>
          simp only [List.replicate_succ, if_true]
          have := ih (j + 2)
          simp only [List.replicate_succ] at this
          rw [this]
          rw [show j + 1 + (k + 1) = (j + 2) + k by omega]
    have := hk k 0
    simpa using this

/-- The components of a cleaned path are those it was made of. -/
theorem pathParts_goClean (p : Bytes) : pathParts (goClean p) = pathParts p := by
  have hc := pathParts_clean p
  have hroot := goClean_rooted p
  unfold pathParts at *
  rw [hroot]
  have hsplit : cleanComps (isRooted p) (splitSlash (goClean p)) [] =
      cleanComps (isRooted p) (cleanComps (isRooted p) (splitSlash p) []) [] := by
    rw [goClean_eq]
    change CleanAcc _ (pathParts p) at hc
    show _ = cleanComps (isRooted p) (pathParts p) []
    by_cases hl : pathParts p = []
    · rw [hl]
      cases isRooted p <;> rfl
    · have hj : splitSlash (joinSlash (pathParts p)) = pathParts p := splitSlash_join _ hl hc.noslash
      by_cases hr : isRooted p = true
      · rw [if_pos hr]
        simp only [splitSlash, if_true, hj]
        simp [cleanComps]
      · rw [if_neg hr, if_neg (fun h => hl ((joinSlash_eq_nil hc.ne_nil).mp h)), hj]
  rw [hsplit]
  exact hc.again

/-- Cleaning twice is cleaning once. -/
theorem goClean_idem (p : Bytes) : goClean (goClean p) = goClean p := by
  rw [goClean_eq (goClean p), goClean_rooted, pathParts_goClean, ← goClean_eq]

/-- Joining a plain name appends a component. -/
theorem goJoin_plain (d n : Bytes) (hd : d ≠ []) (hn : Plain n) :
    pathParts (goJoin d n) = pathParts d ++ [n] ∧ isRooted (goJoin d n) = isRooted d ∧ goClean (goJoin d n) = goJoin d n := by
  have h1 : goJoin d n = goClean (d ++ 47 :: n) := if_pos hd
  have hroot : isRooted (d ++ 47 :: n) = isRooted d := by
    cases d with
    | nil => exact absurd rfl hd
    | cons c r => simp [isRooted]
  have h2 : pathParts (d ++ 47 :: n) = pathParts d ++ [n] := by
    unfold pathParts
    rw [hroot, splitSlash_append, splitSlash_noslash n hn.2.2.2, cleanComps_append,
      cleanComps_plain _ [n] _ (by simpa using ⟨hn.1, hn.2.1, hn.2.2.1⟩), List.reverse_reverse]
  refine ⟨?_, ?_, ?_⟩
  · rw [h1, pathParts_goClean, h2]
  · rw [h1, goClean_rooted, hroot]
  · rw [h1, goClean_idem]

theorem goJoin_ne_nil (d n : Bytes) (hd : d ≠ []) : goJoin d n ≠ [] := by
  rw [show goJoin d n = goClean (d ++ 47 :: n) from if_pos hd, goClean_eq]
  split
  · simp
  · split
    · decide
    · assumption

end Btrfscue
