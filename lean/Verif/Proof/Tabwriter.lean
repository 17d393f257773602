import Verif.Go.Tabwriter
import Verif.Spec.Table
import Verif.Spec.Ls
/-!
# Lemmas about the tab writer
-/

namespace Btrfscue

variable {p : TabParams} {wd : Bytes → Nat}

/-! ## Nothing but separators changes -/

/-- Bytes that are no separators. -/
def solid (p : TabParams) (b : UInt8) : Bool := b != 9 && b != p.padchar

theorem tabPad_solid (w cw : Nat) : (tabPad p w cw).filter (solid p) = [] := by
  unfold tabPad
  split
  · split
    · rfl
    · rw [List.filter_eq_nil_iff]
      intro b hb
      rw [(List.mem_replicate.mp hb).2]; simp [solid]
  · rw [List.filter_eq_nil_iff]
    intro b hb
    rw [(List.mem_replicate.mp hb).2]; simp [solid]

theorem tabRow_solid (W : Nat → Nat) (j : Nat) (l : List Bytes) :
    (tabRow p wd W j l).filter (solid p) = l.flatten.filter (solid p) := by
  induction l generalizing j with
  | nil => rfl
  | cons c r ih =>
    cases r with
    | nil => simp [tabRow]
    | cons d r =>
      simp only [tabRow, List.filter_append, tabPad_solid, List.nil_append, ih]
      simp [List.filter_append]

/-- The text of complete lines. -/
def linesText (lines : List (List Bytes)) : Bytes := (lines.map fun l => l.flatten ++ [10]).flatten

theorem tabFormat_solid (all : List (List Bytes)) (i : Nat) (lines : List (List Bytes)) :
    (tabFormat p wd all i lines).filter (solid p) = (linesText lines).filter (solid p) := by
  induction lines generalizing i with
  | nil => rfl
  | cons l r ih =>
    show (tabRow p wd _ 0 l ++ ([10] ++ tabFormat p wd all (i + 1) r)).filter _ = _
    rw [List.filter_append, List.filter_append, tabRow_solid, ih, ← List.filter_append, ← List.filter_append]
    unfold linesText
    simp

/-- All text in a writer. -/
def TabState.text (s : TabState) : Bytes := s.out ++ (linesText s.lines ++ (s.line.flatten ++ s.cell))

theorem step_solid (s : TabState) {b : UInt8} (h1 : b ≠ 11) (h2 : b ≠ 12) :
    (TabState.step p wd s b).text.filter (solid p) = (s.text ++ [b]).filter (solid p) := by
  unfold TabState.step
  by_cases he : s.esc
  · rw [if_pos he]
    simp [TabState.text]
  · rw [if_neg he]
    by_cases h255 : b = 255
    · rw [if_pos h255]; simp [TabState.text]
    · rw [if_neg h255]
      by_cases h9 : b = 9 ∨ b = 11
      · rw [if_pos h9]
        have : b = 9 := h9.resolve_right h1
        subst this
        simp [TabState.text, solid]
      · rw [if_neg h9]
        by_cases h10 : b = 10 ∨ b = 12
        · rw [if_pos h10]
          have : b = 10 := h10.resolve_right h2
          subst this
          by_cases hl : (10 : UInt8) = 12 ∨ s.line = []
          · rw [if_pos hl]
            simp only [TabState.text, List.filter_append, tabFormat_solid]
            simp [linesText, List.filter_append]
          · rw [if_neg hl]
            simp [TabState.text, linesText, List.filter_append]
        · rw [if_neg h10]
          simp [TabState.text]

theorem steps_solid (s : TabState) (t : Bytes) (h : ∀ b ∈ t, b ≠ 11 ∧ b ≠ 12) :
    (t.foldl (TabState.step p wd) s).text.filter (solid p) = (s.text ++ t).filter (solid p) := by
  induction t generalizing s with
  | nil => simp
  | cons b r ih =>
    rw [List.foldl_cons, ih _ (fun c hc => h c (List.mem_cons_of_mem _ hc)), List.filter_append,
      step_solid s (h b (by simp)).1 (h b (by simp)).2, ← List.filter_append]
    simp

theorem tabwrite_solid (t : Bytes) (h : ∀ b ∈ t, b ≠ 11 ∧ b ≠ 12) :
    (tabwrite p wd t).filter (solid p) = t.filter (solid p) := by
  have hs := steps_solid (p := p) (wd := wd) {} t h
  have e : (({} : TabState).text ++ t) = t := rfl
  rw [e] at hs
  rw [← hs]
  unfold tabwrite TabState.flush
  generalize t.foldl (TabState.step p wd) {} = s
  simp only [List.filter_append, tabFormat_solid, tabRow_solid, TabState.text]
  by_cases hc : s.cell = []
  · rw [if_pos hc, hc]; simp
  · rw [if_neg hc]; simp [List.filter_append]

/-! ## Tables -/

theorem cell_steps (s : TabState) (he : s.esc = false) (c : Bytes) (hc : plainText c) :
    c.foldl (TabState.step p wd) s = { s with cell := s.cell ++ c } := by
  induction c generalizing s with
  | nil => obtain ⟨a, b, c, d, e⟩ := s; simp
  | cons b r ih =>
    obtain ⟨h9, h10, h11, h12, h255⟩ := hc b (by simp)
    have : TabState.step p wd s b = { s with cell := s.cell ++ [b] } := by
      unfold TabState.step
      rw [if_neg (by simp [he]), if_neg h255, if_neg (by simp [h9, h11]), if_neg (by simp [h10, h12])]
    rw [List.foldl_cons, this, ih { s with cell := s.cell ++ [b] } he (fun x hx => hc x (List.mem_cons_of_mem _ hx))]
    simp

theorem row_steps (s : TabState) (he : s.esc = false) (hcell : s.cell = []) (r : List Bytes) (hne : r ≠ [])
    (hl : s.line ≠ [] ∨ 2 ≤ r.length) (hr : ∀ c ∈ r, plainText c) :
    (tabLine r).foldl (TabState.step p wd) s = { s with lines := s.lines ++ [s.line ++ r], line := [], cell := [] } := by
  induction r generalizing s with
  | nil => exact absurd rfl hne
  | cons c r ih =>
    cases r with
    | nil =>
      have hln : s.line ≠ [] := hl.resolve_right (by simp)
      simp only [tabLine]
      rw [List.foldl_append, cell_steps s he c (hr c (by simp))]
      simp [TabState.step, he, hcell, hln]
    | cons d r =>
      simp only [tabLine]
      rw [List.foldl_append, cell_steps s he c (hr c (by simp)), List.foldl_cons]
      have : TabState.step p wd { s with cell := s.cell ++ c } 9 = { s with line := s.line ++ [c], cell := [] } := by
        simp [TabState.step, he, hcell]
      rw [this, ih { s with line := s.line ++ [c], cell := [] } he rfl (by simp) (Or.inl (by simp))
        (fun x hx => hr x (List.mem_cons_of_mem _ hx))]
      simp

theorem rows_steps (rows : List (List Bytes)) (hn : ∀ r ∈ rows, 2 ≤ r.length) (hr : ∀ r ∈ rows, ∀ c ∈ r, plainText c)
    (s : TabState) (he : s.esc = false) (hcell : s.cell = []) (hline : s.line = []) :
    (rows.map tabLine).flatten.foldl (TabState.step p wd) s = { s with lines := s.lines ++ rows } := by
  induction rows generalizing s with
  | nil => obtain ⟨a, b, c, d, e⟩ := s; simp
  | cons r rest ih =>
    have h2 := hn r (by simp)
    rw [List.map_cons, List.flatten_cons, List.foldl_append,
      row_steps s he hcell r (by intro h; rw [h] at h2; simp at h2) (Or.inr h2) (hr r (by simp)),
      ih (fun x hx => hn x (List.mem_cons_of_mem _ hx)) (fun x hx => hr x (List.mem_cons_of_mem _ hx))
        { s with lines := s.lines ++ [s.line ++ r], line := [], cell := [] } he rfl rfl]
    obtain ⟨a, b, c, d, e⟩ := s
    simp only at hcell hline
    simp [hcell, hline]

theorem takeWhile_self {α : Type} {f : α → Bool} (l : List α) (h : ∀ x ∈ l, f x = true) : l.takeWhile f = l := by
  induction l with
  | nil => rfl
  | cons a r ih =>
    rw [List.takeWhile_cons, if_pos (h a (by simp)), ih (fun x hx => h x (List.mem_cons_of_mem _ hx))]

theorem tabBlock_uniform {rows : List (List Bytes)} {n i j : Nat} (hn : ∀ r ∈ rows, r.length = n) (hj : j + 1 < n) :
    tabBlock rows i j = rows := by
  have hall : ∀ r ∈ rows, inColumn j r = true := by
    intro r hr; simp [inColumn, hn r hr, hj]
  unfold tabBlock
  rw [takeWhile_self _ fun r hr => hall r (List.mem_of_mem_take (List.mem_reverse.mp hr)),
    takeWhile_self _ fun r hr => hall r (List.mem_of_mem_drop hr), List.reverse_reverse, List.take_append_drop]

/-- The lines before an unfinished, empty last one. -/
theorem tabBlock_snoc (rows : List (List Bytes)) {i : Nat} (hi : i < rows.length) (j : Nat) :
    tabBlock (rows ++ [[]]) i j = tabBlock rows i j := by
  unfold tabBlock
  rw [List.take_append_of_le_length (by omega), List.drop_append_of_le_length (by omega)]
  congr 1
  have h0 : inColumn j ([] : List Bytes) = false := by simp [inColumn]
  generalize rows.drop i = l
  induction l with
  | nil => simp [h0]
  | cons a r ih => simp only [List.cons_append, List.takeWhile_cons]; split <;> simp_all

/-- The width of a column of a table whose rows all have a cell there. -/
def tableWidth (p : TabParams) (wd : Bytes → Nat) (rows : List (List Bytes)) (j : Nat) : Nat :=
  (rows.map fun l => wd (l.getD j []) + p.padding).foldl max p.minwidth

theorem tabRow_congr {W W' : Nat → Nat} (l : List Bytes) (k : Nat)
    (h : ∀ j, j + 1 < k + l.length → W j = W' j) : tabRow p wd W k l = tabRow p wd W' k l := by
  induction l generalizing k with
  | nil => rfl
  | cons c r ih =>
    cases r with
    | nil => rfl
    | cons d r =>
      simp only [tabRow]
      rw [h k (by simp), ih (k + 1) (fun j hj => h j (by simp at hj ⊢; omega))]

theorem tabFormat_uniform {rows : List (List Bytes)} {n : Nat} (hn : ∀ r ∈ rows, r.length = n) (l : List (List Bytes))
    (i : Nat) (hl : rows.drop i = l) :
    tabFormat p wd (rows ++ [[]]) i l = (l.map fun r => tabRow p wd (tableWidth p wd rows) 0 r ++ [10]).flatten := by
  induction l generalizing i with
  | nil => rfl
  | cons r rest ih =>
    have hi : i < rows.length := by
      rcases Nat.lt_or_ge i rows.length with h | h
      · exact h
      · rw [List.drop_eq_nil_of_le h] at hl; cases hl
    have hmem : r ∈ rows := List.mem_of_mem_drop (i := i) (by rw [hl]; simp)
    have hrest : rows.drop (i + 1) = rest := by
      rw [← List.drop_drop, hl]; rfl
    simp only [tabFormat, List.map_cons, List.flatten_cons]
    rw [ih (i + 1) hrest, tabRow_congr (W' := tableWidth p wd rows) r 0]
    · simp
    · intro j hj
      rw [Nat.zero_add, hn r hmem] at hj
      unfold tabWidth tableWidth
      rw [tabBlock_snoc rows hi, tabBlock_uniform hn hj]

/-- What is written for a table. -/
theorem tabwrite_table (rows : List (List Bytes)) (n : Nat) (h2 : 2 ≤ n) (hn : ∀ r ∈ rows, r.length = n)
    (hr : ∀ r ∈ rows, ∀ c ∈ r, plainText c) :
    tabwrite p wd (rows.map tabLine).flatten =
      (rows.map fun r => tabRow p wd (tableWidth p wd rows) 0 r ++ [10]).flatten := by
  unfold tabwrite
  rw [rows_steps rows (fun r h => by rw [hn r h]; exact h2) hr {} rfl rfl rfl]
  unfold TabState.flush
  simp only [List.nil_append, ↓reduceIte, tabRow, List.append_nil]
  exact tabFormat_uniform hn rows 0 rfl

theorem foldl_max_le (l : List Nat) (m x : Nat) (h : x = m ∨ x ∈ l) : x ≤ l.foldl max m := by
  induction l generalizing m x with
  | nil => rcases h with h | h; · simp [h]
           · cases h
  | cons a r ih =>
    rw [List.foldl_cons]
    rcases h with rfl | h
    · exact Nat.le_trans (Nat.le_max_left _ a) (ih _ _ (Or.inl rfl))
    · rcases List.mem_cons.mp h with rfl | h
      · exact Nat.le_trans (Nat.le_max_right _ _) (ih _ _ (Or.inl rfl))
      · exact ih _ _ (Or.inr h)

theorem foldl_max_mem (l : List Nat) (m : Nat) : l.foldl max m = m ∨ l.foldl max m ∈ l := by
  induction l generalizing m with
  | nil => exact Or.inl rfl
  | cons a r ih =>
    rw [List.foldl_cons]
    rcases ih (max m a) with h | h
    · rw [h]
      rcases Nat.le_total m a with h' | h'
      · rw [Nat.max_eq_right h']; simp
      · rw [Nat.max_eq_left h']; exact Or.inl rfl
    · exact Or.inr (List.mem_cons_of_mem _ h)

theorem tableWidth_spec (rows : List (List Bytes)) (n j : Nat) (hn : ∀ r ∈ rows, r.length = n) (hj : j < n)
    (hp : p.padding = 1) (hm : p.minwidth = 1) (hne : rows ≠ []) :
    columnWidth wd rows j (tableWidth p wd rows j) := by
  unfold tableWidth
  rw [hp, hm]
  have hget : ∀ r ∈ rows, ∃ c, r[j]? = some c ∧ r.getD j [] = c := by
    intro r hr
    have : j < r.length := by rw [hn r hr]; exact hj
    exact ⟨r[j], by rw [List.getElem?_eq_getElem this], by simp [List.getD, this]⟩
  constructor
  · intro r hr c hc
    obtain ⟨c', h1, h2⟩ := hget r hr
    rw [hc, Option.some.injEq] at h1
    subst h1
    exact foldl_max_le _ _ _ (Or.inr (List.mem_map.mpr ⟨r, hr, by rw [h2]⟩))
  · rcases foldl_max_mem (rows.map fun l => wd (l.getD j []) + 1) 1 with h | h
    · obtain ⟨r, rest, rfl⟩ := List.exists_cons_of_ne_nil hne
      obtain ⟨c, h1, h2⟩ := hget r (by simp)
      refine ⟨r, by simp, c, h1, ?_⟩
      have := foldl_max_le ((r :: rest).map fun l => wd (l.getD j []) + 1) 1 (wd c + 1)
        (Or.inr (List.mem_map.mpr ⟨r, by simp, by rw [h2]⟩))
      omega
    · obtain ⟨r, hr, h'⟩ := List.mem_map.mp h
      obtain ⟨c, h1, h2⟩ := hget r hr
      exact ⟨r, hr, c, h1, by rw [← h', h2]⟩

theorem tabRow_rowText (W : Nat → Nat) (j : Nat) (l : List Bytes) :
    tabRow p wd W j l = rowText (fun j c => tabPad p (wd c) (W j)) j l := by
  induction l generalizing j with
  | nil => rfl
  | cons c r ih =>
    cases r with
    | nil => rfl
    | cons d r => simp only [tabRow, rowText, ih]

/-- Padding with blanks, padding 1 and minimal width 1: an aligned table. -/
theorem tabwrite_aligned (hp : p.padding = 1) (hm : p.minwidth = 1) (hc : p.padchar = 32) (rows : List (List Bytes)) (n : Nat)
    (h2 : 2 ≤ n) (hn : ∀ r ∈ rows, r.length = n) (hr : ∀ r ∈ rows, ∀ c ∈ r, plainText c) :
    alignedTable wd rows (tabwrite p wd (rows.map tabLine).flatten) := by
  refine ⟨tableWidth p wd rows, fun r hrm j hj => tableWidth_spec rows n j hn (by rw [hn r hrm] at hj; omega) hp hm
    (by rintro rfl; cases hrm), ?_⟩
  rw [tabwrite_table rows n h2 hn hr]
  congr 1
  refine List.map_congr_left fun r _ => ?_
  rw [tabRow_rowText]
  have : (fun j c => tabPad p (wd c) (tableWidth p wd rows j)) =
      fun j c => List.replicate (tableWidth p wd rows j - wd c) 32 := by
    funext j c; unfold tabPad; rw [hc, if_neg (by decide)]
  rw [this]

end Btrfscue
