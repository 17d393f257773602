import Verif.Go.HostFS
/-!
# Contents of files after writes
-/

namespace Btrfscue

theorem pwrite_get {d b : Bytes} {off : Nat} (hb : b ≠ []) (i : Nat) :
    (pwrite d off b)[i]? = if i < off then (if i < d.length then d[i]? else some 0)
      else if i < off + b.length then b[i - off]? else d[i]? := by
  have hlen : 0 < b.length := List.length_pos_iff.mpr hb
  unfold pwrite
  rw [if_neg hb]
  by_cases h1 : i < off
  · rw [if_pos h1]
    by_cases h2 : i < d.length
    · rw [if_pos h2, List.getElem?_append_left (by rw [List.length_take]; omega), List.getElem?_take, if_pos h1]
    · rw [if_neg h2, List.getElem?_append_right (by rw [List.length_take]; omega),
        List.getElem?_append_left (by rw [List.length_replicate, List.length_take]; omega), List.getElem?_replicate,
        if_pos (by rw [List.length_take]; omega)]
  · rw [if_neg h1]
    have hl : (d.take off).length + (off - d.length) = off := by rw [List.length_take]; omega
    rw [← List.append_assoc, List.getElem?_append_right (by rw [List.length_append, List.length_replicate]; omega),
      List.length_append, List.length_replicate, hl]
    by_cases h2 : i < off + b.length
    · rw [if_pos h2, List.getElem?_append_left (by omega)]
    · rw [if_neg h2, List.getElem?_append_right (by omega), List.getElem?_drop]
      congr 1; omega

theorem pwrite_nil (d : Bytes) (off : Nat) : pwrite d off [] = d := by simp [pwrite]

/-- Writing in two pieces. -/
theorem pwrite_append (d : Bytes) (off : Nat) (a b : Bytes) :
    pwrite (pwrite d off a) (off + a.length) b = pwrite d off (a ++ b) := by
  by_cases ha : a = []
  · subst ha; simp [pwrite_nil]
  · by_cases hb : b = []
    · subst hb; simp [pwrite_nil]
    · have hla : 0 < a.length := List.length_pos_iff.mpr ha
      have hlp : off + a.length ≤ (pwrite d off a).length := by
        rcases Nat.lt_or_ge (off + a.length - 1) (pwrite d off a).length with h | h
        · omega
        · have h1 := pwrite_get (d := d) (off := off) ha (off + a.length - 1)
          rw [List.getElem?_eq_none h, if_neg (by omega), if_pos (by omega)] at h1
          have := List.getElem?_eq_none_iff.mp h1.symm
          omega
      apply List.ext_getElem?
      intro i
      rw [pwrite_get (d := pwrite d off a) hb, pwrite_get (b := a ++ b) (by simp [ha]), pwrite_get (b := a) ha]
      by_cases h1 : i < off
      · rw [if_pos (by omega), if_pos (by omega), if_pos h1]
        simp [h1]
      · rw [if_neg h1, if_neg h1]
        by_cases h2 : i < off + a.length
        · rw [if_pos h2, if_pos h2, if_pos (by omega), if_pos (by rw [List.length_append]; omega),
            List.getElem?_append_left (by omega)]
        · rw [if_neg h2, if_neg h2, List.length_append]
          by_cases h3 : i < off + a.length + b.length
          · rw [if_pos h3, if_pos (by omega), List.getElem?_append_right (by omega)]
            congr 1; omega
          · rw [if_neg h3, if_neg (by omega)]

/-- The contents after writes at given offsets. -/
def writes (d : Bytes) : List (Nat × Bytes) → Bytes
  | [] => d
  | w :: r => writes (pwrite d w.1 w.2) r

/-- Position `i` lies in the piece written. -/
def covers (w : Nat × Bytes) (i : Nat) : Prop := w.1 ≤ i ∧ i < w.1 + w.2.length

/-- Bytes of a file written in pieces that do not overlap. -/
theorem writes_get : ∀ (ws : List (Nat × Bytes)) (d : Bytes),
    ws.Pairwise (fun a b => a.1 + a.2.length ≤ b.1) → ∀ (i : Nat),
      (∀ w ∈ ws, covers w i → (writes d ws)[i]? = w.2[i - w.1]?) ∧
      ((∀ w ∈ ws, ¬ covers w i) → (writes d ws)[i]? = d[i]? ∨ (d[i]? = none ∧ (writes d ws)[i]? = some 0)) := by
  intro ws
  induction ws with
  | nil => intro d _ i; exact ⟨fun w h => (by cases h), fun _ => Or.inl rfl⟩
  | cons w r ih =>
    intro d hp i
    obtain ⟨hp1, hp2⟩ := List.pairwise_cons.mp hp
    obtain ⟨h1, h2⟩ := ih (pwrite d w.1 w.2) hp2 i
    refine ⟨fun w' hw hc => ?_, fun hn => ?_⟩
    · rcases List.mem_cons.mp hw with rfl | hw
      · have hb : w'.2 ≠ [] := by
          intro hb
          have := hc.2
          rw [hb] at this
          have := hc.1
          simp at *
          omega
        have hg : (pwrite d w'.1 w'.2)[i]? = w'.2[i - w'.1]? := by
          rw [pwrite_get hb, if_neg (by have := hc.1; omega), if_pos hc.2]
        have hlt : i - w'.1 < w'.2.length := by have := hc.1; have := hc.2; omega
        rcases h2 (fun w'' hw'' hc' => by
          have := hp1 w'' hw''
          have := hc'.1
          have := hc.2
          omega) with h | ⟨h, -⟩
        · show (writes (pwrite d w'.1 w'.2) r)[i]? = _
          rw [h, hg]
        · rw [hg, List.getElem?_eq_getElem hlt] at h; cases h
      · exact h1 w' hw hc
    · by_cases hb : w.2 = []
      · have he : pwrite d w.1 w.2 = d := by rw [hb, pwrite_nil]
        rw [he] at h2
        show (writes (pwrite d w.1 w.2) r)[i]? = _ ∨ _ ∧ (writes (pwrite d w.1 w.2) r)[i]? = _
        rw [he]
        exact h2 fun w' hw' => hn w' (List.mem_cons_of_mem _ hw')
      · have hg : (pwrite d w.1 w.2)[i]? = d[i]? ∨ (d[i]? = none ∧ (pwrite d w.1 w.2)[i]? = some 0) := by
          rw [pwrite_get hb]
          by_cases h3 : i < w.1
          · rw [if_pos h3]
            by_cases h4 : i < d.length
            · rw [if_pos h4]; exact Or.inl rfl
            · rw [if_neg h4]; exact Or.inr ⟨List.getElem?_eq_none (by omega), rfl⟩
          · rw [if_neg h3]
            by_cases h4 : i < w.1 + w.2.length
            · exact absurd ⟨by omega, h4⟩ (hn w List.mem_cons_self)
            · rw [if_neg h4]; exact Or.inl rfl
        show (writes (pwrite d w.1 w.2) r)[i]? = _ ∨ _ ∧ (writes (pwrite d w.1 w.2) r)[i]? = _
        rcases h2 (fun w' hw' => hn w' (List.mem_cons_of_mem _ hw')) with h | ⟨h, h'⟩
        · rw [h]; exact hg
        · rcases hg with hg | ⟨hg, hg'⟩
          · rw [h] at hg; exact Or.inr ⟨hg.symm, h'⟩
          · rw [hg'] at h; cases h

theorem ptruncate_length (d : Bytes) (n : Nat) : (ptruncate d n).length = n := by
  simp only [ptruncate, List.length_append, List.length_take, List.length_replicate]
  omega

theorem ptruncate_get (d : Bytes) {n i : Nat} (h : i < n) :
    (ptruncate d n)[i]? = if i < d.length then d[i]? else some 0 := by
  unfold ptruncate
  by_cases h2 : i < d.length
  · rw [if_pos h2, List.getElem?_append_left (by rw [List.length_take]; omega), List.getElem?_take, if_pos h]
  · rw [if_neg h2, List.getElem?_append_right (by rw [List.length_take]; omega), List.getElem?_replicate,
      if_pos (by rw [List.length_take]; omega)]

/-- A file written in pieces that do not overlap and then given its size. -/
theorem truncated_writes {ws : List (Nat × Bytes)} (hp : ws.Pairwise (fun a b => a.1 + a.2.length ≤ b.1)) {n i : Nat}
    {v : UInt8} (h : (ptruncate (writes [] ws) n)[i]? = some v) :
    (∃ w ∈ ws, covers w i ∧ w.2[i - w.1]? = some v) ∨ ((∀ w ∈ ws, ¬ covers w i) ∧ v = 0) := by
  have hi : i < n := by
    have := (List.getElem?_eq_some_iff.mp h).1
    rwa [ptruncate_length] at this
  rw [ptruncate_get _ hi] at h
  obtain ⟨h1, h2⟩ := writes_get ws [] hp i
  by_cases hc : ∃ w ∈ ws, covers w i
  · obtain ⟨w, hw, hc⟩ := hc
    left
    refine ⟨w, hw, hc, ?_⟩
    have h3 := h1 w hw hc
    have hlt : i - w.1 < w.2.length := by have := hc.1; have := hc.2; omega
    rw [List.getElem?_eq_getElem hlt] at h3 ⊢
    rw [if_pos (List.getElem?_eq_some_iff.mp h3).1, h3] at h
    exact h
  · right
    have hn : ∀ w ∈ ws, ¬ covers w i := fun w hw hcw => hc ⟨w, hw, hcw⟩
    refine ⟨hn, ?_⟩
    by_cases h4 : i < (writes [] ws).length
    · rw [if_pos h4] at h
      rcases h2 hn with h5 | ⟨-, h5⟩
      · rw [h5] at h; cases h
      · rw [h5] at h; cases h; rfl
    · rw [if_neg h4] at h; cases h; rfl

theorem pwrite_length {d : Bytes} {off : Nat} {b : Bytes} (hb : b ≠ []) :
    (pwrite d off b).length = max d.length (off + b.length) := by
  have h0 : 0 < b.length := List.length_pos_iff.mpr hb
  apply Nat.le_antisymm
  · refine Nat.not_lt.mp fun h => ?_
    have h1 := pwrite_get (d := d) (off := off) hb (max d.length (off + b.length))
    rw [if_neg (by omega), if_neg (by omega), List.getElem?_eq_none (l := d) (by omega),
      List.getElem?_eq_none_iff] at h1
    omega
  · refine Nat.not_lt.mp fun h => ?_
    have h1 := pwrite_get (d := d) (off := off) hb (max d.length (off + b.length) - 1)
    rw [List.getElem?_eq_none (l := pwrite d off b) (by omega)] at h1
    by_cases h2 : max d.length (off + b.length) - 1 < off
    · omega
    · rw [if_neg h2] at h1
      by_cases h3 : max d.length (off + b.length) - 1 < off + b.length
      · rw [if_pos h3] at h1
        have := List.getElem?_eq_none_iff.mp h1.symm
        omega
      · rw [if_neg h3] at h1
        have := List.getElem?_eq_none_iff.mp h1.symm
        omega

/-- A file written in pieces ends where the furthest piece ends. -/
theorem writes_length : ∀ (ws : List (Nat × Bytes)) (d : Bytes),
    d.length ≤ (writes d ws).length ∧
    (∀ w ∈ ws, w.2 ≠ [] → w.1 + w.2.length ≤ (writes d ws).length) ∧
    ((writes d ws).length = d.length ∨ ∃ w ∈ ws, w.2 ≠ [] ∧ (writes d ws).length = w.1 + w.2.length) := by
  intro ws
  induction ws with
  | nil => intro d; exact ⟨Nat.le_refl _, fun w h => (by cases h), Or.inl rfl⟩
  | cons w r ih =>
    intro d
    obtain ⟨h1, h2, h3⟩ := ih (pwrite d w.1 w.2)
    have hw : writes d (w :: r) = writes (pwrite d w.1 w.2) r := rfl
    rw [hw]
    by_cases hb : w.2 = []
    · have he : pwrite d w.1 w.2 = d := by rw [hb, pwrite_nil]
      rw [he] at h1 h2 h3 ⊢
      refine ⟨h1, fun x hx hn => ?_, ?_⟩
      · rcases List.mem_cons.mp hx with rfl | hx
        · exact absurd hb hn
        · exact h2 x hx hn
      · rcases h3 with h3 | ⟨x, hx, h3⟩
        · exact Or.inl h3
        · exact Or.inr ⟨x, List.mem_cons_of_mem _ hx, h3⟩
    · have hl := pwrite_length (d := d) (off := w.1) hb
      refine ⟨by omega, fun x hx hn => ?_, ?_⟩
      · rcases List.mem_cons.mp hx with rfl | hx
        · omega
        · exact h2 x hx hn
      · rcases h3 with h3 | ⟨x, hx, h3⟩
        · rcases Nat.le_total d.length (w.1 + w.2.length) with h | h
          · exact Or.inr ⟨w, List.mem_cons_self, hb, by omega⟩
          · left; omega
        · exact Or.inr ⟨x, List.mem_cons_of_mem _ hx, h3⟩

theorem ptruncate_self (d : Bytes) : ptruncate d d.length = d := by
  simp [ptruncate]

end Btrfscue
