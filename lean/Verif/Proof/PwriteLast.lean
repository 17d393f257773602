import Verif.Proof.Pwrite
/-!
# Contents of files after writes that may overlap
-/

namespace Btrfscue

theorem last_split {α : Type} (P : α → Prop) : ∀ l : List α, (∃ x ∈ l, P x) →
    ∃ pre x post, l = pre ++ x :: post ∧ P x ∧ ∀ y ∈ post, ¬ P y := by
  intro l
  induction l with
  | nil => rintro ⟨x, hx, -⟩; cases hx
  | cons a r ih =>
    intro h
    by_cases hr : ∃ x ∈ r, P x
    · obtain ⟨pre, x, post, rfl, h2, h3⟩ := ih hr
      exact ⟨a :: pre, x, post, rfl, h2, h3⟩
    · obtain ⟨x, hx, hp⟩ := h
      rcases List.mem_cons.mp hx with rfl | hx
      · exact ⟨[], x, r, rfl, hp, fun y hy hc => hr ⟨y, hy, hc⟩⟩
      · exact absurd ⟨x, hx, hp⟩ hr

theorem writes_append (d : Bytes) (a b : List (Nat × Bytes)) : writes d (a ++ b) = writes (writes d a) b := by
  induction a generalizing d with
  | nil => rfl
  | cons x r ih => exact ih _

/-- A position nothing is written to. -/
theorem writes_uncovered : ∀ (ws : List (Nat × Bytes)) (d : Bytes) (i : Nat), (∀ w ∈ ws, ¬ covers w i) →
    (writes d ws)[i]? = d[i]? ∨ (d[i]? = none ∧ (writes d ws)[i]? = some 0) := by
  intro ws
  induction ws with
  | nil => intro d i _; exact Or.inl rfl
  | cons w r ih =>
    intro d i hn
    have h1 := (writes_get [w] d (by simp) i).2 (fun x hx => by
      rw [List.mem_singleton] at hx; subst hx; exact hn x List.mem_cons_self)
    have h2 := ih (pwrite d w.1 w.2) i (fun x hx => hn x (List.mem_cons_of_mem _ hx))
    change (writes (pwrite d w.1 w.2) r)[i]? = d[i]? ∨ _ ∧ (writes (pwrite d w.1 w.2) r)[i]? = _
    change (pwrite d w.1 w.2)[i]? = d[i]? ∨ _ ∧ (pwrite d w.1 w.2)[i]? = _ at h1
    rcases h2 with h2 | ⟨h2, h2'⟩
    · rw [h2]; exact h1
    · rcases h1 with h1 | ⟨h1, h1'⟩
      · exact Or.inr ⟨by rw [← h1, h2], h2'⟩
      · rw [h2] at h1'; cases h1'

/-- The last write to a position counts. -/
theorem writes_last {pre post : List (Nat × Bytes)} {w : Nat × Bytes} {d : Bytes} {i : Nat} (hc : covers w i)
    (hn : ∀ x ∈ post, ¬ covers x i) : (writes d (pre ++ w :: post))[i]? = w.2[i - w.1]? := by
  rw [writes_append]
  have h1 := (writes_get [w] (writes d pre) (by simp) i).1 w List.mem_cons_self hc
  change (pwrite (writes d pre) w.1 w.2)[i]? = _ at h1
  have hlt : i - w.1 < w.2.length := by have := hc.1; have := hc.2; omega
  rcases writes_uncovered post (pwrite (writes d pre) w.1 w.2) i hn with h2 | ⟨h2, -⟩
  · exact h2.trans h1
  · rw [h1, List.getElem?_eq_getElem hlt] at h2; cases h2

/-- A file written in pieces and then given its size. -/
theorem truncated_last {ws : List (Nat × Bytes)} {n i : Nat} {v : UInt8} (h : (ptruncate (writes [] ws) n)[i]? = some v) :
    (∃ pre w post, ws = pre ++ w :: post ∧ covers w i ∧ (∀ x ∈ post, ¬ covers x i) ∧ w.2[i - w.1]? = some v) ∨
    ((∀ w ∈ ws, ¬ covers w i) ∧ v = 0) := by
  have hi : i < n := by
    have := (List.getElem?_eq_some_iff.mp h).1
    rwa [ptruncate_length] at this
  rw [ptruncate_get _ hi] at h
  by_cases hc : ∃ w ∈ ws, covers w i
  · left
    obtain ⟨pre, w, post, rfl, hc, hn⟩ := last_split _ ws hc
    refine ⟨pre, w, post, rfl, hc, hn, ?_⟩
    have h3 := writes_last (pre := pre) (d := []) hc hn
    have hlt : i - w.1 < w.2.length := by have := hc.1; have := hc.2; omega
    rw [List.getElem?_eq_getElem hlt] at h3 ⊢
    rw [if_pos (List.getElem?_eq_some_iff.mp h3).1, h3] at h
    exact h
  · right
    have hn : ∀ w ∈ ws, ¬ covers w i := fun w hw hcw => hc ⟨w, hw, hcw⟩
    refine ⟨hn, ?_⟩
    by_cases h4 : i < (writes [] ws).length
    · rw [if_pos h4] at h
      rcases writes_uncovered ws [] i hn with h5 | ⟨-, h5⟩
      · rw [h5] at h; cases h
      · rw [h5] at h; cases h; rfl
    · rw [if_neg h4] at h; cases h; rfl

end Btrfscue
