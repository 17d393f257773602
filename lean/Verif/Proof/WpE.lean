import Verif.Proof.Wp
/-!
# Reasoning about commands that may stop in different ways
-/

namespace Btrfscue

/-- The ways to stop other than by returning. -/
inductive Stop | exit | crash | hang

/-- If the command returns, `Q` holds of the result and the state, otherwise `E` of the
way it stopped and the state it was left in. -/
def Cmd.wpE {σ α : Type} (c : Cmd σ α) (Q : α → σ → Prop) (E : Stop → σ → Prop) (s : σ) : Prop :=
  match c s with
  | .ok a s' => Q a s'
  | .exit s' => E .exit s'
  | .crash s' => E .crash s'
  | .hang s' => E .hang s'

namespace Cmd

variable {σ α β : Type} {Q : α → σ → Prop} {E : Stop → σ → Prop} {s : σ}

theorem wpE_iff {c : Cmd σ α} {E : σ → Prop} : wpE c Q (fun _ => E) s ↔ wp c Q E s := by
  unfold wp wpE
  cases c s <;> exact Iff.rfl

theorem wpE_bind {x : Cmd σ α} {f : α → Cmd σ β} {Q : β → σ → Prop} :
    wpE (x >>= f) Q E s ↔ wpE x (fun a => wpE (f a) Q E) E s := by
  unfold wpE
  rw [bind_def]
  cases x s <;> rfl

theorem wpE_get {Q : σ → σ → Prop} : wpE (get : Cmd σ σ) Q E s ↔ Q s s := Iff.rfl

theorem wpE_modify {f : σ → σ} {Q : Unit → σ → Prop} : wpE (modify f) Q E s ↔ Q () (f s) := Iff.rfl

theorem wpE_lift_of {x : Go α} (h1 : ∀ a, x = .ok a → Q a s) (h2 : x = .panic → E .crash s) (h3 : x = .hang → E .hang s) :
    wpE (lift x : Cmd σ α) Q E s := by
  cases x with
  | ok a => exact h1 a rfl
  | panic => exact h2 rfl
  | hang => exact h3 rfl

theorem wpE_mono {c : Cmd σ α} {Q' : α → σ → Prop} {E' : Stop → σ → Prop} (h : wpE c Q E s)
    (hq : ∀ a t, Q a t → Q' a t) (he : ∀ k t, E k t → E' k t) : wpE c Q' E' s := by
  unfold wpE at h ⊢
  cases hc : c s <;> rw [hc] at h <;> simp only at h ⊢
  · exact hq _ _ h
  all_goals exact he _ _ h

theorem wpE_of {c : Cmd σ α} {Q' : α → σ → Prop} {E : σ → Prop} {E' : Stop → σ → Prop} (h : wp c Q E s)
    (hq : ∀ a t, Q a t → Q' a t) (he : ∀ k t, E t → E' k t) : wpE c Q' E' s :=
  wpE_mono (wpE_iff.mpr h) hq he

theorem wpE_and {c : Cmd σ α} {Q' : α → σ → Prop} {E' : Stop → σ → Prop} (h : wpE c Q E s) (h' : wpE c Q' E' s) :
    wpE c (fun a t => Q a t ∧ Q' a t) (fun k t => E k t ∧ E' k t) s := by
  unfold wpE at h h' ⊢
  cases hc : c s <;> rw [hc] at h h' <;> exact ⟨h, h'⟩

end Cmd

end Btrfscue
