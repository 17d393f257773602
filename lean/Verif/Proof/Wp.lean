import Verif.Go.Cmd
/-!
# Reasoning about commands: what holds of the state a command ends in
-/

namespace Btrfscue

variable {σ α β : Type}

/-- The state a command has reached when it ends, in whichever way. -/
def Out.state : Out σ α → σ
  | .ok _ s => s
  | .exit s => s
  | .crash s => s
  | .hang s => s

/-- If the command returns, `Q` holds of the result and the state, otherwise `E` of the
state it was left in. -/
def Cmd.wp (c : Cmd σ α) (Q : α → σ → Prop) (E : σ → Prop) (s : σ) : Prop :=
  match c s with
  | .ok a s' => Q a s'
  | .exit s' => E s'
  | .crash s' => E s'
  | .hang s' => E s'

namespace Cmd

variable {Q : α → σ → Prop} {E : σ → Prop} {s : σ}

theorem wp_bind {x : Cmd σ α} {f : α → Cmd σ β} {Q : β → σ → Prop} :
    wp (x >>= f) Q E s ↔ wp x (fun a => wp (f a) Q E) E s := by
  unfold wp
  rw [bind_def]
  cases x s <;> rfl

theorem wp_pure {a : α} : wp (pure a : Cmd σ α) Q E s ↔ Q a s := Iff.rfl

theorem wp_get {Q : σ → σ → Prop} : wp (get : Cmd σ σ) Q E s ↔ Q s s := Iff.rfl

theorem wp_modify {f : σ → σ} {Q : Unit → σ → Prop} : wp (modify f) Q E s ↔ Q () (f s) := Iff.rfl

theorem wp_exit : wp (exit : Cmd σ α) Q E s ↔ E s := Iff.rfl

theorem wp_hang : wp (fun s => .hang s : Cmd σ α) Q E s ↔ E s := Iff.rfl

theorem wp_lift {x : Go α} : wp (lift x : Cmd σ α) Q E s ↔ (∀ a, x = .ok a → Q a s) ∧ ((∀ a, x ≠ .ok a) → E s) := by
  cases x <;> simp [wp, lift]

theorem wp_lift_ok {a : α} : wp (lift (.ok a) : Cmd σ α) Q E s ↔ Q a s := Iff.rfl

theorem wp_lift_of {x : Go α} (h1 : ∀ a, x = .ok a → Q a s) (h2 : E s) : wp (lift x : Cmd σ α) Q E s :=
  wp_lift.mpr ⟨h1, fun _ => h2⟩

theorem wp_pure' {a : α} {Q : α → σ → Prop} {E : σ → Prop} {s : σ} (h : Q a s) : wp (Pure.pure a : Cmd σ α) Q E s := h

theorem wp_mono {c : Cmd σ α} {Q' : α → σ → Prop} {E' : σ → Prop} (h : wp c Q E s)
    (hq : ∀ a t, Q a t → Q' a t) (he : ∀ t, E t → E' t) : wp c Q' E' s := by
  unfold wp at h ⊢
  cases hc : c s <;> rw [hc] at h <;> simp only at h ⊢
  · exact hq _ _ h
  all_goals exact he _ h

theorem wp_and {c : Cmd σ α} {Q' : α → σ → Prop} {E' : σ → Prop} (h : wp c Q E s) (h' : wp c Q' E' s) :
    wp c (fun a t => Q a t ∧ Q' a t) (fun t => E t ∧ E' t) s := by
  unfold wp at h h' ⊢
  cases hc : c s <;> rw [hc] at h h' <;> exact ⟨h, h'⟩

/-- The command keeps a property of the state. -/
def Keeps (I : σ → Prop) (c : Cmd σ α) : Prop := ∀ s, I s → wp c (fun _ => I) I s

variable {I : σ → Prop}

theorem Keeps.bind {x : Cmd σ α} {f : α → Cmd σ β} (hx : Keeps I x) (hf : ∀ a, Keeps I (f a)) : Keeps I (x >>= f) :=
  fun s h => wp_bind.mpr (wp_mono (hx s h) (fun a t ht => hf a t ht) fun _ ht => ht)

theorem Keeps.pure {a : α} : Keeps I (Pure.pure a : Cmd σ α) := fun _ h => h

theorem Keeps.lift {x : Go α} : Keeps I (Cmd.lift x : Cmd σ α) := fun _ h => wp_lift_of (fun _ _ => h) h

theorem Keeps.get : Keeps I (Cmd.get : Cmd σ σ) := fun _ h => h

theorem Keeps.exit : Keeps I (Cmd.exit : Cmd σ α) := fun _ h => h

theorem Keeps.hang : Keeps I (fun s => .hang s : Cmd σ α) := fun _ h => h

theorem Keeps.modify {f : σ → σ} (h : ∀ s, I s → I (f s)) : Keeps I (Cmd.modify f) := h

theorem Keeps.ite {p : Prop} [Decidable p] {x y : Cmd σ α} (hx : p → Keeps I x) (hy : ¬ p → Keeps I y) :
    Keeps I (if p then x else y) := by
  by_cases h : p
  · rw [if_pos h]; exact hx h
  · rw [if_neg h]; exact hy h

theorem Keeps.state {c : Cmd σ α} (h : Keeps I c) (hs : I s) : I (c s).state := by
  have := h s hs
  unfold wp at this
  cases hc : c s <;> rw [hc] at this <;> exact this

/-- The command ends; if it returns, `Q` holds of the result and the state. -/
def tp (c : Cmd σ α) (Q : α → σ → Prop) (s : σ) : Prop :=
  match c s with
  | .ok a s' => Q a s'
  | .exit _ => True
  | .crash _ => True
  | .hang _ => False

theorem tp_bind {x : Cmd σ α} {f : α → Cmd σ β} {Q : β → σ → Prop} :
    tp (x >>= f) Q s ↔ tp x (fun a => tp (f a) Q) s := by
  unfold tp
  rw [bind_def]
  cases x s <;> rfl

theorem tp_get {Q : σ → σ → Prop} : tp (get : Cmd σ σ) Q s ↔ Q s s := Iff.rfl

theorem tp_modify {f : σ → σ} {Q : Unit → σ → Prop} : tp (modify f) Q s ↔ Q () (f s) := Iff.rfl

theorem tp_mono {c : Cmd σ α} {Q' : α → σ → Prop} (h : tp c Q s) (hq : ∀ a t, Q a t → Q' a t) : tp c Q' s := by
  unfold tp at h ⊢
  cases hc : c s <;> rw [hc] at h <;> simp only at h ⊢
  exact hq _ _ h

theorem tp_lift_of {x : Go α} (h1 : x ≠ .hang) (h2 : ∀ a, x = .ok a → Q a s) : tp (lift x : Cmd σ α) Q s := by
  cases x with
  | ok a => exact h2 a rfl
  | panic => exact trivial
  | hang => exact absurd rfl h1

theorem tp_wp {c : Cmd σ α} {Q' : α → σ → Prop} (h : tp c Q s) (h' : wp c Q' E s) :
    tp c (fun a t => Q a t ∧ Q' a t) s := by
  unfold tp wp at *
  cases hc : c s <;> rw [hc] at h h' <;> simp_all

/-- From states with `P`, the command ends in states with `P` related by `R`. -/
def Ends (P : σ → Prop) (R : σ → σ → Prop) (c : Cmd σ α) : Prop := ∀ s, P s → tp c (fun _ t => R s t) s

section
variable {P : σ → Prop} {R : σ → σ → Prop}

theorem Ends.bind {x : Cmd σ α} {f : α → Cmd σ β} (hP : ∀ s t, P s → R s t → P t)
    (hR : ∀ s t u, R s t → R t u → R s u) (hx : Ends P R x) (hf : ∀ a, Ends P R (f a)) : Ends P R (x >>= f) :=
  fun s h => tp_bind.mpr (tp_mono (hx s h) fun a t ht => tp_mono (hf a t (hP s t h ht)) fun _ _ hu => hR _ _ _ ht hu)

theorem Ends.ite {p : Prop} [Decidable p] {x y : Cmd σ α} (hx : p → Ends P R x) (hy : ¬ p → Ends P R y) :
    Ends P R (if p then x else y) := by
  by_cases h : p
  · rw [if_pos h]; exact hx h
  · rw [if_neg h]; exact hy h

end

end Cmd

end Btrfscue
