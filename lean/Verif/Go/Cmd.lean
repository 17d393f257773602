import Verif.Go.Core
/-!
# Commands: Go code with observable state

Nothing in this file models `/repo` code. A command runs on a state (an open index,
a host file system, the output written so far). It ends normally, by `os.Exit`, by a
panic that nobody recovers, or runs out of fuel; the state it has reached by then is
observable in every case.
-/

namespace Btrfscue

/-- How a command ended, and the state it left. -/
inductive Out (σ α : Type) where
  | ok (a : α) (s : σ)
  | exit (s : σ)
  | crash (s : σ)
  | hang (s : σ)
  deriving DecidableEq

/-- A command. -/
def Cmd (σ α : Type) := σ → Out σ α

namespace Cmd

variable {σ α β : Type}

/-- Sequencing. -/
protected def bind (x : Cmd σ α) (f : α → Cmd σ β) : Cmd σ β := fun s =>
  match x s with
  | .ok a s' => f a s'
  | .exit s' => .exit s'
  | .crash s' => .crash s'
  | .hang s' => .hang s'

instance : Monad (Cmd σ) where
  pure a := fun s => .ok a s
  bind := Cmd.bind

/-- Run Go code without observable effects. -/
def lift (x : Go α) : Cmd σ α := fun s =>
  match x with
  | .ok a => .ok a s
  | .panic => .crash s
  | .hang => .hang s

/-- `os.Exit` after reporting an error: deferred functions do not run. -/
def exit : Cmd σ α := fun s => .exit s

/-- The state. -/
def get : Cmd σ σ := fun s => .ok s s
/-- Change the state. -/
def set (s : σ) : Cmd σ Unit := fun _ => .ok () s
/-- Change the state. -/
def modify (f : σ → σ) : Cmd σ Unit := fun s => .ok () (f s)

theorem bind_def (x : Cmd σ α) (f : α → Cmd σ β) (s : σ) : (x >>= f) s =
    match x s with
    | .ok a s' => f a s'
    | .exit s' => .exit s'
    | .crash s' => .crash s'
    | .hang s' => .hang s' := rfl

@[simp] theorem pure_run (a : α) (s : σ) : (pure a : Cmd σ α) s = .ok a s := rfl
@[simp] theorem lift_ok (a : α) (s : σ) : (lift (.ok a) : Cmd σ α) s = .ok a s := rfl
@[simp] theorem lift_panic (s : σ) : (lift .panic : Cmd σ α) s = .crash s := rfl
@[simp] theorem lift_hang (s : σ) : (lift .hang : Cmd σ α) s = .hang s := rfl
@[simp] theorem exit_run (s : σ) : (exit : Cmd σ α) s = .exit s := rfl
@[simp] theorem get_run (s : σ) : (get : Cmd σ σ) s = .ok s s := rfl
@[simp] theorem set_run (s t : σ) : (set t : Cmd σ Unit) s = .ok () t := rfl
@[simp] theorem modify_run (f : σ → σ) (s : σ) : (modify f : Cmd σ Unit) s = .ok () (f s) := rfl

theorem bind_ok {x : Cmd σ α} {f : α → Cmd σ β} {s s' : σ} {a : α} (h : x s = .ok a s') :
    (x >>= f) s = f a s' := by rw [bind_def, h]
theorem bind_exit {x : Cmd σ α} {f : α → Cmd σ β} {s s' : σ} (h : x s = .exit s') :
    (x >>= f) s = .exit s' := by rw [bind_def, h]
theorem bind_crash {x : Cmd σ α} {f : α → Cmd σ β} {s s' : σ} (h : x s = .crash s') :
    (x >>= f) s = .crash s' := by rw [bind_def, h]
theorem bind_hang {x : Cmd σ α} {f : α → Cmd σ β} {s s' : σ} (h : x s = .hang s') :
    (x >>= f) s = .hang s' := by rw [bind_def, h]

theorem bind_eq_ok {x : Cmd σ α} {f : α → Cmd σ β} {s s' : σ} {b : β} :
    (x >>= f) s = .ok b s' ↔ ∃ a t, x s = .ok a t ∧ f a t = .ok b s' := by
  rw [bind_def]
  cases x s with
  | ok a t =>
    constructor
    · exact fun h => ⟨a, t, rfl, h⟩
    · rintro ⟨a', t', h1, h2⟩; cases h1; exact h2
  | exit t => simp
  | crash t => simp
  | hang t => simp

theorem lift_eq_ok {x : Go α} {s s' : σ} {a : α} : (lift x : Cmd σ α) s = .ok a s' ↔ x = .ok a ∧ s' = s := by
  cases x <;> simp [eq_comm]

end Cmd

end Btrfscue
