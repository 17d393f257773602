import Verif.Go.Core
/-!
# Goroutines

Goroutines share a state `σ`; each has its own state `τ`. A schedule is any finite list
of goroutine numbers; each entry lets that goroutine do one step (nothing if it has
ended). A panic in any goroutine ends the program. Nothing in this file models `/repo`
code. Steps are atomic and take place in one order; for racing accesses Go promises less
than that, so counterexamples found here are executions of the program, and theorems
about schedules are only used where no goroutine writes while another one runs, or are
stated to rest on atomic map and slice operations.
-/

namespace Btrfscue

/-- What one step of a goroutine does. -/
inductive ThreadStep (σ τ : Type) where
  | next (s : σ) (t : τ)
  | ended
  | panic

/-- The shared state and the goroutines; `none` after a panic. -/
abbrev Threads (σ τ : Type) := Option (σ × List τ)

/-- Let goroutine `i` do one step. -/
def Threads.step {σ τ : Type} (f : σ → τ → ThreadStep σ τ) (x : Threads σ τ) (i : Nat) : Threads σ τ :=
  match x with
  | none => none
  | some (s, ts) =>
    match ts[i]? with
    | none => some (s, ts)
    | some t =>
      match f s t with
      | .next s' t' => some (s', ts.set i t')
      | .ended => some (s, ts)
      | .panic => none

/-- Let the goroutines run as the schedule says. -/
def Threads.run {σ τ : Type} (f : σ → τ → ThreadStep σ τ) (x : Threads σ τ) (sched : List Nat) : Threads σ τ :=
  sched.foldl (Threads.step f) x

/-- The rest of a step is a computation that may panic. The computations used in
`Model/Concurrent` contain no loops, so `hang` does not occur; it is mapped to a panic
only to have a total function. -/
def ThreadStep.ofGo {σ τ : Type} : Go (σ × τ) → ThreadStep σ τ
  | .ok r => .next r.1 r.2
  | .panic => .panic
  | .hang => .panic

end Btrfscue
