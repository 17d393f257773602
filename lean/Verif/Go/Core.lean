/-!
# The fragment of the Go language semantics used by the model

Nothing in this file models `/repo` code; it fixes the meaning of the Go
constructs that the model files use (trusted base).
-/

namespace Btrfscue

/-- Outcome of running a piece of Go code that does not touch shared state:
a value, a run-time panic, or "did not finish within the fuel given to a loop".
`hang` is produced only by fuel-bounded loops. -/
inductive Go (α : Type) where
  | ok (a : α)
  | panic
  | hang
  deriving Repr, DecidableEq

namespace Go

/-- Sequencing: a panic or a hang ends the computation. -/
protected def bind {α β : Type} : Go α → (α → Go β) → Go β
  | ok a, f => f a
  | panic, _ => panic
  | hang, _ => hang

instance : Monad Go where
  pure := ok
  bind := Go.bind

@[simp] theorem pure_eq {α : Type} (a : α) : (pure a : Go α) = ok a := rfl
@[simp] theorem ok_bind {α β : Type} (a : α) (f : α → Go β) : (ok a >>= f) = f a := rfl
@[simp] theorem panic_bind {α β : Type} (f : α → Go β) : ((panic : Go α) >>= f) = panic := rfl
@[simp] theorem hang_bind {α β : Type} (f : α → Go β) : ((hang : Go α) >>= f) = hang := rfl

instance : LawfulMonad Go := LawfulMonad.mk'
  (id_map := by intro α x; cases x <;> rfl)
  (pure_bind := by intros; rfl)
  (bind_assoc := by intro α β γ x f g; cases x <;> rfl)

@[simp] theorem map_ok {α β : Type} (f : α → β) (a : α) : (f <$> (ok a)) = ok (f a) := rfl
@[simp] theorem map_panic {α β : Type} (f : α → β) : (f <$> (panic : Go α)) = panic := rfl
@[simp] theorem map_hang {α β : Type} (f : α → β) : (f <$> (hang : Go α)) = hang := rfl

theorem bind_eq_ok {α β : Type} {x : Go α} {f : α → Go β} {b : β} :
    (x >>= f) = ok b ↔ ∃ a, x = ok a ∧ f a = ok b := by
  cases x <;> simp

theorem bind_eq_panic {α β : Type} {x : Go α} {f : α → Go β} :
    (x >>= f) = panic ↔ x = panic ∨ ∃ a, x = ok a ∧ f a = panic := by
  cases x <;> simp

theorem bind_eq_hang {α β : Type} {x : Go α} {f : α → Go β} :
    (x >>= f) = hang ↔ x = hang ∨ ∃ a, x = ok a ∧ f a = hang := by
  cases x <;> simp

theorem map_eq_ok {α β : Type} {x : Go α} {f : α → β} {b : β} :
    (f <$> x) = ok b ↔ ∃ a, x = ok a ∧ f a = b := by
  cases x <;> simp

/-- The computation ends with a value. -/
def isOk {α : Type} : Go α → Bool
  | ok _ => true
  | _ => false

@[simp] theorem isOk_ok {α : Type} (a : α) : (ok a).isOk = true := rfl
@[simp] theorem isOk_panic {α : Type} : (panic : Go α).isOk = false := rfl
@[simp] theorem isOk_hang {α : Type} : (hang : Go α).isOk = false := rfl

theorem isOk_iff {α : Type} {x : Go α} : x.isOk = true ↔ ∃ a, x = ok a := by
  cases x <;> simp

end Go

/-- Byte strings: Go `string` values and the contents of `[]byte` values. -/
abbrev Bytes := List UInt8

/-- A Go byte slice: the elements `[0,len)` and the elements `[len,cap)` of the
backing array that re-slicing can still reach. -/
structure Slice where
  data : Bytes
  tail : Bytes := []
  deriving Repr, DecidableEq

namespace Slice

/-- A slice with `cap == len` (what `make([]byte, n)` and bbolt return). -/
def ofBytes (b : Bytes) : Slice := ⟨b, []⟩

/-- `len(s)` -/
abbrev len (s : Slice) : Nat := s.data.length

/-- All bytes reachable by re-slicing. -/
abbrev all (s : Slice) : Bytes := s.data ++ s.tail

/-- `cap(s)` -/
abbrev cap (s : Slice) : Nat := s.all.length

/-- `s[i:j]`: panics unless `0 ≤ i ≤ j ≤ cap(s)`. -/
def sub (s : Slice) (i j : Nat) : Go Slice :=
  if i ≤ j ∧ j ≤ s.cap then
    .ok ⟨(s.all.take j).drop i, s.all.drop j⟩
  else .panic

/-- `s[i:]`: panics unless `0 ≤ i ≤ len(s)`. -/
def «from» (s : Slice) (i : Nat) : Go Slice :=
  if i ≤ s.len then .ok ⟨s.data.drop i, s.tail⟩ else .panic

/-- `s[:j]`: panics unless `0 ≤ j ≤ cap(s)`. -/
def to (s : Slice) (j : Nat) : Go Slice := s.sub 0 j

/-- `s[i]`: panics unless `0 ≤ i < len(s)`. -/
def get (s : Slice) (i : Nat) : Go UInt8 :=
  match s.data[i]? with
  | some b => .ok b
  | none => .panic

end Slice

/-- `int64(x)` / `int(x)` for a `uint64` (64-bit platforms): two's complement. -/
def int64OfU64 (x : UInt64) : Int :=
  if x.toNat < 2 ^ 63 then (x.toNat : Int) else (x.toNat : Int) - 2 ^ 64

/-- Reduce an integer into the `int64` range (Go signed arithmetic wraps). -/
def wrapInt64 (x : Int) : Int :=
  let r := x % (2 ^ 64)
  if r < 2 ^ 63 then r else r - 2 ^ 64

/-- `uint64(x)` for an `int`/`int64`. -/
def u64OfInt (x : Int) : UInt64 := UInt64.ofNat (x % (2 ^ 64)).toNat

end Btrfscue
