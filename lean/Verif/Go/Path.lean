import Verif.Go.Core
/-!
# Go's `path.Clean` and `filepath.Join` on Unix (trusted standard library)

Nothing in this file models `/repo` code.
-/

namespace Btrfscue

/-- Go's `strings.Split(s, "/")` (trusted standard library): never empty. -/
def splitSlash : Bytes → List Bytes
  | [] => [[]]
  | c :: r =>
    if c = 47 then [] :: splitSlash r
    else
      match splitSlash r with
      | [] => [[c]]
      | h :: t => (c :: h) :: t

/-- Go's `strings.Join(names, "/")`. -/
def joinSlash : List Bytes → Bytes
  | [] => []
  | n :: r => if r.isEmpty then n else n ++ 47 :: joinSlash r

/-- "." -/
abbrev dot : Bytes := [46]
/-- ".." -/
abbrev dotdot : Bytes := [46, 46]

/-- The rules of `path.Clean` applied to the components; `acc` holds those kept so far,
last first. -/
def cleanComps (rooted : Bool) : List Bytes → List Bytes → List Bytes
  | [], acc => acc.reverse
  | c :: r, acc =>
    if c = [] ∨ c = dot then cleanComps rooted r acc
    else if c = dotdot then
      match acc with
      | [] => if rooted then cleanComps rooted r [] else cleanComps rooted r [dotdot]
      | h :: t => if h = dotdot then cleanComps rooted r (dotdot :: h :: t) else cleanComps rooted r t
    else cleanComps rooted r (c :: acc)

/-- A path is rooted if it starts with a slash. -/
def isRooted (p : Bytes) : Bool := p.head? == some 47

/-- `path.Clean`, which on Unix is also `filepath.Clean`. -/
def goClean (p : Bytes) : Bytes :=
  let s := joinSlash (cleanComps (isRooted p) (splitSlash p) [])
  if isRooted p then 47 :: s else if s = [] then dot else s

/-- `filepath.Join(a, b)`. -/
def goJoin (a b : Bytes) : Bytes :=
  if a ≠ [] then goClean (a ++ 47 :: b) else if b ≠ [] then goClean b else []

/-- A component that cleaning keeps: not empty, no dots only, no slash. -/
def Plain (n : Bytes) : Prop := n ≠ [] ∧ n ≠ dot ∧ n ≠ dotdot ∧ 47 ∉ n

instance (n : Bytes) : Decidable (Plain n) := inferInstanceAs (Decidable (_ ∧ _))

end Btrfscue
