import Verif.Go.Core
import Mathlib.Analysis.SpecialFunctions.Log.Base
/-!
# pkg/coding/entropy.go

A `float64` is modelled by the real number it denotes. `rnd` is the rounding of an exact
result to the nearest `float64`, applied to the result of every operation, and `log2` is
`math.Log2`; both are parameters (`Spec/Float64.lean` says what is assumed of them).
`fused` says whether the compiler fuses `e += v * math.Log2(v)` into one rounding, as the
Go specification allows and the compiler does on some architectures. The sign of zero is
not modelled. Ranging over a Go map is ranging over its entries in the order `ord`, an
arbitrary permutation.
-/

namespace Btrfscue

/-- `hist[v]++` on a map with unique keys. -/
def histInc (v : UInt8) : List (UInt8 × Nat) → List (UInt8 × Nat)
  | [] => [(v, 1)]
  | e :: r => if e.1 = v then (e.1, e.2 + 1) :: r else e :: histInc v r

/-- pkg/coding/entropy.go:13-16: the histogram. -/
def byteHist (b : Bytes) : List (UInt8 × Nat) := b.foldl (fun h v => histInc v h) []

/-- pkg/coding/entropy.go:23: the product, rounded unless the addition is fused with it. -/
noncomputable def entropyTerm (rnd log2 : ℝ → ℝ) (fused : Bool) (v : ℝ) : ℝ :=
  if fused then v * log2 v else rnd (v * log2 v)

/-- pkg/coding/entropy.go:12-27. `ord1` and `ord2` are the iteration orders of the two
maps. -/
noncomputable def ShannonEntropy (rnd log2 : ℝ → ℝ) (fused : Bool)
    (ord1 : List (UInt8 × Nat) → List (UInt8 × Nat))
    (ord2 : List (UInt8 × ℝ) → List (UInt8 × ℝ)) (b : Bytes) : ℝ :=
  let l : ℝ := rnd b.length
  let p := (ord1 (byteHist b)).map fun e => (e.1, rnd (rnd e.2 / l))
  let e := (ord2 p).foldl (fun e v => rnd (e + entropyTerm rnd log2 fused v.2)) (0 : ℝ);
  -e

end Btrfscue
