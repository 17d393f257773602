import Verif.Proof.Key
import Verif.Model.Bucket
/-!
# Specification: what an index contains, and which version a lookup should return
-/

namespace Btrfscue

/-- The bucket stores value `x` for version `v`. -/
def Bucket.stores (b : Bucket) (v : VKey) (x : Bytes) : Prop := (v.encode, x) ∈ b

/-- Some version of `(o, k)` at generation `g` is stored. -/
def Bucket.hasVersion (b : Bucket) (o : UInt64) (k : Key) (g : UInt64) : Prop :=
  ∃ x, b.stores ⟨o, k, g⟩ x

/-- `g` is the newest stored generation of `(o, k)`. -/
def Bucket.newest (b : Bucket) (o : UInt64) (k : Key) (g : UInt64) : Prop :=
  b.hasVersion o k g ∧ ∀ g', b.hasVersion o k g' → g' ≤ g

/-- The documented choice for an index generation `G`: the largest stored generation
`≤ G`, or the earliest one if all are newer. -/
def Bucket.documentedChoice (b : Bucket) (o : UInt64) (k : Key) (G g : UInt64) : Prop :=
  b.hasVersion o k g ∧
    ((g ≤ G ∧ ∀ g', b.hasVersion o k g' → g' ≤ G → g' ≤ g) ∨
     ((∀ g', b.hasVersion o k g' → G < g') ∧ ∀ g', b.hasVersion o k g' → g ≤ g'))

/-- The choice the code makes: the smallest stored generation `≥ G`, or the newest
one if all are older. -/
def Bucket.actualChoice (b : Bucket) (o : UInt64) (k : Key) (G g : UInt64) : Prop :=
  b.hasVersion o k g ∧
    ((G ≤ g ∧ ∀ g', b.hasVersion o k g' → G ≤ g' → g ≤ g') ∨
     ((∀ g', b.hasVersion o k g' → g' < G) ∧ ∀ g', b.hasVersion o k g' → g' ≤ g))

end Btrfscue
