import Verif.Spec.Layout
import Verif.Spec.Order
import Verif.Model.Identify
/-!
# Specification: what identify should count and report
-/

namespace Btrfscue

/-- A collector run: `CollectBlock` on every block in turn. -/
def collectAll (h : FSIDHist) : List Bytes → Go FSIDHist
  | [] => .ok h
  | b :: rest => do collectAll (← collectBlock h ⟨b, []⟩) rest

/-- The block starts with the header of a leaf (level 0) of the file system `u`. -/
def leafWith (u : UUID) (b : Bytes) : Prop :=
  ∃ (hdr : HeaderRec) (rest : Bytes), b = hdr.layout ++ rest ∧ hdr.fsid = u ∧ hdr.level = 0

/-- An FSID that can be reported: not all bytes 0, not all bytes 0xFF. -/
def realFSID (u : UUID) : Prop := u.val ≠ List.replicate 16 0 ∧ u.val ≠ List.replicate 16 255

instance (u : UUID) : Decidable (realFSID u) := inferInstanceAs (Decidable (_ ∧ _))

/-- The offset recorded in the first item header of a block, if it has one. -/
def firstOffset (b : Bytes) (o : Nat) : Prop :=
  ∃ (hdr : HeaderRec) (r : ItemRec) (rest : Bytes), b = hdr.layout ++ (r.layout ++ rest) ∧
    hdr.nrItems ≠ 0 ∧ r.offset.toNat = o

open Classical in
/-- That offset, 0 if there is no item. -/
noncomputable def offsetOf (b : Bytes) : Nat :=
  if h : ∃ o, firstOffset b o then h.choose else 0

open Classical in
/-- The leaves of `u` among the blocks, in order. -/
noncomputable def leavesOf (u : UUID) (blocks : List Bytes) : List Bytes :=
  blocks.filter fun b => decide (leafWith u b)

/-- What is assumed of `uint32(float64(s)/float64(c) + 4096)` before the conversion to
32 bits: it lies on the right side of every whole number below 2^32. IEEE arithmetic
guarantees this, because rounding is monotone and whole numbers are exact. -/
def AvgOK (avg : UInt64 → UInt64 → Nat) : Prop :=
  ∀ s c : UInt64, s.toNat < 2 ^ 53 → 0 < c.toNat → c.toNat < 2 ^ 53 → ∀ n : Nat, n < 2 ^ 32 →
    (n * c.toNat ≤ s.toNat → n + 4096 ≤ avg s c) ∧ (s.toNat ≤ n * c.toNat → avg s c ≤ n + 4096)

/-- `a` is reported before `b`: higher count, then higher entropy, then larger FSID. -/
def FSEntry.ahead {F : Type} [LinearOrder F] (a b : FSEntry F) : Prop :=
  b.count.toNat < a.count.toNat ∨ (a.count = b.count ∧ (b.entropy < a.entropy ∨
    (a.entropy = b.entropy ∧ lexLt (b.fsid.val.map UInt8.toNat) (a.fsid.val.map UInt8.toNat))))

/-- The offsets identify always samples: 100 blocks from the first superblock, blocks
100 to 199 from the second, and 200 to 299 (and on devices of at least 1 PiB 300 to
399) from the third. -/
def baseSample (devSize bs o : Nat) : Prop :=
  (∃ i < 100, o = 0x10000 + i * bs) ∨
  (∃ i < 100, o = 0x4000000 + (100 + i) * bs) ∨
  (0x4000000000 ≤ devSize ∧ ∃ i < 100, o = 0x4000000000 + (200 + i) * bs) ∨
  (0x4000000000000 ≤ devSize ∧ ∃ i < 100, o = 0x4000000000 + (300 + i) * bs)

/-- The number of these offsets. -/
def baseCount (devSize : Nat) : Nat :=
  if 0x4000000000000 ≤ devSize then 400 else if 0x4000000000 ≤ devSize then 300 else 200

end Btrfscue
