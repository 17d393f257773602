import Verif.Spec.Order
import Verif.Model.KeyFormat
/-!
# C94: search keys
-/

namespace Btrfscue

/-- A key has the fields that are given: type, object id, offset, in this order. -/
def Key.has (k : Key) : List UInt64 → Prop
  | [] => True
  | [t] => k.typ = UInt8.ofNat t.toNat
  | [t, o] => k.typ = UInt8.ofNat t.toNat ∧ k.objectID = o
  | t :: o :: f :: _ => k.typ = UInt8.ofNat t.toNat ∧ k.objectID = o ∧ k.offset = f

/-- C94: with up to three fields given, `KF` is the first key that has them. -/
theorem C94_first (args : List UInt64) (h : args.length ≤ 3) :
    ∃ a, KFargs args = .ok a ∧ a.has args ∧ ∀ k : Key, k.has args → ¬ k.before a := by
  have key : ∀ a k : Key, a.typ.toNat ≤ k.typ.toNat → (a.typ = k.typ → a.objectID.toNat ≤ k.objectID.toNat) →
      (a.typ = k.typ → a.objectID = k.objectID → a.offset.toNat ≤ k.offset.toNat) → ¬ k.before a := by
    intro a k h1 h2 h3 hb
    rw [← UInt8.toNat_inj] at h2 h3
    rw [← UInt64.toNat_inj] at h3
    simp only [Key.before, Key.fields, lexLt, and_false, or_false] at hb
    omega
  match args, h with
  | [], _ => exact ⟨_, rfl, trivial, fun k _ => key _ _ (by simp) (by simp) (by simp)⟩
  | [t], _ => exact ⟨_, rfl, rfl, fun k hk => key _ _ (by rw [hk]; exact Nat.le_refl _) (by simp) (by simp)⟩
  | [t, o], _ =>
    exact ⟨_, rfl, ⟨rfl, rfl⟩, fun k hk => key _ _ (by rw [hk.1]; exact Nat.le_refl _)
      (fun _ => by rw [hk.2]; exact Nat.le_refl _) (by simp)⟩
  | [t, o, f], _ =>
    exact ⟨_, rfl, ⟨rfl, rfl, rfl⟩, fun k hk => key _ _ (by rw [hk.1]; exact Nat.le_refl _)
      (fun _ => by rw [hk.2.1]; exact Nat.le_refl _) (fun _ _ => by rw [hk.2.2]; exact Nat.le_refl _)⟩

/-- C94: with up to three fields given, `KL` is the last key that has them, except that a
missing object id counts as the last one for ordinary objects (2^64 - 256). -/
theorem C94_last_partial (args : List UInt64) (h : args.length ≤ 3) :
    ∃ b, KLargs args = .ok b ∧ b.has args ∧
      ∀ k : Key, k.has args → (args.length ≤ 1 → k.objectID.toNat ≤ 2 ^ 64 - 256) → ¬ b.before k := by
  have key : ∀ b k : Key, k.typ.toNat ≤ b.typ.toNat → (k.objectID.toNat ≤ b.objectID.toNat) →
      (k.offset.toNat ≤ b.offset.toNat) → ¬ b.before k := by
    intro a k h1 h2 h3 hb
    simp only [Key.before, Key.fields, lexLt, and_false, or_false] at hb
    omega
  have hoff : ∀ k : Key, k.offset.toNat ≤ (~~~0 : UInt64).toNat := by
    intro k; have := k.offset.toNat_lt; show _ ≤ 18446744073709551615; omega
  have hlast : LastFreeObjectID.toNat = 2 ^ 64 - 256 := by decide
  match args, h with
  | [], _ =>
    refine ⟨_, rfl, trivial, fun k _ hid => key _ _ ?_ ?_ (hoff k)⟩
    · have := k.typ.toNat_lt; show _ ≤ 255; omega
    · rw [hlast]; exact hid (by simp)
  | [t], _ =>
    refine ⟨_, rfl, rfl, fun k hk hid => key _ _ (by rw [hk]; exact Nat.le_refl _) ?_ (hoff k)⟩
    rw [hlast]; exact hid (by simp)
  | [t, o], _ =>
    exact ⟨_, rfl, ⟨rfl, rfl⟩, fun k hk _ => key _ _ (by rw [hk.1]; exact Nat.le_refl _)
      (by rw [hk.2]; exact Nat.le_refl _) (hoff k)⟩
  | [t, o, f], _ =>
    exact ⟨_, rfl, ⟨rfl, rfl, rfl⟩, fun k hk _ => key _ _ (by rw [hk.1]; exact Nat.le_refl _)
      (by rw [hk.2.1]; exact Nat.le_refl _) (by rw [hk.2.2]; exact Nat.le_refl _)⟩

/-- C94 is false of the code for special objects: checksums are items of object -10, and
come after the last key `KL` gives for their type (128), so a search up to there does not find
any of them. -/
theorem C94_special_objects_missed (off : UInt64) :
    ∃ b, KLargs [128] = .ok b ∧ (Key.mk (~~~0 - 9) 128 off).has [128] ∧ b.before ⟨~~~0 - 9, 128, off⟩ := by
  refine ⟨_, rfl, rfl, ?_⟩
  simp only [Key.before, Key.fields, lexLt]
  right
  exact ⟨rfl, Or.inl (by decide)⟩

/-- C94: more than three fields are a programming error. -/
theorem C94_too_many (args : List UInt64) (h : 3 < args.length) : KFargs args = .panic ∧ KLargs args = .panic := by
  match args, h with
  | _ :: _ :: _ :: _ :: _, _ => exact ⟨rfl, rfl⟩

example : (Key.mk 257 84 1234).has [84, 257] ∧ KFargs [84, 257] = .ok ⟨257, 84, 0⟩ ∧
    KLargs [84, 257] = .ok ⟨257, 84, ~~~0⟩ := ⟨⟨rfl, rfl⟩, rfl, rfl⟩

end Btrfscue
