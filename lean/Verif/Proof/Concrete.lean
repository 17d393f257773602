import Verif.Proof.RangeRun
/-! # Helpers for concrete stores (non-vacuity witnesses and counterexamples) -/

namespace Btrfscue

instance lexLt.dec : (a b : List Nat) → Decidable (lexLt a b)
  | [], [] => isFalse id
  | [], _ :: _ => isTrue trivial
  | _ :: _, [] => isFalse id
  | a :: as, b :: bs =>
    have := lexLt.dec as bs
    inferInstanceAs (Decidable (a < b ∨ (a = b ∧ lexLt as bs)))

instance (a b : VKey) : Decidable (a.before b) := inferInstanceAs (Decidable (lexLt _ _))
instance (a b : Key) : Decidable (a.before b) := inferInstanceAs (Decidable (lexLt _ _))

theorem sorted_of_before {l : AStore} (h : l.Pairwise fun a b => a.1.before b.1) : l.Sorted :=
  h.imp fun hab => VKey.num_lt_iff.mpr hab

/-- A stored item with the given payload. -/
def mkItem (k : Key) (d : Bytes) : Bytes := (ItemRec.mk k 0 (UInt32.ofNat d.length)).layout ++ d

theorem mkItem_holds (k : Key) (d : Bytes) (h : d.length + 25 < 2 ^ 32) : holdsItem (mkItem k d) d :=
  ⟨⟨k, 0, UInt32.ofNat d.length⟩, [], by simp [mkItem], by
    simp only [UInt32.toNat_ofNat']; omega, h⟩

theorem enc_hasKey {l : AStore} {o : UInt64} {k : Key} :
    l.enc.hasKey o k ↔ ∃ g x, (⟨o, k, g⟩, x) ∈ l := by
  simp only [Bucket.hasKey, enc_hasVersion]

/-- Checking `RangeOK` on a concrete store that has an item after the range. -/
theorem rangeOK_of {l : AStore} {o : UInt64} {last : Key} (ho : o ≠ ~~~0)
    (hi : ∀ e ∈ l, e.1.owner = o → ∃ d, holdsItem e.2 d)
    (hg : ∀ e ∈ l, e.1.owner = o → e.1.gen ≠ ~~~0 ∧ e.1.key ≠ KL0)
    (hc : ∃ e ∈ l, e.1.owner = o ∧ last.before e.1.key) : l.enc.RangeOK o last where
  ordinary := ho
  intact v x hv hvo := hi (v, x) (enc_stores.mp hv) hvo
  noMaxGen k hv := by
    obtain ⟨x, hx⟩ := enc_hasVersion.mp hv
    exact (hg _ hx rfl).1 rfl
  noKL hk := by
    obtain ⟨g, x, hx⟩ := enc_hasKey.mp hk
    exact (hg _ hx rfl).2 rfl
  closed := by
    obtain ⟨⟨⟨eo, ek, eg⟩, ex⟩, he, h1, h2⟩ := hc
    simp only at h1 h2
    subst h1
    exact Or.inl ⟨ek, enc_hasKey.mpr ⟨eg, ex, he⟩, h2⟩

end Btrfscue
