import Verif.Spec.Seen
import Verif.Proof.RangeAll
import Verif.Props.PhysicalExact
/-!
# Iterating over an object of an index
-/

namespace Btrfscue

theorem seen_yields {b : Bucket} (hb : b.WF) {m : Bytes} (hm : b.stores metadataVersionKey m) {o : UInt64} {t : UInt8} {id : UInt64}
    (hr : b.RangeOK o (KL2 t id)) :
    ∃ rd its vs, (Ix.mk b (~~~0)).rangeAll o t id = .ok rd ∧ Range.Yields rd its ∧ b.seenItems o t id vs ∧
      its.map (·.2) = vs.map (·.2) := by
  obtain ⟨l, hl, rfl⟩ := hb.exists_abs
  obtain ⟨rd, items, hr, hy, hp, hs⟩ := rangeAll_run hl ⟨m, hm⟩ hr
  refine ⟨rd, _, items.map (fun e => (e.1.1.key.offset, e.2)), hr, hy, ⟨?_, ?_⟩, by simp [Function.comp_def]⟩
  · rw [List.pairwise_map]
    refine hp.imp_of_mem ?_
    rintro ⟨⟨w, y⟩, s⟩ ⟨⟨w', y'⟩, s'⟩ ha hb hlt
    obtain ⟨off, g, r1, rfl, -, -⟩ := (hs w y s).mp ha
    obtain ⟨off', g', r2, rfl, -, -⟩ := (hs w' y' s').mp hb
    obtain rfl := runVersion_gen r1 r2
    simp only at hlt ⊢
    rw [UInt64.lt_iff_toNat_lt]
    have h' := VKey.num_lt_iff.mp hlt
    clear hlt hs hp hy
    simp [VKey.before, VKey.fields, Key.fields, lexLt] at h'
    exact h'
  · intro off d
    rw [List.mem_map]
    constructor
    · rintro ⟨⟨⟨w, y⟩, s⟩, h1, h2⟩
      obtain ⟨off', g, r1, rfl, h3, h4⟩ := (hs w y s).mp h1
      simp only [Prod.mk.injEq] at h2
      obtain ⟨rfl, rfl⟩ := h2
      exact ⟨g, y, r1, h3, h4⟩
    · rintro ⟨g, x, r1, h1, h2⟩
      exact ⟨((_, x), d), (hs _ _ _).mpr ⟨off, g, r1, rfl, h1, h2⟩, rfl⟩

end Btrfscue
