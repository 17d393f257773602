import Verif.Props.Ls
import Verif.Props.PhysicalExact
import Verif.Props.Refuted
/-!
# C64: what ls lists, exactly
-/

namespace Btrfscue

/-- C64, for any directory with whole entries, of whatever generations: the listing consists of
one line for each entry that iterating over the directory gets to — up to the first that lacks the
generation of the first entry —, what is not a directory first, names ascending. -/
theorem C64_listing_exact (b : Bucket) (hb : b.WF) (m : Bytes) (hm : b.stores metadataVersionKey m)
    (owner dir : UInt64) (hr : b.RangeOK owner (KL2 84 dir))
    (hwhole : ∀ off g x d, b.stores ⟨owner, ⟨dir, 84, off⟩, g⟩ x → Item.data ⟨x, []⟩ = .ok d → wholeEntry (Slice.data d))
    (hin : b.InodesOK owner) (srt : Sorter) (hsrt : SortOK srt) (ft : Time → Bytes) (showInode : Bool) :
    ∃ N vs es lines, b.seenEntries owner dir vs ∧ es.Perm (vs.map (·.2)) ∧ es.Pairwise ListedBefore ∧
      List.Forall₂ (b.lineShows ft owner showInode) es lines ∧
      ∀ rf fuel, N ≤ rf → 0 < fuel →
        listDirectory rf srt ft ⟨b, ~~~0⟩ owner showInode fuel dir false = .ok lines.flatten := by
  have ho := hr.ordinary
  obtain ⟨l, hl, rfl⟩ := hb.exists_abs
  obtain ⟨rd, items, hr, hy, hp, hs⟩ := rangeAll_run hl ⟨m, hm⟩ hr
  generalize hits : (items.map fun e => (Range.at l.enc (VKey.mk owner (KL2 84 dir) (~~~0)).encode e.1, e.2)) = its at hy
  have hits2 : its.map (·.2) = items.map (·.2) := by rw [← hits]; simp [Function.comp_def]
  have hw : ∀ d ∈ its.map (·.2), wholeEntry (Slice.data d) := by
    intro d hd
    rw [hits2] at hd
    obtain ⟨⟨⟨w, y⟩, s⟩, h1, rfl⟩ := List.mem_map.mp hd
    obtain ⟨off, g, -, rfl, h2, h3⟩ := (hs w y s).mp h1
    exact hwhole off g y s h2 h3
  obtain ⟨es, he1, he2, he3⟩ := lsSort_ok hsrt _ hw
  obtain ⟨lines, todo, h1, h2, h3⟩ := listLoop_ok (AStore.enc_wf hl) hm ho hin ft false showInode es
    (fun d hd => hw d (he2.mem_iff.mp hd))
  refine ⟨its.length + 1, items.map (fun e => (e.1.1.key.offset, e.2)), es, lines, ?_, ?_, he3, h2, ?_⟩
  · constructor
    · rw [List.pairwise_map]
      refine hp.imp_of_mem ?_
      rintro ⟨⟨w, y⟩, s⟩ ⟨⟨w', y'⟩, s'⟩ ha hb hlt
      obtain ⟨off, g, r1, rfl, -, -⟩ := (hs w y s).mp ha
      obtain ⟨off', g', r2, rfl, -, -⟩ := (hs w' y' s').mp hb
      obtain rfl := runVersion_gen r1 r2
      simp only at hlt ⊢
      rw [UInt64.lt_iff_toNat_lt]
      have h' := VKey.num_lt_iff.mp hlt
      clear hlt hs hp hw hits2 hits hy
      simp [VKey.before, VKey.fields, Key.fields, lexLt] at h'
      exact h'
    · intro off d
      rw [List.mem_map]
      constructor
      · rintro ⟨⟨⟨w, y⟩, s⟩, h1, h2⟩
        obtain ⟨off', g, r1, rfl, h3, h4⟩ := (hs w y s).mp h1
        simp only [Prod.mk.injEq] at h2
        obtain ⟨rfl, rfl⟩ := h2
        exact ⟨g, y, r1, h3, h4⟩
      · rintro ⟨g, x, r1, h1, h2⟩
        exact ⟨((_, x), d), (hs _ _ _).mpr ⟨off, g, r1, rfl, h1, h2⟩, rfl⟩
  · have hcomp : (items.map (fun e => (e.1.1.key.offset, e.2))).map (·.2) = items.map (·.2) := by
      simp [Function.comp_def]
    rw [hcomp, ← hits2]
    exact he2
  · intro rf fuel hrf hfu
    obtain ⟨f, rfl⟩ : ∃ f, fuel = f + 1 := ⟨fuel - 1, by omega⟩
    have htodo : todo = [] := by
      cases todo with
      | nil => rfl
      | cons t ts => exact absurd ((h3 t).mp List.mem_cons_self).1 (by simp)
    have hri : (Ix.mk l.enc (~~~0)).dirItems owner dir = .ok rd := hr
    simp only [listDirectory, hri, Go.ok_bind, rangeLoop_eq _ hy rf [] (by omega), foldCollect, List.nil_append,
      he1, h1, htodo, subLoop, Go.pure_eq, List.append_nil]

/-- The hypotheses are met by a directory with entries of two generations, of which the first is
reached and the second is not. -/
example : exMixedList.enc.WF ∧ exMixedList.enc.stores metadataVersionKey [] ∧ exMixedList.enc.RangeOK 5 (KL2 84 256) ∧
    (∀ off g x d, exMixedList.enc.stores ⟨5, ⟨256, 84, off⟩, g⟩ x → Item.data ⟨x, []⟩ = .ok d → wholeEntry (Slice.data d)) ∧
    exMixedList.enc.InodesOK 5 ∧ exMixedList.enc.runVersion 5 84 256 1 10 ∧ ¬ ∃ g, exMixedList.enc.runVersion 5 84 256 2 g := by
  have hrun : exMixedList.enc.runVersion 5 84 256 1 10 := by
    have hv : exMixedList.enc.hasVersion 5 ⟨256, 84, 1⟩ 10 :=
      enc_hasVersion.mpr ⟨mkItem ⟨256, 84, 1⟩ (exEntry ⟨257, 1, 0⟩ 1 [97]), by simp only [exMixedList, List.mem_cons, true_or]⟩
    refine ⟨⟨1, ⟨hv, fun g' hg' => ?_⟩, fun off' hk => ?_⟩, fun off' hk hle => ?_⟩
    · obtain ⟨x, hx⟩ := enc_hasVersion.mp hg'
      have : ∀ e ∈ exMixedList, e.1.owner = 5 → e.1.key = ⟨256, 84, 1⟩ → e.1.gen ≤ 10 := by decide +kernel
      exact this _ hx rfl rfl
    · obtain ⟨g, x, hx⟩ := enc_hasKey.mp hk
      have : ∀ e ∈ exMixedList, e.1.owner = 5 → e.1.key.typ = 84 → 1 ≤ e.1.key.offset := by decide +kernel
      exact this _ hx rfl rfl
    · obtain ⟨g, x, hx⟩ := enc_hasKey.mp hk
      have : ∀ e ∈ exMixedList, e.1.owner = 5 → e.1.key.typ = 84 → e.1.key.offset ≤ 1 → e.1.key.offset = 1 := by decide +kernel
      have h := this _ hx rfl rfl hle
      simp only at h
      rw [h]
      exact hv
  refine ⟨AStore.enc_wf (sorted_of_before (by decide +kernel)), enc_stores.mpr (by simp [exMixedList]), ?_, ?_, ?_, hrun, ?_⟩
  · refine rangeOK_of (by decide) (fun e he ho => ?_) (by decide +kernel) (by decide +kernel)
    simp only [exMixedList, List.mem_cons, List.not_mem_nil, or_false] at he
    rcases he with rfl | rfl | rfl | rfl
    · exact ⟨_, mkItem_holds _ _ (by decide)⟩
    · exact ⟨_, mkItem_holds _ _ (by decide)⟩
    · exact ⟨_, mkItem_holds _ _ (by decide)⟩
    · exact absurd ho (by decide)
  · intro off g x d hs hd
    have hm := enc_stores.mp hs
    simp only [exMixedList, List.mem_cons, List.not_mem_nil, or_false, Prod.mk.injEq, VKey.mk.injEq, Key.mk.injEq] at hm
    rcases hm with ⟨-, rfl⟩ | ⟨-, rfl⟩ | ⟨⟨-, ⟨-, h, -⟩, -⟩, -⟩ | ⟨h, -⟩
    · rw [item_data_mk _ _ (by decide)] at hd; cases hd; exact entry_whole _ _ _ (by decide)
    · rw [item_data_mk _ _ (by decide)] at hd; cases hd; exact entry_whole _ _ _ (by decide)
    · exact absurd h (by decide)
    · exact absurd (congrArg VKey.owner h) (by show ¬ (5 : UInt64) = ~~~0; decide)
  · intro ino hk
    obtain ⟨g', x, hx⟩ := enc_hasKey.mp hk
    have : ∀ e ∈ exMixedList, e.1.owner = 5 → e.1.key.typ ≠ 1 := by decide +kernel
    exact absurd rfl (this _ hx rfl)
  · rintro ⟨g, h⟩
    obtain rfl := runVersion_gen hrun h
    obtain ⟨x, hx⟩ := enc_hasVersion.mp (h.2 2 (enc_hasKey.mpr ⟨11, mkItem ⟨256, 84, 2⟩ (exEntry ⟨258, 1, 0⟩ 1 [98]), by
      simp only [exMixedList, List.mem_cons, true_or, or_true]⟩) (UInt64.le_refl _))
    have : ∀ e ∈ exMixedList, e.1.key = ⟨256, 84, 2⟩ → e.1.gen = 11 := by decide +kernel
    have h11 : (10 : UInt64) = 11 := this _ hx rfl
    exact absurd h11 (by decide)

end Btrfscue
