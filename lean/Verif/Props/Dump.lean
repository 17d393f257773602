import Verif.Spec.Dump
import Verif.Props.Ranges
import Verif.Props.ToString
/-!
# C73: dump-index
-/

namespace Btrfscue

/-- What the dump loop prints of a full range. -/
theorem dumpLoop_text : ∀ (fuel : Nat) (fr : FullRange × Slice) (last : UInt64) (out : Bytes)
    (items : List (Bytes × Bytes)) (vs : List VKey), FullRange.collect fuel fr = .ok items →
    items.map (·.1) = vs.map VKey.encode →
    dumpLoop fuel fr last out = .ok () (out ++ dumpText last vs) := by
  intro fuel
  induction fuel with
  | zero => intro _ _ _ _ _ h; cases h
  | succ n ih =>
    intro fr last out items vs h hv
    obtain ⟨f, d⟩ := fr
    simp only [FullRange.collect] at h
    by_cases hn : f.r.hasNext = true
    · rw [if_pos hn] at h
      simp only [Go.bind_eq_ok] at h
      obtain ⟨nx, h1, rest, h2, h3⟩ := h
      cases h3
      cases vs with
      | nil => cases hv
      | cons v ws =>
        simp only [List.map_cons, List.cons.injEq] at hv
        have hk : f.r.key = some v.encode := by
          cases hk : f.r.key with
          | none => simp [Range.hasNext, hk] at hn
          | some k => rw [hk] at hv; rw [← hv.1]; rfl
        have ho : f.r.rOwner = .ok v.owner := by
          simp only [Range.rOwner, hk]; exact KeyV2_owner_new _ _ _
        have hkey : f.r.rKey = .ok v.key := by
          simp only [Range.rKey, hk]; exact KeyV2_key_new _ _ _
        have hg : f.r.rGeneration = .ok v.gen := by
          simp only [Range.rGeneration, hk]; exact KeyV2_generation_new _ _ _
        simp only [dumpLoop, if_pos hn, Cmd.bind_def, ho, hkey, hg, h1, Cmd.lift_ok]
        simp only [dumpOwner, dumpKey, emit]
        by_cases hl : v.owner = last
        · simp only [hl, ne_eq, not_true_eq_false, if_false, Cmd.pure_run, Cmd.modify_run]
          rw [ih nx last _ rest ws h2 hv.2]
          simp only [dumpText, hl, if_true, versionLine, List.append_assoc, List.nil_append]
        · simp only [ne_eq, hl, not_false_eq_true, if_true, Cmd.modify_run]
          rw [ih nx v.owner _ rest ws h2 hv.2]
          simp only [dumpText, hl, if_false, versionLine, ownerLine, List.append_assoc]
    · rw [if_neg hn] at h
      cases h
      cases vs with
      | cons v ws => cases hv
      | nil => simp only [dumpLoop, if_neg hn, Cmd.pure_run, dumpText, List.append_nil]

/-- C73 (what is proved): on a non-empty index with intact items `dump-index` prints one
line per stored version, in key order, under the heading of its tree; and at the end
the metadata entry as if it were one. Missing: the metadata entry should not be shown,
and an index without items should not crash the command. -/
theorem C73_dump_partial (vs : List (VKey × Bytes)) (m : Bytes) (hne : vs ≠ [])
    (hs : AStore.Sorted (vs ++ [(metadataVersionKey, m)])) (payload : Bytes → Bytes)
    (hit : ∀ e ∈ vs, holdsItem e.2 (payload e.2)) (fuel : Nat) (hf : vs.length + 1 < fuel) :
    doDumpIndex fuel ⟨AStore.enc (vs ++ [(metadataVersionKey, m)]), ~~~0⟩ [] =
      .ok () (dumpText (~~~0) (vs.map (·.1) ++ [metadataVersionKey])) := by
  have henc : AStore.enc (vs ++ [(metadataVersionKey, m)]) =
      AStore.enc vs ++ [(metadataVersionKey.encode, m)] := by simp [AStore.enc]
  have h34 := C34_full_range_partial (AStore.enc vs) m (by simpa [AStore.enc] using hne)
    (by rw [← henc]; exact AStore.enc_wf hs) payload (by
      intro e he
      obtain ⟨a, ha, rfl⟩ := List.mem_map.mp he
      exact hit a ha) fuel (by simpa [AStore.enc] using hf)
  rw [henc]
  simp only [fullRangeItems, Go.bind_eq_ok] at h34
  obtain ⟨fr, h1, h2⟩ := h34
  simp only [doDumpIndex, Cmd.bind_def, h1, Cmd.lift_ok]
  rw [dumpLoop_text fuel fr _ [] _ (vs.map (·.1) ++ [metadataVersionKey]) h2 (by
    simp [AStore.enc, Function.comp_def])]
  rfl

theorem ascii_owner : ascii "owner " = [111, 119, 110, 101, 114, 32] := by decide +kernel
theorem ascii_key : ascii "key (" = [107, 101, 121, 32, 40] := by decide +kernel
theorem ascii_at : ascii " @ " = [32, 64, 32] := by decide +kernel

theorem newline_notin_decimal (n : Nat) : (10 : UInt8) ∉ decimal n := fun h => by
  have := (decimal_digit h).1
  revert this; decide

theorem newline_notin_key (k : Key) : (10 : UInt8) ∉ k.string := by
  unfold Key.string
  rw [ascii_key]
  simp only [List.mem_append, List.mem_cons, List.not_mem_nil, or_false, not_or]
  refine ⟨by decide, fun h => (switchName_byte objectIDNames_ok h).2 rfl, by decide,
    fun h => (switchName_byte keyTypeNames_ok h).2 rfl, by decide, fun h => ?_, by decide⟩
  rcases decimalInt_byte h with h | h
  · exact absurd h (by decide)
  · exact absurd h (by decide)

/-- The key ends at the last closing parenthesis of the line. -/
theorem versionLine_inj {v w : VKey} {r q : Bytes} (ho : v.owner = w.owner)
    (h : versionLine v ++ r = versionLine w ++ q) : v = w ∧ r = q := by
  unfold versionLine at h
  simp only [List.append_assoc, List.singleton_append] at h
  have hv : (10 : UInt8) ∉ v.key.string ++ (ascii " @ " ++ decimal v.gen.toNat) := by
    rw [ascii_at]
    simp only [List.mem_append, List.mem_cons, List.not_mem_nil, or_false, not_or]
    exact ⟨newline_notin_key _, ⟨by decide, by decide, by decide⟩, newline_notin_decimal _⟩
  have hw : (10 : UInt8) ∉ w.key.string ++ (ascii " @ " ++ decimal w.gen.toNat) := by
    rw [ascii_at]
    simp only [List.mem_append, List.mem_cons, List.not_mem_nil, or_false, not_or]
    exact ⟨newline_notin_key _, ⟨by decide, by decide, by decide⟩, newline_notin_decimal _⟩
  obtain ⟨h1, h2⟩ := sep_inj (s := 10) (a := v.key.string ++ (ascii " @ " ++ decimal v.gen.toNat)) (r := r)
    (b := w.key.string ++ (ascii " @ " ++ decimal w.gen.toNat)) (q := q) hv hw (by simpa using h)
  refine ⟨?_, h2⟩
  -- neither part contains an at sign
  have hat : ∀ k : Key, (64 : UInt8) ∉ k.string ++ [32] := by
    intro k
    unfold Key.string
    rw [ascii_key]
    have hn : ∀ (t : List (Nat × String)), (∀ e ∈ t, (64 : UInt8) ∉ ascii e.2) → ∀ n, (64 : UInt8) ∉ switchName t n := by
      intro t ht n hc
      rcases switchName_cases t n with ⟨e, h1, -, h3⟩ | ⟨-, h3⟩ <;> rw [h3] at hc
      · exact ht e h1 hc
      · exact absurd (decimal_digit hc).2 (by decide)
    simp only [List.mem_append, List.mem_cons, List.not_mem_nil, or_false, not_or]
    refine ⟨⟨by decide, hn objectIDNames (by decide +kernel) _, by decide, hn keyTypeNames (by decide +kernel) _, by decide,
      fun h => ?_, by decide⟩, by decide⟩
    rcases decimalInt_byte h with h | h
    · exact absurd h (by decide)
    · exact absurd h (by decide)
  rw [ascii_at] at h1
  obtain ⟨h3, h4⟩ := sep_inj (s := 64) (a := v.key.string ++ [32]) (r := 32 :: decimal v.gen.toNat)
    (b := w.key.string ++ [32]) (q := 32 :: decimal w.gen.toNat) (hat _) (hat _) (by simpa using h1)
  have hk := (C66_keys_distinct _ _).mp (List.append_cancel_right h3)
  have hg := UInt64.toNat_inj.mp (decimal_inj (List.cons.inj h4).2)
  obtain ⟨a, b, c⟩ := v
  obtain ⟨a', b', c'⟩ := w
  simp only at ho hk hg
  rw [ho, hk, hg]

theorem versionLine_head (v : VKey) : ∃ r, versionLine v = 107 :: r := by
  refine ⟨?_, ?_⟩
  rotate_left
  · unfold versionLine Key.string
    rw [ascii_key]
    rfl

theorem ownerLine_head (o : UInt64) : ∃ r, ownerLine o = 111 :: r := by
  refine ⟨?_, ?_⟩
  rotate_left
  · unfold ownerLine
    rw [ascii_owner]
    rfl

theorem ownerLine_inj {o p : UInt64} {r q : Bytes} (h : ownerLine o ++ r = ownerLine p ++ q) : o = p ∧ r = q := by
  unfold ownerLine at h
  simp only [List.append_assoc] at h
  obtain ⟨h1, h2⟩ := sep_inj (s := 10) (newline_notin_decimal _) (newline_notin_decimal _) (List.append_cancel_left h)
  exact ⟨UInt64.toNat_inj.mp (decimal_inj h1), h2⟩

/-- C73: a dump determines the versions shown: tree, key, generation and order. -/
theorem C73_dump_determines (last : UInt64) (vs ws : List VKey) :
    dumpText last vs = dumpText last ws ↔ vs = ws := by
  refine ⟨?_, fun h => h ▸ rfl⟩
  induction vs generalizing last ws with
  | nil =>
    intro h
    cases ws with
    | nil => rfl
    | cons w s =>
      exfalso
      simp only [dumpText] at h
      obtain ⟨r, hr⟩ := versionLine_head w
      rw [hr] at h
      simp at h
  | cons v t ih =>
    intro h
    cases ws with
    | nil =>
      exfalso
      simp only [dumpText] at h
      obtain ⟨r, hr⟩ := versionLine_head v
      rw [hr] at h
      simp at h
    | cons w s =>
      simp only [dumpText] at h
      have key : ∀ (v w : VKey) (t s : List VKey), v.owner = w.owner →
          versionLine v ++ dumpText v.owner t = versionLine w ++ dumpText w.owner s → v = w ∧ dumpText v.owner t = dumpText v.owner s := by
        intro v w t s ho he
        obtain ⟨h1, h2⟩ := versionLine_inj ho he
        exact ⟨h1, by rw [h2, ho]⟩
      by_cases hv : v.owner = last <;> by_cases hw : w.owner = last
      · rw [if_pos hv, if_pos hw] at h
        obtain ⟨h1, h2⟩ := key v w t s (hv.trans hw.symm) h
        rw [h1, ih _ _ h2]
      · exfalso
        rw [if_pos hv, if_neg hw] at h
        obtain ⟨r, hr⟩ := versionLine_head v
        obtain ⟨q, hq⟩ := ownerLine_head w.owner
        rw [hr, hq] at h
        have := (List.cons.inj h).1
        revert this; decide
      · exfalso
        rw [if_neg hv, if_pos hw] at h
        obtain ⟨r, hr⟩ := versionLine_head w
        obtain ⟨q, hq⟩ := ownerLine_head v.owner
        rw [hr, hq] at h
        have := (List.cons.inj h).1
        revert this; decide
      · rw [if_neg hv, if_neg hw, List.append_assoc, List.append_assoc] at h
        obtain ⟨h0, h⟩ := ownerLine_inj h
        obtain ⟨h1, h2⟩ := key v w t s h0 h
        rw [h1, ih _ _ h2]

/-- C73 refuted for an index without items: the command crashes having printed
nothing. -/
theorem C73_empty_index_crashes (fuel : Nat) :
    doDumpIndex fuel ⟨[(metadataVersionKey.encode, newIndexMetadata exOptions)], ~~~0⟩ [] = .crash [] := by
  have h : (Ix.mk [(metadataVersionKey.encode, newIndexMetadata exOptions)] (~~~0)).fullRange = .panic := by
    decide +kernel
  simp only [doDumpIndex, Cmd.bind_def, h, Cmd.lift_panic]

/-- The dump of a small index: the hypotheses of `C73_dump_partial` are met. -/
example : doDumpIndex 4 ⟨AStore.enc ([(⟨5, ⟨256, 1, 0⟩, 10⟩, mkItem ⟨256, 1, 0⟩ [1]), (⟨5, ⟨256, 84, 9⟩, 11⟩, mkItem ⟨256, 84, 9⟩ [2])] ++
      [(metadataVersionKey, [])]), ~~~0⟩ [] =
    .ok () (ascii "owner 5\nkey (FIRST_FREE INODE_ITEM 0) @ 10\nkey (FIRST_FREE DIR_ITEM 9) @ 11\n" ++
      (ascii "owner 18446744073709551615\n" ++ versionLine metadataVersionKey)) := by
  refine (C73_dump_partial [(⟨5, ⟨256, 1, 0⟩, 10⟩, mkItem ⟨256, 1, 0⟩ [1]), (⟨5, ⟨256, 84, 9⟩, 11⟩, mkItem ⟨256, 84, 9⟩ [2])] [] (by simp)
    (sorted_of_before (by decide +kernel)) (fun x => x.drop 25) ?_ _ (by decide)).trans (by decide +kernel)
  intro e he
  simp only [List.mem_cons, List.not_mem_nil, or_false] at he
  rcases he with rfl | rfl
  · exact mkItem_holds ⟨256, 1, 0⟩ [1] (by decide)
  · exact mkItem_holds ⟨256, 84, 9⟩ [2] (by decide)

end Btrfscue
