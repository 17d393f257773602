import Verif.Spec.MountCrash
import Verif.Proof.FileCrash
import Verif.Proof.NoHang
import Verif.Proof.RescueNode
import Verif.Props.LayoutBounds
import Verif.Props.OpenExact
/-!
# When a request to the mounted file system crashes
-/

namespace Btrfscue

theorem notOk_panic {α : Type} {x : Go α} [h : NH x] (h' : ¬ x.isOk = true) : x = .panic := by
  cases x with
  | ok a => exact absurd rfl h'
  | panic => rfl
  | hang => exact absurd rfl h.out

/-! ## Names -/

theorem dirItemRec_of {d : Bytes} (h : 30 ≤ d.length) : ∃ (e : DirItemRec) (rest : Bytes), d = e.layout ++ rest := by
  obtain ⟨a, d, rfl, h1, -⟩ := split_at 8 d (by omega)
  obtain ⟨t, d, rfl, h2, -⟩ := split_at 1 d (by simp only [List.length_append] at *; omega)
  obtain ⟨b, d, rfl, h3, -⟩ := split_at 8 d (by simp only [List.length_append] at *; omega)
  obtain ⟨c, d, rfl, h4, -⟩ := split_at 8 d (by simp only [List.length_append] at *; omega)
  obtain ⟨e, d, rfl, h5, -⟩ := split_at 2 d (by simp only [List.length_append] at *; omega)
  obtain ⟨f, d, rfl, h6, -⟩ := split_at 2 d (by simp only [List.length_append] at *; omega)
  obtain ⟨g, d, rfl, h7, -⟩ := split_at 1 d (by simp only [List.length_append] at *; omega)
  obtain ⟨a, rfl⟩ := le64_of a h1
  obtain ⟨t, rfl⟩ := List.length_eq_one_iff.mp h2
  obtain ⟨b, rfl⟩ := le64_of b h3
  obtain ⟨c, rfl⟩ := le64_of c h4
  obtain ⟨e, rfl⟩ := le16_of e h5
  obtain ⟨f, rfl⟩ := le16_of f h6
  obtain ⟨g, rfl⟩ := List.length_eq_one_iff.mp h7
  exact ⟨⟨⟨a, t, b⟩, c, e, f, g⟩, d, by simp [DirItemRec.layout, packKey, List.append_assoc]⟩

theorem namedBy.name {d : Bytes} {e : DirItemRec} {n t : Bytes} (h : namedBy d e n) : DirItem.name ⟨d, t⟩ = .ok n := by
  obtain ⟨rest, rfl, hl⟩ := h
  obtain ⟨h30, -, -, -, hn, -⟩ := C07_DirItem_decodes e (n ++ rest) t
  have hd : dirItemName = 30 := by decide
  have hm : (if e.nameLen.toNat > 255 then 255 else e.nameLen.toNat) = n.length := by
    rw [hl]; split <;> omega
  simp only [DirItem.name, hn, Go.ok_bind, hd, hm, sub_mid e.layout n rest t 30 (30 + n.length) h30 (by rw [h30])]
  rfl

theorem namedBy.fields {d : Bytes} {e : DirItemRec} {n t : Bytes} (h : namedBy d e n) :
    DirItem.location ⟨d, t⟩ = .ok e.location ∧ DirItem.typ ⟨d, t⟩ = .ok e.typ ∧ DirItem.nameLen ⟨d, t⟩ = .ok e.nameLen ∧
      DirItem.dataLen ⟨d, t⟩ = .ok e.dataLen := by
  obtain ⟨rest, rfl, -⟩ := h
  obtain ⟨-, h1, -, h3, h2, h4⟩ := C07_DirItem_decodes e (n ++ rest) t
  exact ⟨h1, h4, h2, h3⟩

theorem not_named {d : Bytes} (h : ¬ named d) : DirItem.name ⟨d, []⟩ = .panic := by
  refine notOk_panic fun hok => h ?_
  obtain ⟨n, hn, hl⟩ := (C09_dir_item_name_crash_iff d).mp hok
  obtain ⟨e, rest, rfl⟩ := dirItemRec_of (d := d) (by omega)
  obtain ⟨h30, -, -, -, hn', -⟩ := C07_DirItem_decodes e rest []
  rw [hn'] at hn
  cases hn
  rw [List.length_append, h30] at hl
  refine ⟨e, rest.take (min e.nameLen.toNat 255), rest.drop (min e.nameLen.toNat 255), ?_, ?_⟩
  · rw [List.take_append_drop]
  · rw [List.length_take]; omega

theorem namedBy.unique {d : Bytes} {e e' : DirItemRec} {n n' : Bytes} (h : namedBy d e n) (h' : namedBy d e' n') :
    n = n' ∧ e.location = e'.location ∧ e.nameLen = e'.nameLen ∧ e.dataLen = e'.dataLen := by
  have h1 := h.name (t := [])
  rw [h'.name] at h1
  obtain ⟨a1, a2, a3, a4⟩ := h.fields (t := [])
  obtain ⟨b1, b2, b3, b4⟩ := h'.fields (t := [])
  rw [a1] at b1; rw [a3] at b3; rw [a4] at b4
  exact ⟨(Go.ok.inj h1).symm, Go.ok.inj b1, Go.ok.inj b3, Go.ok.inj b4⟩

theorem value_ok {d : Bytes} {e : DirItemRec} {n : Bytes} (h : namedBy d e n) :
    (valueThere d e → ∃ v, DirItem.data ⟨d, []⟩ = .ok v) ∧ (¬ valueThere d e → DirItem.data ⟨d, []⟩ = .panic) := by
  obtain ⟨-, -, h1, h2⟩ := h.fields (t := [])
  have hd : UInt16.ofNat dirItemName = 30 := by decide
  have e1 : (30 + e.nameLen : UInt16).toNat = (30 + e.nameLen.toNat) % 65536 := UInt16.toNat_add ..
  have e2 : (30 + e.nameLen + e.dataLen : UInt16).toNat = (30 + e.nameLen.toNat + e.dataLen.toNat) % 65536 := by
    rw [UInt16.toNat_add, e1]; omega
  simp only [DirItem.data, h1, h2, Go.ok_bind, hd, e1, e2, valueThere]
  constructor
  · intro hv
    obtain ⟨s, hs⟩ := Go.isOk_iff.mp ((sub_isOk d _ _).mpr hv)
    rw [hs]
    exact ⟨_, rfl⟩
  · intro hv
    rw [notOk_panic fun hok => hv ((sub_isOk d _ _).mp hok)]
    rfl

/-! ## Attributes and extents -/

instance (s : Slice) : NH (SliceTimeLE s) := by unfold SliceTimeLE; infer_instance
instance (s : Slice) (n : Nat) : NH (timeAt s n) := by unfold timeAt; infer_instance
instance (d : InodeItem) : NH (InodeItem.mode d) := by unfold InodeItem.mode; infer_instance
instance (d : InodeItem) : NH (InodeItem.nlink d) := by unfold InodeItem.nlink; infer_instance
instance (d : InodeItem) : NH (InodeItem.uid d) := by unfold InodeItem.uid; infer_instance
instance (d : InodeItem) : NH (InodeItem.gid d) := by unfold InodeItem.gid; infer_instance
instance (d : InodeItem) : NH (InodeItem.rdev d) := by unfold InodeItem.rdev; infer_instance
instance (d : InodeItem) : NH (InodeItem.atime d) := by unfold InodeItem.atime; infer_instance
instance (d : InodeItem) : NH (InodeItem.mtime d) := by unfold InodeItem.mtime; infer_instance
instance (d : InodeItem) : NH (InodeItem.ctime d) := by unfold InodeItem.ctime; infer_instance
instance (i : UInt64) (d : InodeItem) : NH (attrOf i d) := by unfold attrOf; infer_instance

theorem attrOf_ok {i : UInt64} {d : Bytes} (h : 148 ≤ d.length) : ∃ a, attrOf i ⟨d, []⟩ = .ok a := by
  obtain ⟨-, -, b1, -, b2, b3, b4, b5, b6, -, -, b7, b8, b9, -⟩ := C08_InodeItem_bounds d
  obtain ⟨_, c1⟩ := Go.isOk_iff.mp (b1.mpr (by omega))
  obtain ⟨_, c2⟩ := Go.isOk_iff.mp (b2.mpr (by omega))
  obtain ⟨_, c3⟩ := Go.isOk_iff.mp (b3.mpr (by omega))
  obtain ⟨_, c4⟩ := Go.isOk_iff.mp (b4.mpr (by omega))
  obtain ⟨_, c5⟩ := Go.isOk_iff.mp (b5.mpr (by omega))
  obtain ⟨_, c6⟩ := Go.isOk_iff.mp (b6.mpr (by omega))
  obtain ⟨_, c7⟩ := Go.isOk_iff.mp (b7.mpr (by omega))
  obtain ⟨_, c8⟩ := Go.isOk_iff.mp (b8.mpr (by omega))
  obtain ⟨_, c9⟩ := Go.isOk_iff.mp (b9.mpr (by omega))
  simp only [attrOf, c1, c2, c3, c4, c5, c6, c7, c8, c9, Go.ok_bind]
  exact ⟨_, rfl⟩

theorem attrOf_short {i : UInt64} {d : Bytes} (h : d.length < 148) : attrOf i ⟨d, []⟩ = .panic := by
  refine notOk_panic fun hok => ?_
  obtain ⟨a, ha⟩ := Go.isOk_iff.mp hok
  simp only [attrOf, Go.bind_eq_ok] at ha
  obtain ⟨_, _, _, _, _, _, mt, hmt, _⟩ := ha
  have := (C08_InodeItem_bounds d).2.2.2.2.2.2.2.2.2.2.2.2.2.1.mp (Go.isOk_iff.mpr ⟨mt, hmt⟩)
  omega

theorem first_ok {d : Bytes} (h : firstThere d) : (d[20]? = some 0 ∧ FileExtentItem.isInline ⟨d, []⟩ = .ok true ∧
      ∃ data, FileExtentItem.data ⟨d, []⟩ = .ok data) ∨ (d[20]? ≠ some 0 ∧ FileExtentItem.isInline ⟨d, []⟩ = .ok false) := by
  obtain ⟨t, ht, h0⟩ := h
  by_cases hz : t = 0
  · subst hz
    obtain ⟨data, f, rest, rfl, h1, h2⟩ := h0 rfl
    obtain ⟨i1, i2⟩ := inline_data f data rest [] h1 h2
    exact Or.inl ⟨ht, i2, data, i1⟩
  · refine Or.inr ⟨by rw [ht]; simpa using hz, ?_⟩
    rw [isInline_eq, ht]
    simp only [beq_eq_false_iff_ne.mpr hz]

theorem first_bad {d : Bytes} (h : ¬ firstThere d) : FileExtentItem.isInline ⟨d, []⟩ = .panic ∨
    (FileExtentItem.isInline ⟨d, []⟩ = .ok true ∧ FileExtentItem.data ⟨d, []⟩ = .panic) := by
  cases h20 : d[20]? with
  | none => left; rw [isInline_eq, h20]
  | some t =>
    have hlen : 21 ≤ d.length := by have := (List.getElem?_eq_some_iff.mp h20).1; omega
    by_cases ht : t = 0
    · subst ht
      right
      obtain ⟨f, rest, rfl⟩ := inline_of hlen h20
      refine ⟨by rw [isInline_eq, h20]; rfl, notOk_panic fun hok => h ⟨0, h20, fun _ => ?_⟩⟩
      obtain ⟨data, hd⟩ := Go.isOk_iff.mp hok
      have hram : FileExtentItem.ramBytes ⟨f.layout ++ rest, []⟩ = .ok f.ramBytes := by
        simp [InlineExtentRec.layout, FileExtentItem.ramBytes, fileExtentItemRAMBytes]
      have hl21 : f.layout.length = 21 := by simp [InlineExtentRec.layout]
      rw [fileExtent_data_eq, hram, Go.ok_bind] at hd
      by_cases hneg : int64OfU64 f.ramBytes < 0
      · rw [if_pos hneg] at hd; cases hd
      · rw [if_neg hneg] at hd
        have h63 : f.ramBytes.toNat < 2 ^ 63 := by
          rcases Nat.lt_or_ge f.ramBytes.toNat (2 ^ 63) with h | h
          · exact h
          · have := f.ramBytes.toNat_lt
            exact absurd (show int64OfU64 f.ramBytes < 0 by unfold int64OfU64; rw [if_neg (by omega)]; omega) hneg
        rw [int64_small h63, Int.toNat_natCast] at hd
        obtain ⟨s, hs, -⟩ := Go.bind_eq_ok.mp hd
        have := (sub_isOk _ _ _).mp (Go.isOk_iff.mpr ⟨s, hs⟩)
        rw [List.length_append, hl21] at this
        refine ⟨rest.take (min f.ramBytes.toNat 16384), f, rest.drop (min f.ramBytes.toNat 16384), ?_, h63, ?_⟩
        · rw [List.take_append_drop]
        · rw [List.length_take]; omega
    · exact absurd ⟨t, h20, fun h0 => absurd h0 ht⟩ h

/-! ## Lookups -/

theorem findData_now {b : Bucket} (hb : b.WF) {m : Bytes} (hm : b.stores metadataVersionKey m) {o : UInt64} (ho : o ≠ ~~~0) (k : Key)
    (hex : ∀ g x, b.stores ⟨o, k, g⟩ x → ∃ d, holdsExactly x d) :
    (∃ d, b.nowData o k d ∧ (∀ d', b.nowData o k d' → d' = d) ∧ (Ix.mk b (~~~0)).findData o k = .ok (some ⟨d, []⟩)) ∨
      ((∀ d, ¬ b.nowData o k d) ∧ (Ix.mk b (~~~0)).findData o k = .ok none) := by
  by_cases hk : b.hasKey o k
  · left
    obtain ⟨g, hg, hmax⟩ := exists_max _ hk
    obtain ⟨x, hx⟩ := hg
    obtain ⟨d, hd⟩ := hex g x hx
    have key : ∀ d', b.nowData o k d' → (Ix.mk b (~~~0)).findData o k = .ok (some ⟨d', []⟩) := by
      rintro d' ⟨g', x', h1, h2, h3⟩
      unfold Ix.findData
      rw [findItem_newest hb hm ho h1 h2]
      simp only [Go.ok_bind, h3.data]
      rfl
    have hnow : b.nowData o k d := ⟨g, x, ⟨⟨x, hx⟩, hmax⟩, hx, hd⟩
    refine ⟨d, hnow, fun d' h => ?_, key d hnow⟩
    have h1 := key d' h
    rw [key d hnow] at h1
    cases h1; rfl
  · right
    refine ⟨fun d ⟨g, x, h1, h2, _⟩ => hk ⟨g, x, h2⟩, findData_none hb hm ho _ hk⟩

/-! ## Iterating -/

/-- The items that iterating gets to, with the states of the iterator. -/
theorem seen_run {b : Bucket} (hb : b.WF) {m : Bytes} (hm : b.stores metadataVersionKey m) {o : UInt64} {t : UInt8} {id : UInt64}
    (hok : b.RangeOK o (KL2 t id)) (hex : ∀ v x, b.stores v x → v.owner = o → ∃ d, holdsExactly x d) :
    ∃ rd, ∃ its : List (UInt64 × Range × Bytes), (Ix.mk b (~~~0)).rangeAll o t id = .ok rd ∧
      Range.Yields rd (its.map fun e => (e.2.1, ⟨e.2.2, []⟩)) ∧ its.Pairwise (fun x y => x.1 < y.1) ∧
      (∀ e ∈ its, e.2.1.rKey = .ok ⟨id, t, e.1⟩) ∧ (∀ off d, (∃ r, (off, r, d) ∈ its) ↔ b.seenData o t id off d) := by
  obtain ⟨l, hl, rfl⟩ := hb.exists_abs
  obtain ⟨rd, items, hr, hy, hp, hs⟩ := rangeAll_run hl ⟨m, hm⟩ hok
  have hit : ∀ e ∈ items, ∃ off g d, l.enc.runVersion o t id off g ∧ e.1.1 = ⟨o, ⟨id, t, off⟩, g⟩ ∧
      l.enc.stores e.1.1 e.1.2 ∧ holdsExactly e.1.2 d ∧ e.2 = ⟨d, []⟩ := by
    rintro ⟨⟨w, y⟩, s⟩ he
    obtain ⟨off, g, h0, rfl, h1, h2⟩ := (hs _ _ _).mp he
    obtain ⟨d, hd⟩ := hex _ _ h1 rfl
    rw [hd.data] at h2
    cases h2
    exact ⟨off, g, d, h0, rfl, h1, hd, rfl⟩
  refine ⟨rd, items.map fun e => (e.1.1.key.offset, Range.at l.enc (VKey.mk o (KL2 t id) (~~~0)).encode e.1, e.2.data), hr, ?_, ?_, ?_, ?_⟩
  · rw [List.map_map]
    have : (items.map fun e => (Range.at l.enc (VKey.mk o (KL2 t id) (~~~0)).encode e.1, e.2)) =
        items.map ((fun e : UInt64 × Range × Bytes => (e.2.1, (⟨e.2.2, []⟩ : Slice))) ∘
          fun e => (e.1.1.key.offset, Range.at l.enc (VKey.mk o (KL2 t id) (~~~0)).encode e.1, e.2.data)) := by
      refine List.map_congr_left fun e he => ?_
      obtain ⟨off, g, d, -, -, -, -, h⟩ := hit e he
      simp only [Function.comp_apply, h]
    rw [← this]; exact hy
  · rw [List.pairwise_map]
    refine hp.imp_of_mem ?_
    intro x y hx hy' hxy
    obtain ⟨off, g, d, h0, h1, -⟩ := hit x hx
    obtain ⟨off', g', d', h0', h1', -⟩ := hit y hy'
    obtain rfl := runVersion_gen h0 h0'
    rw [h1, h1', VKey.num_eq, VKey.num_eq, VKey.p25_eq, VKey.p25_eq] at hxy
    have h17 : (VKey.mk o ⟨id, t, off⟩ g).p17 = (VKey.mk o ⟨id, t, off'⟩ g).p17 := VKey.p17_inj.mpr ⟨rfl, rfl, rfl⟩
    rw [h17] at hxy
    rw [h1, h1', UInt64.lt_iff_toNat_lt]
    simp only at hxy ⊢
    omega
  · intro e he
    obtain ⟨e', he', rfl⟩ := List.mem_map.mp he
    obtain ⟨off, g, d, h0, h1, -⟩ := hit e' he'
    simp only [Range.at, Range.rKey, h1, key_encode]
  · intro off d
    constructor
    · rintro ⟨r, hr'⟩
      obtain ⟨e', he', h⟩ := List.mem_map.mp hr'
      obtain ⟨off', g, d', h0, h1, h2, h3, h4⟩ := hit e' he'
      simp only [Prod.mk.injEq, h1, h4] at h
      obtain ⟨rfl, -, rfl⟩ := h
      rw [h1] at h2
      exact ⟨g, e'.1.2, h0, h2, h3⟩
    · rintro ⟨g, x, h0, h1, h2⟩
      have := (hs _ _ _).mpr ⟨off, g, h0, rfl, h1, h2.data⟩
      exact ⟨_, List.mem_map.mpr ⟨_, this, rfl⟩⟩

/-- A loop that does not stop early ends at the first item that is not good. -/
theorem fold_good {σ : Type} {body : σ → Range → Slice → Go (σ × Bool)} (P : Bytes → Prop) (I : σ → Prop) :
    ∀ its : List (UInt64 × Range × Bytes),
      (∀ e ∈ its, P e.2.2 → ∀ s, I s → ∃ s', I s' ∧ body s e.2.1 ⟨e.2.2, []⟩ = .ok (s', false)) →
      (∀ e ∈ its, ¬ P e.2.2 → ∀ s, I s → body s e.2.1 ⟨e.2.2, []⟩ = .panic) →
      ∀ s, I s → ((∃ e ∈ its, ¬ P e.2.2) ∧ foldRange body s (its.map fun e => (e.2.1, ⟨e.2.2, []⟩)) = .panic) ∨
        ((∀ e ∈ its, P e.2.2) ∧ ∃ s', I s' ∧ foldRange body s (its.map fun e => (e.2.1, ⟨e.2.2, []⟩)) = .ok (s', false)) := by
  intro its
  induction its with
  | nil => intro _ _ s hs; exact Or.inr ⟨by simp, s, hs, rfl⟩
  | cons e its ih =>
    intro hg hbad s hs
    simp only [List.map_cons, foldRange]
    by_cases hP : P e.2.2
    · obtain ⟨s', hs', he⟩ := hg e List.mem_cons_self hP s hs
      rw [he]
      simp only [Go.ok_bind, Bool.false_eq_true, if_false]
      rcases ih (fun e' h' => hg e' (List.mem_cons_of_mem _ h')) (fun e' h' => hbad e' (List.mem_cons_of_mem _ h')) s' hs' with
        ⟨⟨e', h1, h2⟩, h3⟩ | ⟨h1, h2⟩
      · exact Or.inl ⟨⟨e', List.mem_cons_of_mem _ h1, h2⟩, h3⟩
      · refine Or.inr ⟨fun e' he' => ?_, h2⟩
        rcases List.mem_cons.mp he' with rfl | h
        · exact hP
        · exact h1 e' h
    · rw [hbad e List.mem_cons_self hP s hs]
      exact Or.inl ⟨⟨e, List.mem_cons_self, hP⟩, rfl⟩

end Btrfscue
