import Verif.Spec.Identify
import Verif.Proof.Recon
import Mathlib.Data.List.Nodup
/-!
# Helper lemmas: identify
-/

namespace Btrfscue

/-! ## The histogram map -/

/-- Unique keys. -/
def FSIDHist.Uniq (h : FSIDHist) : Prop := (h.map Prod.fst).Nodup

theorem FSIDHist.find_put (h : FSIDHist) (u v : UUID) (x : HistEntry) :
    (h.put u x).find v = if u = v then some x else h.find v := by
  induction h with
  | nil => simp [FSIDHist.put, FSIDHist.find]
  | cons e r ih =>
    simp only [FSIDHist.put]
    by_cases he : e.1 = u
    · rw [if_pos he]; simp only [FSIDHist.find]
      by_cases h1 : u = v
      · simp [h1]
      · rw [if_neg h1, if_neg h1, if_neg (by rw [he]; exact h1)]
    · rw [if_neg he]; simp only [FSIDHist.find, ih]
      by_cases h1 : e.1 = v
      · rw [if_pos h1, if_pos h1, if_neg]; intro h2; exact he (h1.trans h2.symm)
      · rw [if_neg h1, if_neg h1]

theorem FSIDHist.find_mem {h : FSIDHist} {u : UUID} {x : HistEntry} (hf : h.find u = some x) : (u, x) ∈ h := by
  induction h with
  | nil => simp [FSIDHist.find] at hf
  | cons e r ih =>
    simp only [FSIDHist.find] at hf
    by_cases he : e.1 = u
    · rw [if_pos he] at hf; simp only [Option.some.injEq] at hf
      rw [← he, ← hf]; exact List.mem_cons_self ..
    · rw [if_neg he] at hf; exact List.mem_cons_of_mem _ (ih hf)

theorem FSIDHist.find_none {h : FSIDHist} {u : UUID} : h.find u = none ↔ u ∉ h.map Prod.fst := by
  induction h with
  | nil => simp [FSIDHist.find]
  | cons e r ih =>
    simp only [FSIDHist.find]
    by_cases he : e.1 = u
    · simp [he]
    · rw [if_neg he, ih]; simp [Ne.symm he]

theorem FSIDHist.Uniq.mem_find {h : FSIDHist} (hu : h.Uniq) {u : UUID} {x : HistEntry} (hm : (u, x) ∈ h) :
    h.find u = some x := by
  induction h with
  | nil => simp at hm
  | cons e r ih =>
    simp only [FSIDHist.Uniq, List.map_cons, List.nodup_cons] at hu
    simp only [FSIDHist.find]
    rcases List.mem_cons.mp hm with rfl | hm
    · simp
    · rw [if_neg, ih hu.2 hm]
      intro he; apply hu.1; rw [he]; exact List.mem_map_of_mem (f := Prod.fst) hm

theorem FSIDHist.put_keys (h : FSIDHist) (u : UUID) (x : HistEntry) :
    (h.put u x).map Prod.fst = if u ∈ h.map Prod.fst then h.map Prod.fst else h.map Prod.fst ++ [u] := by
  induction h with
  | nil => simp [FSIDHist.put]
  | cons e r ih =>
    simp only [FSIDHist.put]
    by_cases he : e.1 = u
    · simp [he]
    · rw [if_neg he, List.map_cons, ih]
      by_cases hm : u ∈ r.map Prod.fst
      · rw [if_pos hm, List.map_cons, if_pos (List.mem_cons_of_mem _ hm)]
      · rw [if_neg hm, List.map_cons, if_neg]; · rfl
        rw [List.mem_cons]; rintro (h1 | h1)
        · exact he h1.symm
        · exact hm h1

theorem FSIDHist.Uniq.put {h : FSIDHist} (hu : h.Uniq) (u : UUID) (x : HistEntry) : (h.put u x).Uniq := by
  unfold FSIDHist.Uniq; rw [FSIDHist.put_keys]
  split
  · exact hu
  · next hm => exact List.nodup_append.mpr ⟨hu, by simp, by
      intro a ha b hb; simp at hb; subst hb; intro he; subst he; exact hm ha⟩

/-! ## One block -/

theorem realFSID_iff (u : UUID) : realFSID u ↔ (UUID.isZero u || UUID.isAllFs u) = false := by
  simp only [realFSID, UUID.isZero, UUID.isAllFs, Bool.or_eq_false_iff, beq_eq_false_iff_ne, ne_eq,
    uuidAllZero, uuidAllFs, Subtype.ext_iff]

theorem leafWith_iff {u : UUID} {hdr : HeaderRec} {rest : Bytes} :
    leafWith u (hdr.layout ++ rest) ↔ hdr.fsid = u ∧ hdr.level = 0 := by
  constructor
  · rintro ⟨hdr', rest', he, h1, h2⟩
    obtain ⟨-, -, -, -, h5, h6⟩ := header_unique he
    exact ⟨h5.trans h1, h6.trans h2⟩
  · rintro ⟨h1, h2⟩; exact ⟨hdr, rest, rfl, h1, h2⟩

theorem firstOffset_iff {hdr : HeaderRec} {r : ItemRec} {rest : Bytes} {o : Nat} :
    firstOffset (hdr.layout ++ (r.layout ++ rest)) o ↔ hdr.nrItems ≠ 0 ∧ r.offset.toNat = o := by
  constructor
  · rintro ⟨hdr', r', rest', he, h1, h2⟩
    obtain ⟨hl, -, -, h4, -, -⟩ := header_unique he
    rw [hl] at he
    have he' := List.append_cancel_left he
    have e1 := (C07_Item_decodes r rest []).2.2.1
    rw [he', (C07_Item_decodes r' rest' []).2.2.1] at e1
    simp only [Go.ok.injEq] at e1
    exact ⟨by rw [h4]; exact h1, by rw [← e1]; exact h2⟩
  · rintro ⟨h1, h2⟩; exact ⟨hdr, r, rest, rfl, h1, h2⟩

theorem offsetOf_eq (hdr : HeaderRec) (r : ItemRec) (rest : Bytes) :
    offsetOf (hdr.layout ++ (r.layout ++ rest)) = if hdr.nrItems = 0 then 0 else r.offset.toNat := by
  unfold offsetOf
  by_cases hn : hdr.nrItems = 0
  · rw [if_pos hn, dif_neg]; rintro ⟨o, ho⟩; exact (firstOffset_iff.mp ho).1 hn
  · have h : ∃ o, firstOffset (hdr.layout ++ (r.layout ++ rest)) o := ⟨_, firstOffset_iff.mpr ⟨hn, rfl⟩⟩
    rw [if_neg hn, dif_pos h]
    exact (firstOffset_iff.mp h.choose_spec).2.symm

theorem offsetOf_lt (b : Bytes) : offsetOf b < 2 ^ 32 := by
  unfold offsetOf
  split
  · next h =>
    obtain ⟨hdr, r, rest, -, -, h3⟩ := h.choose_spec
    rw [← h3]; exact r.offset.toNat_lt
  · decide

theorem block_split {b : Bytes} (hb : 126 ≤ b.length) : ∃ (hdr : HeaderRec) (r : ItemRec) (rest : Bytes),
    b = hdr.layout ++ (r.layout ++ rest) := by
  obtain ⟨hdr, b', rfl⟩ := header_exists b (by omega)
  rw [List.length_append, headerRec_length] at hb
  obtain ⟨r, rest, rfl⟩ := itemRec_exists b' (by omega)
  exact ⟨hdr, r, rest, rfl⟩

/-- What `CollectBlock` does with a leaf of `u`. -/
def FSIDHist.add (h : FSIDHist) (u : UUID) (off : UInt64) : FSIDHist :=
  match h.find u with
  | none => h.put u ⟨1, 0⟩
  | some e => h.put u ⟨e.count + 1, e.blockSizeSum + off⟩

theorem collectBlock_eq (h : FSIDHist) (hdr : HeaderRec) (r : ItemRec) (rest : Bytes) :
    collectBlock h ⟨hdr.layout ++ (r.layout ++ rest), []⟩ =
      .ok (if hdr.level = 0 ∧ realFSID hdr.fsid then
        h.add hdr.fsid (if hdr.nrItems = 0 then 0 else r.offset.toUInt64) else h) := by
  obtain ⟨hl, -, hf, -, -, -, -, -, hn, hv⟩ := C07_Header_decodes hdr (r.layout ++ rest) []
  have hfrom : Slice.from ⟨hdr.layout ++ (r.layout ++ rest), []⟩ HeaderLen = .ok ⟨r.layout ++ rest, []⟩ := by
    rw [Slice.from, if_pos (by show 101 ≤ _; rw [Slice.len, List.length_append, hl]; omega)]
    simp only [Go.ok.injEq, Slice.mk.injEq, and_true]; exact drop_mid _ _ _ hl
  have ho := (C07_Item_decodes r rest []).2.2.1
  simp only [collectBlock, Header.isLeaf, hv, hf, Go.ok_bind, Go.pure_eq]
  by_cases h1 : hdr.level = 0
  · by_cases h2 : realFSID hdr.fsid
    · have h3 := (realFSID_iff _).mp h2
      simp only [h1, h3, h2, and_self, if_true, FSIDHist.add]
      cases hfind : h.find hdr.fsid with
      | none => simp
      | some e =>
        by_cases hz : hdr.nrItems = 0
        · simp [hn, hz]
        · have hz' : 0 < hdr.nrItems := by
            rw [UInt32.lt_iff_toNat_lt]
            have : hdr.nrItems.toNat ≠ 0 := fun hh => hz (by rw [← UInt32.toNat_inj]; exact hh)
            simpa using Nat.pos_of_ne_zero this
          simp [hn, hz, hz', hfrom, ho]
    · have h3 : (UUID.isZero hdr.fsid || UUID.isAllFs hdr.fsid) = true := by
        rw [← Bool.not_eq_false, ← realFSID_iff]; exact h2
      simp [h1, h2, h3]
  · simp [h1]

/-! ## All blocks -/

/-- The histogram describes the blocks. -/
structure Counted (blocks : List Bytes) (h : FSIDHist) : Prop where
  uniq : h.Uniq
  none : ∀ u, h.find u = none ↔ ¬ realFSID u ∨ leavesOf u blocks = []
  some : ∀ u e, h.find u = some e → e.count.toNat = (leavesOf u blocks).length ∧
    e.blockSizeSum.toNat = ((leavesOf u blocks).tail.map offsetOf).sum

theorem Counted.nil : Counted [] [] := by
  refine ⟨by simp [FSIDHist.Uniq], ?_, ?_⟩
  · intro u; simp [FSIDHist.find, leavesOf]
  · intro u e h; simp [FSIDHist.find] at h

theorem leavesOf_append (u : UUID) (a b : List Bytes) :
    leavesOf u (a ++ b) = leavesOf u a ++ leavesOf u b := by
  simp [leavesOf]

theorem leavesOf_one (u : UUID) (b : Bytes) [Decidable (leafWith u b)] :
    leavesOf u [b] = if leafWith u b then [b] else [] := by
  unfold leavesOf
  by_cases h : leafWith u b <;> simp [h]

theorem sum_map_le (l : List Bytes) : (l.map offsetOf).sum ≤ l.length * 2 ^ 32 := by
  induction l with
  | nil => simp
  | cons a r ih =>
    have := offsetOf_lt a
    simp only [List.map_cons, List.sum_cons, List.length_cons]; omega

theorem leavesOf_le (u : UUID) (bl : List Bytes) : (leavesOf u bl).length ≤ bl.length :=
  List.length_filter_le ..

theorem Counted.step {bl : List Bytes} {h : FSIDHist} (hc : Counted bl h) (hlen : bl.length < 2 ^ 31)
    (hdr : HeaderRec) (r : ItemRec) (rest : Bytes) :
    Counted (bl ++ [hdr.layout ++ (r.layout ++ rest)])
      (if hdr.level = 0 ∧ realFSID hdr.fsid then
        h.add hdr.fsid (if hdr.nrItems = 0 then 0 else r.offset.toUInt64) else h) := by
  classical
  have hone : ∀ u, leavesOf u [hdr.layout ++ (r.layout ++ rest)] =
      if hdr.fsid = u ∧ hdr.level = 0 then [hdr.layout ++ (r.layout ++ rest)] else [] := by
    intro u; rw [leavesOf_one]; simp only [leafWith_iff]
  by_cases h1 : hdr.level = 0 ∧ realFSID hdr.fsid
  · rw [if_pos h1]
    generalize hb : hdr.layout ++ (r.layout ++ rest) = b at *
    have hoff : offsetOf b = (if hdr.nrItems = 0 then 0 else r.offset.toUInt64 : UInt64).toNat := by
      rw [← hb, offsetOf_eq]; split <;> simp
    generalize (if hdr.nrItems = 0 then 0 else r.offset.toUInt64 : UInt64) = off at *
    have hother : ∀ u, hdr.fsid ≠ u → leavesOf u (bl ++ [b]) = leavesOf u bl := by
      intro u hu; rw [leavesOf_append, hone, if_neg (fun hh => hu hh.1), List.append_nil]
    have hself : leavesOf hdr.fsid (bl ++ [b]) = leavesOf hdr.fsid bl ++ [b] := by
      rw [leavesOf_append, hone, if_pos ⟨rfl, h1.1⟩]
    unfold FSIDHist.add
    cases hf : h.find hdr.fsid with
    | none =>
      have hnil : leavesOf hdr.fsid bl = [] := by
        rcases (hc.none _).mp hf with hh | hh
        · exact absurd h1.2 hh
        · exact hh
      refine ⟨hc.uniq.put _ _, ?_, ?_⟩
      · intro u
        rw [FSIDHist.find_put]
        by_cases hu : hdr.fsid = u
        · subst hu; simp [hself, h1.2]
        · rw [if_neg hu, hother u hu]; exact hc.none u
      · intro u e he
        rw [FSIDHist.find_put] at he
        by_cases hu : hdr.fsid = u
        · subst hu; rw [if_pos rfl] at he
          simp only [Option.some.injEq] at he
          rw [hself, hnil, ← he]; simp
        · rw [if_neg hu] at he; rw [hother u hu]; exact hc.some u e he
    | some e0 =>
      have hne : leavesOf hdr.fsid bl ≠ [] := by
        intro hh
        have := (hc.none hdr.fsid).mpr (Or.inr hh)
        rw [hf] at this; simp at this
      obtain ⟨hcnt, hsum⟩ := hc.some _ _ hf
      refine ⟨hc.uniq.put _ _, ?_, ?_⟩
      · intro u
        rw [FSIDHist.find_put]
        by_cases hu : hdr.fsid = u
        · subst hu; simp [hself, h1.2]
        · rw [if_neg hu, hother u hu]; exact hc.none u
      · intro u e he
        rw [FSIDHist.find_put] at he
        by_cases hu : hdr.fsid = u
        · subst hu; rw [if_pos rfl] at he
          simp only [Option.some.injEq] at he
          have hle := leavesOf_le hdr.fsid bl
          have hsb := sum_map_le (leavesOf hdr.fsid bl).tail
          have hl2 : (leavesOf hdr.fsid bl).tail.length ≤ (leavesOf hdr.fsid bl).length := by simp
          have hol := offsetOf_lt b
          have htl : (leavesOf hdr.fsid bl ++ [b]).tail = (leavesOf hdr.fsid bl).tail ++ [b] := by
            cases hx : leavesOf hdr.fsid bl with
            | nil => exact absurd hx hne
            | cons x xs => rfl
          rw [hself, htl, ← he]
          constructor
          · simp only [UInt64.toNat_add, List.length_append, hcnt, List.length_cons, List.length_nil]
            rw [Nat.mod_eq_of_lt]
            · rfl
            · show _ + 1 < _; omega
          · simp only [UInt64.toNat_add, List.map_append, List.sum_append, hsum, List.map_cons, List.map_nil,
              List.sum_cons, List.sum_nil]
            rw [← hoff, Nat.mod_eq_of_lt]
            · rfl
            · omega
        · rw [if_neg hu] at he; rw [hother u hu]; exact hc.some u e he
  · rw [if_neg h1]
    refine ⟨hc.uniq, ?_, ?_⟩
    · intro u
      rw [hc.none, leavesOf_append, hone]
      by_cases hu : hdr.fsid = u ∧ hdr.level = 0
      · have hr : ¬ realFSID u := fun hh => h1 ⟨hu.2, hu.1 ▸ hh⟩
        simp [hr]
      · rw [if_neg hu, List.append_nil]
    · intro u e he
      rw [leavesOf_append, hone, if_neg, List.append_nil]
      · exact hc.some u e he
      · intro hu
        have hr : ¬ realFSID u := fun hh => h1 ⟨hu.2, hu.1 ▸ hh⟩
        have := (hc.none u).mpr (Or.inl hr)
        rw [he] at this; simp at this

theorem collectAll_counted (bl : List Bytes) (done : List Bytes) (h : FSIDHist) (hc : Counted done h)
    (hlen : (done ++ bl).length ≤ 2 ^ 31) (hb : ∀ b ∈ bl, 126 ≤ b.length) :
    ∃ h', collectAll h bl = .ok h' ∧ Counted (done ++ bl) h' := by
  induction bl generalizing done h with
  | nil => exact ⟨h, rfl, by simpa using hc⟩
  | cons b rest ih =>
    obtain ⟨hdr, r, tl, rfl⟩ := block_split (hb b (List.mem_cons_self ..))
    rw [collectAll, collectBlock_eq, Go.ok_bind]
    have hl : done.length < 2 ^ 31 := by simp at hlen; omega
    obtain ⟨h', h1, h2⟩ := ih _ _ (hc.step hl hdr r tl) (by simpa using hlen)
      (fun x hx => hb x (List.mem_cons_of_mem _ hx))
    exact ⟨h', h1, by simpa using h2⟩

/-! ## Sorting -/

theorem lexLt_bytes (a b : Bytes) : lexLt (a.map UInt8.toNat) (b.map UInt8.toNat) ↔ bytesLt a b = true := by
  induction a generalizing b with
  | nil => cases b <;> simp [lexLt, bytesLt, bytesCompare]
  | cons x xs ih =>
    cases b with
    | nil => simp [lexLt, bytesLt, bytesCompare]
    | cons y ys =>
      have ih' := ih ys
      simp only [List.map_cons, lexLt, ih']
      simp only [bytesLt, bytesCompare, UInt8.lt_iff_toNat_lt]
      by_cases h1 : x.toNat < y.toNat
      · simp [h1]
      · by_cases h2 : y.toNat < x.toNat
        · have h3 : x.toNat ≠ y.toNat := by omega
          simp [h1, h2, h3]
        · have h3 : x.toNat = y.toNat := by omega
          simp [h3]

section
variable {F : Type} [LinearOrder F]

theorem ahead_iff (a b : FSEntry F) : FSEntry.ahead a b ↔ FSEntry.less b a = true := by
  unfold FSEntry.ahead FSEntry.less
  rw [lexLt_bytes]
  by_cases h1 : b.count = a.count
  · by_cases h2 : b.entropy = a.entropy
    · simp only [h1, h2, lt_irrefl, Nat.lt_irrefl, ne_eq, not_true, if_false, false_or, true_and]
    · have h3 : a.entropy ≠ b.entropy := fun hh => h2 hh.symm
      simp [h1, h2, h3]
  · have h3 : a.count ≠ b.count := fun hh => h1 hh.symm
    simp [h1, h3, UInt64.lt_iff_toNat_lt]

theorem ahead_trans {a b c : FSEntry F} (h1 : a.ahead b) (h2 : b.ahead c) : a.ahead c := by
  unfold FSEntry.ahead at *
  rcases h1 with h1 | ⟨h1, h1'⟩
  · rcases h2 with h2 | ⟨h2, -⟩
    · left; omega
    · left; rw [← h2]; exact h1
  · rcases h2 with h2 | ⟨h2, h2'⟩
    · left; rw [h1]; exact h2
    · right
      refine ⟨h1.trans h2, ?_⟩
      rcases h1' with h1' | ⟨h1', h1''⟩
      · rcases h2' with h2' | ⟨h2', -⟩
        · exact Or.inl (lt_trans h2' h1')
        · exact Or.inl (h2' ▸ h1')
      · rcases h2' with h2' | ⟨h2', h2''⟩
        · exact Or.inl (h1' ▸ h2')
        · right
          refine ⟨h1'.trans h2', ?_⟩
          rw [lexLt_bytes] at *
          exact bytesLt_trans h2'' h1''

theorem ahead_irrefl (a : FSEntry F) : ¬ a.ahead a := by
  rw [ahead_iff]; simp [FSEntry.less, bytesLt_irrefl]

theorem ahead_total {a b : FSEntry F} (h : a.fsid ≠ b.fsid) : a.ahead b ∨ b.ahead a := by
  unfold FSEntry.ahead
  rcases Nat.lt_trichotomy a.count.toNat b.count.toNat with h1 | h1 | h1
  · exact Or.inr (Or.inl h1)
  · have h1' : a.count = b.count := UInt64.toNat_inj.mp h1
    rcases lt_trichotomy a.entropy b.entropy with h2 | h2 | h2
    · exact Or.inr (Or.inr ⟨h1'.symm, Or.inl h2⟩)
    · rcases hx : bytesLt a.fsid.val b.fsid.val with _ | _
      · rcases hy : bytesLt b.fsid.val a.fsid.val with _ | _
        · exact absurd (Subtype.ext (bytesLt_connected hx hy)) h
        · exact Or.inl (Or.inr ⟨h1', Or.inr ⟨h2, by rw [lexLt_bytes]; exact hy⟩⟩)
      · exact Or.inr (Or.inr ⟨h1'.symm, Or.inr ⟨h2.symm, by rw [lexLt_bytes]; exact hx⟩⟩)
    · exact Or.inl (Or.inr ⟨h1', Or.inl h2⟩)
  · exact Or.inl (Or.inl h1)

theorem not_less_iff (a b : FSEntry F) : (!FSEntry.less a b) = true ↔ ¬ b.ahead a := by
  rw [ahead_iff]; simp

theorem not_ahead_trans {a b c : FSEntry F} (h1 : ¬ b.ahead a) (h2 : ¬ c.ahead b) : ¬ c.ahead a := by
  intro h
  by_cases hab : a.fsid = b.fsid
  · by_cases hbc : b.fsid = c.fsid
    · -- equal ids: compare on count and entropy
      unfold FSEntry.ahead at *
      rw [← hab] at h1 h2; rw [← hbc, ← hab] at h2 h
      have hir : ¬ lexLt (List.map UInt8.toNat a.fsid.val) (List.map UInt8.toNat a.fsid.val) := by
        rw [lexLt_bytes, bytesLt_irrefl]; simp
      simp only [hir, and_false, or_false] at *
      rcases h with h | ⟨h, h'⟩
      · rcases Nat.lt_trichotomy a.count.toNat b.count.toNat with hx | hx | hx
        · exact h1 (Or.inl hx)
        · exact h2 (Or.inl (by omega))
        · exact h2 (Or.inl (by omega))
      · by_cases hx : a.count = b.count
        · have h1' : ¬ a.entropy < b.entropy := fun hh => h1 (Or.inr ⟨hx.symm, hh⟩)
          have h2' : ¬ b.entropy < c.entropy := fun hh => h2 (Or.inr ⟨h.trans hx, hh⟩)
          exact absurd h' (not_lt.mpr (le_trans (not_lt.mp h2') (not_lt.mp h1')))
        · have hx' : a.count.toNat ≠ b.count.toNat := fun hh => hx (UInt64.toNat_inj.mp hh)
          rw [← UInt64.toNat_inj] at h
          rcases Nat.lt_or_gt_of_ne hx' with hy | hy
          · exact h1 (Or.inl hy)
          · exact h2 (Or.inl (by omega))
    · rcases ahead_total hbc with hx | hx
      · exact h1 (ahead_trans hx h)
      · exact h2 hx
  · rcases ahead_total hab with hx | hx
    · exact h2 (ahead_trans h hx)
    · exact h1 hx

theorem not_ahead_total (a b : FSEntry F) : ¬ b.ahead a ∨ ¬ a.ahead b := by
  by_contra h
  simp only [not_or, not_not] at h
  exact ahead_irrefl _ (ahead_trans h.1 h.2)

end

/-! ## Sample offsets -/

theorem setInsert_mem (s : List UInt64) (o x : UInt64) : x ∈ setInsert s o ↔ x = o ∨ x ∈ s := by
  unfold setInsert
  by_cases h : o ∈ s
  · simp only [h, if_true]; constructor
    · exact Or.inr
    · rintro (rfl | h'); exacts [h, h']
  · simp [h, or_comm]

theorem setInsert_nodup {s : List UInt64} (h : s.Nodup) (o : UInt64) : (setInsert s o).Nodup := by
  unfold setInsert
  split
  · exact h
  · next hm => exact List.nodup_append.mpr ⟨h, by simp, by
      intro a ha b hb; simp at hb; subst hb; intro he; subst he; exact hm ha⟩

theorem setInsert_fold_nodup (l : List UInt64) : ∀ s : List UInt64, (s ++ l).Nodup →
    l.foldl setInsert s = s ++ l := by
  induction l with
  | nil => intro s _; simp
  | cons a r ih =>
    intro s h
    have hm : a ∉ s := by
      intro hh
      have := List.nodup_append.mp h
      exact this.2.2 a hh a (by simp) rfl
    rw [List.foldl_cons, setInsert, if_neg hm, ih]
    · simp
    · simpa using h

theorem baseOff_toNat {S i : Nat} {bs : UInt64} (hb : bs.toNat < 2 ^ 32) (hS : S ≤ 0x4000000000) (hi : i < 400) :
    (UInt64.ofNat S + UInt64.ofNat i * bs).toNat = S + i * bs.toNat := by
  have h1 : i * bs.toNat ≤ 400 * 2 ^ 32 := Nat.mul_le_mul (by omega) (by omega)
  simp only [UInt64.toNat_add, UInt64.toNat_mul, UInt64.toNat_ofNat']
  rw [Nat.mod_eq_of_lt (a := S) (by omega), Nat.mod_eq_of_lt (a := i) (by omega), Nat.mod_eq_of_lt (a := i * _) (by omega),
    Nat.mod_eq_of_lt (by omega)]

theorem mem_baseOffsets {devSize bs o : UInt64} (hb : bs.toNat < 2 ^ 32) :
    o ∈ baseOffsets devSize bs ↔ baseSample devSize.toNat bs.toNat o.toNat := by
  have key : ∀ (S k : Nat), S ≤ 0x4000000000 → k ≤ 300 →
      (o ∈ (List.range 100).map (fun i => UInt64.ofNat S + UInt64.ofNat (i + k) * bs) ↔
        ∃ i < 100, o.toNat = S + (k + i) * bs.toNat) := by
    intro S k hS hk
    simp only [List.mem_map, List.mem_range]
    constructor
    · rintro ⟨i, hi, rfl⟩
      exact ⟨i, hi, by rw [baseOff_toNat hb hS (by omega), Nat.add_comm i k]⟩
    · rintro ⟨i, hi, h⟩
      exact ⟨i, hi, by rw [← UInt64.toNat_inj, baseOff_toNat hb hS (by omega), h, Nat.add_comm i k]⟩
  have k1 := key SuperInfoOffset 0 (by decide) (by decide)
  have k2 := key SuperInfoOffset2 100 (by decide) (by decide)
  have k3 := key SuperInfoOffset3 200 (by decide) (by decide)
  have k4 := key SuperInfoOffset3 300 (by decide) (by decide)
  have c3 : UInt64.ofNat SuperInfoOffset3 ≤ devSize ↔ 0x4000000000 ≤ devSize.toNat := by
    rw [UInt64.le_iff_toNat_le]; rfl
  have c4 : UInt64.ofNat SuperInfoOffset4 ≤ devSize ↔ 0x4000000000000 ≤ devSize.toNat := by
    rw [UInt64.le_iff_toNat_le]; rfl
  have hfm : o ∈ (List.range 100).flatMap (fun i => [UInt64.ofNat SuperInfoOffset + UInt64.ofNat i * bs,
      UInt64.ofNat SuperInfoOffset2 + UInt64.ofNat (i + 100) * bs]) ↔
      (∃ i < 100, o.toNat = 0x10000 + i * bs.toNat) ∨ (∃ i < 100, o.toNat = 0x4000000 + (100 + i) * bs.toNat) := by
    have e1 : (∃ i < 100, o.toNat = 0x10000 + i * bs.toNat) ↔
        ∃ i < 100, o.toNat = SuperInfoOffset + (0 + i) * bs.toNat := by simp
    rw [e1, ← k1, ← k2]
    simp only [List.mem_flatMap, List.mem_map, List.mem_range, List.mem_cons, List.not_mem_nil, or_false, Nat.add_zero]
    constructor
    · rintro ⟨i, hi, h | h⟩
      · exact Or.inl ⟨i, hi, h.symm⟩
      · exact Or.inr ⟨i, hi, h.symm⟩
    · rintro (⟨i, hi, h⟩ | ⟨i, hi, h⟩)
      · exact ⟨i, hi, Or.inl h.symm⟩
      · exact ⟨i, hi, Or.inr h.symm⟩
  unfold baseOffsets baseSample
  by_cases h3 : 0x4000000000 ≤ devSize.toNat
  · by_cases h4 : 0x4000000000000 ≤ devSize.toNat
    · simp only [c3.mpr h3, c4.mpr h4, if_true, List.mem_append, hfm, k3, k4, h3, h4, true_and, or_assoc]
    · simp only [c3.mpr h3, c4, h4, if_true, if_false, List.mem_append, hfm, k3, h3, true_and, false_and, or_false, or_assoc]
  · have h4 : ¬ 0x4000000000000 ≤ devSize.toNat := by omega
    simp only [c3, h3, h4, if_false, hfm, false_and, or_false]

theorem baseOffsets_nodup {devSize bs : UInt64} (hb : bs.toNat < 2 ^ 32) (hpos : 0 < bs.toNat) :
    (baseOffsets devSize bs).Nodup := by
  have inj : ∀ {S T i j : Nat}, S ≤ 0x4000000000 → T ≤ 0x4000000000 → i < 400 → j < 400 →
      UInt64.ofNat S + UInt64.ofNat i * bs = UInt64.ofNat T + UInt64.ofNat j * bs →
      S + i * bs.toNat = T + j * bs.toNat := by
    intro S T i j h1 h2 h3 h4 h
    have := congrArg UInt64.toNat h
    rwa [baseOff_toNat hb h1 h3, baseOff_toNat hb h2 h4] at this
  have ne1 : ∀ {S i j : Nat}, S ≤ 0x4000000000 → i < 400 → j < 400 → i ≠ j →
      UInt64.ofNat S + UInt64.ofNat i * bs ≠ UInt64.ofNat S + UInt64.ofNat j * bs := by
    intro S i j h1 h2 h3 h4 h
    have h5 := inj h1 h1 h2 h3 h
    have : i * bs.toNat = j * bs.toNat := by omega
    exact h4 (Nat.eq_of_mul_eq_mul_right hpos this)
  have ne2 : ∀ {S T i j : Nat}, S < T → T ≤ 0x4000000000 → i ≤ j → j < 400 →
      UInt64.ofNat S + UInt64.ofNat i * bs ≠ UInt64.ofNat T + UInt64.ofNat j * bs := by
    intro S T i j h1 h2 h3 h4 h
    have h5 := inj (by omega) h2 (by omega) h4 h
    have : i * bs.toNat ≤ j * bs.toNat := Nat.mul_le_mul_right _ h3
    omega
  have nm : ∀ (S k : Nat), S ≤ 0x4000000000 → k ≤ 300 →
      ((List.range 100).map (fun i => UInt64.ofNat S + UInt64.ofNat (i + k) * bs)).Nodup := by
    intro S k h1 h2
    unfold List.Nodup
    rw [List.pairwise_map]
    refine List.nodup_range.imp_of_mem ?_
    intro a b ha hb' hne
    rw [List.mem_range] at ha hb'
    exact ne1 h1 (by omega) (by omega) (by omega)
  have n1 : ((List.range 100).flatMap (fun i => [UInt64.ofNat SuperInfoOffset + UInt64.ofNat i * bs,
      UInt64.ofNat SuperInfoOffset2 + UInt64.ofNat (i + 100) * bs])).Nodup := by
    rw [List.nodup_flatMap]
    constructor
    · intro i hi
      rw [List.mem_range] at hi
      simp only [List.nodup_cons, List.mem_cons, List.not_mem_nil, or_false, not_false_eq_true, List.nodup_nil, and_true]
      exact ne2 (by decide) (by decide) (by omega) (by omega)
    · refine List.nodup_range.imp_of_mem ?_
      intro a b ha hb' hne
      rw [List.mem_range] at ha hb'
      intro x hx hy
      simp only [List.mem_cons, List.not_mem_nil, or_false] at hx hy
      rcases hx with rfl | rfl <;> rcases hy with hy | hy
      · exact ne1 (by decide) (by omega) (by omega) hne hy
      · exact ne2 (by decide) (by decide) (by omega) (by omega) hy
      · exact ne2 (by decide) (by decide) (by omega) (by omega) hy.symm
      · exact ne1 (by decide) (by omega) (by omega) (by omega) hy
  have d3 : ∀ x ∈ (List.range 100).flatMap (fun i => [UInt64.ofNat SuperInfoOffset + UInt64.ofNat i * bs,
      UInt64.ofNat SuperInfoOffset2 + UInt64.ofNat (i + 100) * bs]), ∀ k, 200 ≤ k → k ≤ 300 →
      ∀ y ∈ (List.range 100).map (fun i => UInt64.ofNat SuperInfoOffset3 + UInt64.ofNat (i + k) * bs), x ≠ y := by
    intro x hx k hk hk' y hy
    simp only [List.mem_flatMap, List.mem_map, List.mem_range, List.mem_cons, List.not_mem_nil, or_false] at hx hy
    obtain ⟨i, hi, rfl | rfl⟩ := hx <;> obtain ⟨j, hj, rfl⟩ := hy
    · exact ne2 (by decide) (by decide) (by omega) (by omega)
    · exact ne2 (by decide) (by decide) (by omega) (by omega)
  have n2 := nm SuperInfoOffset3 200 (by decide) (by decide)
  have n3 := nm SuperInfoOffset3 300 (by decide) (by decide)
  have n12 := List.nodup_append.mpr ⟨n1, n2, fun a ha b hb => d3 a ha 200 (by decide) (by decide) b hb⟩
  have n123 := List.nodup_append.mpr ⟨n12, n3, by
    intro a ha b hb
    rcases List.mem_append.mp ha with ha | ha
    · exact d3 a ha 300 (by decide) (by decide) b hb
    · simp only [List.mem_map, List.mem_range] at ha hb
      obtain ⟨i, hi, rfl⟩ := ha
      obtain ⟨j, hj, rfl⟩ := hb
      exact ne1 (by decide) (by omega) (by omega) (by omega)⟩
  unfold baseOffsets
  simp only
  split
  · split
    · exact n123
    · exact n12
  · exact n1

theorem baseOffsets_length (devSize bs : UInt64) : (baseOffsets devSize bs).length = baseCount devSize.toNat := by
  have c3 : UInt64.ofNat SuperInfoOffset3 ≤ devSize ↔ 0x4000000000 ≤ devSize.toNat := by
    rw [UInt64.le_iff_toNat_le]; rfl
  have c4 : UInt64.ofNat SuperInfoOffset4 ≤ devSize ↔ 0x4000000000000 ≤ devSize.toNat := by
    rw [UInt64.le_iff_toNat_le]; rfl
  have e : ((List.range 100).flatMap (fun i => [UInt64.ofNat SuperInfoOffset + UInt64.ofNat i * bs,
      UInt64.ofNat SuperInfoOffset2 + UInt64.ofNat (i + 100) * bs])).length = 200 := by
    simp [List.length_flatMap]
  unfold baseOffsets baseCount
  by_cases h3 : 0x4000000000 ≤ devSize.toNat
  · by_cases h4 : 0x4000000000000 ≤ devSize.toNat
    · simp only [c3.mpr h3, c4.mpr h4, if_true, List.length_append, e, List.length_map, List.length_range, h4]
    · simp only [c3.mpr h3, c4, h4, if_true, if_false, List.length_append, e, List.length_map, List.length_range, h3]
  · have h4 : ¬ 0x4000000000000 ≤ devSize.toNat := by omega
    simp only [c3, h3, h4, if_false, e]

/-- What the random loop keeps: the set grows by distinct multiples of the block size
inside the device. -/
theorem sampleLoop_inv {rnd : Nat → Nat} {nb : Int} {bs n : UInt64} : ∀ {fuel k : Nat} {s t : List UInt64},
    sampleLoop rnd nb bs n fuel k s = .ok t → s.Nodup →
    t.Nodup ∧ (∀ x ∈ s, x ∈ t) ∧ n.toNat ≤ t.length ∧ (s.length ≤ n.toNat → t.length = n.toNat) ∧
    (n.toNat ≤ s.length → t = s) ∧
    (∀ x ∈ t, x ∈ s ∨ ∃ j : Nat, (j : Int) < nb ∧ x = UInt64.ofNat j * bs) := by
  intro fuel
  induction fuel with
  | zero => intro k s t h; simp [sampleLoop] at h
  | succ fuel ih =>
    intro k s t h hs
    rw [sampleLoop] at h
    by_cases h1 : s.length < n.toNat
    · rw [if_pos h1] at h
      by_cases h2 : nb ≤ 0
      · rw [if_pos h2] at h; simp at h
      · rw [if_neg h2] at h
        obtain ⟨i1, i2, i3, i4, i5, i6⟩ := ih h (setInsert_nodup hs _)
        refine ⟨i1, fun x hx => i2 x ((setInsert_mem ..).mpr (Or.inr hx)), i3, ?_, by omega, ?_⟩
        · intro _; apply i4
          unfold setInsert; split
          · omega
          · simp; omega
        · intro x hx
          rcases i6 x hx with hx | hx
          · rcases (setInsert_mem ..).mp hx with rfl | hx
            · right
              have hpos : 0 < nb.toNat := by omega
              refine ⟨rnd k % nb.toNat, ?_, rfl⟩
              have := Nat.mod_lt (rnd k) hpos
              omega
            · exact Or.inl hx
          · exact Or.inr hx
    · rw [if_neg h1] at h
      simp only [Go.ok.injEq] at h
      subst h
      exact ⟨hs, fun x hx => hx, by omega, by omega, fun _ => rfl, fun x hx => Or.inl hx⟩

/-- While the loop is still running after all its fuel, the set is too small and holds
everything drawn so far. -/
theorem sampleLoop_hang {rnd : Nat → Nat} {nb : Int} {bs n : UInt64} : ∀ {fuel k : Nat} {s : List UInt64},
    sampleLoop rnd nb bs n (fuel + 1) k s = .hang → s.Nodup →
    ∃ t : List UInt64, t.length < n.toNat ∧
      ∀ i < fuel, UInt64.ofNat (rnd (k + i) % nb.toNat) * bs ∈ t := by
  intro fuel
  induction fuel with
  | zero =>
    intro k s h _
    rw [sampleLoop] at h
    by_cases h1 : s.length < n.toNat
    · exact ⟨s, h1, by intro i hi; omega⟩
    · rw [if_neg h1] at h; simp at h
  | succ fuel ih =>
    intro k s h hs
    rw [sampleLoop] at h
    by_cases h1 : s.length < n.toNat
    · rw [if_pos h1] at h
      by_cases h2 : nb ≤ 0
      · rw [if_pos h2] at h; simp at h
      · rw [if_neg h2] at h
        -- the next round keeps its start set
        have keep : ∀ {fuel k : Nat} {s : List UInt64}, sampleLoop rnd nb bs n (fuel + 1) k s = .hang →
            ∃ t : List UInt64, t.length < n.toNat ∧ (∀ x ∈ s, x ∈ t) ∧
              ∀ i < fuel, UInt64.ofNat (rnd (k + i) % nb.toNat) * bs ∈ t := by
          intro fuel
          induction fuel with
          | zero =>
            intro k s h
            rw [sampleLoop] at h
            by_cases h1 : s.length < n.toNat
            · exact ⟨s, h1, fun x hx => hx, by intro i hi; omega⟩
            · rw [if_neg h1] at h; simp at h
          | succ fuel ih =>
            intro k s h
            rw [sampleLoop] at h
            by_cases h1 : s.length < n.toNat
            · rw [if_pos h1, if_neg h2] at h
              obtain ⟨t, t1, t2, t3⟩ := ih h
              refine ⟨t, t1, fun x hx => t2 x ((setInsert_mem ..).mpr (Or.inr hx)), ?_⟩
              intro i hi
              cases i with
              | zero => exact t2 _ ((setInsert_mem ..).mpr (Or.inl rfl))
              | succ i =>
                have := t3 i (by omega)
                rwa [show k + 1 + i = k + (i + 1) by omega] at this
            · rw [if_neg h1] at h; simp at h
        obtain ⟨t, t1, t2, t3⟩ := keep h
        refine ⟨t, t1, ?_⟩
        intro i hi
        cases i with
        | zero => exact t2 _ ((setInsert_mem ..).mpr (Or.inl rfl))
        | succ i =>
          have := t3 i (by omega)
          rwa [show k + 1 + i = k + (i + 1) by omega] at this
    · rw [if_neg h1] at h; simp at h

theorem sampleLoop_ne_panic {rnd : Nat → Nat} {nb : Int} {bs n : UInt64} (h0 : 0 < nb) :
    ∀ {fuel k : Nat} {s : List UInt64}, sampleLoop rnd nb bs n fuel k s ≠ .panic := by
  intro fuel
  induction fuel with
  | zero => intro k s; simp [sampleLoop]
  | succ fuel ih =>
    intro k s
    rw [sampleLoop]
    split
    · rw [if_neg (by omega)]; exact ih
    · simp

theorem sampleLoop_mono {rnd : Nat → Nat} {nb : Int} {bs n : UInt64} {t : List UInt64} :
    ∀ {fuel k : Nat} {s : List UInt64}, sampleLoop rnd nb bs n fuel k s = .ok t →
      ∀ {fuel'}, fuel ≤ fuel' → sampleLoop rnd nb bs n fuel' k s = .ok t := by
  intro fuel
  induction fuel with
  | zero => intro k s h; simp [sampleLoop] at h
  | succ fuel ih =>
    intro k s h fuel' hf
    obtain ⟨f, rfl⟩ : ∃ f, fuel' = f + 1 := ⟨fuel' - 1, by omega⟩
    rw [sampleLoop] at h ⊢
    split
    · next h1 =>
      rw [if_pos h1] at h
      split
      · next h2 => rw [if_pos h2] at h; simp at h
      · next h2 => rw [if_neg h2] at h; exact ih h (by omega)
    · next h1 => rw [if_neg h1] at h; exact h

theorem makeSamples_eq {devSize bs n : UInt64} (hb : bs.toNat < 2 ^ 32) (hpos : 0 < bs.toNat) (fuel : Nat)
    (rnd : Nat → Nat) (ord : List UInt64 → List UInt64) :
    MakeSampleOffsets fuel rnd ord devSize bs n =
      (sampleLoop rnd (int64OfU64 (devSize / bs)) bs n fuel 0 (baseOffsets devSize bs) >>= fun s =>
        if n.toNat < (ord s).length then .panic
        else .ok ((ord s ++ List.replicate (n.toNat - (ord s).length) 0).mergeSort fun a b => decide (a ≤ b))) := by
  have hne : bs ≠ 0 := by rintro rfl; simp at hpos
  unfold MakeSampleOffsets
  have hf : (baseOffsets devSize bs).foldl setInsert [] = baseOffsets devSize bs := by
    rw [setInsert_fold_nodup _ [] (by simpa using baseOffsets_nodup hb hpos)]; rfl
  simp only [hf, if_neg hne]
  rfl

theorem sort_u64 (l : List UInt64) (h : l.Nodup) :
    ((l.mergeSort fun a b => decide (a ≤ b)).Perm l) ∧
    (l.mergeSort fun a b => decide (a ≤ b)).Pairwise (fun a b => a.toNat < b.toNat) := by
  have hp := List.mergeSort_perm l (fun a b => decide (a ≤ b))
  refine ⟨hp, ?_⟩
  have hs := List.pairwise_mergeSort (le := fun a b : UInt64 => decide (a ≤ b))
    (by intro a b c h1 h2; simp only [decide_eq_true_eq, UInt64.le_iff_toNat_le] at *; omega)
    (by intro a b; simp only [Bool.or_eq_true, decide_eq_true_eq, UInt64.le_iff_toNat_le]; omega) l
  have hn : (l.mergeSort fun a b => decide (a ≤ b)).Nodup := hp.nodup_iff.mpr h
  refine (hs.and hn).imp ?_
  intro a b hab
  have h1 := hab.1
  simp only [decide_eq_true_eq, UInt64.le_iff_toNat_le] at h1
  have h2 : a.toNat ≠ b.toNat := fun hh => hab.2 (UInt64.toNat_inj.mp hh)
  omega

/-! ## Reading the samples of an image -/

/-- The block of an image at an offset. -/
def blockAt (dev : Bytes) (bs : Nat) (o : UInt64) : Bytes := (dev.drop o.toNat).take bs

theorem identifyLoop_image (dev : Bytes) (bs : Nat) (hbs : 126 ≤ bs) (hlen : dev.length < 2 ^ 63) :
    ∀ (offs : List UInt64) (buf : Bytes) (h : FSIDHist), buf.length = bs →
      (∀ o ∈ offs, o.toNat < 2 ^ 63) →
      ((∀ o ∈ offs, o.toNat + bs ≤ dev.length) →
        ∃ h', collectAll h (offs.map (blockAt dev bs)) = .ok h' ∧
          identifyLoop (imageReader dev) offs buf h () = .ok h' ()) ∧
      ((∃ o ∈ offs, dev.length < o.toNat + bs) →
        identifyLoop (imageReader dev) offs buf h () = .exit ()) := by
  intro offs
  induction offs with
  | nil =>
    intro buf h _ _
    exact ⟨fun _ => ⟨h, rfl, rfl⟩, by rintro ⟨o, ho, -⟩; simp at ho⟩
  | cons o rest ih =>
    intro buf h hbuf hoffs
    have ho := hoffs o (List.mem_cons_self ..)
    by_cases hfit : o.toNat + bs ≤ dev.length
    · have hread : ReadBlockAt (imageReader dev) buf o = (blockAt dev bs o, none) := by
        apply readBlockAt_eq
        · rw [int64_small ho, hbuf, imageReader_full hfit]; rfl
        · rw [blockAt, hbuf, List.length_take, List.length_drop]; omega
      have hbl : (blockAt dev bs o).length = bs := by
        rw [blockAt, List.length_take, List.length_drop]; omega
      obtain ⟨hdr, r, tl, heq⟩ := block_split (b := blockAt dev bs o) (by omega)
      obtain ⟨h1, hc⟩ : ∃ h1, collectBlock h ⟨blockAt dev bs o, []⟩ = .ok h1 := by
        rw [heq]; exact ⟨_, collectBlock_eq ..⟩
      have hrun : identifyLoop (imageReader dev) (o :: rest) buf h () =
          identifyLoop (imageReader dev) rest (blockAt dev bs o) h1 () := by
        rw [identifyLoop]
        simp only [hread]
        rw [Cmd.bind_ok (a := h1) (s' := ()) (by rw [hc]; rfl)]
      obtain ⟨i1, i2⟩ := ih (blockAt dev bs o) h1 hbl (fun x hx => hoffs x (List.mem_cons_of_mem _ hx))
      rw [hrun]
      constructor
      · intro hall
        obtain ⟨h', e1, e2⟩ := i1 (fun x hx => hall x (List.mem_cons_of_mem _ hx))
        exact ⟨h', by rw [List.map_cons, collectAll, hc]; exact e1, e2⟩
      · rintro ⟨x, hx, hlt⟩
        rcases List.mem_cons.mp hx with rfl | hx
        · omega
        · exact i2 ⟨x, hx, hlt⟩
    · have herr : (ReadBlockAt (imageReader dev) buf o).2 = some .eof := by
        apply readBlockAt_err
        rw [int64_small ho, hbuf]
        exact imageReader_eof (by omega) (by omega)
      constructor
      · intro hall; exact absurd (hall o (List.mem_cons_self ..)) hfit
      · intro _
        rw [identifyLoop]
        generalize ReadBlockAt (imageReader dev) buf o = p at herr
        obtain ⟨b, e⟩ := p
        simp only at herr
        subst herr
        rfl

end Btrfscue
