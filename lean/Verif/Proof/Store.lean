import Verif.Proof.Key
import Verif.Model.IndexRead
/-! # Sorted stores: seek, previous, put, get -/

namespace Btrfscue

/-- The number an index key denotes; ordering keys is ordering these numbers. -/
def VKey.num (v : VKey) : Nat := beNat v.encode
/-- Same for the first 25 bytes (owner, type, object id, offset). -/
def VKey.p25 (v : VKey) : Nat := beNat (v.encode.take 25)
/-- Same for the first 17 bytes (owner, type, object id). -/
def VKey.p17 (v : VKey) : Nat := beNat (v.encode.take 17)

@[simp] theorem VKey.encode_length (v : VKey) : v.encode.length = 33 := newIndexKey_length _ _ _

theorem VKey.num_eq (v : VKey) : v.num = v.p25 * 2 ^ 64 + v.gen.toNat := by
  simp only [VKey.num, VKey.p25, VKey.encode, beNat_newIndexKey, beNat_take25]

theorem VKey.p25_eq (v : VKey) : v.p25 = v.p17 * 2 ^ 64 + v.key.offset.toNat := by
  simp only [VKey.p17, VKey.p25, VKey.encode, beNat_take17, beNat_take25]

theorem VKey.p17_eq (v : VKey) :
    v.p17 = (v.owner.toNat * 2 ^ 8 + v.key.typ.toNat) * 2 ^ 64 + v.key.objectID.toNat := by
  simp only [VKey.p17, VKey.encode, beNat_take17]

theorem VKey.encode_inj {a b : VKey} : a.encode = b.encode ↔ a = b := by
  constructor
  · intro h
    obtain ⟨h1, h2, h3⟩ := newIndexKey_inj h
    cases a; cases b; simp_all
  · rintro rfl; rfl

theorem VKey.num_inj {a b : VKey} : a.num = b.num ↔ a = b := by
  constructor
  · intro h
    exact VKey.encode_inj.mp (beNat_inj (by simp) h)
  · rintro rfl; rfl

theorem VKey.p25_inj {a b : VKey} : a.p25 = b.p25 ↔ a.owner = b.owner ∧ a.key = b.key := by
  rw [← take25_eq_iff (g := a.gen) (g' := b.gen)]
  constructor
  · intro h
    exact beNat_inj (by simp) h
  · intro h
    simp only [VKey.p25, VKey.encode, h]

theorem VKey.p17_inj {a b : VKey} : a.p17 = b.p17 ↔
    a.owner = b.owner ∧ a.key.typ = b.key.typ ∧ a.key.objectID = b.key.objectID := by
  rw [← take17_eq_iff (g := a.gen) (g' := b.gen)]
  constructor
  · intro h
    exact beNat_inj (by simp) h
  · intro h
    simp only [VKey.p17, VKey.encode, h]

theorem VKey.num_lt_iff {a b : VKey} : a.num < b.num ↔ a.before b := beNat_newIndexKey_lt a b

theorem VKey.bytesLt_iff {a b : VKey} : bytesLt a.encode b.encode = true ↔ a.num < b.num :=
  Btrfscue.bytesLt_iff (by simp)

theorem VKey.bytesCompare_take25 (a b : VKey) :
    bytesCompare (a.encode.take 25) (b.encode.take 25) ≤ 0 ↔ a.p25 ≤ b.p25 := by
  rw [bytesCompare_le_iff (by simp)]; rfl

theorem VKey.bytesCompare_le (a b : VKey) :
    bytesCompare a.encode b.encode ≤ 0 ↔ a.num ≤ b.num := by
  rw [bytesCompare_le_iff (by simp)]; rfl

theorem VKey.bytesLt_take17 (a b : VKey) :
    bytesLt a.encode (b.encode.take 17) = true ↔ a.p17 < b.p17 := by
  rw [bytesLt_prefix (by simp)]
  simp only [List.length_take, VKey.encode_length]
  rfl

theorem take25_p25 {a b : VKey} : a.encode.take 25 = b.encode.take 25 ↔ a.p25 = b.p25 := by
  constructor
  · intro h; simp only [VKey.p25, h]
  · intro h; exact beNat_inj (by simp) h

theorem take17_p17 {a b : VKey} : a.encode.take 17 = b.encode.take 17 ↔ a.p17 = b.p17 := by
  constructor
  · intro h; simp only [VKey.p17, h]
  · intro h; exact beNat_inj (by simp) h

attribute [irreducible] VKey.num VKey.p25 VKey.p17

/-- Stores with decoded keys. -/
abbrev AStore := List (VKey × Bytes)

/-- The bucket a decoded store stands for. -/
def AStore.enc (l : AStore) : Bucket := l.map fun e => (e.1.encode, e.2)

/-- Ascending keys. -/
def AStore.Sorted (l : AStore) : Prop := l.Pairwise fun a b => a.1.num < b.1.num

/-- A well-formed bucket: strictly ascending keys, all of them 33 bytes. (The first
half is a bbolt invariant, the second holds for everything written through the
index API.) -/
def Bucket.WF (b : Bucket) : Prop :=
  b.Pairwise (fun x y => bytesLt x.1 y.1 = true) ∧ ∀ e ∈ b, e.1.length = 33

theorem AStore.enc_wf {l : AStore} (h : l.Sorted) : Bucket.WF l.enc := by
  constructor
  · rw [AStore.enc, List.pairwise_map]
    exact h.imp fun hlt => VKey.bytesLt_iff.mpr hlt
  · intro e he
    rw [AStore.enc, List.mem_map] at he
    obtain ⟨x, -, rfl⟩ := he
    simp

theorem Bucket.WF.exists_abs {b : Bucket} (h : b.WF) : ∃ l : AStore, l.Sorted ∧ b = l.enc := by
  obtain ⟨hs, hl⟩ := h
  induction b with
  | nil => exact ⟨[], List.Pairwise.nil, rfl⟩
  | cons e r ih =>
    obtain ⟨l, hl1, rfl⟩ := ih (List.pairwise_cons.mp hs).2 (fun x hx => hl x (List.mem_cons_of_mem _ hx))
    obtain ⟨o, k, g, hk⟩ := exists_newIndexKey (hl e (List.mem_cons_self))
    refine ⟨(⟨o, k, g⟩, e.2) :: l, ?_, ?_⟩
    · refine List.pairwise_cons.mpr ⟨?_, hl1⟩
      intro x hx
      have := (List.pairwise_cons.mp hs).1 (x.1.encode, x.2) (List.mem_map.mpr ⟨x, hx, rfl⟩)
      rw [← VKey.bytesLt_iff]
      rw [hk] at this; unfold VKey.encode; exact this
    · obtain ⟨ek, ev⟩ := e
      simp only [AStore.enc, List.map_cons, List.cons.injEq, Prod.mk.injEq, and_true]
      unfold VKey.encode; exact hk

theorem enc_inj {l m : AStore} : l.enc = m.enc ↔ l = m := by
  constructor
  · intro h
    induction l generalizing m with
    | nil => cases m <;> simp_all [AStore.enc]
    | cons x xs ih =>
      cases m with
      | nil => simp [AStore.enc] at h
      | cons y ys =>
        simp only [AStore.enc, List.map_cons, List.cons.injEq, Prod.mk.injEq] at h
        obtain ⟨⟨h1, h2⟩, h3⟩ := h
        rw [ih h3, Prod.ext (VKey.encode_inj.mp h1) h2]
  · rintro rfl; rfl

theorem mem_enc {l : AStore} {v : VKey} {x : Bytes} : (v.encode, x) ∈ l.enc ↔ (v, x) ∈ l := by
  simp only [AStore.enc, List.mem_map, Prod.mk.injEq]
  constructor
  · rintro ⟨⟨w, y⟩, h, h1, rfl⟩
    rw [VKey.encode_inj] at h1
    simp only at h1; subst h1; exact h
  · intro h; exact ⟨(v, x), h, rfl, rfl⟩

/-- Keys are unique in a sorted store. -/
theorem AStore.Sorted.unique {l : AStore} (h : l.Sorted) {v : VKey} {x y : Bytes}
    (hx : (v, x) ∈ l) (hy : (v, y) ∈ l) : x = y := by
  induction l with
  | nil => cases hx
  | cons e r ih =>
    obtain ⟨h1, h2⟩ := List.pairwise_cons.mp h
    rcases List.mem_cons.mp hx with rfl | hx'
    · rcases List.mem_cons.mp hy with he | hy'
      · exact (Prod.mk.inj he).2.symm
      · have := h1 _ hy'; simp at this
    · rcases List.mem_cons.mp hy with rfl | hy'
      · have := h1 _ hx'; simp at this
      · exact ih h2 hx' hy'

/-! ### Splitting at a position -/

/-- Entries below `n`. -/
def AStore.lo (l : AStore) (n : Nat) : AStore := l.takeWhile fun e => e.1.num < n
/-- Entries from `n` on. -/
def AStore.hi (l : AStore) (n : Nat) : AStore := l.dropWhile fun e => e.1.num < n

theorem AStore.lo_append_hi (l : AStore) (n : Nat) : l.lo n ++ l.hi n = l :=
  List.takeWhile_append_dropWhile

theorem AStore.mem_lo {l : AStore} (h : l.Sorted) {n : Nat} {e : VKey × Bytes} :
    e ∈ l.lo n ↔ e ∈ l ∧ e.1.num < n := by
  induction l with
  | nil => simp [AStore.lo]
  | cons x r ih =>
    obtain ⟨h1, h2⟩ := List.pairwise_cons.mp h
    simp only [AStore.lo, List.takeWhile_cons]
    by_cases hx : x.1.num < n
    · simp only [hx, decide_true, if_true, List.mem_cons]
      rw [show List.takeWhile (fun e : VKey × Bytes => decide (e.1.num < n)) r = AStore.lo r n from rfl,
        ih h2]
      constructor
      · rintro (rfl | ⟨h3, h4⟩)
        · exact ⟨Or.inl rfl, hx⟩
        · exact ⟨Or.inr h3, h4⟩
      · rintro ⟨rfl | h3, h4⟩
        · exact Or.inl rfl
        · exact Or.inr ⟨h3, h4⟩
    · simp only [hx, decide_false, Bool.false_eq_true, if_false, List.not_mem_nil, false_iff]
      rintro ⟨h3, h4⟩
      rcases List.mem_cons.mp h3 with rfl | h3
      · exact hx h4
      · have := h1 _ h3; omega

theorem AStore.mem_hi {l : AStore} (h : l.Sorted) {n : Nat} {e : VKey × Bytes} :
    e ∈ l.hi n ↔ e ∈ l ∧ n ≤ e.1.num := by
  induction l with
  | nil => simp [AStore.hi]
  | cons x r ih =>
    obtain ⟨h1, h2⟩ := List.pairwise_cons.mp h
    simp only [AStore.hi, List.dropWhile_cons]
    by_cases hx : x.1.num < n
    · simp only [hx, decide_true, if_true]
      rw [show List.dropWhile (fun e : VKey × Bytes => decide (e.1.num < n)) r = AStore.hi r n from rfl,
        ih h2]
      constructor
      · rintro ⟨h3, h4⟩; exact ⟨List.mem_cons_of_mem _ h3, h4⟩
      · rintro ⟨h3, h4⟩
        rcases List.mem_cons.mp h3 with rfl | h3
        · omega
        · exact ⟨h3, h4⟩
    · simp only [hx, decide_false, Bool.false_eq_true, if_false]
      constructor
      · intro h3
        refine ⟨h3, ?_⟩
        rcases List.mem_cons.mp h3 with rfl | h3
        · omega
        · have := h1 _ h3; omega
      · rintro ⟨h3, -⟩; exact h3

theorem AStore.lo_sorted {l : AStore} (h : l.Sorted) (n : Nat) : (l.lo n).Sorted := by
  have := AStore.lo_append_hi l n
  rw [← this] at h
  exact (List.pairwise_append.mp h).1

theorem AStore.hi_sorted {l : AStore} (h : l.Sorted) (n : Nat) : (l.hi n).Sorted := by
  have := AStore.lo_append_hi l n
  rw [← this] at h
  exact (List.pairwise_append.mp h).2.1

/-- The head of a sorted store is its minimum. -/
theorem AStore.Sorted.head_min {l : AStore} (h : l.Sorted) {e : VKey × Bytes} (he : l.head? = some e) :
    e ∈ l ∧ ∀ x ∈ l, e.1.num ≤ x.1.num := by
  cases l with
  | nil => cases he
  | cons a r =>
    simp only [List.head?_cons, Option.some.injEq] at he
    subst he
    refine ⟨List.mem_cons_self, fun x hx => ?_⟩
    rcases List.mem_cons.mp hx with rfl | hx
    · exact Nat.le_refl _
    · exact Nat.le_of_lt ((List.pairwise_cons.mp h).1 x hx)

/-- The last entry of a sorted store is its maximum. -/
theorem AStore.Sorted.last_max {l : AStore} (h : l.Sorted) {e : VKey × Bytes}
    (he : l.getLast? = some e) : e ∈ l ∧ ∀ x ∈ l, x.1.num ≤ e.1.num := by
  refine ⟨List.mem_of_getLast? he, fun x hx => ?_⟩
  obtain ⟨ys, hys⟩ := List.getLast?_eq_some_iff.mp he
  subst hys
  rcases List.mem_append.mp hx with hx | hx
  · exact Nat.le_of_lt ((List.pairwise_append.mp h).2.2 x hx e (by simp))
  · simp only [List.mem_singleton] at hx; subst hx; exact Nat.le_refl _

theorem head?_isSome_of_mem {α : Type} {l : List α} {a : α} (h : a ∈ l) : ∃ b, l.head? = some b := by
  cases l with
  | nil => cases h
  | cons b r => exact ⟨b, rfl⟩

theorem getLast?_isSome_of_mem {α : Type} {l : List α} {a : α} (h : a ∈ l) :
    ∃ b, l.getLast? = some b := by
  cases l with
  | nil => cases h
  | cons b r => exact ⟨_, List.getLast?_eq_some_getLast (by simp)⟩

theorem takeWhile_enc (l : AStore) (v : VKey) :
    (List.takeWhile (fun e : Bytes × Bytes => bytesLt e.1 v.encode) l.enc) = (l.lo v.num).enc := by
  induction l with
  | nil => rfl
  | cons e r ih =>
    simp only [AStore.enc, List.map_cons, AStore.lo, List.takeWhile_cons] at *
    by_cases h : e.1.num < v.num
    · have h2 := VKey.bytesLt_iff.mpr h
      simp only [h, h2, decide_true, if_true, List.map_cons, ih]
    · have h2 : bytesLt e.1.encode v.encode = false := by
        rw [← Bool.not_eq_true]; exact mt VKey.bytesLt_iff.mp h
      simp [h, h2]

/-- Seeking a 33 byte key. -/
theorem seek_pos (l : AStore) (v : VKey) :
    (Bucket.seek l.enc v.encode) = ⟨l.enc, (l.lo v.num).length⟩ := by
  rw [Bucket.seek, takeWhile_enc]
  simp only [AStore.enc, List.length_map]

theorem enc_getElem? (l : AStore) (i : Nat) :
    l.enc[i]? = (l[i]?).map fun e => (e.1.encode, e.2) := by
  simp [AStore.enc]

theorem append_getElem?_length {α : Type} (a b : List α) : (a ++ b)[a.length]? = b.head? := by
  rw [List.getElem?_append_right (Nat.le_refl _), Nat.sub_self, List.head?_eq_getElem?]

theorem lo_hi_getElem? (l : AStore) (n : Nat) : l[(l.lo n).length]? = (l.hi n).head? := by
  have := append_getElem?_length (l.lo n) (l.hi n)
  rw [AStore.lo_append_hi] at this
  exact this

theorem lo_last_getElem? (l : AStore) (n : Nat) (h : (l.lo n).length ≠ 0) :
    l[(l.lo n).length - 1]? = (l.lo n).getLast? := by
  have : (l.lo n ++ l.hi n)[(l.lo n).length - 1]? = (l.lo n).getLast? := by
    rw [List.getElem?_append_left (by omega), List.getLast?_eq_getElem?]
  rw [AStore.lo_append_hi] at this
  exact this

/-- What Seek returns. -/
theorem seek_cur (l : AStore) (v : VKey) :
    (Bucket.seek l.enc v.encode).cur = ((l.hi v.num).head?).map fun e => (e.1.encode, e.2) := by
  rw [seek_pos, Cursor.cur, enc_getElem?, lo_hi_getElem?]

/-- What Prev returns after Seek. -/
theorem seek_prev (l : AStore) (v : VKey) :
    (Bucket.seek l.enc v.encode).prev = ((l.lo v.num).getLast?).map fun e => (e.1.encode, e.2) := by
  rw [seek_pos, Cursor.prev]
  simp only
  by_cases h : (l.lo v.num).length = 0
  · rw [if_pos h, List.eq_nil_of_length_eq_zero h]; rfl
  · rw [if_neg h, enc_getElem?, lo_last_getElem? _ _ h]

/-! ### Put and Get -/

/-- Put on decoded stores. -/
def AStore.put (l : AStore) (v : VKey) (x : Bytes) : AStore :=
  match l with
  | [] => [(v, x)]
  | e :: r =>
    if e.1.num < v.num then e :: AStore.put r v x
    else if v.num < e.1.num then (v, x) :: e :: r
    else (v, x) :: r

theorem enc_put (l : AStore) (v : VKey) (x : Bytes) :
    Bucket.put l.enc v.encode x = (l.put v x).enc := by
  induction l with
  | nil => rfl
  | cons e r ih =>
    simp only [AStore.enc, List.map_cons, Bucket.put, AStore.put]
    by_cases h1 : e.1.num < v.num
    · rw [if_pos (VKey.bytesLt_iff.mpr h1), if_pos h1]
      simp only [List.map_cons]
      rw [← show _ = List.map (fun e : VKey × Bytes => (e.1.encode, e.2)) (AStore.put r v x) from ih]
      rfl
    · rw [if_neg (mt VKey.bytesLt_iff.mp h1), if_neg h1]
      by_cases h2 : v.num < e.1.num
      · rw [if_pos (VKey.bytesLt_iff.mpr h2), if_pos h2]; rfl
      · rw [if_neg (mt VKey.bytesLt_iff.mp h2), if_neg h2]; rfl

theorem AStore.mem_put {l : AStore} (h : l.Sorted) (v : VKey) (x : Bytes) (e : VKey × Bytes) :
    e ∈ l.put v x ↔ e = (v, x) ∨ (e ∈ l ∧ e.1 ≠ v) := by
  induction l with
  | nil => simp [AStore.put]
  | cons a r ih =>
    obtain ⟨h1, h2⟩ := List.pairwise_cons.mp h
    simp only [AStore.put]
    by_cases hlt : a.1.num < v.num
    · rw [if_pos hlt, List.mem_cons, ih h2, List.mem_cons]
      have hav : a.1 ≠ v := by rintro rfl; omega
      constructor
      · rintro (rfl | rfl | ⟨h3, h4⟩)
        · exact Or.inr ⟨Or.inl rfl, hav⟩
        · exact Or.inl rfl
        · exact Or.inr ⟨Or.inr h3, h4⟩
      · rintro (rfl | ⟨rfl | h3, h4⟩)
        · exact Or.inr (Or.inl rfl)
        · exact Or.inl rfl
        · exact Or.inr (Or.inr ⟨h3, h4⟩)
    · rw [if_neg hlt]
      by_cases hgt : v.num < a.1.num
      · rw [if_pos hgt]
        simp only [List.mem_cons]
        constructor
        · rintro (rfl | rfl | h3)
          · exact Or.inl rfl
          · exact Or.inr ⟨Or.inl rfl, by rintro rfl; omega⟩
          · refine Or.inr ⟨Or.inr h3, ?_⟩
            rintro rfl
            have := h1 _ h3; omega
        · rintro (rfl | ⟨rfl | h3, h4⟩)
          · exact Or.inl rfl
          · exact Or.inr (Or.inl rfl)
          · exact Or.inr (Or.inr h3)
      · rw [if_neg hgt]
        have hav : a.1 = v := VKey.num_inj.mp (by omega)
        simp only [List.mem_cons]
        constructor
        · rintro (rfl | h3)
          · exact Or.inl rfl
          · refine Or.inr ⟨Or.inr h3, ?_⟩
            rintro rfl
            have := h1 _ h3
            rw [hav] at this; omega
        · rintro (rfl | ⟨rfl | h3, h4⟩)
          · exact Or.inl rfl
          · exact absurd hav h4
          · exact Or.inr h3

theorem AStore.put_sorted {l : AStore} (h : l.Sorted) (v : VKey) (x : Bytes) : (l.put v x).Sorted := by
  induction l with
  | nil => exact List.pairwise_singleton _ _
  | cons a r ih =>
    obtain ⟨h1, h2⟩ := List.pairwise_cons.mp h
    simp only [AStore.put]
    by_cases hlt : a.1.num < v.num
    · rw [if_pos hlt]
      refine List.pairwise_cons.mpr ⟨fun e he => ?_, ih h2⟩
      rcases (AStore.mem_put h2 v x e).mp he with rfl | ⟨h3, -⟩
      · exact hlt
      · exact h1 e h3
    · rw [if_neg hlt]
      by_cases hgt : v.num < a.1.num
      · rw [if_pos hgt]
        refine List.pairwise_cons.mpr ⟨fun e he => ?_, h⟩
        rcases List.mem_cons.mp he with rfl | h3
        · exact hgt
        · have := h1 e h3
          simp only; omega
      · rw [if_neg hgt]
        have hav : a.1 = v := VKey.num_inj.mp (by omega)
        refine List.pairwise_cons.mpr ⟨fun e he => ?_, h2⟩
        rw [← hav]; exact h1 e he

/-- A sorted store is determined by its members. -/
theorem AStore.Sorted.ext {l m : AStore} (hl : l.Sorted) (hm : m.Sorted)
    (h : ∀ e, e ∈ l ↔ e ∈ m) : l = m := by
  induction l generalizing m with
  | nil =>
    cases m with
    | nil => rfl
    | cons a r => exact absurd ((h a).mpr List.mem_cons_self) (by simp)
  | cons a r ih =>
    cases m with
    | nil => exact absurd ((h a).mp List.mem_cons_self) (by simp)
    | cons b s =>
      obtain ⟨h1, h2⟩ := List.pairwise_cons.mp hl
      obtain ⟨h3, h4⟩ := List.pairwise_cons.mp hm
      have hab : a = b := by
        rcases List.mem_cons.mp ((h a).mp List.mem_cons_self) with h5 | h5
        · exact h5
        · rcases List.mem_cons.mp ((h b).mpr List.mem_cons_self) with h6 | h6
          · exact h6.symm
          · have := h1 b h6; have := h3 a h5; omega
      subst hab
      congr 1
      refine ih h2 h4 fun e => ?_
      constructor
      · intro he
        rcases List.mem_cons.mp ((h e).mp (List.mem_cons_of_mem _ he)) with rfl | h7
        · have := h1 e he; omega
        · exact h7
      · intro he
        rcases List.mem_cons.mp ((h e).mpr (List.mem_cons_of_mem _ he)) with rfl | h7
        · have := h3 e he; omega
        · exact h7

theorem get_enc {l : AStore} (h : l.Sorted) (v : VKey) (x : Bytes) :
    Bucket.get l.enc v.encode = some x ↔ (v, x) ∈ l := by
  induction l with
  | nil => simp [AStore.enc, Bucket.get]
  | cons a r ih =>
    obtain ⟨h1, h2⟩ := List.pairwise_cons.mp h
    simp only [AStore.enc, List.map_cons, Bucket.get]
    by_cases hk : a.1 = v
    · rw [if_pos (by rw [hk])]
      simp only [Option.some.injEq, List.mem_cons]
      constructor
      · rintro rfl; left; rw [← hk]
      · rintro (h3 | h3)
        · rw [← h3]
        · have := h1 _ h3; rw [hk] at this; simp at this
    · rw [if_neg (by rw [VKey.encode_inj]; exact hk)]
      rw [show Bucket.get (List.map (fun e : VKey × Bytes => (e.1.encode, e.2)) r) v.encode =
        Bucket.get (AStore.enc r) v.encode from rfl, ih h2, List.mem_cons]
      constructor
      · exact Or.inr
      · rintro (h3 | h3)
        · rw [← h3] at hk; exact absurd rfl hk
        · exact h3

theorem keyTo_encode (v : VKey) (n : Nat) (h : n ≤ 33) : keyTo v.encode n = .ok (v.encode.take n) := by
  rw [keyTo, if_pos (by simpa using h)]

end Btrfscue
