import Verif.Proof.Access
/-! # Exact panic conditions of the accessor shapes -/

namespace Btrfscue

theorem from_eq (d t : Bytes) (off : Nat) : Slice.from ⟨d, t⟩ off =
    if off ≤ d.length then .ok ⟨d.drop off, t⟩ else .panic := rfl

theorem to_eq (d t : Bytes) (n : Nat) : Slice.to ⟨d, t⟩ n =
    if n ≤ d.length + t.length then .ok ⟨(d ++ t).take n, (d ++ t).drop n⟩ else .panic := by
  simp only [Slice.to, Slice.sub, Nat.zero_le, true_and, List.drop_zero, Slice.cap, Slice.all,
    List.length_append]

theorem from_to (d t : Bytes) (off n : Nat) : (Slice.from ⟨d, t⟩ off >>= fun c => c.to n) =
    if off ≤ d.length ∧ off + n ≤ d.length + t.length then
      .ok ⟨((d ++ t).drop off).take n, (d ++ t).drop (off + n)⟩ else .panic := by
  rw [from_eq]
  by_cases h : off ≤ d.length
  · rw [if_pos h, Go.ok_bind, to_eq]
    by_cases h2 : off + n ≤ d.length + t.length
    · rw [if_pos (by simp; omega), if_pos ⟨h, h2⟩, List.drop_append_of_le_length h,
        ← List.drop_drop, List.drop_append_of_le_length h]
    · rw [if_neg (by simp; omega), if_neg (by omega)]
  · rw [if_neg h, if_neg (by omega)]; rfl

/-- Exact behaviour of the two byte accessors on any slice. -/
theorem u16at_eq (d t : Bytes) (off : Nat) : u16at ⟨d, t⟩ off =
    if off ≤ d.length ∧ off + 2 ≤ d.length + t.length then
      .ok (UInt16.ofNat (leNat (((d ++ t).drop off).take 2))) else .panic := by
  have : u16at ⟨d, t⟩ off = ((Slice.from ⟨d, t⟩ off >>= fun c => c.to 2) >>= fun c =>
      .ok (UInt16.ofNat (leNat c.data))) := by
    simp only [u16at, SliceUint16LE, bind_assoc]; rfl
  rw [this, from_to]
  split <;> simp

/-- Exact behaviour of the four byte accessors on any slice. -/
theorem u32at_eq (d t : Bytes) (off : Nat) : u32at ⟨d, t⟩ off =
    if off ≤ d.length ∧ off + 4 ≤ d.length + t.length then
      .ok (UInt32.ofNat (leNat (((d ++ t).drop off).take 4))) else .panic := by
  have : u32at ⟨d, t⟩ off = ((Slice.from ⟨d, t⟩ off >>= fun c => c.to 4) >>= fun c =>
      .ok (UInt32.ofNat (leNat c.data))) := by
    simp only [u32at, SliceUint32LE, bind_assoc]; rfl
  rw [this, from_to]
  split <;> simp

/-- Exact behaviour of the eight byte accessors on any slice. -/
theorem u64at_eq (d t : Bytes) (off : Nat) : u64at ⟨d, t⟩ off =
    if off ≤ d.length ∧ off + 8 ≤ d.length + t.length then
      .ok (UInt64.ofNat (leNat (((d ++ t).drop off).take 8))) else .panic := by
  have : u64at ⟨d, t⟩ off = ((Slice.from ⟨d, t⟩ off >>= fun c => c.to 8) >>= fun c =>
      .ok (UInt64.ofNat (leNat c.data))) := by
    simp only [u64at, SliceUint64LE, bind_assoc]; rfl
  rw [this, from_to]
  split <;> simp

/-- Exact behaviour of the UUID accessors on any slice. -/
theorem uuidAt_eq (d t : Bytes) (off : Nat) : (∃ u, uuidAt ⟨d, t⟩ off = .ok u ∧
      u.val = ((d ++ t).drop off).take 16 ∧ off ≤ d.length ∧ off + 16 ≤ d.length + t.length) ∨
    (uuidAt ⟨d, t⟩ off = .panic ∧ ¬ (off ≤ d.length ∧ off + 16 ≤ d.length + t.length)) := by
  have : uuidAt ⟨d, t⟩ off = ((Slice.from ⟨d, t⟩ off >>= fun c => c.to 16) >>= fun c =>
      .ok ⟨goCopy (List.replicate 16 0) c.data, by simp [goCopy_length]⟩) := by
    simp only [uuidAt, SliceUUID, bind_assoc]; rfl
  rw [this, from_to]
  by_cases h : off ≤ d.length ∧ off + 16 ≤ d.length + t.length
  · left
    rw [if_pos h, Go.ok_bind]
    refine ⟨_, rfl, ?_, h.1, h.2⟩
    apply goCopy_full
    simp; omega
  · right
    rw [if_neg h]; exact ⟨rfl, h⟩

theorem get_isOk (s : Slice) (i : Nat) : (s.get i).isOk ↔ i < s.len := by
  simp only [Slice.get]
  by_cases h : i < s.data.length
  · simp [h]
  · simp [h]

theorem isOk_u8 (b : Bytes) (off : Nat) : (Slice.get ⟨b, []⟩ off).isOk ↔ off + 1 ≤ b.length := by
  rw [get_isOk]; exact Nat.lt_iff_add_one_le

theorem isOk_u16 (b : Bytes) (off : Nat) : (u16at ⟨b, []⟩ off).isOk ↔ off + 2 ≤ b.length := by
  rw [u16at_eq]; simp only [List.length_nil]; split <;> simp <;> omega

theorem isOk_u32 (b : Bytes) (off : Nat) : (u32at ⟨b, []⟩ off).isOk ↔ off + 4 ≤ b.length := by
  rw [u32at_eq]; simp only [List.length_nil]; split <;> simp <;> omega

theorem isOk_u64 (b : Bytes) (off : Nat) : (u64at ⟨b, []⟩ off).isOk ↔ off + 8 ≤ b.length := by
  rw [u64at_eq]; simp only [List.length_nil]; split <;> simp <;> omega

theorem isOk_uuid (b : Bytes) (off : Nat) : (uuidAt ⟨b, []⟩ off).isOk ↔ off + 16 ≤ b.length := by
  rcases uuidAt_eq b [] off with ⟨u, h, _, h2, h3⟩ | ⟨h, h2⟩
  · rw [h]; simp at *; omega
  · rw [h]; simp at *; omega

theorem isOk_bind {α β : Type} (x : Go α) (f : α → Go β) :
    (x >>= f).isOk ↔ ∃ a, x = .ok a ∧ (f a).isOk := by
  cases x <;> simp

theorem isOk_bind_pure {α β : Type} (x : Go α) (f : α → β) :
    (x >>= fun a => pure (f a)).isOk ↔ x.isOk := by
  cases x <;> simp

theorem isOk_u64_bind {β : Type} (b : Bytes) (off : Nat) (f : UInt64 → Go β) (c : Prop)
    (hf : ∀ a, (f a).isOk ↔ c) :
    (u64at ⟨b, []⟩ off >>= f).isOk ↔ off + 8 ≤ b.length ∧ c := by
  rw [isOk_bind, ← isOk_u64, Go.isOk_iff]
  constructor
  · rintro ⟨a, h1, h2⟩; exact ⟨⟨a, h1⟩, (hf a).mp h2⟩
  · rintro ⟨⟨a, h1⟩, h2⟩; exact ⟨a, h1, (hf a).mpr h2⟩

theorem from_ofBytes (b : Bytes) (off : Nat) (h : off ≤ b.length) :
    Slice.from ⟨b, []⟩ off = .ok ⟨b.drop off, []⟩ := by
  simp [Slice.from, h]

theorem SliceUint64LE_at (s : Slice) : SliceUint64LE s = u64at s 0 := by
  simp [u64at]
theorem SliceUint32LE_at (s : Slice) : SliceUint32LE s = u32at s 0 := by
  simp [u32at]

theorem isOk_key (b : Bytes) (off : Nat) : (keyAt ⟨b, []⟩ off).isOk ↔ off + 17 ≤ b.length := by
  by_cases h : off ≤ b.length
  · rw [keyAt, from_ofBytes _ _ h, Go.ok_bind, SliceKey, SliceUint64LE_at,
      isOk_u64_bind _ _ _ (9 ≤ b.length - off ∧ 17 ≤ b.length - off)]
    · simp; omega
    · intro a
      rw [isOk_bind]
      have hg := isOk_u8 (b.drop off) 8
      rw [Go.isOk_iff] at hg
      simp only [List.length_drop] at hg
      constructor
      · rintro ⟨x, h1, h2⟩
        have h9 : 9 ≤ b.length - off := hg.mp ⟨x, h1⟩
        refine ⟨h9, ?_⟩
        rw [from_ofBytes _ _ (by simp; omega), Go.ok_bind, isOk_bind_pure, SliceUint64LE_at,
          isOk_u64] at h2
        simp at h2; omega
      · rintro ⟨h9, h17⟩
        obtain ⟨x, hx⟩ := hg.mpr h9
        refine ⟨x, hx, ?_⟩
        rw [from_ofBytes _ _ (by simp; omega), Go.ok_bind, isOk_bind_pure, SliceUint64LE_at,
          isOk_u64]
        simp; omega
  · have : Slice.from ⟨b, []⟩ off = .panic := by simp [Slice.from, h]
    rw [keyAt, this]; simp; omega

theorem isOk_time (b : Bytes) (off : Nat) : (timeAt ⟨b, []⟩ off).isOk ↔ off + 12 ≤ b.length := by
  by_cases h : off ≤ b.length
  · rw [timeAt, from_ofBytes _ _ h, Go.ok_bind, SliceTimeLE, SliceUint64LE_at,
      isOk_u64_bind _ _ _ (12 ≤ b.length - off)]
    · simp; omega
    · intro a
      by_cases h8 : 8 ≤ b.length - off
      · rw [from_ofBytes _ _ (by simp; omega), Go.ok_bind, isOk_bind_pure, SliceUint32LE_at, isOk_u32]
        simp; omega
      · have : Slice.from ⟨b.drop off, []⟩ 8 = .panic := by
          rw [from_eq, if_neg (by simp; omega)]
        rw [this]; simp; omega
  · have : Slice.from ⟨b, []⟩ off = .panic := by simp [Slice.from, h]
    rw [timeAt, this]; simp; omega

theorem isOk_csum (b : Bytes) (n : Nat) : (Slice.sub ⟨b, []⟩ 0 n).isOk ↔ n ≤ b.length := by
  simp only [Slice.sub]; split <;> simp_all

end Btrfscue
