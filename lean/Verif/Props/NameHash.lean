import Verif.Model.NameHash
import Verif.Spec.Crc
/-!
# C15: NameHash is CRC-32C
-/

namespace Btrfscue

/-- One register step without input. -/
def lstep (s : BitVec 32) : BitVec 32 := lfsrBit s false

theorem lfsrBit_xor (s : BitVec 32) (b : Bool) :
    lfsrBit s b = lstep (s ^^^ (if b then 1#32 else 0#32)) := by
  cases b
  · simp [lstep]
  · simp only [lstep, lfsrBit, ↓reduceIte, BitVec.getLsbD_xor]
    have h1 : (1#32).getLsbD 0 = true := by decide
    have h2 : (s ^^^ 1#32) >>> 1 = s >>> 1 := by
      rw [BitVec.ushiftRight_xor_distrib, show (1#32 >>> 1) = 0#32 by decide, BitVec.xor_zero]
    rw [h1, h2]
    simp

theorem lstep_xor (a b : BitVec 32) : lstep (a ^^^ b) = lstep a ^^^ lstep b := by
  simp only [lstep, lfsrBit, BitVec.getLsbD_xor, Bool.xor_false, BitVec.ushiftRight_xor_distrib]
  generalize a >>> 1 = x
  generalize b >>> 1 = y
  generalize 0x82F63B78#32 = p
  cases a.getLsbD 0 <;> cases b.getLsbD 0
  · simp
  · simp only [Bool.xor_true, Bool.not_false, ↓reduceIte, Bool.false_eq_true]; ac_rfl
  · simp only [Bool.xor_false, ↓reduceIte, Bool.false_eq_true]; ac_rfl
  · simp only [Bool.xor_true, Bool.not_true, ↓reduceIte, Bool.false_eq_true]
    rw [show x ^^^ p ^^^ (y ^^^ p) = (x ^^^ y) ^^^ (p ^^^ p) by ac_rfl, BitVec.xor_self, BitVec.xor_zero]

/-- `n` register steps without input. -/
def lsteps : Nat → BitVec 32 → BitVec 32
  | 0, s => s
  | n + 1, s => lsteps n (lstep s)

theorem lsteps_xor (n : Nat) (a b : BitVec 32) : lsteps n (a ^^^ b) = lsteps n a ^^^ lsteps n b := by
  induction n generalizing a b with
  | zero => rfl
  | succ n ih => simp [lsteps, lstep_xor, ih]

theorem lsteps_add (m n : Nat) (s : BitVec 32) : lsteps (m + n) s = lsteps n (lsteps m s) := by
  induction m generalizing s with
  | zero => simp [lsteps]
  | succ m ih => rw [Nat.succ_add]; simp [lsteps, ih]

/-- The top bit of the register after a step is the bit that was shifted out. -/
theorem lstep_top (s : BitVec 32) : (lstep s).getLsbD 31 = s.getLsbD 0 := by
  simp only [lstep, lfsrBit, Bool.xor_false]
  cases h : s.getLsbD 0
  · simp
  · simp only [↓reduceIte, BitVec.getLsbD_xor, BitVec.getLsbD_ushiftRight]
    rw [show (0x82F63B78#32).getLsbD 31 = true by decide]
    simp

theorem lstep_injective {a b : BitVec 32} (h : lstep a = lstep b) : a = b := by
  have h0 : a.getLsbD 0 = b.getLsbD 0 := by rw [← lstep_top a, ← lstep_top b, h]
  have hs : a >>> 1 = b >>> 1 := by
    simp only [lstep, lfsrBit, Bool.xor_false, h0] at h
    cases hb : b.getLsbD 0
    · simp only [hb, Bool.false_eq_true, ↓reduceIte] at h; exact h
    · simp only [hb, ↓reduceIte] at h
      exact (BitVec.xor_left_inj _).mp h
  apply BitVec.eq_of_getLsbD_eq
  intro i hi
  cases i with
  | zero => exact h0
  | succ i =>
    have := congrArg (fun x => x.getLsbD i) hs
    simpa [BitVec.getLsbD_ushiftRight, Nat.add_comm] using this

theorem lsteps_injective (n : Nat) {a b : BitVec 32} (h : lsteps n a = lsteps n b) : a = b := by
  induction n generalizing a b with
  | zero => exact h
  | succ n ih => exact lstep_injective (ih h)

/-- Shifting zeros out below a value costs no feedback. -/
theorem lstep_shl (x : BitVec 32) (h : x.getLsbD 31 = false) : lstep (x <<< 1) = x := by
  have h0 : (x <<< 1).getLsbD 0 = false := by simp
  simp only [lstep, lfsrBit, Bool.xor_false, h0, Bool.false_eq_true, ↓reduceIte]
  apply BitVec.eq_of_getLsbD_eq
  intro i hi
  simp only [BitVec.getLsbD_ushiftRight, BitVec.getLsbD_shiftLeft]
  by_cases h31 : i = 31
  · subst h31; rw [h]; simp
  · have : 1 + i < 32 := by omega
    simp [this]

theorem lsteps_shl (n : Nat) (x : BitVec 32) (h : ∀ i, 32 - n ≤ i → x.getLsbD i = false) :
    lsteps n (x <<< n) = x := by
  induction n generalizing x with
  | zero => simp [lsteps]
  | succ n ih =>
    rw [lsteps, show x <<< (n + 1) = (x <<< n) <<< 1 by rw [← BitVec.shiftLeft_add], lstep_shl]
    · exact ih x (fun i hi => h i (by omega))
    · rw [BitVec.getLsbD_shiftLeft]
      by_cases hn : 31 < n
      · simp [hn]
      · rw [h (31 - n) (by omega)]; simp

/-- A byte as the low bits of a register. -/
def zext (v : UInt8) : BitVec 32 := v.toBitVec.setWidth 32

theorem zext_high (v : UInt8) (i : Nat) (h : 8 ≤ i) : (zext v).getLsbD i = false := by
  simp only [zext, BitVec.getLsbD_setWidth]
  rw [BitVec.getLsbD_of_ge _ _ h]; simp

theorem foldl_lfsrBit_linear (a b : BitVec 32) (bs : List Bool) :
    bs.foldl lfsrBit (a ^^^ b) = lsteps bs.length a ^^^ bs.foldl lfsrBit b := by
  induction bs generalizing a b with
  | nil => simp [lsteps]
  | cons c cs ih =>
    simp only [List.foldl_cons, List.length_cons, lsteps]
    rw [← ih]
    congr 1
    rw [lfsrBit_xor, lfsrBit_xor, BitVec.xor_assoc, lstep_xor]

theorem foldl_byteBits_zero : ∀ n : Fin 256,
    (byteBits (UInt8.ofNat n.val)).foldl lfsrBit 0#32 = lsteps 8 (zext (UInt8.ofNat n.val)) := by
  decide +kernel

/-- Eight bit steps with a byte are eight free steps after adding the byte. -/
theorem lfsr_byte (s : BitVec 32) (v : UInt8) :
    (byteBits v).foldl lfsrBit s = lsteps 8 (s ^^^ zext v) := by
  have h := foldl_lfsrBit_linear s 0#32 (byteBits v)
  rw [BitVec.xor_zero] at h
  rw [h, lsteps_xor]
  have h2 := foldl_byteBits_zero ⟨v.toNat, v.toNat_lt⟩
  simp only [UInt8.ofNat_toNat] at h2
  rw [h2]
  simp [byteBits]

theorem crcTableStep_toBitVec (c : UInt32) : (crcTableStep c).toBitVec = lstep c.toBitVec := by
  have h : (c &&& 1 == 1) = c.toBitVec.getLsbD 0 := by
    rw [Bool.eq_iff_iff, beq_iff_eq]
    constructor
    · intro h
      have := congrArg (fun x : UInt32 => x.toBitVec.getLsbD 0) h
      simpa using this
    · intro h
      apply UInt32.toBitVec_inj.mp
      apply BitVec.eq_of_getLsbD_eq
      intro i hi
      simp only [UInt32.toBitVec_and, BitVec.getLsbD_and]
      rw [show (1 : UInt32).toBitVec = 1#32 from rfl]
      cases i with
      | zero => rw [h]; rfl
      | succ i =>
        have : (1#32).getLsbD (i + 1) = false := by
          simp [BitVec.getLsbD_one]
        simp [this]
  simp only [crcTableStep, lstep, lfsrBit, Bool.xor_false, h]
  split <;> rfl

theorem castagnoliTable_toBitVec (i : UInt8) : (castagnoliTable i).toBitVec = lsteps 8 (zext i) := by
  simp only [castagnoliTable, Function.comp_apply, crcTableStep_toBitVec, lsteps]
  rfl

theorem split_low (c : BitVec 32) : c = (c.setWidth 8).setWidth 32 ^^^ ((c >>> 8) <<< 8) := by
  apply BitVec.eq_of_getLsbD_eq
  intro i hi
  simp only [BitVec.getLsbD_xor, BitVec.getLsbD_setWidth, BitVec.getLsbD_shiftLeft,
    BitVec.getLsbD_ushiftRight]
  by_cases h : i < 8
  · simp [h, hi]
  · rw [show 8 + (i - 8) = i by omega]
    simp [h, hi]

theorem crc_step (c : UInt32) (v : UInt8) :
    (castagnoliTable (c.toUInt8 ^^^ v) ^^^ (c >>> 8)).toBitVec = lsteps 8 (c.toBitVec ^^^ zext v) := by
  rw [UInt32.toBitVec_xor, castagnoliTable_toBitVec]
  have h1 : zext (c.toUInt8 ^^^ v) = (c.toBitVec.setWidth 8).setWidth 32 ^^^ zext v := by
    simp only [zext, UInt8.toBitVec_xor]
    rw [BitVec.setWidth_xor]; rfl
  have h2 : (c >>> 8).toBitVec = lsteps 8 ((c.toBitVec >>> 8) <<< 8) := by
    rw [lsteps_shl]
    · rfl
    · intro i hi
      simp only [BitVec.getLsbD_ushiftRight]
      exact BitVec.getLsbD_of_ge _ _ (by omega)
  rw [h1, h2, ← lsteps_xor]
  congr 1
  conv => rhs; rw [split_low c.toBitVec]
  ac_rfl

/-- C15: the table-driven update is the bit-serial register. -/
theorem crc_fold (c : UInt32) (p : Bytes) :
    (p.foldl (fun (c : UInt32) v => castagnoliTable (c.toUInt8 ^^^ v) ^^^ (c >>> 8)) c).toBitVec =
      lfsr c.toBitVec p := by
  induction p generalizing c with
  | nil => rfl
  | cons v vs ih =>
    simp only [List.foldl_cons, ih, lfsr, List.flatMap_cons, List.foldl_append]
    rw [crc_step, lfsr_byte]

/-- C15: `NameHash` is the CRC-32C register started at 0xFFFFFFFE, without final
inversion. -/
theorem C15_name_hash_is_crc32c (name : Bytes) :
    (NameHash name).toBitVec = lfsr 0xFFFFFFFE#32 name := by
  have : NameHash name =
      name.foldl (fun (c : UInt32) v => castagnoliTable (c.toUInt8 ^^^ v) ^^^ (c >>> 8)) 0xFFFFFFFE := by
    simp [NameHash, crcUpdate]
  rw [this, crc_fold]
  rfl

/-- C15: hashing is incremental. -/
theorem C15_lfsr_append (s : BitVec 32) (a b : Bytes) : lfsr s (a ++ b) = lfsr (lfsr s a) b := by
  simp [lfsr]

theorem lfsr_cons (s : BitVec 32) (v : UInt8) (vs : Bytes) :
    lfsr s (v :: vs) = lfsr (lsteps 8 (s ^^^ zext v)) vs := by
  simp only [lfsr, List.flatMap_cons, List.foldl_append, lfsr_byte]

theorem lfsr_linear (a b : BitVec 32) (p : Bytes) :
    lfsr (a ^^^ b) p = lsteps (8 * p.length) a ^^^ lfsr b p := by
  rw [lfsr, foldl_lfsrBit_linear]
  congr 2
  induction p with
  | nil => rfl
  | cons v vs ih => simp only [List.flatMap_cons, List.length_append, ih, List.length_cons]; simp [byteBits]; omega

/-- The register is a bijection for every fixed message. -/
theorem lfsr_injective (p : Bytes) {a b : BitVec 32} (h : lfsr a p = lfsr b p) : a = b := by
  rw [show a = (a ^^^ b) ^^^ b by rw [BitVec.xor_assoc, BitVec.xor_self, BitVec.xor_zero],
    lfsr_linear] at h
  have h1 : lsteps (8 * p.length) (a ^^^ b) = 0#32 := by
    have := congrArg (· ^^^ lfsr b p) h
    simpa [BitVec.xor_assoc] using this
  have h2 : lsteps (8 * p.length) 0#32 = 0#32 := by
    have := lsteps_xor (8 * p.length) 0#32 0#32
    simpa using this
  have h3 := lsteps_injective _ (h1.trans h2.symm)
  have := congrArg (· ^^^ b) h3
  simpa [BitVec.xor_assoc] using this

/-- Little-endian packing of up to four bytes. -/
def pack : Bytes → BitVec 32
  | [] => 0#32
  | v :: vs => zext v ^^^ (pack vs <<< 8)

theorem pack_high (p : Bytes) (i : Nat) (h : 8 * p.length ≤ i) : (pack p).getLsbD i = false := by
  induction p generalizing i with
  | nil => simp [pack]
  | cons v vs ih =>
    simp only [List.length_cons] at h
    simp only [pack, BitVec.getLsbD_xor, zext_high v i (by omega), BitVec.getLsbD_shiftLeft,
      ih (i - 8) (by omega)]
    simp

theorem lfsr_window (s : BitVec 32) (p : Bytes) (h : p.length ≤ 4) :
    lfsr s p = lsteps (8 * p.length) (s ^^^ pack p) := by
  induction p generalizing s with
  | nil => simp [lfsr, pack, lsteps]
  | cons v vs ih =>
    simp only [List.length_cons] at h
    rw [lfsr_cons, ih _ (by omega), pack, List.length_cons,
      show 8 * (vs.length + 1) = 8 + 8 * vs.length by omega, lsteps_add]
    congr 1
    rw [show s ^^^ (zext v ^^^ pack vs <<< 8) = (s ^^^ zext v) ^^^ (pack vs <<< 8) by ac_rfl,
      lsteps_xor 8 (s ^^^ zext v), lsteps_shl 8 (pack vs)]
    intro i hi
    exact pack_high vs i (by omega)

theorem pack_injective : ∀ (p q : Bytes), p.length = q.length → p.length ≤ 4 → pack p = pack q → p = q
  | [], [], _, _, _ => rfl
  | [], _ :: _, h, _, _ => by simp at h
  | _ :: _, [], h, _, _ => by simp at h
  | v :: vs, w :: ws, hl, h4, h => by
    simp only [List.length_cons] at hl h4
    have hb : ∀ i, i < 32 → ((zext v).getLsbD i ^^ (decide (8 ≤ i) && (pack vs).getLsbD (i - 8))) =
        ((zext w).getLsbD i ^^ (decide (8 ≤ i) && (pack ws).getLsbD (i - 8))) := by
      intro i hi
      have := congrArg (fun x => x.getLsbD i) h
      simp only [pack, BitVec.getLsbD_xor, BitVec.getLsbD_shiftLeft] at this
      by_cases h8 : 8 ≤ i
      · simpa [h8, hi, Nat.not_lt.mpr h8] using this
      · simpa [h8, hi, Nat.lt_of_not_le h8] using this
    have hv : v = w := by
      apply UInt8.toBitVec_inj.mp
      apply BitVec.eq_of_getLsbD_eq
      intro i hi
      have := hb i (by omega)
      have h8 : ¬ 8 ≤ i := by omega
      have h32 : i < 32 := by omega
      simpa [h8, zext, h32] using this
    have hp : pack vs = pack ws := by
      apply BitVec.eq_of_getLsbD_eq
      intro i hi
      by_cases hi24 : i < 24
      · have := hb (i + 8) (by omega)
        simpa [zext_high, hv] using this
      · rw [pack_high vs i (by omega), pack_high ws i (by omega)]
    rw [hv, pack_injective vs ws (by omega) (by omega) hp]

/-- C15: names that differ only inside a window of at most four bytes have
different hashes. -/
theorem C15_no_collision_in_window (p w w' q : Bytes) (hl : w.length = w'.length)
    (h4 : w.length ≤ 4) (hne : w ≠ w') :
    NameHash (p ++ w ++ q) ≠ NameHash (p ++ w' ++ q) := by
  intro h
  have hb := congrArg UInt32.toBitVec h
  rw [C15_name_hash_is_crc32c, C15_name_hash_is_crc32c, C15_lfsr_append, C15_lfsr_append,
    C15_lfsr_append, C15_lfsr_append] at hb
  have h1 := lfsr_injective q hb
  rw [lfsr_window _ w h4, lfsr_window _ w' (by omega), hl] at h1
  have h2 := lsteps_injective _ h1
  have h3 := congrArg (fun x => lfsr 0xFFFFFFFE#32 p ^^^ x) h2
  simp only [← BitVec.xor_assoc, BitVec.xor_self, BitVec.zero_xor] at h3
  exact hne (pack_injective w w' hl h4 h3)

/-- C15: in particular names that differ in exactly one byte. -/
theorem C15_no_collision_one_byte (p q : Bytes) (a b : UInt8) (hne : a ≠ b) :
    NameHash (p ++ [a] ++ q) ≠ NameHash (p ++ [b] ++ q) :=
  C15_no_collision_in_window p [a] [b] q rfl (by simp) (by simpa using hne)

/-- The CRC-32C check value: "123456789" hashes to 0xE3069283 with start value
and final inversion of the standard CRC; this pins the specification. -/
example : ~~~(lfsr 0xFFFFFFFF#32 [49, 50, 51, 52, 53, 54, 55, 56, 57]) = 0xE3069283#32 := by
  decide +kernel

/-- The empty name hashes to the start value. -/
example : NameHash [] = 0xFFFFFFFE := by decide

end Btrfscue
