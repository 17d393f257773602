import Verif.Props.Items
/-!
# C17–C19: ParseBuffer, CheckDeviceSize, ReadBlockAt
-/

namespace Btrfscue

/-! ## C17 -/

/-- Specification: a field of a packed little-endian record. -/
inductive Field where
  | u8 (v : UInt8)
  | u16 (v : UInt16)
  | u32 (v : UInt32)
  | u64 (v : UInt64)
  | time (t : DiskTime)
  | raw (b : Bytes)

/-- Its packed image. -/
def Field.layout : Field → Bytes
  | .u8 v => [v]
  | .u16 v => le16 v
  | .u32 v => le32 v
  | .u64 v => le64 v
  | .time t => packTime t
  | .raw b => b

/-- "The matching `Next*` call of `b` returns this field and leaves `b'`". -/
def ParseBuffer.yields (b : ParseBuffer) (f : Field) (b' : ParseBuffer) : Prop :=
  match f with
  | .u8 v => b.nextUint8 = .ok (v, b')
  | .u16 v => b.nextUint16 = .ok (v, b')
  | .u32 v => b.nextUint32 = .ok (v, b')
  | .u64 v => b.nextUint64 = .ok (v, b')
  | .time t => ∃ x, b.nextTime = .ok (x, b') ∧ IsTime x t
  | .raw d => ∃ s, b.next d.length = .ok (s, b') ∧ s.data = d

/-- Reading a list of fields one after the other. -/
def ParseBuffer.yieldsAll (b : ParseBuffer) : List Field → ParseBuffer → Prop
  | [], b' => b' = b
  | f :: fs, b' => ∃ b1, b.yields f b1 ∧ b1.yieldsAll fs b'

theorem pb_next (pre m rest tail : Bytes) (b : ParseBuffer) (n : Int)
    (hb : b.buf = ⟨pre ++ (m ++ rest), tail⟩) (ho : b.offset = pre.length) (hn : n = m.length) :
    b.next n = .ok (⟨m, rest ++ tail⟩, { b with offset := b.offset + n }) := by
  subst hn
  simp only [ParseBuffer.next]
  rw [if_neg (by omega), hb, sub_mid pre m rest tail _ _ (by omega) (by omega)]
  rfl

theorem pb_field (pre rest tail : Bytes) (f : Field) (b : ParseBuffer)
    (hb : b.buf = ⟨pre ++ (f.layout ++ rest), tail⟩) (ho : b.offset = pre.length) :
    b.yields f { b with offset := b.offset + f.layout.length } := by
  cases f with
  | u8 v =>
    simp only [ParseBuffer.yields, ParseBuffer.nextUint8]
    rw [pb_next pre [v] rest tail b 1 hb ho rfl]
    rfl
  | u16 v =>
    have h := SliceUint16LE_le16 v [] (rest ++ tail)
    simp only [ParseBuffer.yields, ParseBuffer.nextUint16]
    rw [pb_next pre (le16 v) rest tail b 2 hb ho (by simp)]
    rw [SliceUint16LE, to_prefix _ _ _ _ (by simp)] at h
    simp only [Go.ok_bind, Go.pure_eq, Go.ok.injEq] at h ⊢
    rw [h]; rfl
  | u32 v =>
    have h := SliceUint32LE_le32 v [] (rest ++ tail)
    simp only [ParseBuffer.yields, ParseBuffer.nextUint32]
    rw [pb_next pre (le32 v) rest tail b 4 hb ho (by simp)]
    rw [SliceUint32LE, to_prefix _ _ _ _ (by simp)] at h
    simp only [Go.ok_bind, Go.pure_eq, Go.ok.injEq] at h ⊢
    rw [h]; rfl
  | u64 v =>
    have h := SliceUint64LE_le64 v [] (rest ++ tail)
    simp only [ParseBuffer.yields, ParseBuffer.nextUint64]
    rw [pb_next pre (le64 v) rest tail b 8 hb ho (by simp)]
    rw [SliceUint64LE, to_prefix _ _ _ _ (by simp)] at h
    simp only [Go.ok_bind, Go.pure_eq, Go.ok.injEq] at h ⊢
    rw [h]; rfl
  | time t =>
    simp only [ParseBuffer.yields, ParseBuffer.nextTime]
    refine ⟨timeUnix (int64OfU64 t.sec) t.nsec.toNat, ?_, timeUnix_isTime t⟩
    have h := SliceUint64LE_le64 t.sec [] (le32 t.nsec ++ (rest ++ tail))
    rw [SliceUint64LE, to_prefix _ _ _ _ (by simp)] at h
    have h2 := SliceUint32LE_le32 t.nsec [] (rest ++ tail)
    rw [SliceUint32LE, to_prefix _ _ _ _ (by simp)] at h2
    simp only [Go.ok_bind, Go.pure_eq, Go.ok.injEq] at h h2
    simp only [ParseBuffer.nextUint64, ParseBuffer.nextUint32]
    rw [pb_next pre (le64 t.sec) (le32 t.nsec ++ rest) tail b 8 (by
      rw [hb, Field.layout, packTime]; simp) ho (by simp)]
    simp only [Go.ok_bind, Go.pure_eq]
    rw [pb_next (pre ++ le64 t.sec) (le32 t.nsec) rest tail _ 4 (by
      rw [hb, Field.layout, packTime]; simp) (by simp [ho]) (by simp)]
    simp only [Go.ok_bind, Go.ok.injEq, Prod.mk.injEq]
    rw [h, h2]
    refine ⟨rfl, ?_⟩
    simp only [Field.layout, packTime_length]
    congr 1
    omega
  | raw d =>
    exact ⟨_, pb_next pre d rest tail b _ hb ho rfl, rfl⟩

/-- C17: from any offset inside a buffer that holds a packed record there, the
matching sequence of `Next*` calls returns the fields in order and stops right
behind them; in particular after `Rewind` or `SetOffset`. -/
theorem C17_reads_sequentially (fs : List Field) (pre rest tail : Bytes) (b : ParseBuffer)
    (hb : b.buf = ⟨pre ++ (fs.flatMap Field.layout ++ rest), tail⟩) :
    (b.setOffset pre.length).yieldsAll fs
      ⟨b.buf, pre.length + (fs.flatMap Field.layout).length⟩ := by
  induction fs generalizing pre b with
  | nil => simp [ParseBuffer.yieldsAll, ParseBuffer.setOffset]
  | cons f fs ih =>
    refine ⟨{ b with offset := pre.length + f.layout.length }, ?_, ?_⟩
    · exact pb_field pre (fs.flatMap Field.layout ++ rest) tail f (b.setOffset pre.length)
        (by simp [ParseBuffer.setOffset, hb]) rfl
    · have := ih (pre ++ f.layout) b (by rw [hb]; simp)
      simp only [ParseBuffer.setOffset, List.length_append, List.flatMap_cons] at this ⊢
      rw [show ((pre.length : Int) + (f.layout.length + (fs.flatMap Field.layout).length : Nat)) =
        ((pre.length + f.layout.length : Nat) : Int) + (fs.flatMap Field.layout).length by omega]
      exact this

/-- C17: a new buffer, and a buffer at whatever offset after `Rewind`, yields the record at
the start of the buffer. -/
theorem C17_rewind_restarts (fs : List Field) (rest tail : Bytes) (b : ParseBuffer)
    (hb : b.buf = ⟨fs.flatMap Field.layout ++ rest, tail⟩) :
    b.rewind.yieldsAll fs ⟨b.buf, (fs.flatMap Field.layout).length⟩ ∧
      (ParseBuffer.new b.buf).yieldsAll fs ⟨b.buf, (fs.flatMap Field.layout).length⟩ := by
  have h1 := C17_reads_sequentially fs [] rest tail b hb
  have h2 := C17_reads_sequentially fs [] rest tail (ParseBuffer.new b.buf) hb
  simp only [List.length_nil, Int.natCast_zero, Int.zero_add] at h1 h2
  exact ⟨h1, h2⟩

/-- A buffer read to its end yields its fields again after `Rewind`. -/
example : (⟨⟨[7, 1, 2], []⟩, 3⟩ : ParseBuffer).rewind.yieldsAll [.u8 7, .u16 513] ⟨⟨[7, 1, 2], []⟩, 3⟩ :=
  (C17_rewind_restarts [.u8 7, .u16 513] [] [] ⟨⟨[7, 1, 2], []⟩, 3⟩ rfl).1

/-- C17: after a successful `Next`, offset plus unread bytes is still the length, the
offset advanced by n and the underlying buffer is the same. -/
theorem C17_next_frame (b b' : ParseBuffer) (n : Int) (d : Slice) (h : b.next n = .ok (d, b')) :
    b'.buf = b.buf ∧ b'.offset = b.offset + n ∧ b'.offset + b'.unread = b'.len ∧
      d.data.length = n := by
  simp only [ParseBuffer.next] at h
  split at h
  · cases h
  · rw [Go.bind_eq_ok] at h
    obtain ⟨s, hs, h⟩ := h
    simp only [Go.pure_eq, Go.ok.injEq, Prod.mk.injEq] at h
    obtain ⟨rfl, rfl⟩ := h
    refine ⟨rfl, rfl, by simp only [ParseBuffer.unread, ParseBuffer.len]; omega, ?_⟩
    have hl := sub_length _ _ _ _ hs
    have : (b.offset).toNat ≤ (b.offset + n).toNat := by
      simp only [Slice.sub] at hs
      split at hs
      · rename_i h; exact h.1
      · cases hs
    omega

/-- C17 (partial): on a buffer without spare capacity `Next(n)` panics exactly when
fewer than n bytes are unread (or n or the offset is negative). Missing: buffers
with spare capacity, see `C17_next_reads_past_len`. -/
theorem C17_next_panics_partial (b : ParseBuffer) (n : Int) (hc : b.buf.tail = [])
    (ho : 0 ≤ b.offset) (hn : 0 ≤ n) : b.next n = .panic ↔ b.unread < n := by
  obtain ⟨⟨d, t⟩, o⟩ := b
  simp only at hc ho
  subst hc
  simp only [ParseBuffer.next, ParseBuffer.unread]
  rw [if_neg (by omega)]
  have h := sub_isOk d o.toNat (o + n).toNat
  constructor
  · intro hp
    rw [Go.bind_eq_panic] at hp
    rcases hp with hp | ⟨_, _, hp⟩
    · rw [hp] at h
      simp only [Go.isOk_panic, Bool.false_eq_true, false_iff] at h
      simp only [Slice.len]
      omega
    · cases hp
  · intro hlt
    simp only [Slice.len] at hlt
    have : ¬ (o.toNat ≤ (o + n).toNat ∧ (o + n).toNat ≤ d.length) := by omega
    rw [Slice.sub, if_neg (by
      intro hc
      apply this
      simp only [Slice.cap, Slice.all, List.append_nil] at hc
      exact hc)]
    rfl

example : (ParseBuffer.new ⟨[1, 2, 3], []⟩).buf.tail = [] ∧
    0 ≤ (ParseBuffer.new ⟨[1, 2, 3], []⟩).offset ∧ (0 : Int) ≤ 4 := by decide

/-- C17 (recorded disagreement): with spare capacity `Next(2)` succeeds although only
one byte is unread, against its documentation. -/
theorem C17_next_reads_past_len :
    (ParseBuffer.new ⟨[1], [9]⟩).unread = 1 ∧
    ∃ b', (ParseBuffer.new ⟨[1], [9]⟩).next 2 = .ok (⟨[1, 9], []⟩, b') := by
  exact ⟨rfl, ⟨⟨[1], [9]⟩, 2⟩, rfl⟩

/-! ## C18 -/

/-- C18 (partial): for block sizes below 2^57 `CheckDeviceSize` succeeds exactly for
devices of at least 64 MiB plus 100 blocks, and returns the device size. Missing:
larger block sizes, where the limit wraps (`C18_wraps`). -/
theorem C18_device_size_partial (size bs : UInt64) (hb : bs.toNat < 2 ^ 57) (r : UInt64) :
    CheckDeviceSize (some size) bs = .ok r ↔
      r = size ∧ 64 * 2 ^ 20 + 100 * bs.toNat ≤ size.toNat := by
  have e : (UInt64.ofNat SuperInfoOffset2 + bs * 100).toNat = 67108864 + 100 * bs.toNat := by
    rw [UInt64.toNat_add, UInt64.toNat_mul]
    have : (UInt64.ofNat SuperInfoOffset2).toNat = 67108864 := by decide
    rw [this]
    have : (100 : UInt64).toNat = 100 := by decide
    rw [this]; omega
  simp only [CheckDeviceSize]
  have hA : size < bs ↔ size.toNat < bs.toNat := UInt64.lt_iff_toNat_lt
  have hB : size < UInt64.ofNat SuperInfoOffset2 + bs * 100 ↔
      size.toNat < 67108864 + 100 * bs.toNat := by rw [UInt64.lt_iff_toNat_lt, e]
  by_cases h1 : size < bs
  · rw [if_pos h1]
    have := hA.mp h1
    simp only [reduceCtorEq, false_iff]; omega
  · rw [if_neg h1]
    by_cases h2 : size < UInt64.ofNat SuperInfoOffset2 + bs * 100
    · rw [if_pos h2]
      have := hB.mp h2
      simp only [reduceCtorEq, false_iff]; omega
    · rw [if_neg h2]
      have := mt hB.mpr h2
      simp only [Except.ok.injEq]
      constructor
      · rintro rfl; exact ⟨rfl, by omega⟩
      · rintro ⟨rfl, -⟩; rfl

/-- C18: a failing seek is reported. -/
theorem C18_seek_error (bs : UInt64) : CheckDeviceSize none bs = .error () := rfl

/-- C18: every block that starts below 64 MiB + 99 blocks lies inside an accepted device. -/
theorem C18_blocks_inside (size bs r off : UInt64) (hb : bs.toNat < 2 ^ 57)
    (h : CheckDeviceSize (some size) bs = .ok r)
    (ho : off.toNat ≤ 64 * 2 ^ 20 + 99 * bs.toNat) : off.toNat + bs.toNat ≤ r.toNat := by
  obtain ⟨rfl, h⟩ := (C18_device_size_partial size bs hb r).mp h
  omega

example : (16384 : UInt64).toNat < 2 ^ 57 ∧
    CheckDeviceSize (some 70000000) 16384 = .ok 70000000 := by
  refine ⟨by decide, ?_⟩
  simp only [CheckDeviceSize]
  rw [if_neg (by decide), if_neg (by decide)]

/-- C18 (recorded disagreement): with a block size of 2^62 the limit wraps to 64 MiB
and a device of a single block is accepted. -/
theorem C18_wraps : CheckDeviceSize (some (2 ^ 62)) (2 ^ 62) = .ok (2 ^ 62) := by
  simp only [CheckDeviceSize]
  rw [if_neg (by decide +kernel), if_neg (by decide +kernel)]

/-! ## C19 -/

/-- The `io.ReaderAt` contract: no more bytes than asked for, and an error whenever
there are fewer. -/
def ReaderAt.Lawful (r : ReaderAt) : Prop :=
  ∀ off n, (r off n).1.length ≤ n ∧ ((r off n).1.length < n → (r off n).2 ≠ none)

/-- C19: with a lawful reader, success means the whole block holds what the reader
delivered for that offset. -/
theorem C19_full_block_or_error (r : ReaderAt) (hr : r.Lawful) (block : Bytes) (off : UInt64)
    (h : (ReadBlockAt r block off).2 = none) :
    (ReadBlockAt r block off).1 = (r (int64OfU64 off) block.length).1 ∧
      ((r (int64OfU64 off) block.length).1).length = block.length := by
  obtain ⟨h1, h2⟩ := hr (int64OfU64 off) block.length
  simp only [ReadBlockAt] at h ⊢
  generalize r (int64OfU64 off) block.length = p at *
  obtain ⟨bs, err⟩ := p
  cases err with
  | some e => simp at h
  | none =>
    simp only at *
    have : bs.length = block.length := by
      rcases Nat.lt_or_ge bs.length block.length with hlt | hge
      · exact absurd rfl (h2 hlt)
      · omega
    refine ⟨?_, this⟩
    split <;> exact goCopy_full _ _ this

/-- C19: an error of the reader is passed on. -/
theorem C19_error_reported (r : ReaderAt) (block : Bytes) (off : UInt64) (e : IOErr)
    (h : (r (int64OfU64 off) block.length).2 = some e) :
    (ReadBlockAt r block off).2 = some e := by
  simp only [ReadBlockAt]
  generalize r (int64OfU64 off) block.length = p at *
  obtain ⟨bs, err⟩ := p
  simp only at h
  subst h
  rfl

/-- A lawful reader over the bytes of an image. -/
def imageReader (img : Bytes) : ReaderAt := fun off n =>
  if off < 0 then ([], some .other)
  else
    let d := (img.drop off.toNat).take n
    (d, if d.length < n then some .eof else none)

theorem imageReader_lawful (img : Bytes) : (imageReader img).Lawful := by
  intro off n
  simp only [imageReader]
  split
  · simp
  · simp only [List.length_take, List.length_drop]
    refine ⟨by omega, fun h => ?_⟩
    rw [if_pos h]; simp

example : (ReadBlockAt (imageReader [1, 2, 3, 4]) [0, 0] 1).2 = none := by decide

/-- C19 (recorded disagreement): a lawful reader may return the last full block
together with EOF; then `ReadBlockAt` reports EOF although the read succeeded,
against its comment "Never return EOF if read succeeded". -/
theorem C19_eof_on_full_read : ∃ r : ReaderAt, r.Lawful ∧
    (ReadBlockAt r [0, 0] 0) = ([1, 2], some .eof) ∧ (r 0 2).1.length = 2 := by
  refine ⟨fun _ n => ((List.range n).map fun i => UInt8.ofNat (i + 1), some .eof), ?_, ?_, ?_⟩
  · intro off n; simp
  · decide
  · decide

/-- C19 (recorded disagreement): with a reader that breaks the contract (short read
without error) `ReadBlockAt` reports success although the block is not filled:
the second nil return. -/
theorem C19_short_read_accepted : ∃ r : ReaderAt,
    (ReadBlockAt r [7, 7] 0) = ([1, 7], none) := by
  exact ⟨fun _ _ => ([1], none), by decide⟩

end Btrfscue
