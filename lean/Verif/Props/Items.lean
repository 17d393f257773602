import Verif.Proof.Bounds
/-!
# C08–C12, C16: item payload accessors
-/

namespace Btrfscue

/-! ## C08: slices with spare capacity

`s[off:]` is bounded by `len`, but the following `[:n]` only by `cap`. -/

/-- C08: a 64-bit accessor returns the eight bytes at its offset, all of them
inside the capacity of the slice, or panics; likewise the narrower ones
(`u16at_eq`, `u32at_eq`, `uuidAt_eq`). -/
theorem C08_accessor_exact (d t : Bytes) (off : Nat) :
    u64at ⟨d, t⟩ off =
      if off ≤ d.length ∧ off + 8 ≤ d.length + t.length then
        .ok (UInt64.ofNat (leNat (((d ++ t).drop off).take 8))) else .panic :=
  u64at_eq d t off

/-- C08: on a slice without spare capacity the value comes from the slice itself,
so appending anything behind it does not change a successful read. -/
theorem C08_accessor_local (d e : Bytes) (off : Nat) (v : UInt64)
    (h : u64at ⟨d, []⟩ off = .ok v) : u64at ⟨d ++ e, []⟩ off = .ok v := by
  rw [u64at_eq] at *
  simp only [List.append_nil, List.length_nil, Nat.add_zero, List.length_append] at *
  split at h
  · rename_i hc
    rw [if_pos (by omega), List.drop_append_of_le_length (by omega),
      List.take_append_of_le_length (by simp; omega)]
    exact h
  · cases h

example : u64at ⟨[1, 0, 0, 0, 0, 0, 0, 0], []⟩ 0 = .ok 1 := by decide

/-- C08 (recorded): with spare capacity an accessor can return bytes from behind
the slice — here three bytes beyond `len`. Index values have no spare capacity. -/
theorem C08_reads_into_spare_capacity :
    u64at ⟨[1, 0, 0, 0, 0], [7, 0, 0]⟩ 0 = .ok (1 + 7 * 2 ^ 40) := by decide

/-! ## C09: names -/

theorem sub_mid (p m rest t : Bytes) (i j : Nat) (hi : p.length = i) (hj : p.length + m.length = j) :
    Slice.sub ⟨p ++ (m ++ rest), t⟩ i j = .ok ⟨m, rest ++ t⟩ := by
  subst hi; subst hj
  simp only [Slice.sub, Slice.cap, Slice.all]
  rw [if_pos (by simp)]
  congr 2
  · rw [List.append_assoc, List.append_assoc, List.take_append, List.take_of_length_le (by omega),
      Nat.add_sub_cancel_left, List.drop_left, List.take_left]
  · rw [List.append_assoc, List.append_assoc, List.drop_append, List.drop_eq_nil_of_le (by omega),
      Nat.add_sub_cancel_left, List.drop_left, List.nil_append]

/-- C09: `Name` of a dir item returns the stored name when the recorded length is
right and at most 255, whatever follows. -/
theorem C09_dir_item_name (f : DirItemRec) (name rest tail : Bytes)
    (hn : f.nameLen.toNat = name.length) (h : name.length ≤ 255) :
    DirItem.name ⟨f.layout ++ (name ++ rest), tail⟩ = .ok name := by
  have hl : DirItem.nameLen ⟨f.layout ++ (name ++ rest), tail⟩ = .ok f.nameLen := by
    simp [DirItemRec.layout, DirItem.nameLen, dirItemNameLen, dirItemDataLen, dirItemTransID]
  simp only [DirItem.name, hl, Go.ok_bind, hn]
  rw [if_neg (by omega), sub_mid f.layout name rest tail]
  · rfl
  · simp [DirItemRec.layout]
  · simp [DirItemRec.layout]

/-- C09: `Name` of an inode ref. -/
theorem C09_inode_ref_name (f : InodeRefItemRec) (name rest tail : Bytes)
    (hn : f.nameLen.toNat = name.length) (h : name.length ≤ 255) :
    InodeRefItem.name ⟨f.layout ++ (name ++ rest), tail⟩ = .ok name := by
  have hl : InodeRefItem.nameLen ⟨f.layout ++ (name ++ rest), tail⟩ = .ok f.nameLen := by
    simp [InodeRefItemRec.layout, InodeRefItem.nameLen, inodeRefItemNameLen]
  simp only [InodeRefItem.name, hl, Go.ok_bind, hn]
  rw [if_neg (by omega), sub_mid f.layout name rest tail]
  · rfl
  · simp [InodeRefItemRec.layout]
  · simp [InodeRefItemRec.layout]

/-- C09: `Name` of a root ref. -/
theorem C09_root_ref_name (f : RootRefRec) (name rest tail : Bytes)
    (hn : f.nameLen.toNat = name.length) (h : name.length ≤ 255) :
    RootRef.name ⟨f.layout ++ (name ++ rest), tail⟩ = .ok name := by
  have hl : RootRef.nameLen ⟨f.layout ++ (name ++ rest), tail⟩ = .ok f.nameLen := by
    simp [RootRefRec.layout, RootRef.nameLen, rootRefNameLen, rootRefSequence]
  simp only [RootRef.name, hl, Go.ok_bind, hn]
  rw [if_neg (by omega), sub_mid f.layout name rest tail]
  · rfl
  · simp [RootRefRec.layout]
  · simp [RootRefRec.layout]

theorem sub_length (s r : Slice) (i j : Nat) (h : s.sub i j = .ok r) : r.data.length = j - i := by
  simp only [Slice.sub] at h
  split at h
  · rename_i hc
    simp only [Go.ok.injEq] at h
    subst h
    have := hc.2
    simp only [Slice.cap] at this
    simp only [List.length_drop, List.length_take]
    omega
  · cases h

theorem name_le (n : Nat) : (if n > 255 then 255 else n) ≤ 255 := by split <;> omega

/-- C09: a name is never longer than 255 bytes, for arbitrary item contents. -/
theorem C09_names_bounded (s : Slice) (n : Bytes) :
    (DirItem.name s = .ok n → n.length ≤ 255) ∧
    (InodeRefItem.name s = .ok n → n.length ≤ 255) ∧
    (RootRef.name s = .ok n → n.length ≤ 255) := by
  refine ⟨?_, ?_, ?_⟩
  · intro h
    simp only [DirItem.name, Go.bind_eq_ok, Go.pure_eq] at h
    obtain ⟨a, -, b, hb, hr⟩ := h
    have := sub_length _ _ _ _ hb
    have h2 := name_le a.toNat
    simp only [Go.ok.injEq] at hr
    subst hr; omega
  · intro h
    simp only [InodeRefItem.name, Go.bind_eq_ok, Go.pure_eq] at h
    obtain ⟨a, -, b, hb, hr⟩ := h
    have := sub_length _ _ _ _ hb
    have h2 := name_le a.toNat
    simp only [Go.ok.injEq] at hr
    subst hr; omega
  · intro h
    simp only [RootRef.name, Go.bind_eq_ok, Go.pure_eq] at h
    obtain ⟨a, -, b, hb, hr⟩ := h
    have := sub_length _ _ _ _ hb
    have h2 := name_le a.toNat
    simp only [Go.ok.injEq] at hr
    subst hr; omega

theorem sub_isOk (b : Bytes) (i j : Nat) : (Slice.sub ⟨b, []⟩ i j).isOk ↔ i ≤ j ∧ j ≤ b.length := by
  simp only [Slice.sub, Slice.cap, Slice.all, List.append_nil]
  split <;> simp_all

/-- C09: on an index value `Name` crashes exactly when the item is too short for
its header or for the recorded name (clipped to 255). -/
theorem C09_dir_item_name_crash_iff (b : Bytes) :
    (DirItem.name ⟨b, []⟩).isOk ↔
      ∃ n, DirItem.nameLen ⟨b, []⟩ = .ok n ∧ 30 + min n.toNat 255 ≤ b.length := by
  simp only [DirItem.name, isOk_bind]
  constructor
  · rintro ⟨n, hn, s, hs, -⟩
    refine ⟨n, hn, ?_⟩
    have := (sub_isOk b _ _).mp (Go.isOk_iff.mpr ⟨s, hs⟩)
    simp only [dirItemName, dirItemType, dirItemNameLen, dirItemDataLen, dirItemTransID,
      dirItemLocation] at this
    split at this <;> omega
  · rintro ⟨n, hn, h⟩
    refine ⟨n, hn, ?_⟩
    have hs := (sub_isOk b dirItemName
      (dirItemName + (if n.toNat > 255 then 255 else n.toNat))).mpr (by
        simp only [dirItemName, dirItemType, dirItemNameLen, dirItemDataLen, dirItemTransID,
          dirItemLocation]
        split <;> omega)
    obtain ⟨s, hs⟩ := Go.isOk_iff.mp hs
    exact ⟨s, hs, rfl⟩

/-- C09: same for root refs (header 18 bytes). -/
theorem C09_root_ref_name_crash_iff (b : Bytes) :
    (RootRef.name ⟨b, []⟩).isOk ↔
      ∃ n, RootRef.nameLen ⟨b, []⟩ = .ok n ∧ 18 + min n.toNat 255 ≤ b.length := by
  simp only [RootRef.name, isOk_bind]
  constructor
  · rintro ⟨n, hn, s, hs, -⟩
    refine ⟨n, hn, ?_⟩
    have := (sub_isOk b _ _).mp (Go.isOk_iff.mpr ⟨s, hs⟩)
    simp only [rootRefName, rootRefNameLen, rootRefSequence, rootRefDirID] at this
    split at this <;> omega
  · rintro ⟨n, hn, h⟩
    refine ⟨n, hn, ?_⟩
    have hs := (sub_isOk b rootRefName
      (rootRefName + (if n.toNat > 255 then 255 else n.toNat))).mpr (by
        simp only [rootRefName, rootRefNameLen, rootRefSequence, rootRefDirID]
        split <;> omega)
    obtain ⟨s, hs⟩ := Go.isOk_iff.mp hs
    exact ⟨s, hs, rfl⟩

/-- C09: same for inode refs (header 10 bytes). -/
theorem C09_inode_ref_name_crash_iff (b : Bytes) :
    (InodeRefItem.name ⟨b, []⟩).isOk ↔
      ∃ n, InodeRefItem.nameLen ⟨b, []⟩ = .ok n ∧ 10 + min n.toNat 255 ≤ b.length := by
  simp only [InodeRefItem.name, isOk_bind]
  constructor
  · rintro ⟨n, hn, s, hs, -⟩
    refine ⟨n, hn, ?_⟩
    have := (sub_isOk b _ _).mp (Go.isOk_iff.mpr ⟨s, hs⟩)
    simp only [inodeRefItemName, inodeRefItemNameLen, inodeRefItemIndex] at this
    split at this <;> omega
  · rintro ⟨n, hn, h⟩
    refine ⟨n, hn, ?_⟩
    have hs := (sub_isOk b inodeRefItemName
      (inodeRefItemName + (if n.toNat > 255 then 255 else n.toNat))).mpr (by
        simp only [inodeRefItemName, inodeRefItemNameLen, inodeRefItemIndex]
        split <;> omega)
    obtain ⟨s, hs⟩ := Go.isOk_iff.mp hs
    exact ⟨s, hs, rfl⟩

/-- C09: a truncated item does crash: recorded length 5, no name bytes. -/
theorem C09_truncated_item_crashes :
    DirItem.name ⟨(DirItemRec.mk ⟨256, 1, 0⟩ 7 0 5 1).layout, []⟩ = .panic := by decide

/-- Hypotheses of the C09 theorems: a dir item "ab". -/
example : ((DirItemRec.mk ⟨257, 1, 0⟩ 7 0 2 1).nameLen.toNat = [97, 98].length) := by decide

/-! ## C10: dir item payload -/

/-- C10 (partial): `Data` of a dir item returns exactly the stored value if header,
name and value together are below 64 KiB. Missing: larger totals, where the code's
16-bit arithmetic wraps (`C10_wraps`). -/
theorem C10_dir_item_data_partial (f : DirItemRec) (name data rest tail : Bytes)
    (hn : f.nameLen.toNat = name.length) (hd : f.dataLen.toNat = data.length)
    (h : 30 + name.length + data.length < 65536) :
    DirItem.data ⟨f.layout ++ (name ++ (data ++ rest)), tail⟩ = .ok data := by
  have hl : DirItem.nameLen ⟨f.layout ++ (name ++ (data ++ rest)), tail⟩ = .ok f.nameLen := by
    simp [DirItemRec.layout, DirItem.nameLen, dirItemNameLen, dirItemDataLen, dirItemTransID]
  have hd' : DirItem.dataLen ⟨f.layout ++ (name ++ (data ++ rest)), tail⟩ = .ok f.dataLen := by
    simp [DirItemRec.layout, DirItem.dataLen, dirItemDataLen, dirItemTransID]
  simp only [DirItem.data, hl, hd', Go.ok_bind, Go.pure_eq]
  have hL : f.layout.length = 30 := by simp [DirItemRec.layout]
  have e1 : (UInt16.ofNat dirItemName + f.nameLen).toNat = 30 + name.length := by
    simp only [dirItemName, dirItemType, dirItemNameLen, dirItemDataLen, dirItemTransID,
      dirItemLocation, UInt16.toNat_add, UInt16.toNat_ofNat']
    omega
  have e2 : (UInt16.ofNat dirItemName + f.nameLen + f.dataLen).toNat =
      30 + name.length + data.length := by
    rw [UInt16.toNat_add, e1]; omega
  rw [e1, e2, ← List.append_assoc, sub_mid (f.layout ++ name) data rest tail]
  · rfl
  · simp [hL]
  · simp [hL]

example : (DirItemRec.mk ⟨0, 0, 0⟩ 7 3 2 8).dataLen.toNat = [1, 2, 3].length ∧
    30 + [97, 98].length + [1, 2, 3].length < 65536 := by decide

/-- C10 (recorded disagreement): with a 100 byte name and a 65500 byte value, both
of which fit the 16-bit size fields, the upper bound wraps to 94 and `Data`
crashes although the item is complete. -/
theorem C10_wraps (d : Bytes) (_hd : d.length = 65500) (name : Bytes)
    (_hn : name.length = 100) :
    DirItem.data ⟨(DirItemRec.mk ⟨0, 0, 0⟩ 7 65500 100 8).layout ++ (name ++ (d ++ [])), []⟩ =
      .panic := by
  have hl : DirItem.nameLen ⟨(DirItemRec.mk ⟨0, 0, 0⟩ 7 65500 100 8).layout ++
      (name ++ (d ++ [])), []⟩ = .ok 100 := by
    simp [DirItemRec.layout, DirItem.nameLen, dirItemNameLen, dirItemDataLen, dirItemTransID]
  have hd' : DirItem.dataLen ⟨(DirItemRec.mk ⟨0, 0, 0⟩ 7 65500 100 8).layout ++
      (name ++ (d ++ [])), []⟩ = .ok 65500 := by
    simp [DirItemRec.layout, DirItem.dataLen, dirItemDataLen, dirItemTransID]
  simp only [DirItem.data, hl, hd', Go.ok_bind, Slice.sub]
  rw [if_neg (fun h => absurd h.1 (by decide))]
  rfl

example : (List.replicate 65500 (0 : UInt8)).length = 65500 ∧
    (List.replicate 100 (0 : UInt8)).length = 100 := by
  simp only [List.length_replicate, and_self]

/-! ## C11: stripes -/

/-- Specification: the stripe array of a chunk item. -/
def stripesLayout (ss : List StripeRec) : Bytes := ss.flatMap StripeRec.layout

theorem stripe_length (s : StripeRec) : s.layout.length = 32 := by simp [StripeRec.layout]

theorem stripesLayout_length (ss : List StripeRec) : (stripesLayout ss).length = 32 * ss.length := by
  induction ss with
  | nil => rfl
  | cons s ss ih =>
    simp only [stripesLayout, List.flatMap_cons, List.length_append, stripe_length,
      List.length_cons] at *
    omega

theorem stripesLayout_drop (ss : List StripeRec) (i : Nat) :
    (stripesLayout ss).drop (32 * i) = stripesLayout (ss.drop i) := by
  induction ss generalizing i with
  | nil => simp [stripesLayout]
  | cons s ss ih =>
    cases i with
    | zero => simp
    | succ i =>
      rw [List.drop_succ_cons, ← ih i]
      simp only [stripesLayout, List.flatMap_cons]
      rw [List.drop_append, List.drop_eq_nil_of_le (by rw [stripe_length]; omega), stripe_length,
        List.nil_append]
      congr 1

/-- C11 (partial): `Stripe(i)` is the i-th stripe, for the first 2047 stripes.
Missing: larger indices, where the 16-bit offset wraps (`C11_wraps`); they cannot
occur in an item of at most 64 KiB. -/
theorem C11_stripe_partial (f : ChunkRec) (ss : List StripeRec) (rest tail : Bytes) (i : UInt16)
    (s : StripeRec) (hi : ss[i.toNat]? = some s) (hb : i.toNat ≤ 2046) :
    ∃ st, Chunk.stripe ⟨f.layout ++ (stripesLayout ss ++ rest), tail⟩ i = .ok st ∧
      Stripe.devID st = .ok s.devID ∧ Stripe.offset st = .ok s.offset ∧
      Stripe.devUUID st = .ok s.devUUID := by
  have hlt : i.toNat < ss.length := by
    rcases Nat.lt_or_ge i.toNat ss.length with h | h
    · exact h
    · rw [List.getElem?_eq_none h] at hi; cases hi
  have e : (UInt16.ofNat chunkStripes + i * UInt16.ofNat stripeEnd).toNat = 48 + 32 * i.toNat := by
    simp only [chunkStripes, chunkSubStripes, chunkNumStripes, chunkSectorSize, chunkIOWidth,
      chunkIOAlign, chunkType, chunkStripeLen, chunkOwner, chunkLength, stripeEnd, stripeDevUUID,
      stripeOffset, stripeDevID, UInt16.toNat_add, UInt16.toNat_mul, UInt16.toNat_ofNat']
    omega
  have hL : f.layout.length = 48 := by simp [ChunkRec.layout]
  have hS := stripesLayout_length ss
  have hd : (f.layout ++ (stripesLayout ss ++ rest)).drop (48 + 32 * i.toNat) =
      s.layout ++ (stripesLayout (ss.drop (i.toNat + 1)) ++ rest) := by
    rw [List.drop_append, List.drop_eq_nil_of_le (by omega), List.nil_append, hL,
      Nat.add_sub_cancel_left, List.drop_append_of_le_length (by omega), stripesLayout_drop]
    have : ss.drop i.toNat = s :: ss.drop (i.toNat + 1) := by
      rw [List.drop_eq_getElem_cons hlt]
      congr 1
      rw [List.getElem?_eq_getElem hlt] at hi
      exact Option.some.inj hi
    rw [this]
    simp [stripesLayout]
  refine ⟨⟨s.layout ++ (stripesLayout (ss.drop (i.toNat + 1)) ++ rest), tail⟩, ?_, ?_, ?_, ?_⟩
  · rw [Chunk.stripe, e, from_eq, if_pos (by simp only [List.length_append]; omega), hd]
  · simp [StripeRec.layout, Stripe.devID]
  · simp [StripeRec.layout, Stripe.offset, stripeOffset]
  · simp [StripeRec.layout, Stripe.devUUID, stripeDevUUID, stripeOffset]

example : ([⟨1, 4096, uuidAllFs⟩, ⟨2, 8192, uuidAllZero⟩] : List StripeRec)[(1 : UInt16).toNat]? =
    some ⟨2, 8192, uuidAllZero⟩ ∧ (1 : UInt16).toNat ≤ 2046 := by
  constructor
  · rfl
  · decide

/-- C11 (recorded disagreement): the offset of stripe 2047 wraps to 16, into the
chunk header, whatever the chunk contains. -/
theorem C11_wraps (c : Chunk) : Chunk.stripe c 2047 = c.from 16 := by
  have : (UInt16.ofNat chunkStripes + 2047 * UInt16.ofNat stripeEnd).toNat = 16 := by decide
  rw [Chunk.stripe, this]

/-! ## C12: inline extents -/

/-- Specification: the header of an inline file extent (the fields up to the type). -/
structure InlineExtentRec where
  generation : UInt64
  ramBytes : UInt64
  compression : UInt8
  encryption : UInt8
  otherEncoding : UInt16

/-- Packed image of an inline extent with its data. -/
def InlineExtentRec.layout (f : InlineExtentRec) : Bytes :=
  le64 f.generation ++ (le64 f.ramBytes ++ ([f.compression] ++ ([f.encryption] ++
    (le16 f.otherEncoding ++ [0]))))

/-- Closed form of the inline accessor. -/
theorem fileExtent_data_eq (s : Slice) : FileExtentItem.data s = (do
    let r ← FileExtentItem.ramBytes s
    if int64OfU64 r < 0 then .panic
    else return (← s.sub 21 (21 + min (int64OfU64 r).toNat 16384)).data) := by
  simp only [FileExtentItem.data]
  congr 1
  funext r
  have hD : ((DefaultBlockSize : Nat) : Int) = 16384 := by decide
  have hE : fileExtentItemDiskByteNr = 21 := by decide
  rw [hD, hE]
  have hl : (if int64OfU64 r > 16384 then (16384 : Int) else int64OfU64 r) =
      min (int64OfU64 r) 16384 := by
    split <;> omega
  rw [hl]
  by_cases h1 : int64OfU64 r < 0
  · rw [if_pos (by omega), if_pos h1]
  · rw [if_neg (by omega), if_neg h1]
    have : (min (int64OfU64 r) 16384).toNat = min (int64OfU64 r).toNat 16384 := by omega
    rw [this]

/-- C12: the inline data is exact. -/
theorem C12_inline_data (f : InlineExtentRec) (data rest tail : Bytes)
    (hr : f.ramBytes.toNat = data.length) (h : data.length ≤ 16384) :
    FileExtentItem.data ⟨f.layout ++ (data ++ rest), tail⟩ = .ok data ∧
    FileExtentItem.isInline ⟨f.layout ++ (data ++ rest), tail⟩ = .ok true := by
  have hram : FileExtentItem.ramBytes ⟨f.layout ++ (data ++ rest), tail⟩ = .ok f.ramBytes := by
    simp [InlineExtentRec.layout, FileExtentItem.ramBytes, fileExtentItemRAMBytes]
  constructor
  · have hi : int64OfU64 f.ramBytes = (data.length : Int) := by
      unfold int64OfU64; rw [if_pos (by omega), hr]
    have hm : min data.length 16384 = data.length := by omega
    simp only [fileExtent_data_eq, hram, Go.ok_bind, hi]
    rw [if_neg (by omega), Int.toNat_natCast, hm, sub_mid f.layout data rest tail]
    · rfl
    · simp [InlineExtentRec.layout]
    · simp [InlineExtentRec.layout]
  · simp [InlineExtentRec.layout, FileExtentItem.isInline, FileExtentItem.typ, fileExtentItemType,
      fileExtentItemOtherEncoding, fileExtentItemEncryption, fileExtentItemCompression,
      fileExtentItemRAMBytes]

/-- C12: never more than `DefaultBlockSize` bytes, for arbitrary item contents. -/
theorem C12_inline_data_bounded (s : Slice) (d : Bytes) (h : FileExtentItem.data s = .ok d) :
    d.length ≤ 16384 := by
  simp only [fileExtent_data_eq, Go.bind_eq_ok] at h
  obtain ⟨n, -, h⟩ := h
  by_cases h1 : int64OfU64 n < 0
  · rw [if_pos h1] at h; cases h
  · rw [if_neg h1] at h
    simp only [Go.bind_eq_ok, Go.pure_eq, Go.ok.injEq] at h
    obtain ⟨r, hr, rfl⟩ := h
    have := sub_length _ _ _ _ hr
    omega

/-- C12 (recorded): a corrupted size of 2^63 or more crashes `Data`, whatever the item holds. -/
theorem C12_negative_size_crashes (f : InlineExtentRec) (rest tail : Bytes)
    (h : 2 ^ 63 ≤ f.ramBytes.toNat) :
    FileExtentItem.data ⟨f.layout ++ rest, tail⟩ = .panic := by
  have hram : FileExtentItem.ramBytes ⟨f.layout ++ rest, tail⟩ = .ok f.ramBytes := by
    simp [InlineExtentRec.layout, FileExtentItem.ramBytes, fileExtentItemRAMBytes]
  have hlt := f.ramBytes.toNat_lt
  have hi : int64OfU64 f.ramBytes = (f.ramBytes.toNat : Int) - 2 ^ 64 := by
    unfold int64OfU64; rw [if_neg (by omega)]
  simp only [fileExtent_data_eq, hram, Go.ok_bind, hi]
  rw [if_pos (by omega)]

example : (InlineExtentRec.mk 5 3 0 0 0).ramBytes.toNat = [1, 2, 3].length := by decide
example : 2 ^ 63 ≤ (InlineExtentRec.mk 5 (~~~0) 0 0 0).ramBytes.toNat := by decide

/-! ## C16: timestamps -/

/-- C16: reading a stored timestamp gives the normalised time. -/
theorem C16_timestamp_normalised (d : DiskTime) (rest tail : Bytes) :
    ∃ t, SliceTimeLE ⟨packTime d ++ rest, tail⟩ = .ok t ∧ IsTime t d := by
  refine ⟨timeUnix (int64OfU64 d.sec) d.nsec.toNat, ?_, timeUnix_isTime d⟩
  have := timeAt_zero d rest tail
  simpa [timeAt] using this

/-- C16: the specification determines the time: two readings of one timestamp agree. -/
theorem C16_isTime_unique (d : DiskTime) (t u : Time) (ht : IsTime t d) (hu : IsTime u d) : t = u := by
  obtain ⟨tu, tn⟩ := t
  obtain ⟨uu, un⟩ := u
  simp only [IsTime] at ht hu
  obtain ⟨h1, h2, h3, k1, h4⟩ := ht
  obtain ⟨g1, g2, g3, k2, g4⟩ := hu
  have : tn = un ∧ tu = uu := by omega
  simp [this.1, this.2]

/-- C16: 1.5 s stored with too many nanoseconds is normalised. -/
example : SliceTimeLE ⟨packTime ⟨0, 1500000000⟩, []⟩ = .ok ⟨1, 500000000⟩ := by decide

end Btrfscue
