import Verif.Props.Items
import Verif.Props.Readers
import Verif.Props.IndexLookup
import Verif.Props.IndexDB
import Verif.Props.Ranges
import Verif.Props.RangeExact
import Verif.Props.RescueFile
import Verif.Spec.InFlight
/-!
# What the code does where a property fails: exact forms of C10, C11, C18, C21, C24, C29, C30, C34, C35, C51
-/

namespace Btrfscue

/-! ## C10 -/

/-- C10, for every complete directory item, exactly: the place of the value is computed modulo
2^16. `Data` returns as many bytes as the value has from there, unless they would reach beyond
2^16, when it crashes. -/
theorem C10_data_exact (f : DirItemRec) (name data rest tail : Bytes)
    (hn : f.nameLen.toNat = name.length) (hd : f.dataLen.toNat = data.length) :
    DirItem.data ⟨f.layout ++ (name ++ (data ++ rest)), tail⟩ =
      if (30 + name.length) % 65536 + data.length < 65536 then
        .ok (((f.layout ++ (name ++ (data ++ rest))).drop ((30 + name.length) % 65536)).take data.length)
      else .panic := by
  have hl : DirItem.nameLen ⟨f.layout ++ (name ++ (data ++ rest)), tail⟩ = .ok f.nameLen := by
    simp [DirItemRec.layout, DirItem.nameLen, dirItemNameLen, dirItemDataLen, dirItemTransID]
  have hd' : DirItem.dataLen ⟨f.layout ++ (name ++ (data ++ rest)), tail⟩ = .ok f.dataLen := by
    simp [DirItemRec.layout, DirItem.dataLen, dirItemDataLen, dirItemTransID]
  simp only [DirItem.data, hl, hd', Go.ok_bind, Go.pure_eq]
  have hL : f.layout.length = 30 := by simp [DirItemRec.layout]
  have hlen : (f.layout ++ (name ++ (data ++ rest))).length = 30 + name.length + data.length + rest.length := by
    simp only [List.length_append, hL]; omega
  have e1 : (UInt16.ofNat dirItemName + f.nameLen).toNat = (30 + name.length) % 65536 := by
    simp only [dirItemName, dirItemType, dirItemNameLen, dirItemDataLen, dirItemTransID,
      dirItemLocation, UInt16.toNat_add, UInt16.toNat_ofNat']
    omega
  have e2 : (UInt16.ofNat dirItemName + f.nameLen + f.dataLen).toNat =
      ((30 + name.length) % 65536 + data.length) % 65536 := by
    rw [UInt16.toNat_add, e1]; omega
  have hdl := f.dataLen.toNat_lt
  rw [e1, e2]
  by_cases hc : (30 + name.length) % 65536 + data.length < 65536
  · rw [if_pos hc, Nat.mod_eq_of_lt hc]
    unfold Slice.sub
    rw [if_pos ⟨by omega, by simp only [Slice.all, List.length_append] at hlen ⊢; omega⟩]
    simp only [Go.ok_bind, Go.ok.injEq, Slice.all]
    rw [List.take_append_of_le_length (by omega), List.drop_take, Nat.add_sub_cancel_left]
  · rw [if_neg hc]
    unfold Slice.sub
    rw [if_neg (fun h => by have := h.1; omega)]
    rfl

/-- C10: with a name of fewer than 65506 bytes (they have at most 255) the value is returned or
the program crashes, and it crashes exactly if header, name and value have 2^16 bytes or more. -/
theorem C10_crash_iff (f : DirItemRec) (name data rest tail : Bytes)
    (hn : f.nameLen.toNat = name.length) (hd : f.dataLen.toNat = data.length) (hs : name.length < 65506) :
    (DirItem.data ⟨f.layout ++ (name ++ (data ++ rest)), tail⟩ = .panic ↔
      65536 ≤ 30 + name.length + data.length) ∧
    (DirItem.data ⟨f.layout ++ (name ++ (data ++ rest)), tail⟩ = .ok data ↔
      30 + name.length + data.length < 65536) := by
  have h := C10_data_exact f name data rest tail hn hd
  rw [Nat.mod_eq_of_lt (by omega)] at h
  by_cases hc : 30 + name.length + data.length < 65536
  · rw [C10_dir_item_data_partial f name data rest tail hn hd hc]
    simp only [reduceCtorEq, false_iff, true_iff]
    omega
  · rw [h, if_neg hc]
    simp only [reduceCtorEq, false_iff, true_iff]
    omega

example : ∃ name data : Bytes, (DirItemRec.mk ⟨0, 0, 0⟩ 7 65500 100 8).nameLen.toNat = name.length ∧
    (DirItemRec.mk ⟨0, 0, 0⟩ 7 65500 100 8).dataLen.toNat = data.length ∧ name.length < 65506 ∧
    65536 ≤ 30 + name.length + data.length :=
  ⟨List.replicate 100 0, List.replicate 65500 0, by rw [List.length_replicate]; decide,
    by rw [List.length_replicate]; decide, by rw [List.length_replicate]; decide, by
    rw [List.length_replicate, List.length_replicate]; decide⟩

/-! ## C11 -/

/-- C11, exactly, for every index: stripe numbers count modulo 2048, and number 2047 lies 32
bytes before the first stripe. So the stripes a chunk with more than 2046 of them stores last are
unreachable. -/
theorem C11_stripe_exact (c : Chunk) (i : UInt16) :
    Chunk.stripe c i = c.from (if i.toNat % 2048 = 2047 then 16 else 48 + 32 * (i.toNat % 2048)) := by
  rw [Chunk.stripe]
  congr 1
  simp only [chunkStripes, chunkSubStripes, chunkNumStripes, chunkSectorSize, chunkIOWidth,
    chunkIOAlign, chunkType, chunkStripeLen, chunkOwner, chunkLength, stripeEnd, stripeDevUUID,
    stripeOffset, stripeDevID, UInt16.toNat_add, UInt16.toNat_mul, UInt16.toNat_ofNat']
  have := i.toNat_lt
  by_cases h : i.toNat % 2048 = 2047
  · rw [if_pos h]; omega
  · rw [if_neg h]; omega

/-! ## C18 -/

/-- C18, exactly, for every block size: accepted are devices of at least one block and at least
64 MiB plus 100 blocks modulo 2^64, and the size returned is the device's. -/
theorem C18_accepts_iff (size bs r : UInt64) :
    CheckDeviceSize (some size) bs = .ok r ↔
      r = size ∧ bs.toNat ≤ size.toNat ∧ (64 * 2 ^ 20 + 100 * bs.toNat) % 2 ^ 64 ≤ size.toNat := by
  have e : (UInt64.ofNat SuperInfoOffset2 + bs * 100).toNat = (67108864 + 100 * bs.toNat) % 2 ^ 64 := by
    rw [UInt64.toNat_add, UInt64.toNat_mul]
    have : (UInt64.ofNat SuperInfoOffset2).toNat = 67108864 := by decide
    rw [this]
    have : (100 : UInt64).toNat = 100 := by decide
    rw [this]; omega
  simp only [CheckDeviceSize]
  have hA : size < bs ↔ size.toNat < bs.toNat := UInt64.lt_iff_toNat_lt
  have hB : size < UInt64.ofNat SuperInfoOffset2 + bs * 100 ↔
      size.toNat < (67108864 + 100 * bs.toNat) % 2 ^ 64 := by rw [UInt64.lt_iff_toNat_lt, e]
  by_cases h1 : size < bs
  · rw [if_pos h1]
    have := hA.mp h1
    simp only [reduceCtorEq, false_iff]; omega
  · rw [if_neg h1]
    have h1' := mt hA.mpr h1
    by_cases h2 : size < UInt64.ofNat SuperInfoOffset2 + bs * 100
    · rw [if_pos h2]
      have := hB.mp h2
      simp only [reduceCtorEq, false_iff]; omega
    · rw [if_neg h2]
      have := mt hB.mpr h2
      simp only [Except.ok.injEq]
      constructor
      · rintro rfl; exact ⟨rfl, by omega, by omega⟩
      · rintro ⟨rfl, -⟩; rfl

example : CheckDeviceSize (some 70000000) 16384 = .ok 70000000 :=
  (C18_accepts_iff _ _ _).mpr ⟨rfl, by decide, by decide⟩

/-! ## C21 -/

/-- C21, exactly: the version the code picks is the documented one if and only if the index
generation is stored, or no stored generation is above it, or none is below it. -/
theorem C21_documented_iff (b : Bucket) (G owner : UInt64) (k : Key) (g : UInt64)
    (h : b.actualChoice owner k G g) :
    b.documentedChoice owner k G g ↔
      b.hasVersion owner k G ∨ (∀ g', b.hasVersion owner k g' → g' ≤ G) ∨ ∀ g', b.hasVersion owner k g' → G ≤ g' := by
  constructor
  · rintro ⟨-, hd⟩
    obtain ⟨h1, h2⟩ := h
    simp only [UInt64.le_iff_toNat_le, UInt64.lt_iff_toNat_lt] at *
    rcases hd with ⟨h3, h4⟩ | ⟨h3, h4⟩
    · rcases h2 with ⟨h5, h6⟩ | ⟨h5, h6⟩
      · left
        have : g = G := by rw [← UInt64.toNat_inj]; omega
        exact this ▸ h1
      · right; left
        intro g' hg'; have := h5 g' hg'; omega
    · right; right
      intro g' hg'; have := h3 g' hg'; omega
  · rintro (hc | hc | hc)
    · exact C21_documented_when_exact_or_newest b G owner k g h (.inl hc)
    · exact C21_documented_when_exact_or_newest b G owner k g h (.inr hc)
    · by_cases hv : b.hasVersion owner k G
      · exact C21_documented_when_exact_or_newest b G owner k g h (.inl hv)
      obtain ⟨h1, h2⟩ := h
      have hlt : ∀ g', b.hasVersion owner k g' → G < g' := by
        intro g' hg'
        have h3 := hc g' hg'
        have h4 : G ≠ g' := fun he => hv (he ▸ hg')
        rw [Ne, ← UInt64.toNat_inj] at h4
        rw [UInt64.le_iff_toNat_le] at h3
        rw [UInt64.lt_iff_toNat_lt]; omega
      refine ⟨h1, .inr ⟨hlt, fun g' hg' => ?_⟩⟩
      rcases h2 with ⟨-, h4⟩ | ⟨h4, -⟩
      · exact h4 g' hg' (hc g' hg')
      · have h5 := h4 g h1
        have h6 := hlt g h1
        rw [UInt64.lt_iff_toNat_lt] at h5 h6
        omega

example : exTwoGens.enc.actualChoice 5 ⟨256, 1, 0⟩ 15 20 := by
  have hv : ∀ g', exTwoGens.enc.hasVersion 5 ⟨256, 1, 0⟩ g' → g' = 10 ∨ g' = 20 := by
    intro g' h
    obtain ⟨x, h⟩ := enc_hasVersion.mp h
    simp only [exTwoGens, metadataVersionKey, List.mem_cons, Prod.mk.injEq, VKey.mk.injEq, true_and, List.not_mem_nil, or_false] at h
    rcases h with ⟨h, -⟩ | ⟨h, -⟩ | ⟨⟨h, -⟩, -⟩
    · exact .inl h
    · exact .inr h
    · exact absurd h (by decide)
  refine ⟨enc_hasVersion.mpr ⟨[2], by simp [exTwoGens]⟩, .inl ⟨by decide, fun g' h h' => ?_⟩⟩
  rcases hv g' h with rfl | rfl
  · exact absurd h' (by decide)
  · decide

/-! ## C24 -/

/-- C24, exactly, for every history: the metadata value in the closed file is the one inserted
last under the metadata key, and the one written at creation if there is none. -/
theorem C24_metadata_exact (f : DBFile) (hf : f.fresh) (o : Options)
    (hro : o.readOnly = false) (ops : List IxOp) :
    ∃ b, writeSession f o ops = .ok (.db (some b), none) ∧
      ∀ x, b.stores metadataVersionKey x ↔ x = (lastValue ops metadataVersionKey).getD (newIndexMetadata o) := by
  refine ⟨_, writeSession_fresh hf o hro ops, fun x => ?_⟩
  rw [enc_stores, AStore.mem_apply (AStore.init_sorted o)]
  cases h : lastValue ops metadataVersionKey with
  | none => simp [AStore.init]
  | some y => simp [eq_comm]

/-! ## C29 -/

theorem Index.Inv.insert_bucket {ix : Index} {l d : AStore} {n : Nat} (h : ix.Inv l d n) (i : Ins) {ix' : Index}
    (hi : ix.insertItem i.key i.h i.item i.data = .ok (ix', none)) (hn : n ≤ 10000) :
    ix'.bucketSet = decide (n ≠ 10000) := by
  obtain ⟨ix3, he, ⟨r1, -, r3, -, -, -⟩, hv, -⟩ := h.ensure
  have hb3 : ix3.bucketSet = true := by
    cases hb : ix3.bucketSet with
    | true => rfl
    | false => simp [Index.view, hb] at hv
  simp only [Index.insertItem, he, itemValue_eq _ _ i.item_len, i.owner_ok, i.gen_ok, hv, Go.ok_bind, r3] at hi
  by_cases hc : n = 10000
  · rw [if_pos (by omega)] at hi
    simp only [Go.pure_eq, Go.ok.injEq, Index.commit, if_true, Prod.mk.injEq, and_true] at hi
    rw [← hi]; simp [hc]
  · rw [if_neg (by omega)] at hi
    simp only [Go.pure_eq, Go.ok.injEq, Prod.mk.injEq, and_true] at hi
    rw [← hi]
    simp [hb3, hc]

theorem Index.Inv.run_bucket (ops : List IxOp) : ∀ {ix ix' : Index} {l d : AStore} {n : Nat}, ix.Inv l d n → n ≤ 10000 →
    ix.run ops = .ok (ix', none) → ops ≠ [] → ix'.bucketSet = decide (pendingAfter n ops ≠ 0) := by
  induction ops with
  | nil => intro _ _ _ _ _ _ _ _ h; exact absurd rfl h
  | cons op r ih =>
    intro ix ix' l d n hinv hn hrun _
    have hnil : ∀ {jx : Index} {n' : Nat} {l' d' : AStore}, jx.Inv l' d' n' → n' ≤ 10000 → jx.run r = .ok (ix', none) →
        jx.bucketSet = decide (n' ≠ 0) → ix'.bucketSet = decide (pendingAfter n' r ≠ 0) := by
      intro jx n' l' d' hj hn' hr hb
      cases r with
      | nil =>
        simp only [Index.run, Go.ok.injEq, Prod.mk.injEq, and_true] at hr
        rw [← hr]; exact hb
      | cons a r => exact ih hj hn' hr (by simp)
    cases op with
    | commit =>
      obtain ⟨ix1, hc, hi, -⟩ := hinv.commit
      simp only [Index.run, Index.step, hc, Go.ok_bind] at hrun
      refine hnil hi (Nat.zero_le _) hrun ?_
      have := hi.2.2.2.2.2
      rcases this with ⟨-, -, -, hb⟩ | ⟨ht, -⟩
      · rw [hb]; rfl
      · exfalso
        obtain ⟨-, -, -, -, -, h6⟩ := hinv
        rcases h6 with ⟨ht', -⟩ | ⟨ht', -⟩ <;> simp [Index.commit, ht'] at hc
        · rw [← hc, ht'] at ht; cases ht
        · rw [← hc] at ht; cases ht
    | insert i =>
      obtain ⟨ix1, hc, hi, -⟩ := hinv.insert i
      simp only [Index.run, Index.step, hc, Go.ok_bind] at hrun
      have hb := hinv.insert_bucket i hc hn
      have e : (if n + 1 > 10000 then 0 else n + 1) = if n = 10000 then 0 else n + 1 := by
        by_cases h : n = 10000
        · rw [if_pos h, if_pos (by omega)]
        · rw [if_neg h, if_neg (by omega)]
      rw [e] at hi
      refine hnil hi ?_ hrun ?_
      · by_cases h : n = 10000
        · rw [if_pos h]; omega
        · rw [if_neg h]; omega
      · rw [hb]
        by_cases h : n = 10000
        · simp [h]
        · simp [h]

/-- C29, exactly: after any history of inserts and commits on a fresh index, lookups crash if and
only if something was done and no insert is pending; otherwise they see the whole history. -/
theorem C29_lookup_exact (f : DBFile) (hf : f.fresh) (o : Options) (hro : o.readOnly = false) (ops : List IxOp) :
    ∃ f1 ix ix', Open f o = .ok (f1, .ok ix) ∧ ix.run ops = .ok (ix', none) ∧
      (ops ≠ [] ∧ pendingAfter 0 ops = 0 → ∀ owner k, ix'.findItem owner k = .panic) ∧
      (¬ (ops ≠ [] ∧ pendingAfter 0 ops = 0) →
        ∃ b, (DBFile.db (some b)).holds o ops ∧ ∀ owner k, ix'.findItem owner k = (Ix.mk b o.generation).findItem owner k) := by
  obtain ⟨f1, ix, ix', p, s, h1, h2, h3, h4, h5, h6, hg⟩ := run_fresh hf o hro ops
  refine ⟨f1, ix, ix', h1, h2, ?_, ?_⟩
  · rintro ⟨hne, hp⟩ owner k
    obtain ⟨jx, k1, k2, -⟩ := open_fresh o hro f hf
    rw [h1] at k1
    simp only [Go.ok.injEq, Prod.mk.injEq, Except.ok.injEq] at k1
    obtain ⟨-, rfl⟩ := k1
    have := k2.run_bucket ops (Nat.zero_le _) h2 hne
    rw [hp] at this
    simp only [Index.findItem, Index.view, this]
    rfl
  · intro hno
    have hb : ix'.bucketSet = true := by
      obtain ⟨jx, k1, k2, -⟩ := open_fresh o hro f hf
      rw [h1] at k1
      simp only [Go.ok.injEq, Prod.mk.injEq, Except.ok.injEq] at k1
      obtain ⟨rfl, rfl⟩ := k1
      by_cases hne : ops = []
      · subst hne
        simp only [Index.run, Go.ok.injEq, Prod.mk.injEq, and_true] at h2
        subst h2
        have hc : ∀ b, b = none ∨ b = some [] →
            checkUpdateMetadata o b = .ok (.ok [(metadataKey, newIndexMetadata o)]) := by
          rintro b (rfl | rfl) <;> simp [checkUpdateMetadata, hro, Bucket.get, Bucket.put]
        have hop : ∃ b, (b = none ∨ b = some []) ∧ Open f o = openIndex.openDB o b := by
          rcases hf with rfl | rfl | rfl
          · exact ⟨none, .inl rfl, by simp only [Open, openIndex, hro]; rfl⟩
          · exact ⟨none, .inl rfl, rfl⟩
          · exact ⟨_, .inr rfl, rfl⟩
        obtain ⟨b, hb, hop⟩ := hop
        rw [hop, openDB_rw hro (hc b hb)] at h1
        simp only [Go.ok.injEq, Prod.mk.injEq, Except.ok.injEq, true_and] at h1
        rw [← h1]
      · have := k2.run_bucket ops (Nat.zero_le _) h2 hne
        rw [this, decide_eq_true_eq]
        exact fun h => hno ⟨hne, h⟩
    obtain ⟨-, -, -, -, -, h7⟩ := h4
    rcases h7 with ⟨-, -, -, h8⟩ | ⟨h8, -⟩
    · rw [hb] at h8; cases h8
    · refine ⟨_, holds_enc o ops, fun owner k => ?_⟩
      simp only [Index.findItem, Index.view, hb, h8, if_true, hg, Go.ok_bind]

example : pendingAfter 0 [.insert (exIns 5 10 ⟨256, 1, 0⟩ [1]), .commit] = 0 ∧
    pendingAfter 0 [.commit, .insert (exIns 5 10 ⟨256, 1, 0⟩ [1])] = 1 := by decide

/-! ## C30 -/

/-- C30 refuted for every failing function and after every history: closing the index makes
durable whatever the function had done to the index when it reported its failure. -/
theorem C30_failure_is_durable (f : DBFile) (hf : f.fresh) (o : Options) (hro : o.readOnly = false)
    (ops : List IxOp) (fn : Bucket → Bucket × Option IxErr) :
    ∃ f1 ix ix' ix'' b, Open f o = .ok (f1, .ok ix) ∧ ix.run ops = .ok (ix', none) ∧
      (DBFile.db (some b)).holds o ops ∧ ix'.rawTx fn = .ok (ix'', (fn b).2) ∧
      ix''.close = .ok (.db (some (fn b).1)) := by
  obtain ⟨f1, ix, ix', p, s, h1, h2, h3, h4, h5, h6, hg⟩ := run_fresh hf o hro ops
  obtain ⟨ix1, h7, h8, h9, h10⟩ := h4.ensure
  cases hfn : (fn ((AStore.init o).apply ops).enc).2 with
  | some e =>
    refine ⟨f1, ix, ix', { ix1 with tx := some ⟨true, some (fn ((AStore.init o).apply ops).enc).1⟩ },
      _, h1, h2, holds_enc o ops, ?_, ?_⟩
    · simp only [Index.rawTx, h7, h9, Go.ok_bind, hfn, Go.pure_eq]
    · simp [Index.close, h8.1, Index.commit]
  | none =>
    refine ⟨f1, ix, ix', Index.mk ix1.readOnly (some (fn ((AStore.init o).apply ops).enc).1) none
      false 0 ix1.generation, _, h1, h2, holds_enc o ops, ?_, ?_⟩
    · simp only [Index.rawTx, h7, h9, Go.ok_bind, hfn, Go.pure_eq, Index.commit, if_true]
    · simp [Index.close, h8.1, Index.commit]

/-! ## C34 -/

/-- The payload read from the index metadata when it is taken for an item. -/
theorem metadata_as_item (o : Options) :
    Item.data ⟨newIndexMetadata o, []⟩ =
      if leNat ((o.fsid.val.drop 9).take 4) ≤ 11 then
        .ok ⟨((newIndexMetadata o).drop 25).take (leNat ((o.fsid.val.drop 9).take 4)),
          (newIndexMetadata o).drop (25 + leNat ((o.fsid.val.drop 9).take 4))⟩
      else .panic := by
  have hl : (o.fsid.val).length = 16 := o.fsid.property
  have hlt := leNat_lt ((o.fsid.val.drop 9).take 4)
  have h4 : ((o.fsid.val.drop 9).take 4).length = 4 := by simp only [List.length_take, List.length_drop, hl]; decide
  rw [h4] at hlt
  have hlen : (newIndexMetadata o).length = 36 := by
    rw [newIndexMetadata_eq]
    simp only [List.length_append, le64_length, le32_length, hl]
  have hs : Item.size ⟨newIndexMetadata o, []⟩ = .ok (UInt32.ofNat (leNat ((o.fsid.val.drop 9).take 4))) := by
    rw [newIndexMetadata_eq]
    rw [Item.size, u32at_skip _ _ _ _ (by rw [le64_length]; decide), u32at_skip _ _ _ _ (by rw [le64_length, le32_length]; decide), u32at_eq, le64_length, le32_length]
    rw [if_pos (by simp only [List.length_append, le64_length, hl, List.length_nil]; decide)]
    rw [List.append_nil, show itemSize - 8 - 4 = 9 from rfl, List.drop_append_of_le_length (by omega),
      List.take_append_of_le_length (by simp only [List.length_drop]; omega)]
  generalize leNat ((o.fsid.val.drop 9).take 4) = n at *
  have hI : ItemLen = 25 := rfl
  have he : (UInt32.ofNat 25 + UInt32.ofNat n).toNat = (25 + n) % 2 ^ 32 := by
    rw [UInt32.toNat_add, UInt32.toNat_ofNat', UInt32.toNat_ofNat']; omega
  have hall : (Slice.all ⟨newIndexMetadata o, []⟩) = newIndexMetadata o := by simp [Slice.all]
  have hcap : (Slice.cap ⟨newIndexMetadata o, []⟩) = 36 := by simp [Slice.cap, hlen]
  simp only [Item.data, hs, Go.ok_bind, Slice.sub, hI]
  rw [hall, hcap, he]
  by_cases hc : n ≤ 11
  · rw [if_pos hc, Nat.mod_eq_of_lt (by omega), if_pos ⟨by omega, by omega⟩, List.drop_take, Nat.add_sub_cancel_left]
  · rw [if_neg hc, if_neg]
    rintro ⟨h1, h2⟩
    omega

/-- C34, exactly, for an index without items: bytes 9 to 12 of the file system id are taken for
the length of an item, and iterating `FullRange` crashes if and only if they say more than 11;
otherwise the metadata entry is visited as if it were an item. -/
theorem C34_empty_exact (o : Options) (fuel : Nat) (hf : 2 ≤ fuel) :
    fullRangeItems fuel ⟨[(metadataVersionKey.encode, newIndexMetadata o)], ~~~0⟩ =
      if leNat ((o.fsid.val.drop 9).take 4) ≤ 11 then
        .ok [(metadataVersionKey.encode, ((newIndexMetadata o).drop 25).take (leNat ((o.fsid.val.drop 9).take 4)))]
      else .panic := by
  obtain ⟨f, rfl⟩ : ∃ f, fuel = f + 2 := ⟨fuel - 2, by omega⟩
  have hfr : (Ix.mk [(metadataVersionKey.encode, newIndexMetadata o)] (~~~0)).fullRange = do
      let d ← Item.data ⟨newIndexMetadata o, []⟩
      return (FullRange.at [(metadataVersionKey.encode, newIndexMetadata o)] metadataVersionKey.encode 0
        (metadataVersionKey.encode, newIndexMetadata o), d) := rfl
  simp only [fullRangeItems, hfr, metadata_as_item]
  by_cases hc : leNat ((o.fsid.val.drop 9).take 4) ≤ 11
  · rw [if_pos hc, if_pos hc]
    obtain ⟨f', h3, h4⟩ := fnext_none (b := [(metadataVersionKey.encode, newIndexMetadata o)]) (E := metadataVersionKey.encode) (i := 0)
      (e := (metadataVersionKey.encode, newIndexMetadata o)) (by simp)
    simp only [Go.ok_bind, Go.pure_eq, FullRange.collect,
      fat_hasNext (y := (metadataVersionKey.encode, newIndexMetadata o)) (E := metadataVersionKey) rfl (Nat.le_refl _), if_true, h3, h4,
      Bool.false_eq_true, if_false]
    rfl
  · rw [if_neg hc, if_neg hc]; rfl

example : leNat ((uuidAllZero.val.drop 9).take 4) ≤ 11 ∧ ¬ leNat ((uuidAllFs.val.drop 9).take 4) ≤ 11 := by decide

/-! ## C35 -/

/-- C35, exactly, whatever the generations: `Subvolumes` yields nothing without a root item of
subvolume 256. Otherwise it follows the newest generation `g0` of the first one: it yields the
root items of that generation up to the first root item, of any subvolume, that has no version
of it. -/
theorem C35_listed_exact (b : Bucket) (hb : b.WF) (m : Bytes)
    (hm : b.stores metadataVersionKey m) (hok : b.RangeOK 1 (KL2 132 LastFreeObjectID)) :
    ∃ N items, (∀ fuel, N ≤ fuel → subvolumeItems fuel ⟨b, ~~~0⟩ = .ok items) ∧
      (((∀ off, ¬ b.hasKey 1 ⟨256, 132, off⟩) ∧ items = []) ∨
       ∃ off0 g0, b.newest 1 ⟨256, 132, off0⟩ g0 ∧ (∀ off, b.hasKey 1 ⟨256, 132, off⟩ → off0 ≤ off) ∧
        ∀ ik d, (ik, d) ∈ items ↔ ∃ id off x, ik = (VKey.mk 1 ⟨id, 132, off⟩ g0).encode ∧
          b.stores ⟨1, ⟨id, 132, off⟩, g0⟩ x ∧ holdsItem x d ∧ 256 ≤ id ∧ id ≤ LastFreeObjectID ∧
          ∀ id' off', b.hasKey 1 ⟨id', 132, off'⟩ → 256 ≤ id' → (id' < id ∨ id' = id ∧ off' ≤ off) →
            b.hasVersion 1 ⟨id', 132, off'⟩ g0) := by
  obtain ⟨N, items, h1, -, h3⟩ := rangeItems_spec hb (first := KF 132 256) ⟨m, hm⟩ hok (~~~0)
  refine ⟨N, items, h1, ?_⟩
  rcases h3 with ⟨h4, h5⟩ | ⟨k0, g0, h4, h5, h6⟩
  · exact .inl ⟨fun off hk => h4 _ hk ⟨rfl, rfl⟩, h5⟩
  · right
    obtain ⟨ko, kt, kf⟩ := k0
    obtain ⟨h7, h8, h9, h10⟩ := h4
    simp only [KF] at h8 h9 h10
    subst h8; subst h9
    have hkb : ∀ (id : UInt64) (t : UInt8) (off id' : UInt64) (t' : UInt8) (off' : UInt64),
        (Key.mk id t off).before ⟨id', t', off'⟩ ↔ t.toNat < t'.toNat ∨ (t.toNat = t'.toNat ∧
          (id.toNat < id'.toNat ∨ (id.toNat = id'.toNat ∧ off.toNat < off'.toNat))) := by
      intros; simp [Key.before, Key.fields, lexLt]
    have hvb : ∀ (k k' : Key) (g g' : UInt64), (VKey.mk 1 k g).before ⟨1, k', g'⟩ ↔
        k.before k' ∨ (k = k' ∧ g.toNat < g'.toNat) := by
      intro k k' g g'
      rw [← VKey.num_lt_iff, key_before_iff (o := 1) (g := g) (g' := g'), VKey.num_eq, VKey.num_eq]
      have := g.toNat_lt
      have := g'.toNat_lt
      have hk : k = k' ↔ (VKey.mk 1 k g).p25 = (VKey.mk 1 k' g').p25 := by
        rw [VKey.p25_inj]; simp
      rw [hk]
      simp only
      omega
    have h256' : (256 : UInt64).toNat = 256 := rfl
    have h132 : (132 : UInt8).toNat = 132 := rfl
    have hfirst : ∀ off, b.hasKey 1 ⟨256, 132, off⟩ → kf ≤ off := by
      intro off hk
      have := h10 _ hk rfl rfl
      rw [hkb] at this
      rw [UInt64.le_iff_toNat_le]; omega
    have hnew : b.newest 1 ⟨256, 132, kf⟩ g0 := by
      refine ⟨h5.1, fun g' hg' => ?_⟩
      rcases h5.2 with ⟨h, h'⟩ | ⟨-, h⟩
      · have e1 := le_max64 g0
        have e2 := le_max64 g'
        rw [UInt64.le_iff_toNat_le] at *
        omega
      · exact h g' hg'
    refine ⟨kf, g0, hnew, hfirst, fun ik d => ?_⟩
    rw [h6]
    have hg0 := g0.toNat_lt
    constructor
    · rintro ⟨⟨id, t, off⟩, x, rfl, hx, hd, ha, hc, hrun⟩
      rw [hkb] at ha
      rw [hvb, KL2, hkb] at hc
      have hall : t = 132 ∧ 256 ≤ id ∧ id ≤ LastFreeObjectID := by
        simp only [UInt64.le_iff_toNat_le, ← UInt8.toNat_inj, h256', h132] at *
        omega
      obtain ⟨rfl, hid, hid'⟩ := hall
      refine ⟨id, off, x, rfl, hx, hd, hid, hid', fun id' off' hk hid' hle => hrun _ hk ?_ ?_⟩
      · rw [hkb]
        by_cases he : id' = 256
        · subst he
          have := hfirst _ hk
          rw [UInt64.le_iff_toNat_le] at this
          omega
        · rw [UInt64.le_iff_toNat_le, h256'] at hid'
          rw [← UInt64.toNat_inj] at he
          simp only [h256'] at *
          omega
      · rw [hkb]
        rcases hle with hle | ⟨rfl, hle⟩
        · rw [UInt64.lt_iff_toNat_lt] at hle; omega
        · rw [UInt64.le_iff_toNat_le] at hle; omega
    · rintro ⟨id, off, x, rfl, hx, hd, hid, hid', hrun⟩
      rw [UInt64.le_iff_toNat_le] at hid hid'
      have hoff := off.toNat_lt
      refine ⟨_, x, rfl, hx, hd, ?_, ?_, ?_⟩
      · rw [hkb]
        by_cases he : id = 256
        · subst he
          have := hfirst _ ⟨g0, x, hx⟩
          rw [UInt64.le_iff_toNat_le] at this
          omega
        · rw [← UInt64.toNat_inj] at he
          simp only [h256'] at *
          omega
      · rw [hvb, KL2, hkb]
        simp only [max64_toNat]
        omega
      · rintro ⟨id', t', off'⟩ hk' ha hc
        rw [hkb] at ha hc
        have : t' = 132 := by rw [← UInt8.toNat_inj]; simp only [h132] at *; omega
        subst this
        simp only [h256', h132, Nat.lt_irrefl, false_or, true_and] at ha hc
        refine hrun id' off' hk' ?_ ?_
        · rw [UInt64.le_iff_toNat_le, h256']; omega
        · rw [UInt64.lt_iff_toNat_lt, UInt64.le_iff_toNat_le, ← UInt64.toNat_inj]; omega

/-- Root items of two subvolumes of different generations. -/
def exMixedRoots : AStore :=
  [(⟨1, ⟨256, 132, 0⟩, 10⟩, mkItem ⟨256, 132, 0⟩ [1]), (⟨1, ⟨258, 132, 7⟩, 9⟩, mkItem ⟨258, 132, 7⟩ [2]),
   (⟨1, ⟨258, 144, 5⟩, 10⟩, mkItem ⟨258, 144, 5⟩ [3]), (metadataVersionKey, [])]

example : exMixedRoots.enc.WF ∧ exMixedRoots.enc.stores metadataVersionKey [] ∧
    exMixedRoots.enc.RangeOK 1 (KL2 132 LastFreeObjectID) := by
  refine ⟨AStore.enc_wf (sorted_of_before (by decide +kernel)), enc_stores.mpr (by simp [exMixedRoots]),
    rangeOK_of (by decide) ?_ (by decide +kernel) (by decide +kernel)⟩
  intro e he ho
  simp only [exMixedRoots, List.mem_cons, List.not_mem_nil, or_false] at he
  rcases he with rfl | rfl | rfl | rfl
  · exact ⟨_, mkItem_holds _ _ (by decide)⟩
  · exact ⟨_, mkItem_holds _ _ (by decide)⟩
  · exact ⟨_, mkItem_holds _ _ (by decide)⟩
  · exact absurd ho (by decide)

/-! ## C51 -/

/-- C51, exactly: without an inode item the size reported is where the last extent of the list
ends, modulo 2^64. So it covers all extents if and only if none ends after the last one and that
sum does not wrap. -/
theorem C51_covers_iff (m : List ExtentMapEntry) (last : ExtentMapEntry) (hl : m.getLast? = some last) :
    (fallbackSize m).toNat = last.fileEnd % 2 ^ 64 ∧
    ((∀ e ∈ m, e.fileEnd ≤ (fallbackSize m).toNat) ↔ last.fileEnd < 2 ^ 64 ∧ ∀ e ∈ m, e.fileEnd ≤ last.fileEnd) := by
  have h1 : (fallbackSize m).toNat = last.fileEnd % 2 ^ 64 := by
    simp only [fallbackSize, hl]
    rw [UInt64.toNat_add]; rfl
  refine ⟨h1, ?_⟩
  rw [h1]
  have hm := List.mem_of_getLast? hl
  constructor
  · intro h
    have h2 := h last hm
    have h3 : last.fileEnd < 2 ^ 64 := by omega
    exact ⟨h3, fun e he => by have := h e he; omega⟩
  · rintro ⟨h2, h3⟩ e he
    rw [Nat.mod_eq_of_lt h2]; exact h3 e he

example : [(⟨0, 100, 0, 1, 1⟩ : ExtentMapEntry), ⟨8, 4, 0, 1, 1⟩].getLast? = some ⟨8, 4, 0, 1, 1⟩ := rfl

end Btrfscue
