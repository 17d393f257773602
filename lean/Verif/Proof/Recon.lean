import Verif.Spec.Recon
import Verif.Model.Recon
import Verif.Proof.Session
import Verif.Props.Leaf
import Verif.Props.Readers
/-! # Scanning a device -/

namespace Btrfscue

/-! ## Every byte string of the right length is a record -/

theorem le64_of (b : Bytes) (h : b.length = 8) : ∃ v : UInt64, b = le64 v := by
  refine ⟨UInt64.ofNat (leNat b), ?_⟩
  have h1 := leNat_lt b
  have h2 := leBytes_leNat b
  rw [h] at h1 h2
  rw [le64, UInt64.toNat_ofNat', Nat.mod_eq_of_lt h1, h2]

theorem le32_of (b : Bytes) (h : b.length = 4) : ∃ v : UInt32, b = le32 v := by
  refine ⟨UInt32.ofNat (leNat b), ?_⟩
  have h1 := leNat_lt b
  have h2 := leBytes_leNat b
  rw [h] at h1 h2
  rw [le32, UInt32.toNat_ofNat', Nat.mod_eq_of_lt h1, h2]

theorem split_at (n : Nat) (b : Bytes) (h : n ≤ b.length) : ∃ p q, b = p ++ q ∧ p.length = n ∧
    q.length = b.length - n :=
  ⟨b.take n, b.drop n, (List.take_append_drop n b).symm, by simp; omega, by simp⟩

theorem header_exists (b : Bytes) (h : 101 ≤ b.length) : ∃ (hdr : HeaderRec) (rest : Bytes),
    b = hdr.layout ++ rest := by
  obtain ⟨csum, b, rfl, h1, h2⟩ := split_at 32 b (by omega)
  obtain ⟨fsid, b, rfl, h3, h4⟩ := split_at 16 b (by simp only [List.length_append] at *; omega)
  obtain ⟨bn, b, rfl, h5, h6⟩ := split_at 8 b (by simp only [List.length_append] at *; omega)
  obtain ⟨fl, b, rfl, h7, h8⟩ := split_at 8 b (by simp only [List.length_append] at *; omega)
  obtain ⟨cu, b, rfl, h9, h10⟩ := split_at 16 b (by simp only [List.length_append] at *; omega)
  obtain ⟨gn, b, rfl, h11, h12⟩ := split_at 8 b (by simp only [List.length_append] at *; omega)
  obtain ⟨ow, b, rfl, h13, h14⟩ := split_at 8 b (by simp only [List.length_append] at *; omega)
  obtain ⟨nr, b, rfl, h15, h16⟩ := split_at 4 b (by simp only [List.length_append] at *; omega)
  obtain ⟨lv, b, rfl, h17, h18⟩ := split_at 1 b (by simp only [List.length_append] at *; omega)
  obtain ⟨bn, rfl⟩ := le64_of bn h5
  obtain ⟨fl, rfl⟩ := le64_of fl h7
  obtain ⟨gn, rfl⟩ := le64_of gn h11
  obtain ⟨ow, rfl⟩ := le64_of ow h13
  obtain ⟨nr, rfl⟩ := le32_of nr h15
  obtain ⟨lv, rfl⟩ : ∃ v, lv = [v] := by
    match lv, h17 with
    | [v], _ => exact ⟨v, rfl⟩
  exact ⟨⟨⟨csum, h1⟩, ⟨fsid, h3⟩, bn, fl, ⟨cu, h9⟩, gn, ow, nr, lv⟩, b, by
    simp [HeaderRec.layout, List.append_assoc]⟩

theorem itemRec_exists (b : Bytes) (h : 25 ≤ b.length) : ∃ (r : ItemRec) (rest : Bytes),
    b = r.layout ++ rest := by
  obtain ⟨a, b, rfl, h1, h2⟩ := split_at 8 b (by omega)
  obtain ⟨t, b, rfl, h3, h4⟩ := split_at 1 b (by simp only [List.length_append] at *; omega)
  obtain ⟨c, b, rfl, h5, h6⟩ := split_at 8 b (by simp only [List.length_append] at *; omega)
  obtain ⟨d, b, rfl, h7, h8⟩ := split_at 4 b (by simp only [List.length_append] at *; omega)
  obtain ⟨e, b, rfl, h9, h10⟩ := split_at 4 b (by simp only [List.length_append] at *; omega)
  obtain ⟨a, rfl⟩ := le64_of a h1
  obtain ⟨c, rfl⟩ := le64_of c h5
  obtain ⟨d, rfl⟩ := le32_of d h7
  obtain ⟨e, rfl⟩ := le32_of e h9
  obtain ⟨t, rfl⟩ : ∃ v, t = [v] := by
    match t, h3 with
    | [v], _ => exact ⟨v, rfl⟩
  exact ⟨⟨⟨a, t, c⟩, d, e⟩, b, by simp [ItemRec.layout, packKey, List.append_assoc]⟩

theorem headerRec_length (hdr : HeaderRec) : hdr.layout.length = 101 := (C07_Header_decodes hdr [] []).1

theorem header_unique {a b : HeaderRec} {r r' : Bytes} (h : a.layout ++ r = b.layout ++ r') :
    a.layout = b.layout ∧ a.owner = b.owner ∧ a.generation = b.generation ∧ a.nrItems = b.nrItems ∧
      a.fsid = b.fsid ∧ a.level = b.level := by
  obtain ⟨hl, -, hf, -, -, -, hg, ho, hn, hv⟩ := C07_Header_decodes a r []
  obtain ⟨hl', -, hf', -, -, -, hg', ho', hn', hv'⟩ := C07_Header_decodes b r' []
  rw [h] at hf hg ho hn hv
  rw [hf] at hf'; rw [hg] at hg'; rw [ho] at ho'; rw [hn] at hn'; rw [hv] at hv'
  simp only [Go.ok.injEq] at *
  exact ⟨(List.append_inj h (by omega)).1, ho', hg', hn', hf', hv'⟩

/-! ## One block -/

theorem leafOf_matches {id : UUID} {b : Bytes} (hb : 101 ≤ b.length) :
    ∃ (hdr : HeaderRec) (rest : Bytes), b = hdr.layout ++ rest ∧ Header.fsid ⟨b, []⟩ = .ok hdr.fsid ∧
      Header.nrItems ⟨b, []⟩ = .ok hdr.nrItems ∧ Header.level ⟨b, []⟩ = .ok hdr.level ∧
      (leafOf id b ↔ hdr.fsid = id ∧ hdr.nrItems ≠ 0 ∧ hdr.level = 0) := by
  obtain ⟨hdr, rest, rfl⟩ := header_exists b hb
  obtain ⟨-, -, hf, -, -, -, -, -, hn, hv⟩ := C07_Header_decodes hdr rest []
  refine ⟨hdr, rest, rfl, hf, hn, hv, ?_⟩
  constructor
  · rintro ⟨hdr', rest', he, h1, h2, h3⟩
    obtain ⟨-, -, -, h4, h5, h6⟩ := header_unique he
    exact ⟨h5.trans h1, by rw [h4]; exact h3, h6.trans h2⟩
  · rintro ⟨h1, h2, h3⟩
    exact ⟨hdr, rest, rfl, h1, h3, h2⟩

/-- A scan of one item: the insert, if the item can be read. -/
structure Ins.From (ins : Ins) (b : Bytes) (i : Nat) : Prop where
  h : ins.h = ⟨b, []⟩
  key : Leaf.key ⟨b, []⟩ i = .ok ins.key
  item : ∃ it, Leaf.item ⟨b, []⟩ i = .ok it ∧ Slice.data it = ins.item
  data : ∃ d, Leaf.data ⟨b, []⟩ i = .ok d ∧ d.data = ins.data
  spec : blockItem b i ins.version ins.value

theorem rawNr_eq (hdr : HeaderRec) (rest : Bytes) :
    rawNrItems (hdr.layout ++ rest) = hdr.nrItems.toNat := by
  have h1 := header_nrItems_raw (hdr.layout ++ rest) (by simp [headerRec_length])
  rw [(C07_Header_decodes hdr rest []).2.2.2.2.2.2.2.2.1] at h1
  simp only [Go.ok.injEq] at h1
  rw [h1, UInt32.toNat_ofNat']
  exact (Nat.mod_eq_of_lt (leNat_take4_lt _)).symm

theorem drop_mid (p m : Bytes) (n : Nat) (h : p.length = n) : (p ++ m).drop n = m := by
  rw [← h]; simp

theorem rawFields {hdr : HeaderRec} {pre post : Bytes} {r : ItemRec} {i : Nat} (hp : pre.length = 25 * i) :
    rawOffset (hdr.layout ++ (pre ++ (r.layout ++ post))) i = r.offset.toNat ∧
    rawSize (hdr.layout ++ (pre ++ (r.layout ++ post))) i = r.size.toNat := by
  have e : ∀ n, (hdr.layout ++ (pre ++ (r.layout ++ post))).drop (101 + 25 * i + n) =
      (r.layout ++ post).drop n := by
    intro n
    rw [← List.append_assoc, ← List.drop_drop, drop_mid]
    rw [List.length_append, headerRec_length, hp]
  constructor
  · simp only [rawOffset, e]
    simp only [ItemRec.layout, List.append_assoc]
    rw [drop_mid _ _ 17 (by simp [packKey, le64]), List.take_left' (by simp [le32]), le32, leNat_leBytes]
    exact Nat.mod_eq_of_lt r.offset.toNat_lt
  · simp only [rawSize, e]
    simp only [ItemRec.layout, List.append_assoc]
    rw [← List.append_assoc, drop_mid _ _ 21 (by simp [packKey, le64, le32]), List.take_left' (by simp [le32]),
      le32, leNat_leBytes]
    exact Nat.mod_eq_of_lt r.size.toNat_lt

theorem item_key {b : Bytes} {i : Nat} {hdr : HeaderRec} {r : ItemRec} (h : blockItemRec b i hdr r) :
    Leaf.key ⟨b, []⟩ i = .ok r.key := by
  obtain ⟨pre, post, hbe, hp, -⟩ := h
  have hI : ItemLen = 25 := by decide
  have hH : HeaderLen = 101 := by decide
  have hK : itemKey = 0 := by decide
  rw [Leaf.key, hI, hH, hK, hbe, ← List.append_assoc, keyAt_skip _ _ _ _ (by
    rw [List.length_append, headerRec_length, hp]; omega)]
  rw [List.length_append, headerRec_length, hp, show 101 + i * 25 + 0 - (101 + 25 * i) = 0 by omega,
    ItemRec.layout, List.append_assoc, keyAt_zero]

/-- Item `i` of a block is unique. -/
theorem blockItem_unique {b : Bytes} {i : Nat} {v w : VKey} {x y : Bytes} (h : blockItem b i v x)
    (h' : blockItem b i w y) : v = w ∧ x = y := by
  obtain ⟨hdr, r, h1, rfl, rfl⟩ := h
  obtain ⟨hdr', r', h1', rfl, rfl⟩ := h'
  have k1 := item_key h1
  have k2 := item_key h1'
  obtain ⟨pre, post, e, hp, -⟩ := h1
  obtain ⟨pre', post', e', hp', -⟩ := h1'
  obtain ⟨f1, f2⟩ := rawFields (hdr := hdr) (post := post) (r := r) hp
  obtain ⟨f3, f4⟩ := rawFields (hdr := hdr') (post := post') (r := r') hp'
  obtain ⟨-, ho, hg, -⟩ := header_unique (e.symm.trans e')
  rw [← e] at f1 f2
  rw [← e'] at f3 f4
  rw [f1] at f3; rw [f2] at f4
  rw [k1] at k2
  simp only [Go.ok.injEq] at k2
  have : r = r' := by
    cases r; cases r'
    simp only [ItemRec.mk.injEq]
    exact ⟨k2, UInt32.toNat_inj.mp f3, UInt32.toNat_inj.mp f4⟩
  subst this
  exact ⟨by rw [ho, hg], rfl⟩

theorem item_hdr {b : Bytes} {i : Nat} {hdr : HeaderRec} {r : ItemRec} (h : blockItemRec b i hdr r) :
    ∃ post, Leaf.item ⟨b, []⟩ i = .ok ⟨r.layout, post⟩ := by
  obtain ⟨pre, post, hbe, hp, -⟩ := h
  have hlen : b.length = 101 + 25 * i + 25 + post.length := by
    rw [hbe]; simp [headerRec_length, itemRec_length, hp]; omega
  have hd : b.drop (101 + 25 * i) = r.layout ++ post := by
    rw [hbe, ← List.append_assoc, drop_mid]
    rw [List.length_append, headerRec_length, hp]
  exact ⟨post, by
    rw [leaf_item_eq, if_pos (by omega), hd, ← List.drop_drop, hd, List.take_left' (itemRec_length r),
      drop_mid _ _ 25 (itemRec_length r)]⟩

theorem item_data {b : Bytes} (hb : b.length < 2 ^ 32) {i : Nat} {hdr : HeaderRec} {r : ItemRec}
    (h : blockItemRec b i hdr r) : Leaf.data ⟨b, []⟩ i =
      if r.start ≤ r.stop b then .ok ⟨slice b r.start (r.stop b), b.drop (r.stop b)⟩ else .panic := by
  obtain ⟨pre, post, hbe, hp, -⟩ := h
  have hlen : b.length = 101 + 25 * i + 25 + post.length := by
    rw [hbe]; simp [headerRec_length, itemRec_length, hp]; omega
  have hraw := rawFields (hdr := hdr) (post := post) (r := r) hp
  rw [← hbe] at hraw
  rw [leaf_data_eq b i hb (by omega), hraw.1, hraw.2]
  have : (101 + r.offset.toNat) % 2 ^ 32 = r.start := rfl
  rw [this]
  have : min ((r.start + r.size.toNat) % 2 ^ 32) b.length = r.stop b := rfl
  rw [this, Slice.sub]
  simp only [cap_nil, all_nil]
  have : r.stop b ≤ b.length := by rw [ItemRec.stop]; omega
  by_cases hs : r.start ≤ r.stop b
  · rw [if_pos ⟨hs, this⟩, if_pos hs]; rfl
  · rw [if_neg (fun h => hs h.1), if_neg hs]

/-- An item that can be read. -/
theorem item_ok {b : Bytes} (hb : b.length < 2 ^ 32) {i : Nat} {hdr : HeaderRec} {r : ItemRec}
    (h : blockItemRec b i hdr r) (hs : r.start ≤ r.stop b) : ∃ ins : Ins, ins.From b i := by
  obtain ⟨post, hitem⟩ := item_hdr h
  have hdata := item_data hb h
  rw [if_pos hs] at hdata
  have hkey := item_key h
  obtain ⟨pre, post', hbe, -⟩ := id h
  have hdec := C07_Header_decodes hdr (pre ++ (r.layout ++ post')) []
  rw [← hbe] at hdec
  exact ⟨⟨⟨b, []⟩, r.key, r.layout, slice b r.start (r.stop b), hdr.owner, hdr.generation,
    hdec.2.2.2.2.2.2.2.1, hdec.2.2.2.2.2.2.1, itemRec_length r⟩, rfl, hkey, ⟨_, hitem, rfl⟩, ⟨_, hdata, rfl⟩,
    ⟨hdr, r, h, rfl, rfl⟩⟩

theorem keyAt_ne_hang (s : Slice) (off : Nat) : keyAt s off ≠ .hang := by
  have hf : ∀ (s : Slice) n, s.from n ≠ .hang := by
    intro s n
    simp only [Slice.from, Slice.sub]
    split <;> simp
  have ht : ∀ (s : Slice) n, s.to n ≠ .hang := by
    intro s n
    simp only [Slice.to, Slice.sub]
    split <;> simp
  have hg : ∀ (s : Slice) n, s.get n ≠ .hang := by
    intro s n
    simp only [Slice.get]
    split <;> simp
  have hu : ∀ s : Slice, SliceUint64LE s ≠ .hang := by
    intro s h
    simp only [SliceUint64LE, Go.bind_eq_hang] at h
    rcases h with h | ⟨_, _, h⟩
    · exact ht _ _ h
    · simp at h
  intro h
  simp only [keyAt, SliceKey, Go.bind_eq_hang] at h
  rcases h with h | ⟨_, _, h⟩
  · exact hf _ _ h
  rcases h with h | ⟨_, _, h⟩
  · exact hu _ h
  rcases h with h | ⟨_, _, h⟩
  · exact hg _ _ h
  rcases h with h | ⟨_, _, h⟩
  · exact hf _ _ h
  rcases h with h | ⟨_, _, h⟩
  · exact hu _ h
  simp at h

theorem blockItemRec_exists {b : Bytes} {hdr : HeaderRec} {rest : Bytes} (hb : b = hdr.layout ++ rest) {i : Nat}
    (hi : i < hdr.nrItems.toNat) (hi2 : i < b.length / 25) (hl : 101 + 25 * (i + 1) ≤ b.length) :
    ∃ r, blockItemRec b i hdr r := by
  have hr : rest.length = b.length - 101 := by rw [hb, List.length_append, headerRec_length]; omega
  obtain ⟨pre, q, rfl, h1, h2⟩ := split_at (25 * i) rest (by omega)
  obtain ⟨r, post, rfl⟩ := itemRec_exists q (by omega)
  exact ⟨r, pre, post, hb, h1, hi, hi2⟩

/-- Indices whose items can be read. -/
def readable (b : Bytes) (hdr : HeaderRec) (i : Nat) : Prop :=
  101 + 25 * (i + 1) ≤ b.length ∧ ∀ r, blockItemRec b i hdr r → r.start ≤ r.stop b

theorem insert_bad {b : Bytes} (hb : b.length < 2 ^ 32) {hdr : HeaderRec} {rest : Bytes}
    (hbe : b = hdr.layout ++ rest) {i : Nat} (hi : i < hdr.nrItems.toNat) (hi2 : i < b.length / 25)
    (hbad : ¬ readable b hdr i) (is : List Nat) {σ : Type} (f : Inserter σ) (ix : σ) :
    insertLoop f ⟨b, []⟩ (i :: is) ix = .crash ix := by
  simp only [insertLoop]
  cases hk : Leaf.key ⟨b, []⟩ i with
  | hang => exact absurd hk (keyAt_ne_hang _ _)
  | panic => exact Cmd.bind_crash rfl
  | ok k =>
    rw [Cmd.bind_ok (Cmd.lift_ok k ix), leaf_item_eq]
    by_cases hl : 101 + 25 * i + 25 ≤ b.length
    · rw [if_pos hl, Cmd.bind_ok (Cmd.lift_ok _ ix)]
      obtain ⟨r, hr⟩ := blockItemRec_exists hbe hi hi2 (by omega)
      have hlt : r.stop b < r.start := by
        apply Nat.lt_of_not_le
        intro hle
        apply hbad
        refine ⟨by omega, fun r' hr' => ?_⟩
        obtain ⟨pre, post, h1, h2, -⟩ := hr
        obtain ⟨pre', post', h3, h4, -⟩ := hr'
        obtain ⟨f1, f2⟩ := rawFields (hdr := hdr) (post := post) (r := r) h2
        obtain ⟨f3, f4⟩ := rawFields (hdr := hdr) (post := post') (r := r') h4
        rw [← h1] at f1 f2
        rw [← h3] at f3 f4
        simp only [ItemRec.start, ItemRec.stop] at hle ⊢
        rw [← f3, ← f4, f1, f2]
        exact hle
      have hp : Leaf.data ⟨b, []⟩ i = .panic := by
        obtain ⟨pre, post, h1, h2, -⟩ := hr
        obtain ⟨f1, f2⟩ := rawFields (hdr := hdr) (post := post) (r := r) h2
        rw [← h1] at f1 f2
        rw [leaf_data_eq b i hb hl, f1, f2]
        simp only [Slice.sub]
        simp only [ItemRec.start, ItemRec.stop] at hlt
        rw [if_neg (by omega)]
      rw [hp]
      exact Cmd.bind_crash rfl
    · rw [if_neg hl]
      exact Cmd.bind_crash rfl

/-- A writable index. -/
def Index.Good (ix : Index) : Prop := ∃ l d n, ix.Inv l d n

theorem Index.Good.step {ix : Index} (h : ix.Good) (i : Ins) :
    ∃ ix', ix.insertItem i.key i.h i.item i.data = .ok (ix', none) ∧ ix'.Good := by
  obtain ⟨l, d, n, h⟩ := h
  obtain ⟨ix', h1, h2, -⟩ := h.insert i
  exact ⟨ix', h1, _, _, _, h2⟩

theorem run_append {ix ix1 : Index} {a b : List IxOp} (h : ix.run a = .ok (ix1, none)) :
    ix.run (a ++ b) = ix1.run b := by
  induction a generalizing ix with
  | nil => simp only [Index.run, Go.ok.injEq, Prod.mk.injEq, and_true] at h; rw [h]; rfl
  | cons op r ih =>
    simp only [List.cons_append, Index.run, Go.bind_eq_ok] at h ⊢
    obtain ⟨⟨ix2, e⟩, h1, h2⟩ := h
    rw [h1]
    cases e with
    | none => exact ih h2
    | some e => simp at h2

/-- Insert the given items. -/
def replay {σ : Type} (ins : Inserter σ) : List Ins → Cmd σ Unit
  | [] => pure ()
  | i :: r => do ins i.key i.h i.item i.data; replay ins r

theorem replay_append {σ : Type} (ins : Inserter σ) (a b : List Ins) (s : σ) :
    replay ins (a ++ b) s = (replay ins a >>= fun _ => replay ins b) s := by
  induction a generalizing s with
  | nil => rfl
  | cons i r ih =>
    simp only [List.cons_append, replay, Cmd.bind_def]
    cases ins i.key i.h i.item i.data s with
    | ok a t => simp only [ih, Cmd.bind_def]
    | exit t => rfl
    | crash t => rfl
    | hang t => rfl

/-- Inserting into a writable index does not fail. -/
theorem replay_run {ix : Index} (h : ix.Good) (is : List Ins) :
    ∃ ix', ix'.Good ∧ ix.run (is.map .insert) = .ok (ix', none) ∧ replay insertOrExit is ix = .ok () ix' := by
  induction is generalizing ix with
  | nil => exact ⟨ix, h, rfl, rfl⟩
  | cons i r ih =>
    obtain ⟨ix1, h4, hg1⟩ := h.step i
    obtain ⟨ix', hg', h5, h6⟩ := ih hg1
    refine ⟨ix', hg', ?_, ?_⟩
    · simp only [List.map_cons, Index.run, Index.step, h4, Go.ok_bind, h5]
    · have h11 : insertOrExit i.key i.h i.item i.data ix = .ok () ix1 := by simp only [insertOrExit, h4]
      rw [replay, Cmd.bind_ok h11, h6]

/-- The two ways scanning a block ends. -/
def endCmd {σ : Type} (fin : Bool) : Cmd σ Unit := if fin then pure () else fun s => .crash s

/-- The two ways scanning a block ends. -/
def endOut (fin : Bool) (ix : Index) : Out Index Unit := if fin then .ok () ix else .crash ix

/-- Inserting a range of items. -/
theorem insertLoop_gen {b : Bytes} (hb : b.length < 2 ^ 32) {hdr : HeaderRec} {rest : Bytes}
    (hbe : b = hdr.layout ++ rest) (is : List Nat) (his : ∀ i ∈ is, i < hdr.nrItems.toNat ∧ i < b.length / 25) :
    ∃ (ops : List Ins) (fin : Bool), (fin = true ↔ ∀ i ∈ is, readable b hdr i) ∧
      (fin = true → ∀ i ∈ is, ∃ ins : Ins, ins.From b i ∧ ins ∈ ops) ∧
      (∀ ins ∈ ops, ∃ i, i ∈ is ∧ ins.From b i) ∧
      ∀ (σ : Type) (f : Inserter σ) (s : σ),
        insertLoop f ⟨b, []⟩ is s = (replay f ops >>= fun _ => endCmd fin) s := by
  induction is with
  | nil => exact ⟨[], true, by simp, by simp, by simp, fun _ _ _ => rfl⟩
  | cons i r ih =>
    obtain ⟨hi1, hi2⟩ := his i List.mem_cons_self
    by_cases hr : readable b hdr i
    · obtain ⟨ops, fin, hf, h1, h2, h3⟩ := ih fun j hj => his j (List.mem_cons_of_mem _ hj)
      obtain ⟨rec, hrec⟩ := blockItemRec_exists hbe hi1 hi2 hr.1
      obtain ⟨ins, hins⟩ := item_ok hb hrec (hr.2 rec hrec)
      refine ⟨ins :: ops, fin, ?_, ?_, ?_, ?_⟩
      · rw [hf]; simp [hr]
      · intro hfin j hj
        rcases List.mem_cons.mp hj with rfl | hj
        · exact ⟨ins, hins, List.mem_cons_self⟩
        · obtain ⟨ins', h4, h5⟩ := h1 hfin j hj
          exact ⟨ins', h4, List.mem_cons_of_mem _ h5⟩
      · intro op hop
        rcases List.mem_cons.mp hop with rfl | hop
        · exact ⟨i, List.mem_cons_self, hins⟩
        · obtain ⟨j, h5, h6⟩ := h2 op hop
          exact ⟨j, List.mem_cons_of_mem _ h5, h6⟩
      · intro σ f s
        obtain ⟨it, h7, h8⟩ := hins.item
        obtain ⟨d, h9, h10⟩ := hins.data
        simp only [insertLoop, hins.key, h7, h9]
        rw [Cmd.bind_ok (Cmd.lift_ok _ s), Cmd.bind_ok (Cmd.lift_ok _ s), Cmd.bind_ok (Cmd.lift_ok _ s)]
        simp only [replay, hins.h, h8, h10, Cmd.bind_def]
        cases f ins.key ⟨b, []⟩ ins.item ins.data s with
        | ok a t => simp only [h3, Cmd.bind_def]
        | exit t => rfl
        | crash t => rfl
        | hang t => rfl
    · refine ⟨[], false, ?_, by simp, by simp, fun σ f s => insert_bad hb hbe hi1 hi2 hr r f s⟩
      simp [hr]

theorem leaf_len_hdr {b : Bytes} (hb : b.length < 2 ^ 32) {hdr : HeaderRec} {rest : Bytes}
    (hbe : b = hdr.layout ++ rest) : Leaf.len ⟨b, []⟩ = .ok (min hdr.nrItems.toNat (b.length / 25)) := by
  rw [leaf_len_raw b (by rw [hbe, List.length_append, headerRec_length]; omega) hb]
  congr 2
  rw [hbe, rawNr_eq]

theorem scanBlock_skip {id : UUID} {b : Bytes} (h101 : 101 ≤ b.length) (h : ¬ leafOf id b) {σ : Type}
    (f : Inserter σ) (ix : σ) : scanBlock f id ⟨b, []⟩ ix = .ok () ix := by
  obtain ⟨hdr, rest, hbe, h1, h2, h3, h4⟩ := leafOf_matches (id := id) h101
  simp only [scanBlock, h1, Cmd.bind_ok (Cmd.lift_ok _ ix)]
  by_cases hf : hdr.fsid = id
  · rw [if_neg (by simpa using hf), h2, Cmd.bind_ok (Cmd.lift_ok _ ix)]
    by_cases hn : hdr.nrItems = 0
    · rw [if_pos hn]; rfl
    · rw [if_neg hn, Header.isLeaf, h3]
      have hl : hdr.level ≠ 0 := fun hl => h (h4.mpr ⟨hf, hn, hl⟩)
      simp only [Go.ok_bind, Go.pure_eq]
      rw [Cmd.bind_ok (Cmd.lift_ok _ ix)]
      rw [if_pos (by simpa using hl)]
      rfl
  · rw [if_pos (by simpa using hf)]; rfl

theorem scanBlock_leaf {id : UUID} {b : Bytes} (hb : b.length < 2 ^ 32) (h101 : 101 ≤ b.length)
    (h : leafOf id b) {hdr : HeaderRec} {rest : Bytes} (hbe : b = hdr.layout ++ rest) {σ : Type} (f : Inserter σ) (ix : σ) :
    scanBlock f id ⟨b, []⟩ ix =
      insertLoop f ⟨b, []⟩ (List.range (min hdr.nrItems.toNat (b.length / 25))) ix := by
  obtain ⟨hdr', rest', hbe', h1, h2, h3, h4⟩ := leafOf_matches (id := id) h101
  obtain ⟨hf, hn, hl⟩ := h4.mp h
  simp only [scanBlock, h1, Cmd.bind_ok (Cmd.lift_ok _ ix)]
  rw [if_neg (by simpa using hf), h2, Cmd.bind_ok (Cmd.lift_ok _ ix), if_neg hn, Header.isLeaf, h3]
  simp only [Go.ok_bind, Go.pure_eq]
  rw [Cmd.bind_ok (Cmd.lift_ok _ ix), if_neg (by simp [hl]), leaf_len_hdr hb hbe,
    Cmd.bind_ok (Cmd.lift_ok _ ix)]

/-- What scanning some blocks does to an index. -/
structure ScanOps (id : UUID) (bl : List Bytes) (ops : List IxOp) (fin : Bool) : Prop where
  fin_iff : fin = true ↔ ∀ b ∈ bl, leafOf id b → soundLeaf b
  before : ∀ pre b post, bl = pre ++ b :: post → (∀ c ∈ pre, leafOf id c → soundLeaf c) →
    leafOf id b → soundLeaf b → ∀ i v x, blockItem b i v x →
    ∃ ins, IxOp.insert ins ∈ ops ∧ ins.version = v ∧ ins.value = x
  sound : ∀ op ∈ ops, ∃ ins i, op = IxOp.insert ins ∧
    ∃ b ∈ bl, leafOf id b ∧ blockItem b i ins.version ins.value

theorem scanBlock_gen (id : UUID) {b : Bytes} (hb : b.length < 2 ^ 32) (h101 : 101 ≤ b.length) :
    ∃ (ops : List Ins) (fin : Bool), ScanOps id [b] (ops.map .insert) fin ∧
      ∀ (σ : Type) (f : Inserter σ) (s : σ),
        scanBlock f id ⟨b, []⟩ s = (replay f ops >>= fun _ => endCmd fin) s := by
  by_cases hlf : leafOf id b
  · obtain ⟨hdr, rest, hbe, -⟩ := header_exists b h101 |>.elim fun hdr h => h.elim fun rest h =>
      (⟨hdr, rest, h, trivial⟩ : ∃ (hdr : HeaderRec) (rest : Bytes), b = hdr.layout ++ rest ∧ True)
    have hhdr : ∀ hdr' rest', b = HeaderRec.layout hdr' ++ rest' → hdr'.nrItems = hdr.nrItems :=
      fun hdr' rest' h => (header_unique (h.symm.trans hbe)).2.2.2.1
    obtain ⟨ops, fin, h0, h1, h2, h3⟩ := insertLoop_gen hb hbe
      (List.range (min hdr.nrItems.toNat (b.length / 25)))
      (fun i hi => by rw [List.mem_range] at hi; omega)
    have hrec : ∀ i hdr' r', blockItemRec b i hdr' r' → blockItemRec b i hdr r' := by
      rintro i hdr' r' ⟨pre, post, e, h4, h5, h6⟩
      have hl : hdr'.layout = hdr.layout := (header_unique (e.symm.trans hbe)).1
      exact ⟨pre, post, by rw [← hl]; exact e, h4, by rw [← hhdr _ _ e]; exact h5, h6⟩
    refine ⟨ops, fin, ⟨?_, ?_, ?_⟩, ?_⟩
    · rw [h0]
      simp only [List.mem_singleton, List.mem_range, forall_eq]
      constructor
      · intro h _ hdr' rest' e i h4 h5
        obtain ⟨h6, h7⟩ := h i (by rw [← hhdr _ _ e]; omega)
        exact ⟨h6, fun r hr => h7 r (hrec _ _ _ hr)⟩
      · intro h i hi
        exact h hlf hdr rest hbe i (by omega) (by omega)
    · intro pre0 b' post0 hb' _ _ hsb i v x hv
      obtain ⟨rfl, rfl, rfl⟩ : pre0 = [] ∧ b' = b ∧ post0 = [] := by
        cases pre0 with
        | nil => simp only [List.nil_append, List.cons.injEq] at hb'; exact ⟨rfl, hb'.1.symm, hb'.2.symm⟩
        | cons _ _ => simp at hb'
      have hfin : fin = true := h0.mpr fun i hi => by
        rw [List.mem_range] at hi
        exact hsb hdr rest hbe i (by omega) (by omega)
      have hv0 := hv
      obtain ⟨hdr', r, hr, hv1, hv2⟩ := hv0
      obtain ⟨pre, post, -, -, h5, h6⟩ := hrec _ _ _ hr
      obtain ⟨ins, h7, h8⟩ := h1 hfin i (by rw [List.mem_range]; omega)
      obtain ⟨h9, h10⟩ := blockItem_unique h7.spec hv
      exact ⟨ins, List.mem_map_of_mem h8, h9, h10⟩
    · intro op hop
      obtain ⟨ins, hin, rfl⟩ := List.mem_map.mp hop
      obtain ⟨i, h5, h6⟩ := h2 ins hin
      exact ⟨ins, i, rfl, b, List.mem_singleton_self b, hlf, h6.spec⟩
    · intro σ f s
      rw [scanBlock_leaf hb h101 hlf hbe, h3]
  · refine ⟨[], true, ⟨?_, ?_, ?_⟩, fun σ f s => scanBlock_skip h101 hlf f s⟩
    · simp [hlf]
    · intro pre b' post hb' _ hl
      cases pre with
      | nil => simp only [List.nil_append, List.cons.injEq] at hb'; exact absurd (hb'.1 ▸ hl) hlf
      | cons _ _ => simp at hb'
    · simp

theorem ScanOps.complete {id : UUID} {bl : List Bytes} {ops : List IxOp} (h : ScanOps id bl ops true) :
    ∀ b ∈ bl, leafOf id b → ∀ i v x, blockItem b i v x →
      ∃ ins, IxOp.insert ins ∈ ops ∧ ins.version = v ∧ ins.value = x := by
  intro b hb hl i v x hv
  obtain ⟨pre, post, rfl⟩ := List.append_of_mem hb
  have hs := h.fin_iff.mp rfl
  exact h.before pre b post rfl (fun c hc => hs c (List.mem_append_left _ hc)) hl (hs b hb hl) i v x hv

theorem ScanOps.append {id : UUID} {a b : List Bytes} {oa ob : List IxOp} {fb : Bool}
    (ha : ScanOps id a oa true) (hb : ScanOps id b ob fb) : ScanOps id (a ++ b) (oa ++ ob) fb := by
  refine ⟨?_, ?_, ?_⟩
  · rw [hb.fin_iff]
    have := ha.fin_iff.mp rfl
    constructor
    · intro h x hx
      rcases List.mem_append.mp hx with hx | hx
      · exact this x hx
      · exact h x hx
    · exact fun h x hx => h x (List.mem_append_right _ hx)
  · intro pre x post he hpre hl hs i v y hv
    rcases List.append_eq_append_iff.mp he with ⟨c, h1, h2⟩ | ⟨c, h1, h2⟩
    · obtain ⟨ins, h3, h4⟩ := hb.before c x post h2 (fun z hz => hpre z (by
        rw [h1]; exact List.mem_append_right _ hz)) hl hs i v y hv
      exact ⟨ins, List.mem_append_right _ h3, h4⟩
    · cases c with
      | nil =>
        obtain ⟨ins, h3, h4⟩ := hb.before [] x post h2.symm (by simp) hl hs i v y hv
        exact ⟨ins, List.mem_append_right _ h3, h4⟩
      | cons z c =>
        simp only [List.cons_append, List.cons.injEq] at h2
        obtain ⟨rfl, rfl⟩ := h2
        obtain ⟨ins, h3, h4⟩ := ha.before pre x c h1 hpre hl hs i v y hv
        exact ⟨ins, List.mem_append_left _ h3, h4⟩
  · intro op hop
    rcases List.mem_append.mp hop with hop | hop
    · obtain ⟨ins, i, h1, x, hx, h2⟩ := ha.sound op hop
      exact ⟨ins, i, h1, x, List.mem_append_left _ hx, h2⟩
    · obtain ⟨ins, i, h1, x, hx, h2⟩ := hb.sound op hop
      exact ⟨ins, i, h1, x, List.mem_append_right _ hx, h2⟩

theorem ScanOps.stop {id : UUID} {a : List Bytes} {oa : List IxOp} (ha : ScanOps id a oa false)
    (b : List Bytes) : ScanOps id (a ++ b) oa false := by
  have hf := ha.fin_iff
  refine ⟨?_, ?_, ?_⟩
  · simp only [Bool.false_eq_true, false_iff] at hf ⊢
    exact fun h => hf fun x hx => h x (List.mem_append_left _ hx)
  · intro pre x post he hpre hl hs i v y hv
    simp only [Bool.false_eq_true, false_iff] at hf
    rcases List.append_eq_append_iff.mp he with ⟨c, h1, h2⟩ | ⟨c, h1, h2⟩
    · exact absurd (fun z hz => hpre z (by rw [h1]; exact List.mem_append_left _ hz)) hf
    · cases c with
      | nil =>
        exact absurd (fun z hz => hpre z (by rw [h1] at hz; simpa using hz)) hf
      | cons z c =>
        simp only [List.cons_append, List.cons.injEq] at h2
        obtain ⟨rfl, rfl⟩ := h2
        obtain ⟨ins, h3, h4⟩ := ha.before pre x c h1 hpre hl hs i v y hv
        exact ⟨ins, h3, h4⟩
  · intro op hop
    obtain ⟨ins, i, h1, x, hx, h2⟩ := ha.sound op hop
    exact ⟨ins, i, h1, x, List.mem_append_left _ hx, h2⟩

theorem readBlockAt_eq {r : ReaderAt} {buf b : Bytes} {off : UInt64} (h : r (int64OfU64 off) buf.length = (b, none))
    (hl : b.length = buf.length) : ReadBlockAt r buf off = (b, none) := by
  simp only [ReadBlockAt, h, hl, if_true]
  rw [goCopy_full _ _ hl]

/-- Scanning consecutive blocks that can be read, whatever inserting does. -/
theorem reconLoop_replay (r : ReaderAt) (id : UUID) (bs devSize : UInt64) (h101 : 101 ≤ bs.toNat)
    (hbs : bs.toNat < 2 ^ 32) (bl : List Bytes) :
    ∀ (off : UInt64) (buf : Bytes), buf.length = bs.toNat →
    (∀ j b, bl[j]? = some b → b.length = bs.toNat ∧ off + bs * UInt64.ofNat j < devSize ∧
      r (int64OfU64 (off + bs * UInt64.ofNat j)) bs.toNat = (b, none)) →
    ∃ (ops : List Ins) (fin : Bool) (buf' : Bytes), buf'.length = bs.toNat ∧ ScanOps id bl (ops.map .insert) fin ∧
      ∀ (σ : Type) (f : Inserter σ) (s : σ) (fuel : Nat), reconLoop f r id bs devSize (fuel + bl.length) off buf s =
        (replay f ops >>= fun _ => if fin then reconLoop f r id bs devSize fuel (off + bs * UInt64.ofNat bl.length) buf'
          else fun t => .crash t) s := by
  induction bl with
  | nil =>
    intro off buf hbuf _
    refine ⟨[], true, buf, hbuf, ⟨by simp, by simp, by simp⟩, fun σ f s fuel => ?_⟩
    rw [replay, Cmd.bind_ok (Cmd.pure_run () s)]
    simp
  | cons b bl ih =>
    intro off buf hbuf hr
    obtain ⟨hbl, hoff, hrd⟩ := hr 0 b rfl
    have h00 : off + bs * UInt64.ofNat 0 = off := by simp
    rw [h00] at hoff hrd
    have hstep : ∀ j, off + bs * UInt64.ofNat (j + 1) = off + bs + bs * UInt64.ofNat j := by
      intro j
      rw [UInt64.ofNat_add, UInt64.mul_add, UInt64.add_comm (bs * _), ← UInt64.add_assoc]
      simp
    obtain ⟨ops, fin, hops, h1⟩ := scanBlock_gen id (b := b) (by omega) (by omega)
    have hrb : ReadBlockAt r buf off = (b, none) :=
      readBlockAt_eq (by rw [hbuf]; exact hrd) (by omega)
    have hunf : ∀ {σ : Type} (f : Inserter σ) fuel s, reconLoop f r id bs devSize (fuel + (b :: bl).length) off buf s =
        (scanBlock f id ⟨b, []⟩ >>= fun _ => reconLoop f r id bs devSize (fuel + bl.length) (off + bs) b) s := by
      intro σ f fuel s
      rw [List.length_cons, ← Nat.add_assoc, reconLoop, if_pos hoff, hrb]
    cases fin with
    | false =>
      refine ⟨ops, false, b, hbl, hops.stop bl, fun σ f s fuel => ?_⟩
      rw [hunf, Cmd.bind_def, h1, Cmd.bind_def, Cmd.bind_def]
      cases replay f ops s <;> rfl
    | true =>
      obtain ⟨ops', fin', buf', hbuf', hops', h4⟩ := ih (off + bs) b hbl (by
        intro j c hj
        have := hr (j + 1) c (by simpa using hj)
        rw [hstep] at this
        exact this)
      refine ⟨ops ++ ops', fin', buf', hbuf', by rw [List.map_append]; exact hops.append hops', fun σ f s fuel => ?_⟩
      rw [hunf, Cmd.bind_def, h1, Cmd.bind_def, Cmd.bind_def, replay_append, Cmd.bind_def]
      cases replay f ops s with
      | ok a t =>
        show reconLoop f r id bs devSize (fuel + bl.length) (off + bs) b t = _
        rw [h4, Cmd.bind_def, List.length_cons, hstep]
      | exit t => rfl
      | crash t => rfl
      | hang t => rfl

/-- Scanning consecutive blocks that can be read into a writable index. -/
theorem reconLoop_gen (r : ReaderAt) (id : UUID) (bs devSize : UInt64) (h101 : 101 ≤ bs.toNat)
    (hbs : bs.toNat < 2 ^ 32) (bl : List Bytes)
    (off : UInt64) (buf : Bytes) (hbuf : buf.length = bs.toNat)
    (hr : ∀ j b, bl[j]? = some b → b.length = bs.toNat ∧ off + bs * UInt64.ofNat j < devSize ∧
      r (int64OfU64 (off + bs * UInt64.ofNat j)) bs.toNat = (b, none)) :
    ∃ ops fin buf', buf'.length = bs.toNat ∧ ScanOps id bl ops fin ∧
      ∀ ix : Index, ix.Good → ∃ ix', ix'.Good ∧ ix.run ops = .ok (ix', none) ∧
        ∀ fuel, reconLoop insertOrExit r id bs devSize (fuel + bl.length) off buf ix =
          if fin then reconLoop insertOrExit r id bs devSize fuel (off + bs * UInt64.ofNat bl.length) buf' ix'
          else .crash ix' := by
  obtain ⟨ops, fin, buf', h1, h2, h3⟩ := reconLoop_replay r id bs devSize h101 hbs bl off buf hbuf hr
  refine ⟨ops.map .insert, fin, buf', h1, h2, fun ix hg => ?_⟩
  obtain ⟨ix', hg', h4, h5⟩ := replay_run hg ops
  refine ⟨ix', hg', h4, fun fuel => ?_⟩
  rw [h3, Cmd.bind_ok h5]
  cases fin <;> rfl

theorem scanBlocks_get {dev : Bytes} {bs j : Nat} {b : Bytes} (hbs : 0 < bs)
    (h : (scanBlocks dev bs)[j]? = some b) :
    b = (dev.drop (65536 + bs * (j + 1))).take bs ∧ b.length = bs ∧ 65536 + bs * (j + 2) ≤ dev.length := by
  simp only [scanBlocks, List.getElem?_map, Option.map_eq_some_iff] at h
  obtain ⟨i, hi, rfl⟩ := h
  obtain ⟨h1, h2⟩ := List.getElem?_eq_some_iff.mp hi
  rw [List.length_range] at h1
  rw [List.getElem_range] at h2
  subst h2
  have h3 : bs * (j + 2) ≤ dev.length - 65536 := by
    have : j + 2 ≤ (dev.length - 65536) / bs := by omega
    rw [Nat.le_div_iff_mul_le hbs] at this
    rw [Nat.mul_comm]; exact this
  have h4 : 0 < bs * (j + 2) := Nat.mul_pos hbs (by omega)
  refine ⟨rfl, ?_, by omega⟩
  rw [List.length_take, List.length_drop]
  have : bs * (j + 2) = bs * (j + 1) + bs := by rw [Nat.mul_add bs j 2, Nat.mul_add bs j 1]; omega
  omega

theorem scanBlocks_count (dev : Bytes) {bs : Nat} (hbs : 0 < bs) :
    dev.length < 65536 + bs * ((scanBlocks dev bs).length + 1) + bs := by
  simp only [scanBlocks, List.length_map, List.length_range]
  have h1 : dev.length - 65536 < bs * ((dev.length - 65536) / bs + 1) := Nat.lt_mul_div_succ _ hbs
  generalize (dev.length - 65536) / bs = q at *
  have h2 : bs * (q + 1) ≤ bs * (q - 1 + 1 + 1) := Nat.mul_le_mul_left _ (by omega)
  rw [Nat.mul_add bs (q - 1 + 1) 1] at h2
  omega

theorem scanBlocks_bound (dev : Bytes) {bs : Nat} :
    65536 + bs * ((scanBlocks dev bs).length + 1) ≤ dev.length + 65536 + bs := by
  simp only [scanBlocks, List.length_map, List.length_range]
  have h1 : bs * ((dev.length - 65536) / bs) ≤ dev.length - 65536 := Nat.mul_div_le _ _
  generalize (dev.length - 65536) / bs = q at *
  have h2 : bs * (q - 1 + 1) ≤ bs * (q + 1) := Nat.mul_le_mul_left _ (by omega)
  rw [Nat.mul_add bs q 1] at h2
  omega

/-- The offset of block `j`, without wrapping. -/
theorem off_toNat (bs : UInt64) (j : Nat) (h : 65536 + bs.toNat * (j + 1) < 2 ^ 64) :
    (UInt64.ofNat SuperInfoOffset + bs + bs * UInt64.ofNat j).toNat = 65536 + bs.toNat * (j + 1) := by
  rw [Nat.mul_add] at h ⊢
  have h1 : (UInt64.ofNat SuperInfoOffset).toNat = 65536 := by decide
  have h0 : bs.toNat * j % 2 ^ 64 = bs.toNat * (j % 2 ^ 64) % 2 ^ 64 := by rw [Nat.mul_mod_mod]
  rw [UInt64.toNat_add, UInt64.toNat_add, UInt64.toNat_mul, h1, UInt64.toNat_ofNat', ← h0]
  omega

theorem int64_small {x : UInt64} (h : x.toNat < 2 ^ 63) : int64OfU64 x = x.toNat := by
  simp only [int64OfU64]
  rw [if_pos h]

theorem imageReader_full {dev : Bytes} {off n : Nat} (h : off + n ≤ dev.length) :
    imageReader dev (off : Int) n = ((dev.drop off).take n, none) := by
  simp only [imageReader]
  rw [if_neg (by omega), Int.toNat_natCast, if_neg (by rw [List.length_take, List.length_drop]; omega)]

theorem imageReader_eof {dev : Bytes} {off n : Nat} (h : dev.length < off + n) (hn : 0 < n) :
    (imageReader dev (off : Int) n).2 = some .eof := by
  simp only [imageReader]
  rw [if_neg (by omega), Int.toNat_natCast, if_pos (by rw [List.length_take, List.length_drop]; omega)]

theorem readBlockAt_err {r : ReaderAt} {buf : Bytes} {off : UInt64} {e : IOErr}
    (h : (r (int64OfU64 off) buf.length).2 = some e) : (ReadBlockAt r buf off).2 = some e := by
  simp only [ReadBlockAt]
  generalize r (int64OfU64 off) buf.length = p at *
  obtain ⟨b, err⟩ := p
  simp only at h
  rw [h]

/-- The size the loop runs to. -/
def scanLimit (dev : Bytes) (bs : UInt64) : UInt64 :=
  UInt64.ofNat dev.length - UInt64.ofNat dev.length % bs

theorem scanLimit_toNat (dev : Bytes) (bs : UInt64) (h : dev.length < 2 ^ 63) :
    (scanLimit dev bs).toNat = dev.length - dev.length % bs.toNat := by
  have h1 : (UInt64.ofNat dev.length).toNat = dev.length := by
    rw [UInt64.toNat_ofNat']; exact Nat.mod_eq_of_lt (by omega)
  have h2 : (UInt64.ofNat dev.length % bs).toNat = dev.length % bs.toNat := by
    rw [UInt64.toNat_mod, h1]
  rw [scanLimit, UInt64.toNat_sub_of_le, h1, h2]
  rw [UInt64.le_iff_toNat_le, h1, h2]
  exact Nat.mod_le _ _

/-- Reading past the end of the device ends the scan. -/
theorem reconLoop_end (dev : Bytes) (id : UUID) (bs lim off : UInt64) (buf : Bytes) (hb : buf.length = bs.toNat)
    (h0 : 0 < bs.toNat) (hlim : lim.toNat ≤ dev.length) (hlen : dev.length < 2 ^ 63)
    (h : dev.length < off.toNat + bs.toNat) (fuel : Nat) {σ : Type}
    (f : Inserter σ) (ix : σ) : reconLoop f (imageReader dev) id bs lim (fuel + 1) off buf ix = .ok () ix := by
  rw [reconLoop]
  split
  · rename_i hlt
    rw [UInt64.lt_iff_toNat_lt] at hlt
    have h6 : (ReadBlockAt (imageReader dev) buf off).2 = some .eof := by
      apply readBlockAt_err
      rw [int64_small (by omega), hb]
      exact imageReader_eof (by omega) (by omega)
    generalize ReadBlockAt (imageReader dev) buf off = p at h6
    obtain ⟨q, e⟩ := p
    simp only at h6
    subst h6
    rfl
  · rfl

theorem scan_reads (dev : Bytes) (bs : UInt64) (h101 : 101 ≤ bs.toNat)
    (hlen : dev.length < 2 ^ 63) (j : Nat) (b : Bytes) (hj : (scanBlocks dev bs.toNat)[j]? = some b) :
    b.length = bs.toNat ∧ UInt64.ofNat SuperInfoOffset + bs + bs * UInt64.ofNat j < scanLimit dev bs ∧
      imageReader dev (int64OfU64 (UInt64.ofNat SuperInfoOffset + bs + bs * UInt64.ofNat j)) bs.toNat =
        (b, none) := by
  have hlim := scanLimit_toNat dev bs hlen
  have hmod : dev.length % bs.toNat < bs.toNat := Nat.mod_lt _ (by omega)
  obtain ⟨h1, h2, h3⟩ := scanBlocks_get (by omega) hj
  have h4 : bs.toNat * (j + 2) = bs.toNat * (j + 1) + bs.toNat := by
    rw [Nat.mul_add _ j 2, Nat.mul_add _ j 1]; omega
  have h5 := off_toNat bs j (by omega)
  have h6 : 65536 + bs.toNat * (j + 1) + bs.toNat ≤ dev.length := by omega
  generalize 65536 + bs.toNat * (j + 1) = o at h1 h5 h6
  refine ⟨h2, ?_, ?_⟩
  · rw [UInt64.lt_iff_toNat_lt, h5, hlim]; omega
  · rw [int64_small (by omega), h5, imageReader_full (by omega), h1]

/-- Scanning an image. -/
theorem scan_image (dev : Bytes) (id : UUID) (bs : UInt64) (h101 : 101 ≤ bs.toNat)
    (hbs : bs.toNat < 2 ^ 32) (hlen : dev.length < 2 ^ 63) :
    ∃ ops fin, ScanOps id (scanBlocks dev bs.toNat) ops fin ∧
      ∀ ix : Index, ix.Good → ∃ ix', ix'.Good ∧ ix.run ops = .ok (ix', none) ∧
        ∀ fuel, (scanBlocks dev bs.toNat).length < fuel →
          reconLoop insertOrExit (imageReader dev) id bs (scanLimit dev bs) fuel (UInt64.ofNat SuperInfoOffset + bs)
            (List.replicate bs.toNat 0) ix = endOut fin ix' := by
  obtain ⟨ops, fin, buf', hbuf', hops, h⟩ := reconLoop_gen (imageReader dev) id bs (scanLimit dev bs) h101 hbs
    (scanBlocks dev bs.toNat) (UInt64.ofNat SuperInfoOffset + bs) (List.replicate bs.toNat 0) List.length_replicate
    (scan_reads dev bs h101 hlen)
  refine ⟨ops, fin, hops, fun ix hg => ?_⟩
  obtain ⟨ix', hg', h1, h2⟩ := h ix hg
  refine ⟨ix', hg', h1, fun fuel hf => ?_⟩
  have h3 := scanBlocks_bound dev (bs := bs.toNat)
  have h4 := scanBlocks_count dev (bs := bs.toNat) (by omega)
  have h5 := off_toNat bs (scanBlocks dev bs.toNat).length (by omega)
  generalize (scanBlocks dev bs.toNat).length = n at *
  obtain ⟨k, rfl⟩ : ∃ k, fuel = (k + 1) + n := ⟨fuel - n - 1, by omega⟩
  rw [h2]
  cases fin with
  | false => simp only [Bool.false_eq_true, if_false, endOut]
  | true =>
    simp only [if_true, endOut]
    refine reconLoop_end dev id bs _ _ buf' hbuf' (by omega) ?_ hlen ?_ k _ ix'
    · rw [scanLimit_toNat dev bs hlen]; omega
    · rw [h5]; exact h4

/-- What is left when the loop ended normally or by a panic. -/
theorem reconDefer_inv {ix : Index} {l d : AStore} {n : Nat} (h : ix.Inv l d n) :
    reconDefer ix = (.db (some l.enc), false) := by
  obtain ⟨ix', hc, hi, -⟩ := h.commit
  simp only [reconDefer, hc, hi.close]

theorem check_ok (size bs : UInt64) (hb : bs.toNat < 2 ^ 32)
    (h : 64 * 2 ^ 20 + 100 * bs.toNat ≤ size.toNat) : CheckDeviceSize (some size) bs = .ok size :=
  (C18_device_size_partial size bs (by omega) size).mpr ⟨rfl, h⟩

/-- The whole command on an image, given how the metadata file opens. -/
theorem doScan_image (dev : Bytes) (id : UUID) (bs : UInt64) (h101 : 101 ≤ bs.toNat)
    (hbs : bs.toNat < 2 ^ 32) (hlen : dev.length < 2 ^ 63)
    (hsz : 64 * 2 ^ 20 + 100 * bs.toNat ≤ dev.length) (hid : UUID.isZero id = false) :
    ∃ ops fin, ScanOps id (scanBlocks dev bs.toNat) ops fin ∧
      ∀ (f f' : DBFile) (ix : Index) (l : AStore), Open f (reconOptions bs id) = .ok (f', .ok ix) → ix.Inv l l 0 →
        ∀ fuel, (scanBlocks dev bs.toNat).length < fuel →
          doScanFS fuel (imageReader dev) (some (UInt64.ofNat dev.length)) bs id f =
            (.db (some (l.apply ops).enc), if fin then .done else .crash) := by
  obtain ⟨ops, fin, hops, h⟩ := scan_image dev id bs h101 hbs hlen
  refine ⟨ops, fin, hops, fun f f' ix l ho hi fuel hf => ?_⟩
  obtain ⟨ix', -, h1, h2⟩ := h ix ⟨_, _, _, hi⟩
  have hsz' : (UInt64.ofNat dev.length).toNat = dev.length := by
    rw [UInt64.toNat_ofNat']; exact Nat.mod_eq_of_lt (by omega)
  have hb0 : bs ≠ 0 := by rintro rfl; simp at h101
  obtain ⟨ix2, p, s, h3, -, h4, -⟩ := Index.Inv.run (ix := ix) (l0 := l) ops (p := []) (s := []) hi
    (by intro op h; cases h) (Nat.zero_le _)
  rw [h1] at h3
  simp only [Go.ok.injEq, Prod.mk.injEq, and_true] at h3
  subst h3
  have hd := reconDefer_inv h4
  simp only [List.nil_append] at hd
  have ho' : Open f { blockSize := bs, fsid := id, generation := ~~~0 } = .ok (f', .ok ix) := ho
  have h2' := h2 fuel hf
  rw [scanLimit] at h2'
  simp only [doScanFS, hid, Bool.false_eq_true, if_false, check_ok _ bs hbs (hsz'.symm ▸ hsz), hb0, ho', h2']
  cases fin <;> simp [endOut, hd]

end Btrfscue
