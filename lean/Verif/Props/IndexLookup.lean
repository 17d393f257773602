import Verif.Proof.Session
import Verif.Proof.Leaf
/-!
# C20–C24: lookups and inserts
-/

namespace Btrfscue

/-! ## Concrete histories used as non-vacuity witnesses -/

/-- A block header with the given owner and generation. -/
def exHeader (owner gen : UInt64) : HeaderRec :=
  ⟨⟨List.replicate 32 0, by simp⟩, uuidAllFs, 65536, 0, uuidAllZero, gen, owner, 1, 0⟩

/-- An `InsertItem` call with a given header. -/
def exIns (owner gen : UInt64) (k : Key) (d : Bytes) : Ins where
  h := ⟨(exHeader owner gen).layout, []⟩
  key := k
  item := (ItemRec.mk k 0 (UInt32.ofNat d.length)).layout
  data := d
  owner := owner
  gen := gen
  owner_ok := by
    have := (C07_Header_decodes (exHeader owner gen) [] []).2.2.2.2.2.2.2.1
    simpa [exHeader] using this
  gen_ok := by
    have := (C07_Header_decodes (exHeader owner gen) [] []).2.2.2.2.2.2.1
    simpa [exHeader] using this
  item_len := itemRec_length _

/-- Options of a fresh index. -/
def exOptions : Options := { blockSize := 16384, fsid := uuidAllFs, generation := ~~~0 }

/-- Two versions of one item, another item, a commit in between. -/
def exHistory : List IxOp :=
  [.insert (exIns 5 10 ⟨256, 1, 0⟩ [1]), .commit, .insert (exIns 5 12 ⟨256, 1, 0⟩ [2]),
   .insert (exIns 5 9 ⟨257, 1, 0⟩ [3])]

/-! ## C20 -/

theorem findItem_ro (l : AStore) (o : UInt64) (k : Key) (G : UInt64) :
    Index.findItem ⟨true, some l.enc, some ⟨false, some l.enc⟩, true, 0, G⟩ o k =
      Ix.findItem ⟨l.enc, G⟩ o k := rfl

theorem le_max64 (g : UInt64) : g ≤ ~~~0 := by
  rw [UInt64.le_iff_toNat_le]
  have := g.toNat_lt
  have h : (~~~0 : UInt64).toNat = 2 ^ 64 - 1 := by decide
  omega

/-- C20: build an index in any session, close it, open it for reading: looking up
`(owner, k)` gives the value inserted last for the newest generation inserted, and
nil exactly if none was. The lookup must sort before the metadata entry and the
session must not overwrite it; both hold for every owner below `2^64-1`
(`C20_ordinary_owner`). -/
theorem C20_lookup_newest (f : DBFile) (hf : f.fresh) (o : Options) (hro : o.readOnly = false)
    (ops : List IxOp) (hm : sparesMetadata ops) :
    ∃ f' ix, writeSession f o ops = .ok (f', none) ∧ OpenReadOnly f' = .ok (f', .ok ix) ∧
      ∀ owner k, (VKey.mk owner k (~~~0)).before metadataVersionKey →
        (∀ g x, newestInserted ops owner k g → lastValue ops ⟨owner, k, g⟩ = some x →
          ix.findItem owner k = .ok (some ⟨x, []⟩)) ∧
        ((∀ g, lastValue ops ⟨owner, k, g⟩ = none) → ix.findItem owner k = .ok none) := by
  refine ⟨_, _, writeSession_fresh hf o hro ops, openReadOnly_holds hm, ?_⟩
  intro owner k hb
  have hs := AStore.apply_sorted (AStore.init_sorted o) ops
  have hne : ∀ g, (⟨owner, k, g⟩ : VKey) ≠ metadataVersionKey := by
    intro g he
    rw [← VKey.num_lt_iff] at hb
    have : (VKey.mk owner k g).num ≤ (VKey.mk owner k (~~~0)).num := num_same.mpr (le_max64 g)
    rw [he] at this
    omega
  have hmem : ∀ g x, ((⟨owner, k, g⟩ : VKey), x) ∈ (AStore.init o).apply ops ↔
      lastValue ops ⟨owner, k, g⟩ = some x := by
    intro g x
    rw [AStore.mem_apply (AStore.init_sorted o)]
    simp [AStore.init, hne]
  have hce : ∃ e ∈ (AStore.init o).apply ops, (VKey.mk owner k (~~~0)).num ≤ e.1.num :=
    ⟨_, metadata_mem hm, by have := VKey.num_lt_iff.mpr hb; exact Nat.le_of_lt this⟩
  have hni := find_none_iff hs owner k (~~~0) hce
  constructor
  · intro g x hg hx
    rw [findItem_ro, Ix.findItem]
    cases hfd : find ((AStore.init o).apply ops).enc owner k (~~~0) with
    | panic =>
      rw [find_panic_iff hs] at hfd
      obtain ⟨e, h1, h2⟩ := hce
      have := hfd e h1
      omega
    | hang => exact absurd hfd (find_ne_hang _ _ _ _)
    | ok r =>
      cases r with
      | none => exact absurd ((hmem g x).mpr hx) (hni.mp hfd g x)
      | some e =>
        obtain ⟨ik, v⟩ := e
        obtain ⟨g', -, h2, h3, h4⟩ := find_some hs hfd
        have hgg : g' = g := by
          have h5 : g' ≤ g := hg.2 g' (by rw [(hmem g' v).mp h2]; simp)
          have hgv : Bucket.hasVersion ((AStore.init o).apply ops).enc owner k g :=
            enc_hasVersion.mpr ⟨x, (hmem g x).mpr hx⟩
          rcases h4 with ⟨h6, h7⟩ | ⟨h6, h7⟩
          · have h8 := le_max64 g
            rw [UInt64.le_iff_toNat_le] at *
            rw [← UInt64.toNat_inj]; omega
          · have := h7 g hgv
            rw [UInt64.le_iff_toNat_le] at *
            rw [← UInt64.toNat_inj]; omega
        subst hgg
        have := (hmem _ _).mp h2
        rw [hx] at this
        simp only [Option.some.injEq] at this
        subst this
        rfl
  · intro hn
    rw [findItem_ro, Ix.findItem, hni.mpr]
    · rfl
    · intro g x hx
      rw [hmem, hn g] at hx
      cases hx

/-- C20: the side conditions hold for every ordinary owner. -/
theorem C20_ordinary_owner (owner : UInt64) (k : Key) (h : owner ≠ ~~~0) :
    (VKey.mk owner k (~~~0)).before metadataVersionKey := by
  left
  have hh : owner.toNat ≠ (~~~0 : UInt64).toNat := fun he => h (UInt64.toNat_inj.mp he)
  have := owner.toNat_lt
  have h2 : (~~~0 : UInt64).toNat = 2 ^ 64 - 1 := by decide
  simp only [metadataVersionKey]
  omega

theorem C20_ordinary_history (ops : List IxOp) (h : ∀ i, IxOp.insert i ∈ ops → i.owner ≠ ~~~0) :
    sparesMetadata ops := by
  cases hl : lastValue ops metadataVersionKey with
  | none => exact hl
  | some x =>
    obtain ⟨i, hi, hv, -⟩ := lastValue_mem hl
    refine absurd ?_ (h i hi)
    have : i.version.owner = metadataVersionKey.owner := by rw [hv]
    exact this

/-- The hypotheses are met by a history with two versions of an item: the lookup
sees the newer. -/
example : DBFile.fresh .absent ∧ exOptions.readOnly = false ∧ sparesMetadata exHistory ∧
    (VKey.mk 5 ⟨256, 1, 0⟩ (~~~0)).before metadataVersionKey ∧
    newestInserted exHistory 5 ⟨256, 1, 0⟩ 12 ∧
    lastValue exHistory ⟨5, ⟨256, 1, 0⟩, 12⟩ ≠ none ∧
    (∀ g, lastValue exHistory ⟨5, ⟨300, 1, 0⟩, g⟩ = none) := by
  have hv : versionsOf exHistory =
    [⟨5, ⟨256, 1, 0⟩, 10⟩, ⟨5, ⟨256, 1, 0⟩, 12⟩, ⟨5, ⟨257, 1, 0⟩, 9⟩] := rfl
  refine ⟨Or.inl rfl, rfl, ?_, C20_ordinary_owner _ _ (by decide), ⟨?_, ?_⟩, ?_, ?_⟩
  · rw [sparesMetadata, lastValue_none_iff, hv]; decide
  · rw [Ne, lastValue_none_iff, hv]; decide
  · intro g h
    rw [Ne, lastValue_none_iff, hv] at h
    simp only [List.mem_cons, VKey.mk.injEq, List.not_mem_nil, or_false, Classical.not_not, true_and] at h
    rcases h with rfl | rfl | h
    · decide
    · decide
    · exact absurd h.1 (by decide)
  · rw [Ne, lastValue_none_iff, hv]; decide
  · intro g
    rw [lastValue_none_iff, hv]; simp

/-! ## C21 -/

/-- A bucket as every index has: ascending 33 byte keys. -/
theorem Bucket.WF.elim {b : Bucket} (h : b.WF) {P : Bucket → Prop}
    (hp : ∀ l : AStore, l.Sorted → P l.enc) : P b := by
  obtain ⟨l, hl, rfl⟩ := h.exists_abs
  exact hp l hl

/-- C21 (what is proved): a lookup on an index of generation `G` that returns an item
returns the smallest stored generation `≥ G`, and the newest one if all are older.
The documented choice (largest `≤ G`) is missing: it is refuted by
`C21_documented_choice_fails`. -/
theorem C21_lookup_at_generation_partial (b : Bucket) (hb : b.WF) (G owner : UInt64) (k : Key)
    (it : Item) (h : (Ix.mk b G).findItem owner k = .ok (some it)) :
    ∃ g, b.actualChoice owner k G g ∧ b.stores ⟨owner, k, g⟩ (Slice.data it) ∧ Slice.tail it = [] := by
  obtain ⟨l, hl, rfl⟩ := hb.exists_abs
  simp only [Ix.findItem, Go.bind_eq_ok] at h
  obtain ⟨r, hr, h⟩ := h
  cases r with
  | none => simp at h
  | some e =>
    obtain ⟨ik, v⟩ := e
    simp only [Go.pure_eq, Go.ok.injEq, Option.some.injEq] at h
    subst h
    obtain ⟨g, -, h2, h3⟩ := find_some hl hr
    exact ⟨g, h3, enc_stores.mpr h2, rfl⟩

/-- C21: when the index generation is stored for the key, or is at least as new as all
stored versions, the lookup makes the documented choice. -/
theorem C21_documented_when_exact_or_newest (b : Bucket) (G owner : UInt64) (k : Key) (g : UInt64)
    (h : b.actualChoice owner k G g)
    (hc : b.hasVersion owner k G ∨ ∀ g', b.hasVersion owner k g' → g' ≤ G) :
    b.documentedChoice owner k G g := by
  obtain ⟨h1, h2⟩ := h
  refine ⟨h1, Or.inl ?_⟩
  simp only [UInt64.le_iff_toNat_le, UInt64.lt_iff_toNat_lt] at *
  rcases hc with hc | hc
  · rcases h2 with ⟨h3, h4⟩ | ⟨h3, h4⟩
    · have := h4 G hc (Nat.le_refl _)
      exact ⟨this, fun g' _ h6 => Nat.le_trans h6 h3⟩
    · have := h3 G hc; omega
  · refine ⟨hc g h1, fun g' h5 h6 => ?_⟩
    rcases h2 with ⟨h3, h4⟩ | ⟨h3, h4⟩
    · exact Nat.le_trans h6 h3
    · exact h4 g' h5

/-- C21: in particular at the generation used by every read-only open. -/
theorem C21_documented_at_max (b : Bucket) (owner : UInt64) (k : Key) (g : UInt64)
    (h : b.actualChoice owner k (~~~0) g) : b.documentedChoice owner k (~~~0) g :=
  C21_documented_when_exact_or_newest b _ owner k g h (Or.inr fun g' _ => le_max64 g')

/-- An index with generations 10 and 20 of one item. -/
def exTwoGens : AStore :=
  [(⟨5, ⟨256, 1, 0⟩, 10⟩, [1]), (⟨5, ⟨256, 1, 0⟩, 20⟩, [2]), (metadataVersionKey, [])]

theorem exTwoGens_sorted : exTwoGens.Sorted := by
  unfold AStore.Sorted exTwoGens
  have h1 : ∀ a b : VKey, a.before b → a.num < b.num := fun a b => VKey.num_lt_iff.mpr
  refine .cons ?_ (.cons ?_ (.cons (by simp) .nil))
  · intro e he
    simp only [List.mem_cons, List.not_mem_nil, or_false] at he
    rcases he with rfl | rfl
    · exact h1 _ _ (by simp [VKey.before, VKey.fields, Key.fields, lexLt])
    · exact h1 _ _ (by left; decide)
  · intro e he
    simp only [List.mem_cons, List.not_mem_nil, or_false] at he
    subst he
    exact h1 _ _ (by left; decide)

/-- C21 refuted: at generation 15 the lookup returns generation 20, although 10 is
stored. -/
theorem C21_documented_choice_fails :
    exTwoGens.enc.WF ∧
    (Ix.mk exTwoGens.enc 15).findItem 5 ⟨256, 1, 0⟩ = .ok (some ⟨[2], []⟩) ∧
    exTwoGens.enc.documentedChoice 5 ⟨256, 1, 0⟩ 15 10 ∧
    exTwoGens.enc.stores ⟨5, ⟨256, 1, 0⟩, 10⟩ [1] ∧
    ¬ exTwoGens.enc.stores ⟨5, ⟨256, 1, 0⟩, 10⟩ [2] := by
  refine ⟨AStore.enc_wf exTwoGens_sorted, by decide +kernel, ?_, ?_, ?_⟩
  · refine ⟨enc_hasVersion.mpr ⟨[1], by simp [exTwoGens]⟩, Or.inl ⟨by decide, ?_⟩⟩
    intro g' h1 h2
    rw [enc_hasVersion] at h1
    obtain ⟨x, h1⟩ := h1
    simp [exTwoGens, metadataVersionKey] at h1
    rcases h1 with ⟨rfl, -⟩ | ⟨rfl, -⟩ | ⟨h1, -⟩
    · decide
    · exact absurd h2 (by decide)
    · exact absurd h1.1 (by decide)
  · exact enc_stores.mpr (by simp [exTwoGens])
  · rw [enc_stores]; simp [exTwoGens, metadataVersionKey]

/-! ## C22 -/

/-- C22: exact condition for a lookup to crash: everything stored sorts before the
version asked for. -/
theorem C22_crash_iff (b : Bucket) (hb : b.WF) (G owner : UInt64) (k : Key) :
    (Ix.mk b G).findItem owner k = .panic ↔
      ∀ v x, b.stores v x → v.before ⟨owner, k, G⟩ := by
  obtain ⟨l, hl, rfl⟩ := hb.exists_abs
  rw [Ix.findItem, Go.bind_eq_panic, find_panic_iff hl]
  constructor
  · rintro (h | ⟨r, -, h⟩)
    · intro v x hv
      exact VKey.num_lt_iff.mp (h (v, x) (enc_stores.mp hv))
    · cases r <;> simp at h
  · intro h
    left
    rintro ⟨v, x⟩ he
    exact VKey.num_lt_iff.mpr (h v x (enc_stores.mpr he))

/-- C22 (what is proved): with the metadata entry in place, a lookup sorting up to it
gives nil — exactly if no version is stored — or an item stored under exactly the
requested owner and key. Missing: lookups sorting after the metadata entry crash,
see `C22_crash_after_sentinel`. -/
theorem C22_lookup_safe_partial (b : Bucket) (hb : b.WF) (G owner : UInt64) (k : Key) (m : Bytes)
    (hm : b.stores metadataVersionKey m)
    (hlt : ¬ metadataVersionKey.before ⟨owner, k, G⟩) :
    ((Ix.mk b G).findItem owner k = .ok none ∧ ∀ g, ¬ b.hasVersion owner k g) ∨
    ∃ g x, (Ix.mk b G).findItem owner k = .ok (some ⟨x, []⟩) ∧ b.stores ⟨owner, k, g⟩ x := by
  obtain ⟨l, hl, rfl⟩ := hb.exists_abs
  have hc : ∃ e ∈ l, (VKey.mk owner k G).num ≤ e.1.num := by
    refine ⟨_, enc_stores.mp hm, ?_⟩
    rw [← VKey.num_lt_iff] at hlt
    simpa using hlt
  cases hf : (Ix.mk l.enc G).findItem owner k with
  | panic =>
    rw [C22_crash_iff _ (AStore.enc_wf hl)] at hf
    exact absurd (hf _ _ hm) hlt
  | hang =>
    simp only [Ix.findItem, Go.bind_eq_hang] at hf
    rcases hf with hf | ⟨r, -, hf⟩
    · exact absurd hf (find_ne_hang _ _ _ _)
    · cases r <;> simp at hf
  | ok r =>
    cases r with
    | none =>
      left
      refine ⟨rfl, ?_⟩
      simp only [Ix.findItem, Go.bind_eq_ok] at hf
      obtain ⟨r, hr, hf⟩ := hf
      cases r with
      | some e => simp at hf
      | none =>
        rw [find_none_iff hl _ _ _ hc] at hr
        intro g hg
        obtain ⟨x, hx⟩ := enc_hasVersion.mp hg
        exact hr g x hx
    | some it =>
      right
      obtain ⟨g, -, h2, h3⟩ := C21_lookup_at_generation_partial _ (AStore.enc_wf hl) G owner k it hf
      obtain ⟨d, t⟩ := it
      simp only at h3
      subst h3
      exact ⟨g, d, rfl, h2⟩

/-- C22 refuted in general: on every index whose only entry from the metadata key on
is the metadata itself, looking up owner `2^64-1`, type 255, object id `2^64-1`
crashes. -/
theorem C22_crash_after_sentinel :
    exTwoGens.enc.WF ∧ exTwoGens.enc.stores metadataVersionKey [] ∧
    (Ix.mk exTwoGens.enc (~~~0)).findItem (~~~0) ⟨~~~0, 255, 0⟩ = .panic := by
  refine ⟨AStore.enc_wf exTwoGens_sorted, enc_stores.mpr (by simp [exTwoGens]), by decide +kernel⟩

/-- The hypotheses of the safe case hold for an ordinary lookup. -/
example : exTwoGens.enc.WF ∧ exTwoGens.enc.stores metadataVersionKey [] ∧
    ¬ metadataVersionKey.before ⟨5, ⟨256, 1, 0⟩, 20⟩ := by
  refine ⟨AStore.enc_wf exTwoGens_sorted, enc_stores.mpr (by simp [exTwoGens]), ?_⟩
  rw [← VKey.num_lt_iff]
  have := VKey.num_lt_iff.mpr (C20_ordinary_owner 5 ⟨256, 1, 0⟩ (by decide))
  have h2 : (VKey.mk 5 ⟨256, 1, 0⟩ 20).num ≤ (VKey.mk 5 ⟨256, 1, 0⟩ (~~~0)).num :=
    num_same.mpr (le_max64 _)
  omega

/-! ## C23 -/

/-- C23: two histories that insert the same items with pairwise different versions, in
any order and with commits anywhere, give the same file. -/
theorem C23_insert_order_irrelevant (f : DBFile) (hf : f.fresh) (o : Options)
    (hro : o.readOnly = false) (a b : List IxOp) (h : a.Perm b) (hd : (versionsOf a).Nodup) :
    ∃ f', writeSession f o a = .ok (f', none) ∧ writeSession f o b = .ok (f', none) := by
  refine ⟨_, writeSession_fresh hf o hro a, ?_⟩
  rw [writeSession_fresh hf o hro b, apply_congr (lastValue_perm h hd)]

/-- C23: the outcome depends only on the last value inserted for each version; in
particular repeating an insert, or adding a commit, changes nothing. -/
theorem C23_only_last_values_matter (f : DBFile) (hf : f.fresh) (o : Options)
    (hro : o.readOnly = false) (a b : List IxOp) (h : ∀ v, lastValue a v = lastValue b v) :
    ∃ f', writeSession f o a = .ok (f', none) ∧ writeSession f o b = .ok (f', none) := by
  refine ⟨_, writeSession_fresh hf o hro a, ?_⟩
  rw [writeSession_fresh hf o hro b, apply_congr h]

/-- C23: inserting an item again right away, or after anything else that does not
overwrite it, changes nothing. -/
theorem C23_reinsert (f : DBFile) (hf : f.fresh) (o : Options) (hro : o.readOnly = false)
    (a : List IxOp) (i : Ins) (h : lastValue a i.version = some i.value) :
    ∃ f', writeSession f o a = .ok (f', none) ∧
      writeSession f o (a ++ [.insert i]) = .ok (f', none) := by
  refine C23_only_last_values_matter f hf o hro a _ fun v => ?_
  rw [lastValue_append]
  simp only [lastValue]
  by_cases hv : i.version = v
  · subst hv; simp [h]
  · simp [hv]

/-- C23: a second session on the same file continues where the first stopped. -/
theorem C23_sessions_compose (f : DBFile) (hf : f.fresh) (o o' : Options)
    (hro : o.readOnly = false) (hro' : o'.readOnly = false) (hbs : o'.blockSize = o.blockSize)
    (hid : o'.fsid = o.fsid) (a b : List IxOp) (hm : sparesMetadata a) :
    ∃ f1 f2, writeSession f o a = .ok (f1, none) ∧ writeSession f1 o' b = .ok (f2, none) ∧
      writeSession f o (a ++ b) = .ok (f2, none) := by
  refine ⟨_, _, writeSession_fresh hf o hro a, ?_, writeSession_fresh hf o hro (a ++ b)⟩
  obtain ⟨ix, h1, h2, -⟩ := reopen_rw hm hro' hbs hid
  obtain ⟨ix', p, s, h4, h5, h6, -⟩ := Index.Inv.run (ix := ix) (l0 := AStore.init o) b
    (p := a) (s := []) (by rw [List.append_nil]; exact h2) (by intro op h; cases h) (Nat.zero_le _)
  simp only [List.append_nil] at h6
  simp only [writeSession, h1, Go.ok_bind, h4, h6.close, Go.pure_eq]

example : (versionsOf exHistory).Nodup ∧ exHistory.Perm exHistory.reverse := by
  refine ⟨?_, (List.reverse_perm _).symm⟩
  have hv : versionsOf exHistory =
    [⟨5, ⟨256, 1, 0⟩, 10⟩, ⟨5, ⟨256, 1, 0⟩, 12⟩, ⟨5, ⟨257, 1, 0⟩, 9⟩] := rfl
  rw [hv]; decide

example : lastValue exHistory (exIns 5 10 ⟨256, 1, 0⟩ [1]).version =
    some (exIns 5 10 ⟨256, 1, 0⟩ [1]).value := by decide +kernel

/-! ## C24 -/

/-- C24 (what is proved): whatever is inserted and committed, as long as nothing is
inserted under the metadata key itself, the metadata value in the closed file is the
one written at creation. Missing: an insert under that key replaces it
(`C24_colliding_insert`). -/
theorem C24_metadata_kept_partial (f : DBFile) (hf : f.fresh) (o : Options)
    (hro : o.readOnly = false) (ops : List IxOp) (hm : sparesMetadata ops) :
    ∃ b, writeSession f o ops = .ok (.db (some b), none) ∧
      ∀ x, b.stores metadataVersionKey x ↔ x = newIndexMetadata o := by
  refine ⟨_, writeSession_fresh hf o hro ops, fun x => ?_⟩
  rw [enc_stores, AStore.mem_apply (AStore.init_sorted o)]
  simp [AStore.init, show lastValue ops metadataVersionKey = none from hm]

/-- C24 refuted in general: one item of a (corrupt) block with owner and generation
`2^64-1` replaces the metadata of every fresh index. -/
theorem C24_colliding_insert (f : DBFile) (hf : f.fresh) (o : Options)
    (hro : o.readOnly = false) (d : Bytes) :
    ∃ b, writeSession f o [.insert (exIns (~~~0) (~~~0) KL0 d)] = .ok (.db (some b), none) ∧
      ∀ x, b.stores metadataVersionKey x ↔ x = (exIns (~~~0) (~~~0) KL0 d).value := by
  refine ⟨_, writeSession_fresh hf o hro _, fun x => ?_⟩
  rw [enc_stores, AStore.mem_apply (AStore.init_sorted o)]
  have : (exIns (~~~0) (~~~0) KL0 d).version = metadataVersionKey := rfl
  simp only [lastValue, this, if_true, Option.some.injEq, reduceCtorEq, false_and, or_false]
  exact eq_comm

end Btrfscue
