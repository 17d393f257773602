import Verif.Proof.Path
/-!
# C38, C39: path lookup
-/

namespace Btrfscue

/-! ## C38 -/

/-- C38 (what is proved): on an index whose directories are well behaved, what
`FindDirItemForPath` returns is the end of a chain of stored directory items with the
names of the path. Missing: other indexes, where the lookup can crash or never end
(`C38_lookup_hangs`, `C38_truncated_entry_crashes`). -/
theorem C38_path_sound_partial (b : Bucket) (hb : b.WF) (m : Bytes)
    (hm : b.stores metadataVersionKey m) (hok : b.DirsOK) (G o : UInt64) (ho : o ≠ ~~~0)
    (path : Bytes) (fuel : Nat) (d : DirItem)
    (h : (Ix.mk b G).findDirItemForPath fuel o path = .ok (some d)) :
    ∃ k names, path = List.replicate k 47 ++ joinPath names ∧ (∀ n ∈ names, 47 ∉ n) ∧
      b.PathTo o 256 names d := by
  obtain ⟨l, hl, rfl⟩ := hb.exists_abs
  obtain ⟨k, hk⟩ := pathComps_spec path
  exact ⟨k, pathComps path, hk, pathComps_noslash path,
    findPathLoop_sound hl ⟨m, hm⟩ hok _ _ _ _ _ ho (splitSlash_ne _) h⟩

/-- C38: and on such an index, if also every directory item is long enough for its
header and name, the lookup returns: it neither crashes nor runs forever. -/
theorem C38_path_returns (b : Bucket) (hb : b.WF) (m : Bytes)
    (hm : b.stores metadataVersionKey m) (hok : b.DirsOK)
    (hfull : ∀ o dir d, o ≠ ~~~0 → b.dirItem o dir d → wholeEntry (Slice.data d))
    (G o : UInt64) (ho : o ≠ ~~~0) (path : Bytes) :
    ∃ N r, ∀ fuel, N ≤ fuel → (Ix.mk b G).findDirItemForPath fuel o path = .ok r := by
  obtain ⟨l, hl, rfl⟩ := hb.exists_abs
  exact findPathLoop_returns hl ⟨m, hm⟩ hok hfull _ _ _ _ ho

/-- The payload of a directory entry. -/
def exEntry (loc : Key) (typ : UInt8) (name : Bytes) : Bytes :=
  (DirItemRec.mk loc 7 0 (UInt16.ofNat name.length) typ).layout ++ name

/-- `/a` is a directory, `/a/b` a subvolume 300, `/a/b/c` a file in it. -/
def exPathStore : AStore :=
  [(⟨5, ⟨256, 84, (NameHash [97]).toUInt64⟩, 10⟩,
      mkItem ⟨256, 84, (NameHash [97]).toUInt64⟩ (exEntry ⟨257, 1, 0⟩ 2 [97])),
   (⟨5, ⟨257, 84, (NameHash [98]).toUInt64⟩, 11⟩,
      mkItem ⟨257, 84, (NameHash [98]).toUInt64⟩ (exEntry ⟨300, 132, 0⟩ 2 [98])),
   (⟨5, ⟨256, 96, 2⟩, 10⟩, mkItem ⟨256, 96, 2⟩ []),
   (⟨300, ⟨256, 84, (NameHash [99]).toUInt64⟩, 12⟩,
      mkItem ⟨256, 84, (NameHash [99]).toUInt64⟩ (exEntry ⟨258, 1, 0⟩ 1 [99])),
   (⟨300, ⟨256, 96, 2⟩, 10⟩, mkItem ⟨256, 96, 2⟩ []),
   (metadataVersionKey, [])]

theorem exPathStore_sorted : exPathStore.Sorted := sorted_of_before (by decide +kernel)

/-- Facts about directory items of a concrete store. -/
theorem dirItem_of {l : AStore} {P : DirItem → Prop}
    (h : ∀ e ∈ l, e.1.owner ≠ ~~~0 → e.1.key.typ = 84 → ∃ d, Item.data ⟨e.2, []⟩ = .ok d ∧ P d)
    (o dir : UInt64) (d : DirItem) (ho : o ≠ ~~~0) (hd : l.enc.dirItem o dir d) : P d := by
  obtain ⟨off, g, x, hx, hdx⟩ := hd
  obtain ⟨d', h1, h2⟩ := h _ (enc_stores.mp hx) ho rfl
  rw [h1] at hdx
  cases hdx
  exact h2

theorem item_data_mk (k : Key) (d : Bytes) (h : d.length + 25 < 2 ^ 32) :
    Item.data ⟨mkItem k d, []⟩ = .ok ⟨d, []⟩ := by
  have hs : Item.size ⟨mkItem k d, []⟩ = .ok (UInt32.ofNat d.length) :=
    (C07_Item_decodes ⟨k, 0, UInt32.ofNat d.length⟩ d []).2.2.2
  have hI : ItemLen = 25 := by decide
  have hsz : (UInt32.ofNat 25 + UInt32.ofNat d.length).toNat = 25 + d.length := by
    rw [UInt32.toNat_add, UInt32.toNat_ofNat', UInt32.toNat_ofNat']; omega
  simp only [Item.data, hs, Go.ok_bind, hI, hsz]
  rw [mkItem]
  have := sub_mid (ItemRec.mk k 0 (UInt32.ofNat d.length)).layout d [] [] 25 (25 + d.length)
    (itemRec_length _) (by rw [itemRec_length])
  simpa using this

theorem entry_whole (loc : Key) (t : UInt8) (name : Bytes) (h : name.length ≤ 255) :
    wholeEntry (exEntry loc t name) :=
  ⟨⟨loc, 7, 0, UInt16.ofNat name.length, t⟩, name, [], by simp [exEntry], by
    rw [UInt16.toNat_ofNat']; omega, h⟩

theorem entry_location (loc : Key) (t : UInt8) (name : Bytes) :
    DirItem.location ⟨exEntry loc t name, []⟩ = .ok loc :=
  (C07_DirItem_decodes ⟨loc, 7, 0, UInt16.ofNat name.length, t⟩ name []).2.1

/-- Checking `DirsOK` on a store made of intact items where every tree with directory
items also has an item after them. -/
theorem dirsOK_of {l : AStore} (hkl : ∀ e ∈ l, e.1.owner ≠ ~~~0 → e.1.gen ≠ ~~~0 ∧ e.1.key.typ ≠ 255)
    (hi : ∀ e ∈ l, e.1.owner ≠ ~~~0 → ∃ d, holdsItem e.2 d)
    (hc : ∀ e ∈ l, e.1.owner ≠ ~~~0 → e.1.key.typ = 84 →
      ∃ e' ∈ l, e'.1.owner = e.1.owner ∧ 84 < e'.1.key.typ.toNat)
    (hm : ∀ e ∈ l, e.1.owner ≠ ~~~0 → e.1.key.typ = 84 → ∃ d, Item.data ⟨e.2, []⟩ = .ok d ∧
      ∃ loc, DirItem.location d = .ok loc ∧ (loc.typ = 132 → loc.objectID ≠ ~~~0)) : l.enc.DirsOK where
  noKL o ho hk := by
    obtain ⟨g, x, hx⟩ := enc_hasKey.mp hk
    exact (hkl _ hx ho).2 rfl
  ranges o k ho hk ht := by
    obtain ⟨g, x, hx⟩ := enc_hasKey.mp hk
    refine rangeOK_of ho (fun e he heo => hi e he (by rw [heo]; exact ho))
      (fun e he heo => ?_) ?_
    · obtain ⟨h1, h2⟩ := hkl e he (by rw [heo]; exact ho)
      exact ⟨h1, fun hc => h2 (by rw [hc]; rfl)⟩
    · obtain ⟨e', h1, h2, h3⟩ := hc _ hx ho ht
      exact ⟨e', h1, h2, Or.inl h3⟩
  noMetaTree o dir d loc ho hd hloc := by
    obtain ⟨loc', h1, h2⟩ := dirItem_of hm o dir d ho hd
    rw [h1] at hloc
    cases hloc
    exact h2

theorem exPathStore_ok : exPathStore.enc.DirsOK := by
  refine dirsOK_of ?_ ?_ ?_ ?_ <;> intro e he <;>
    simp only [exPathStore, List.mem_cons, List.not_mem_nil, or_false] at he <;>
    rcases he with rfl | rfl | rfl | rfl | rfl | rfl
  all_goals first
    | (intro h; exact absurd rfl h)
    | (intro _; exact ⟨by show ¬ (_ : UInt64) = ~~~0; decide, by show ¬ (_ : UInt8) = 255; decide⟩)
    | (intro _; exact ⟨_, mkItem_holds _ _ (by decide)⟩)
    | (intro _ h; exact absurd h (by show ¬ (_ : UInt8) = 84; decide))
    | (intro _ _
       exact ⟨(⟨5, ⟨256, 96, 2⟩, 10⟩, mkItem ⟨256, 96, 2⟩ []), by simp [exPathStore], rfl, by decide⟩)
    | (intro _ _
       exact ⟨(⟨300, ⟨256, 96, 2⟩, 10⟩, mkItem ⟨256, 96, 2⟩ []), by simp [exPathStore], rfl, by decide⟩)
    | (intro _ _
       refine ⟨_, item_data_mk _ _ (by decide), _, entry_location _ _ _, ?_⟩
       first
         | (intro _; show ¬ (_ : UInt64) = ~~~0; decide)
         | (intro h; exact absurd h (by show ¬ (_ : UInt8) = 132; decide)))

/-- The hypotheses hold for a store with a directory, a subvolume in it and a file in
that, and the lookup of `//a/b/c` finds the file's entry. -/
example : exPathStore.enc.WF ∧ exPathStore.enc.stores metadataVersionKey [] ∧ exPathStore.enc.DirsOK ∧
    (∀ o dir d, o ≠ ~~~0 → exPathStore.enc.dirItem o dir d → wholeEntry (Slice.data d)) ∧
    (Ix.mk exPathStore.enc (~~~0)).findDirItemForPath 0 5 [47, 47, 97, 47, 98, 47, 99] =
      .ok (some ⟨exEntry ⟨258, 1, 0⟩ 1 [99], []⟩) := by
  refine ⟨AStore.enc_wf exPathStore_sorted, enc_stores.mpr (by simp [exPathStore]), exPathStore_ok,
    fun o dir d ho hd => ?_, by decide +kernel⟩
  refine dirItem_of (P := fun d => wholeEntry (Slice.data d)) ?_ o dir d ho hd
  intro e he
  simp only [exPathStore, List.mem_cons, List.not_mem_nil, or_false] at he
  rcases he with rfl | rfl | rfl | rfl | rfl | rfl
  all_goals first
    | (intro _ h; exact absurd h (by show ¬ (_ : UInt8) = 84; decide))
    | (intro _ _; exact ⟨_, item_data_mk _ _ (by decide), entry_whole _ _ _ (by decide)⟩)
    | (intro h; exact absurd rfl h)

/-- Two subvolumes; of the first one the directory index items are lost. -/
def exLostIndex : AStore :=
  [(⟨256, ⟨256, 1, 0⟩, 10⟩, mkItem ⟨256, 1, 0⟩ (List.replicate 160 0)),
   (⟨256, ⟨256, 84, (NameHash [97]).toUInt64⟩, 10⟩,
      mkItem ⟨256, 84, (NameHash [97]).toUInt64⟩ (exEntry ⟨257, 1, 0⟩ 1 [97])),
   (⟨257, ⟨256, 1, 0⟩, 11⟩, mkItem ⟨256, 1, 0⟩ (List.replicate 160 0)),
   (metadataVersionKey, [])]

/-- C38 refuted: on an index with two subvolumes where the directory index items of
the first are missing, looking up a name that does not exist never ends. -/
theorem C38_lookup_hangs (fuel : Nat) :
    (Ix.mk exLostIndex.enc (~~~0)).findDirItemForPath fuel 256 [98] = .hang := by
  let E := (VKey.mk 256 (KL2 84 256) (~~~0)).encode
  let i1 : VKey × Bytes := (⟨256, ⟨256, 1, 0⟩, 10⟩, mkItem ⟨256, 1, 0⟩ (List.replicate 160 0))
  let i2 : VKey × Bytes := (⟨256, ⟨256, 84, (NameHash [97]).toUInt64⟩, 10⟩,
      mkItem ⟨256, 84, (NameHash [97]).toUInt64⟩ (exEntry ⟨257, 1, 0⟩ 1 [97]))
  have hp : pathComps [98] = [[98]] := by decide
  have hf : fastDir ⟨exLostIndex.enc, ~~~0⟩ 256 FirstFreeObjectID [98] = .ok none := by decide +kernel
  have hr : (Ix.mk exLostIndex.enc (~~~0)).dirItems 256 FirstFreeObjectID =
      .ok (Range.at exLostIndex.enc E i2, ⟨exEntry ⟨257, 1, 0⟩ 1 [97], []⟩) := by decide +kernel
  have hn2 : (Range.at exLostIndex.enc E i2).hasNext = true := by decide +kernel
  have hn1 : (Range.at exLostIndex.enc E i1).hasNext = true := by decide +kernel
  have hx2 : (Range.at exLostIndex.enc E i2).next =
      .ok (Range.at exLostIndex.enc E i1, ⟨List.replicate 160 0, []⟩) := by decide +kernel
  have hx1 : (Range.at exLostIndex.enc E i1).next =
      .ok (Range.at exLostIndex.enc E i2, ⟨exEntry ⟨257, 1, 0⟩ 1 [97], []⟩) := by decide +kernel
  have hm2 : DirItem.name ⟨exEntry ⟨257, 1, 0⟩ 1 [97], []⟩ = .ok [97] := by decide +kernel
  have hm1 : DirItem.name ⟨List.replicate 160 0, []⟩ = .ok [] := by decide +kernel
  simp only [Ix.findDirItemForPath, hp, findPathLoop, findComp, hf, Go.ok_bind, hr]
  rw [rangeLoop_hang _ (fun rd => rd = (Range.at exLostIndex.enc E i2, ⟨exEntry ⟨257, 1, 0⟩ 1 [97], []⟩) ∨
    rd = (Range.at exLostIndex.enc E i1, ⟨List.replicate 160 0, []⟩)) ?_ ?_ fuel none _ (Or.inl rfl)]
  · rfl
  · rintro rd (rfl | rfl)
    · exact ⟨hn2, _, hx2, Or.inr rfl⟩
    · exact ⟨hn1, _, hx1, Or.inl rfl⟩
  · rintro s rd (rfl | rfl)
    · exact ⟨s, by simp only [slowBody, hm2, Go.ok_bind]; rfl⟩
    · exact ⟨s, by simp only [slowBody, hm1, Go.ok_bind]; rfl⟩

/-- C38 refuted: a directory item cut short makes every lookup of another name in that
directory crash. -/
theorem C38_truncated_entry_crashes (fuel : Nat) :
    (Ix.mk (AStore.enc [(⟨5, ⟨256, 84, 1⟩, 10⟩, mkItem ⟨256, 84, 1⟩ [1, 2, 3]),
      (⟨5, ⟨256, 96, 2⟩, 10⟩, mkItem ⟨256, 96, 2⟩ []), (metadataVersionKey, [])])
      (~~~0)).findDirItemForPath (fuel + 1) 5 [98] = .panic := by
  let l : AStore := [(⟨5, ⟨256, 84, 1⟩, 10⟩, mkItem ⟨256, 84, 1⟩ [1, 2, 3]),
      (⟨5, ⟨256, 96, 2⟩, 10⟩, mkItem ⟨256, 96, 2⟩ []), (metadataVersionKey, [])]
  have hp : pathComps [98] = [[98]] := by decide
  have hf : fastDir ⟨l.enc, ~~~0⟩ 5 FirstFreeObjectID [98] = .ok none := by decide +kernel
  have hr : (Ix.mk l.enc (~~~0)).dirItems 5 FirstFreeObjectID = .ok (Range.at l.enc
      (VKey.mk 5 (KL2 84 256) (~~~0)).encode (⟨5, ⟨256, 84, 1⟩, 10⟩, mkItem ⟨256, 84, 1⟩ [1, 2, 3]),
      ⟨[1, 2, 3], []⟩) := by decide +kernel
  have hn : (Range.at l.enc (VKey.mk 5 (KL2 84 256) (~~~0)).encode
      (⟨5, ⟨256, 84, 1⟩, 10⟩, mkItem ⟨256, 84, 1⟩ [1, 2, 3])).hasNext = true := by decide +kernel
  have hb : slowBody [98] true none (Range.at l.enc (VKey.mk 5 (KL2 84 256) (~~~0)).encode
      (⟨5, ⟨256, 84, 1⟩, 10⟩, mkItem ⟨256, 84, 1⟩ [1, 2, 3])) ⟨[1, 2, 3], []⟩ = .panic := by decide +kernel
  show (Ix.mk l.enc (~~~0)).findDirItemForPath (fuel + 1) 5 [98] = .panic
  simp only [Ix.findDirItemForPath, hp, findPathLoop, findComp, hf, Go.ok_bind, hr, rangeLoop, hn, if_true,
    List.isEmpty_nil, hb, Go.panic_bind]

/-! ## C39 -/

/-- C39 (what is proved): if for every name of a path the newest directory item under
the name's hash starts with an entry of that name, the lookup finds the last one, with
any number of leading slashes. Missing: an entry behind another one in the same item
(names with equal hashes) is not found, see `C39_hash_collision_not_found`. -/
theorem C39_path_complete_partial (b : Bucket) (hb : b.WF) (m : Bytes)
    (hm : b.stores metadataVersionKey m) (o : UInt64) (k : Nat) (n : Bytes) (rest : List Bytes)
    (hne : n ≠ []) (hs : ∀ x ∈ n :: rest, 47 ∉ x) (p : Bytes) (h : b.HashedPath o 256 (n :: rest) p)
    (fuel : Nat) :
    ∃ s : Slice, (Ix.mk b (~~~0)).findDirItemForPath fuel o
      (List.replicate k 47 ++ joinPath (n :: rest)) = .ok (some s) ∧ s.data = p := by
  obtain ⟨l, hl, rfl⟩ := hb.exists_abs
  simp only [Ix.findDirItemForPath, pathComps_join k n rest hne hs]
  exact findPathLoop_hit hl ⟨m, hm⟩ h fuel none

theorem newest_of {l : AStore} {o : UInt64} {k : Key} {g : UInt64} {x : Bytes} (h : (⟨o, k, g⟩, x) ∈ l)
    (hu : ∀ e ∈ l, e.1.owner = o → e.1.key = k → e.1.gen ≤ g) : l.enc.newest o k g := by
  refine ⟨⟨x, enc_stores.mpr h⟩, fun g' hg' => ?_⟩
  obtain ⟨y, hy⟩ := enc_hasVersion.mp hg'
  exact hu _ hy rfl rfl

theorem entry_hashed {l : AStore} {o dir g : UInt64} {k loc : Key} {t : UInt8} {name : Bytes}
    (hn : name.length ≤ 255)
    (h : (⟨o, ⟨dir, 84, (NameHash name).toUInt64⟩, g⟩, mkItem k (exEntry loc t name)) ∈ l)
    (hu : ∀ e ∈ l, e.1.owner = o → e.1.key = ⟨dir, 84, (NameHash name).toUInt64⟩ → e.1.gen ≤ g) :
    l.enc.hashedEntry o dir name ⟨loc, 7, 0, UInt16.ofNat name.length, t⟩ (exEntry loc t name) := by
  refine ⟨g, _, [], newest_of h hu, enc_stores.mpr h, mkItem_holds _ _ ?_, by simp [exEntry], ?_, hn⟩
  · simp [exEntry, DirItemRec.layout]; omega
  · simp only [UInt16.toNat_ofNat']; omega

/-- The hypotheses of C39 hold for `/a/b/c` in `exPathStore`. -/
example : exPathStore.enc.HashedPath 5 256 [[97], [98], [99]] (exEntry ⟨258, 1, 0⟩ 1 [99]) := by
  refine .step (by decide) (entry_hashed (g := 10) (k := ⟨256, 84, (NameHash [97]).toUInt64⟩)
    (loc := ⟨257, 1, 0⟩) (t := 2) (by decide) (by simp [exPathStore]) (by decide +kernel)) ?_
  refine .step (by decide) (entry_hashed (g := 11) (k := ⟨257, 84, (NameHash [98]).toUInt64⟩)
    (loc := ⟨300, 132, 0⟩) (t := 2) (by decide) (by simp [exPathStore, target]) (by decide +kernel)) ?_
  exact .last (by decide) (entry_hashed (g := 12) (k := ⟨256, 84, (NameHash [99]).toUInt64⟩)
    (loc := ⟨258, 1, 0⟩) (t := 1) (by decide) (by simp [exPathStore, target]) (by decide +kernel))

/-- A directory with one item that holds two entries of equal name hash, `ebblgkjwh`
and `gjunzdtpb`. -/
def exCollision : AStore :=
  [(⟨5, ⟨256, 84, 0xf9cf1184⟩, 10⟩, mkItem ⟨256, 84, 0xf9cf1184⟩
      (exEntry ⟨257, 1, 0⟩ 1 [101, 98, 98, 108, 103, 107, 106, 119, 104] ++ exEntry ⟨258, 1, 0⟩ 1 [103, 106, 117, 110, 122, 100, 116, 112, 98])),
   (⟨5, ⟨256, 96, 2⟩, 10⟩, mkItem ⟨256, 96, 2⟩ []), (metadataVersionKey, [])]

/-- C39 refuted for the second of two entries with the same name hash: it exists in
the directory, but its lookup gives nil, as if it did not. -/
theorem C39_hash_collision_not_found :
    NameHash [101, 98, 98, 108, 103, 107, 106, 119, 104] = 0xf9cf1184 ∧
    NameHash [103, 106, 117, 110, 122, 100, 116, 112, 98] = 0xf9cf1184 ∧ exCollision.Sorted ∧
    ∀ fuel, 2 ≤ fuel → (Ix.mk exCollision.enc (~~~0)).findDirItemForPath fuel 5
      [103, 106, 117, 110, 122, 100, 116, 112, 98] = .ok none := by
  refine ⟨by decide +kernel, by decide +kernel, sorted_of_before (by decide +kernel), fun fuel hf => ?_⟩
  have h : (Ix.mk exCollision.enc (~~~0)).findDirItemForPath 2 5
      [103, 106, 117, 110, 122, 100, 116, 112, 98] = .ok none := by decide +kernel
  exact findPathLoop_mono h hf

end Btrfscue
