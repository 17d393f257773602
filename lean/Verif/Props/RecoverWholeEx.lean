import Verif.Props.RecoverWhole
import Verif.Props.RecoverWrong
/-!
# C81, C82: an example
-/

namespace Btrfscue

/-- A root directory with a file "a" (with inline data) and a directory "b" with a link "c". -/
def exWhole : AStore :=
  [(⟨3, ⟨1, 216, 1⟩, 7⟩, mkItem ⟨1, 216, 1⟩ []),
   (⟨3, ⟨256, 228, 16⟩, 7⟩, exChunk 16 64 1 0),
   (⟨3, ⟨257, 229, 0⟩, 7⟩, mkItem ⟨257, 229, 0⟩ []),
   (⟨5, ⟨257, 1, 0⟩, 10⟩, mkItem ⟨257, 1, 0⟩ (exInode 5).layout),
   (⟨5, ⟨256, 84, 1⟩, 10⟩, mkItem ⟨256, 84, 1⟩ (exEntry ⟨257, 1, 0⟩ 1 [97])),
   (⟨5, ⟨256, 84, 2⟩, 10⟩, mkItem ⟨256, 84, 2⟩ (exEntry ⟨258, 1, 0⟩ 2 [98])),
   (⟨5, ⟨258, 84, 1⟩, 10⟩, mkItem ⟨258, 84, 1⟩ (exEntry ⟨259, 1, 0⟩ 7 [99])),
   (⟨5, ⟨256, 96, 2⟩, 10⟩, mkItem ⟨256, 96, 2⟩ []),
   (⟨5, ⟨257, 108, 0⟩, 10⟩, mkItem ⟨257, 108, 0⟩ (exInline 3 [1, 2, 3])),
   (⟨5, ⟨259, 108, 0⟩, 10⟩, mkItem ⟨259, 108, 0⟩ (exInline 2 [46, 46])),
   (⟨5, ⟨260, 132, 0⟩, 10⟩, mkItem ⟨260, 132, 0⟩ []),
   (metadataVersionKey, [])]

/-- A host with an empty directory `/d`. -/
def exEmptyDir : HostFS := ⟨[.dir [([100], 1)] 0, .dir [] 0], 0⟩

theorem exWhole_sorted : exWhole.Sorted := sorted_of_before (by decide +kernel)

theorem exWhole_intact (e : VKey × Bytes) (he : e ∈ exWhole) (ho : e.1.owner ≠ ~~~0) : ∃ d, holdsItem e.2 d := by
  simp only [exWhole, List.mem_cons, List.not_mem_nil, or_false] at he
  rcases he with rfl | rfl | rfl | rfl | rfl | rfl | rfl | rfl | rfl | rfl | rfl | rfl
  · exact ⟨_, mkItem_holds _ _ (by decide +kernel)⟩
  · exact exChunk_holds _ _ _ _
  · exact ⟨_, mkItem_holds _ _ (by decide +kernel)⟩
  · exact ⟨_, mkItem_holds _ _ (by decide +kernel)⟩
  · exact ⟨_, mkItem_holds _ _ (by decide +kernel)⟩
  · exact ⟨_, mkItem_holds _ _ (by decide +kernel)⟩
  · exact ⟨_, mkItem_holds _ _ (by decide +kernel)⟩
  · exact ⟨_, mkItem_holds _ _ (by decide +kernel)⟩
  · exact ⟨_, mkItem_holds _ _ (by decide +kernel)⟩
  · exact ⟨_, mkItem_holds _ _ (by decide +kernel)⟩
  · exact ⟨_, mkItem_holds _ _ (by decide +kernel)⟩
  · exact absurd rfl ho

theorem exWhole_gens : ∀ e ∈ exWhole, e.1.owner ≠ ~~~0 → (e.1.gen ≠ ~~~0 ∧ e.1.key ≠ KL0) ∧
    (e.1.owner = 3 → e.1.gen = 7 ∧ (e.1.key.objectID = 256 → e.1.key.typ = 228 → e = (⟨3, ⟨256, 228, 16⟩, 7⟩, exChunk 16 64 1 0))) ∧
    (e.1.owner = 5 → e.1.gen = 10 ∧ (e.1.key.typ = 108 → e.1.key.offset = 0)) := by decide +kernel

theorem exWhole_newest {o : UInt64} {k : Key} {g : UInt64}
    (hg : ∀ e ∈ exWhole, e.1.owner = o → e.1.gen = g) (hk : exWhole.enc.hasKey o k) : exWhole.enc.newest o k g := by
  obtain ⟨g', x, hx⟩ := enc_hasKey.mp hk
  have := hg _ hx rfl
  simp only at this
  subst this
  refine ⟨enc_hasVersion.mpr ⟨x, hx⟩, fun g'' hv => ?_⟩
  obtain ⟨y, hy⟩ := enc_hasVersion.mp hv
  have := hg _ hy rfl
  simp only at this
  rw [this]
  exact UInt64.le_refl _

theorem exWhole_newest5 {k : Key} (hk : exWhole.enc.hasKey 5 k) : exWhole.enc.newest 5 k 10 :=
  exWhole_newest (fun e he ho => ((exWhole_gens e he (by rw [ho]; decide)).2.2 ho).1) hk

theorem exWhole_addr : exWhole.enc.AddrOK 7 where
  range := rangeOK_of (by decide) (fun e he ho => exWhole_intact e he (by rw [ho]; decide))
    (fun e he ho => (exWhole_gens e he (by rw [ho]; decide)).1) (by decide +kernel)
  chunks := by
    intro start hk
    refine ⟨exWhole_newest (fun e he ho => ((exWhole_gens e he (by rw [ho]; decide)).2.1 ho).1) hk, ?_⟩
    obtain ⟨g, x, hx⟩ := enc_hasKey.mp hk
    have h := ((exWhole_gens _ hx (by show ¬ (3 : UInt64) = ~~~0; decide)).2.1 rfl).2 rfl rfl
    simp only [Prod.mk.injEq, VKey.mk.injEq, Key.mk.injEq] at h
    obtain ⟨⟨-, ⟨-, -, rfl⟩, rfl⟩, rfl⟩ := h
    exact ⟨_, _, exChunk_at hx⟩
  disjoint := by
    intro a c ss a' c' ss' h h' hlt
    obtain ⟨x, d, rest, h1, h2, h3, h4⟩ := h
    obtain ⟨x', d', rest', h1', h2', h3', h4'⟩ := h'
    have e1 := ((exWhole_gens _ (enc_stores.mp h1) (by show ¬ (3 : UInt64) = ~~~0; decide)).2.1 rfl).2 rfl rfl
    have e2 := ((exWhole_gens _ (enc_stores.mp h1') (by show ¬ (3 : UInt64) = ~~~0; decide)).2.1 rfl).2 rfl rfl
    simp only [Prod.mk.injEq, VKey.mk.injEq, Key.mk.injEq] at e1 e2
    obtain ⟨⟨-, ⟨-, -, rfl⟩, -⟩, -⟩ := e1
    obtain ⟨⟨-, ⟨-, -, rfl⟩, -⟩, -⟩ := e2
    exact absurd hlt (by decide)

/-- The file can be recovered. -/
theorem exWhole_file : exWhole.enc.recoverable 7 5 257 := by
  refine ⟨by decide, 5, ?_, by decide, Or.inr ⟨10, 0, [1, 2, 3], ?_⟩⟩
  · exact ⟨10, mkItem ⟨257, 1, 0⟩ (exInode 5).layout, exInode 5, [], exWhole_newest5 (enc_hasKey.mpr ⟨10, mkItem ⟨257, 1, 0⟩ (exInode 5).layout, by decide +kernel⟩),
      enc_stores.mpr (by decide +kernel), by rw [List.append_nil]; exact mkItem_holds _ _ (by decide +kernel), rfl⟩
  · exact {
      range := rangeOK_of (by decide) (fun e he ho => exWhole_intact e he (by rw [ho]; decide))
        (fun e he ho => (exWhole_gens e he (by rw [ho]; decide)).1) (by decide +kernel)
      newest := exWhole_newest5 (enc_hasKey.mpr ⟨10, mkItem ⟨257, 108, 0⟩ (exInline 3 [1, 2, 3]), by decide +kernel⟩)
      only := fun off hk => by
        obtain ⟨g, x, hx⟩ := enc_hasKey.mp hk
        exact ((exWhole_gens _ hx (by show ¬ (5 : UInt64) = ~~~0; decide)).2.2 rfl).2 rfl
      intact := ⟨_, ⟨9, 3, 0, 0, 0⟩, [], enc_stores.mpr (by decide +kernel : (_, mkItem ⟨257, 108, 0⟩ (exInline 3 [1, 2, 3])) ∈ exWhole),
        mkItem_holds _ _ (by decide +kernel), rfl, rfl, rfl, by decide⟩
      short := by decide
      small := by decide }

/-- The link has a target. -/
theorem exWhole_link : exWhole.enc.targetIs 5 259 [46, 46] :=
  ⟨by decide, 10, mkItem ⟨259, 108, 0⟩ (exInline 2 [46, 46]), ⟨9, 2, 0, 0, 0⟩, [],
    exWhole_newest5 (enc_hasKey.mpr ⟨10, mkItem ⟨259, 108, 0⟩ (exInline 2 [46, 46]), by decide +kernel⟩),
    enc_stores.mpr (by decide +kernel), mkItem_holds _ _ (by decide +kernel), rfl, by decide⟩

/-- What these entries say. -/
def allSay : List DirItem → Go (List (Bytes × UInt8 × Key))
  | [] => pure []
  | di :: r => do return (← DirItem.name di, ← DirItem.typ di, ← DirItem.location di) :: (← allSay r)

theorem allSay_mem {dis : List DirItem} {l : List (Bytes × UInt8 × Key)} (h : allSay dis = .ok l) {di : DirItem} (hm : di ∈ dis)
    {n : Bytes} {t : UInt8} {loc : Key} (hs : di.says n t loc) : (n, t, loc) ∈ l := by
  induction dis generalizing l with
  | nil => cases hm
  | cons d r ih =>
    unfold allSay at h
    obtain ⟨n', h1, h⟩ := Go.bind_eq_ok.mp h
    obtain ⟨t', h2, h⟩ := Go.bind_eq_ok.mp h
    obtain ⟨loc', h3, h⟩ := Go.bind_eq_ok.mp h
    obtain ⟨r', h4, h⟩ := Go.bind_eq_ok.mp h
    cases h
    rcases List.mem_cons.mp hm with rfl | hm
    · obtain ⟨g1, g2, g3⟩ := hs
      rw [g1] at h1; rw [g2] at h2; rw [g3] at h3
      cases h1; cases h2; cases h3
      exact List.mem_cons_self
    · exact List.mem_cons_of_mem _ (ih h4 hm)

theorem allSay_of {dis : List DirItem} {l : List (Bytes × UInt8 × Key)} (h : allSay dis = .ok l) {n : Bytes} {t : UInt8} {loc : Key}
    (hm : (n, t, loc) ∈ l) : ∃ di ∈ dis, di.says n t loc := by
  induction dis generalizing l with
  | nil => cases h; cases hm
  | cons d r ih =>
    unfold allSay at h
    obtain ⟨n', h1, h⟩ := Go.bind_eq_ok.mp h
    obtain ⟨t', h2, h⟩ := Go.bind_eq_ok.mp h
    obtain ⟨loc', h3, h⟩ := Go.bind_eq_ok.mp h
    obtain ⟨r', h4, h⟩ := Go.bind_eq_ok.mp h
    cases h
    rcases List.mem_cons.mp hm with h | hm
    · cases h
      exact ⟨d, List.mem_cons_self, h1, h2, h3⟩
    · obtain ⟨di, g1, g2⟩ := ih h4 hm
      exact ⟨di, List.mem_cons_of_mem _ g1, g2⟩

theorem all_lists {rf : Nat} {ix : Ix} {o d : UInt64} {l : List (Bytes × UInt8 × Key)}
    (h : (readDirItems rf ix o d >>= allSay) = .ok l) {n : Bytes} {t : UInt8} {loc : Key} (hm : (n, t, loc) ∈ l) :
    ∃ di, ix.lists o d di ∧ di.says n t loc := by
  obtain ⟨dis, h1, h2⟩ := Go.bind_eq_ok.mp h
  obtain ⟨di, g1, g2⟩ := allSay_of h2 hm
  exact ⟨di, (readDirItems_lists h1 di).mp g1, g2⟩

theorem lists_all {rf : Nat} {ix : Ix} {o d : UInt64} {l : List (Bytes × UInt8 × Key)}
    (h : (readDirItems rf ix o d >>= allSay) = .ok l) {di : DirItem} (hl : ix.lists o d di)
    {n : Bytes} {t : UInt8} {loc : Key} (hs : di.says n t loc) : (n, t, loc) ∈ l := by
  obtain ⟨dis, h1, h2⟩ := Go.bind_eq_ok.mp h
  exact allSay_mem h2 ((readDirItems_lists h1 di).mpr hl) hs

theorem exWhole_root {di : DirItem} (hl : (Ix.mk exWhole.enc (~~~0)).lists 5 256 di) {n : Bytes} {t : UInt8} {loc : Key}
    (hs : di.says n t loc) : (n = [97] ∧ t = 1 ∧ loc = ⟨257, 1, 0⟩) ∨ (n = [98] ∧ t = 2 ∧ loc = ⟨258, 1, 0⟩) := by
  have := lists_all (rf := 9) (l := [([97], 1, ⟨257, 1, 0⟩), ([98], 2, ⟨258, 1, 0⟩)]) (by decide +kernel) hl hs
  simpa using this

theorem exWhole_sub {di : DirItem} (hl : (Ix.mk exWhole.enc (~~~0)).lists 5 258 di) {n : Bytes} {t : UInt8} {loc : Key}
    (hs : di.says n t loc) : n = [99] ∧ t = 7 ∧ loc = ⟨259, 1, 0⟩ := by
  have := lists_all (rf := 9) (l := [([99], 7, ⟨259, 1, 0⟩)]) (by decide +kernel) hl hs
  simpa using this

theorem exWhole_subvols {o : UInt64} : ¬ (Ix.mk exWhole.enc (~~~0)).listsSubvolume o := by
  rintro ⟨rd, x, k, h1, h2, -, -⟩
  have : (do return (← (Ix.mk exWhole.enc (~~~0)).subvolumes).1.hasNext) = Go.ok false := by decide +kernel
  rw [h1] at this
  simp only [Go.ok_bind, Go.pure_eq, Go.ok.injEq] at this
  cases h2 with
  | here h => rw [this] at h; cases h
  | step h => rw [this] at h; cases h

theorem exWhole_placed {dest : Bytes} {o d : UInt64} {p : Bytes} (h : (Ix.mk exWhole.enc (~~~0)).Placed dest o d p) :
    o = 5 ∧ (d = 256 ∨ d = 258) := by
  induction h with
  | main => exact ⟨rfl, Or.inl rfl⟩
  | subvolume h => exact absurd h exWhole_subvols
  | dir _ hl hs _ _ _ ih =>
    obtain ⟨rfl, rfl | rfl⟩ := ih
    · rcases exWhole_root hl hs with ⟨-, h, -⟩ | ⟨-, -, rfl⟩
      · cases h
      · exact ⟨rfl, Or.inr rfl⟩
    · obtain ⟨-, h, -⟩ := exWhole_sub hl hs
      cases h
  | tree _ hl hs ht _ _ ih =>
    obtain ⟨rfl, rfl | rfl⟩ := ih
    · rcases exWhole_root hl hs with ⟨-, -, rfl⟩ | ⟨-, -, rfl⟩ <;> cases ht
    · obtain ⟨-, -, rfl⟩ := exWhole_sub hl hs
      cases ht

theorem exWhole_distinct (dest : Bytes) : (Ix.mk exWhole.enc (~~~0)).Distinct dest where
  nonempty o d p di n t loc hp hl hs := by
    obtain ⟨rfl, rfl | rfl⟩ := exWhole_placed hp
    · rcases exWhole_root hl hs with ⟨rfl, -⟩ | ⟨rfl, -⟩ <;> decide
    · obtain ⟨rfl, -⟩ := exWhole_sub hl hs
      decide
  once o d p di di' n t t' loc loc' hp hl hl' hs hs' := by
    obtain ⟨rfl, rfl | rfl⟩ := exWhole_placed hp
    · rcases exWhole_root hl hs with ⟨rfl, rfl, rfl⟩ | ⟨rfl, rfl, rfl⟩ <;>
      rcases exWhole_root hl' hs' with ⟨h, rfl, rfl⟩ | ⟨h, rfl, rfl⟩ <;> first | exact ⟨rfl, rfl⟩ | exact absurd h (by decide)
    · obtain ⟨-, rfl, rfl⟩ := exWhole_sub hl hs
      obtain ⟨-, rfl, rfl⟩ := exWhole_sub hl' hs'
      exact ⟨rfl, rfl⟩
  reserved o ho := absurd ho exWhole_subvols

theorem exEmptyDir_ok : EmptyDest exEmptyDir (ascii "/d") 1 where
  clean := by decide +kernel
  short := by decide +kernel
  found := ⟨_, (by decide +kernel : _ = Look.found 1 (some (0, [100])))⟩
  empty := ⟨0, rfl⟩

/-- The hypotheses of C81 and C82 are met, by an index with a file, a directory and a link in it. -/
example : exWhole.enc.WF ∧ exWhole.enc.stores metadataVersionKey [] ∧ exWhole.enc.AddrOK 7 ∧
    EmptyDest exEmptyDir (ascii "/d") 1 ∧ (Ix.mk exWhole.enc (~~~0)).Distinct (ascii "/d") ∧
    exWhole.enc.recoverable 7 5 257 ∧ sized exWhole.enc quietEnv 5 257 ∧ exWhole.enc.targetIs 5 259 [46, 46] ∧
    (Ix.mk exWhole.enc (~~~0)).Placed (ascii "/d") 5 258 (ascii "/d/b") := by
  refine ⟨AStore.enc_wf exWhole_sorted, enc_stores.mpr (by decide +kernel), exWhole_addr, exEmptyDir_ok, exWhole_distinct _,
    exWhole_file, ?_, exWhole_link, ?_⟩
  · exact Or.inl ⟨0, enc_hasKey.mpr ⟨10, mkItem ⟨257, 108, 0⟩ (exInline 3 [1, 2, 3]), by decide +kernel⟩⟩
  · obtain ⟨di, h1, h2⟩ : ∃ di, (Ix.mk exWhole.enc (~~~0)).lists 5 256 di ∧ di.says [98] 2 ⟨258, 1, 0⟩ :=
      all_lists (rf := 9) (l := [([97], 1, ⟨257, 1, 0⟩), ([98], 2, ⟨258, 1, 0⟩)]) (by decide +kernel) (by decide)
    have : ascii "/d/b" = goJoin (ascii "/d") [98] := by decide +kernel
    rw [this]
    exact .dir .main h1 h2 (by decide) ⟨by decide, by decide, by decide⟩ (by decide)

/-- ... and the run does what they say. -/
example : ∃ s', doRecoverFiles quietEnv 30 9 ⟨exWhole.enc, ~~~0⟩ false (ascii "/d") (RecState.start exEmptyDir) = .ok () s' ∧ s'.silent ∧
    s'.fs.readFile (ascii "/d/a") = some [1, 2, 3, 0, 0] ∧ s'.fs.readLink (ascii "/d/b/c") = some [46, 46] := by
  obtain ⟨s, h1, h2⟩ := silent_of (o := doRecoverFiles quietEnv 30 9 ⟨exWhole.enc, ~~~0⟩ false (ascii "/d")
    (RecState.start exEmptyDir)) (by decide +kernel)
  have h3 : (doRecoverFiles quietEnv 30 9 ⟨exWhole.enc, ~~~0⟩ false (ascii "/d") (RecState.start exEmptyDir)).state.fs.readFile
      (ascii "/d/a") = some [1, 2, 3, 0, 0] := by decide +kernel
  have h4 : (doRecoverFiles quietEnv 30 9 ⟨exWhole.enc, ~~~0⟩ false (ascii "/d") (RecState.start exEmptyDir)).state.fs.readLink
      (ascii "/d/b/c") = some [46, 46] := by decide +kernel
  rw [h1] at h3 h4
  exact ⟨s, h1, h2, h3, h4⟩

end Btrfscue
