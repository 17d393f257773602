import Verif.Spec.Ls
import Verif.Proof.RescueNode
import Verif.Proof.Lookup
import Verif.Proof.GoPath
import Verif.Props.Path
import Mathlib.Data.List.Forall2
import Mathlib.Data.List.Sort
/-!
# C63-C65: ls
-/

namespace Btrfscue

/-! ## C63 -/

theorem perms3 : ∀ x : Fin 8, permsAt ((3 : UInt32) * UInt32.ofNat x.val) =
    [if x.val.testBit 2 then 114 else 45, if x.val.testBit 1 then 119 else 45, if x.val.testBit 0 then 120 else 45] := by
  decide +kernel

theorem perms_of (mode : UInt32) (k : UInt32) (hk : k.toNat ≤ 6) :
    permsAt ((3 : UInt32) * ((mode >>> k) &&& 0x7)) =
      [if mode.toNat.testBit (k.toNat + 2) then 114 else 45, if mode.toNat.testBit (k.toNat + 1) then 119 else 45,
       if mode.toNat.testBit k.toNat then 120 else 45] := by
  have h7 : ((mode >>> k) &&& 0x7).toNat = (mode.toNat >>> k.toNat) &&& 7 := by
    rw [UInt32.toNat_and, UInt32.toNat_shiftRight, Nat.mod_eq_of_lt (by omega)]
    rfl
  have hlt : (mode.toNat >>> k.toNat) &&& 7 < 8 := by
    have : (mode.toNat >>> k.toNat) &&& (2 ^ 3 - 1) = mode.toNat >>> k.toNat % 2 ^ 3 := Nat.and_two_pow_sub_one_eq_mod _ _
    have h2 : (2 ^ 3 - 1 : Nat) = 7 := rfl
    rw [h2] at this
    rw [this]; exact Nat.mod_lt _ (by decide)
  have hx : (mode >>> k) &&& 0x7 = UInt32.ofNat ((mode.toNat >>> k.toNat) &&& 7) := by
    rw [← h7]; exact (UInt32.ofNat_toNat).symm
  have := perms3 ⟨_, hlt⟩
  rw [hx, this]
  have hb : ∀ j, j < 3 → ((mode.toNat >>> k.toNat) &&& 7).testBit j = mode.toNat.testBit (k.toNat + j) := by
    intro j hj
    rw [Nat.testBit_and, Nat.testBit_shiftRight]
    have : (7 : Nat).testBit j = true := by
      have : ∀ j : Fin 3, (7 : Nat).testBit j.val = true := by decide
      exact this ⟨j, hj⟩
    rw [this, Bool.and_true]
  simp only [hb 2 (by decide), hb 1 (by decide), hb 0 (by decide), Nat.add_zero]

/-- C63: the mode string has nine characters; character `i` is `r`, `w`, `x` (in turn) if
permission bit `8 - i` is set, and a dash otherwise. -/
theorem C63_mode_string (mode : UInt32) :
    (inodeModeString mode).length = 9 ∧
    ∀ i, i < 9 → (inodeModeString mode)[i]? =
      some (if mode.toNat.testBit (8 - i) then [114, 119, 120][i % 3]! else (45 : UInt8)) := by
  have h6 := perms_of mode 6 (by decide)
  have h3 := perms_of mode 3 (by decide)
  have h0 := perms_of mode 0 (by decide)
  have hz : mode >>> 0 = mode := by simp
  rw [hz] at h0
  unfold inodeModeString
  rw [h6, h3, h0]
  have e6 : (6 : UInt32).toNat = 6 := rfl
  have e3 : (3 : UInt32).toNat = 3 := rfl
  have e0 : (0 : UInt32).toNat = 0 := rfl
  simp only [e6, e3, e0]
  refine ⟨rfl, fun i hi => ?_⟩
  rcases i with _ | _ | _ | _ | _ | _ | _ | _ | _ | i <;> first | rfl | omega

/-- C63: two modes have the same mode string iff they agree in the nine permission
bits. -/
theorem C63_permissions_shown (a b : UInt32) :
    inodeModeString a = inodeModeString b ↔ a.toNat % 512 = b.toNat % 512 := by
  have hmod : ∀ x y : Nat, x % 2 ^ 9 = y % 2 ^ 9 ↔ ∀ i, i < 9 → x.testBit i = y.testBit i := by
    intro x y
    constructor
    · intro h i hi
      have := congrArg (fun n => n.testBit i) h
      simp only [Nat.testBit_mod_two_pow, hi, decide_true, Bool.true_and] at this
      exact this
    · intro h
      apply Nat.eq_of_testBit_eq
      intro i
      rw [Nat.testBit_mod_two_pow, Nat.testBit_mod_two_pow]
      by_cases hi : i < 9
      · simp [hi, h i hi]
      · simp [hi]
  obtain ⟨la, ha⟩ := C63_mode_string a
  obtain ⟨lb, hb⟩ := C63_mode_string b
  have h512 : (512 : Nat) = 2 ^ 9 := rfl
  rw [h512, hmod]
  constructor
  · intro h i hi
    have h1 := ha (8 - i) (by omega)
    have h2 := hb (8 - i) (by omega)
    rw [h] at h1
    rw [h1] at h2
    have hi' : 8 - (8 - i) = i := by omega
    rw [hi'] at h2
    have hne : ([114, 119, 120] : List UInt8)[(8 - i) % 3]! ≠ 45 := by
      have : ∀ j : Fin 9, ([114, 119, 120] : List UInt8)[(8 - j.val) % 3]! ≠ 45 := by decide
      exact this ⟨i, hi⟩
    cases h3 : a.toNat.testBit i <;> cases h4 : b.toNat.testBit i <;> simp only [h3, h4, if_true, Bool.false_eq_true, if_false, Option.some.injEq] at h2
    · rfl
    · exact absurd h2.symm hne
    · exact absurd h2 hne
    · rfl
  · intro h
    apply List.ext_getElem?
    intro i
    rcases Nat.lt_or_ge i 9 with hi | hi
    · rw [ha i hi, hb i hi, h (8 - i) (by omega)]
    · rw [List.getElem?_eq_none (by omega), List.getElem?_eq_none (by omega)]

/-- C63: the letter before the mode tells the seven known file types apart from each
other and from everything else. -/
theorem C63_type_letter (s t : UInt8) (hs : 1 ≤ s ∧ s ≤ 7) :
    dirItemTypeString s = dirItemTypeString t ↔ s = t := by
  have h : ∀ s t : Fin 256, (1 ≤ s.val ∧ s.val ≤ 7) →
      (dirItemTypeString (UInt8.ofNat s.val) = dirItemTypeString (UInt8.ofNat t.val) ↔ s = t) := by decide +kernel
  have hs' := h ⟨s.toNat, s.toNat_lt⟩ ⟨t.toNat, t.toNat_lt⟩
    ⟨UInt8.le_iff_toNat_le.mp hs.1, UInt8.le_iff_toNat_le.mp hs.2⟩
  simp only [UInt8.ofNat_toNat, Fin.mk.injEq, UInt8.toNat_inj] at hs'
  exact hs'

example : inodeModeString 0o100640 = ascii "rw-r-----" := by decide +kernel
example : dirItemTypeString 2 = ascii "d" ∧ dirItemTypeString 9 = ascii "?" := by decide +kernel

/-! ## C64 -/

theorem question_cols : ascii "?????????\t?\t?\t?\t?\t?" =
    List.replicate 9 63 ++ [9, 63, 9, 63, 9, 63, 9, 63, 9, 63] := by decide +kernel

/-- C64: the line of an entry shows its type, name and inode as stored. -/
theorem C64_line (b : Bucket) (hb : b.WF) (m : Bytes) (hm : b.stores metadataVersionKey m) (owner : UInt64)
    (ho : owner ≠ ~~~0) (hin : b.InodesOK owner) (ft : Time → Bytes) (showInode : Bool) (d : DirItem)
    (hd : wholeEntry (Slice.data d)) :
    ∃ line, listDirItem ft ⟨b, ~~~0⟩ owner d showInode = .ok line ∧ b.lineShows ft owner showInode d line := by
  obtain ⟨dd, dt⟩ := d
  obtain ⟨e, name, rest, h1, h2, h3⟩ := hd
  simp only at h1
  subst h1
  obtain ⟨-, h4, -, -, -, h5⟩ := C07_DirItem_decodes e (name ++ rest) dt
  have h6 := C09_dir_item_name e name rest dt h2 h3
  unfold listDirItem
  rw [h4, h5, h6]
  simp only [Go.ok_bind]
  by_cases hk : b.hasKey owner ⟨e.location.objectID, 1, 0⟩
  · obtain ⟨f, hf⟩ := hin _ hk
    obtain ⟨g, x, r, hn, hs, hh⟩ := id hf
    obtain ⟨t, ht⟩ := findData_newest hb hm ho hn hs hh
    have hi : (Ix.mk b (~~~0)).findInodeItem owner e.location.objectID = .ok (some ⟨f.layout ++ r, t⟩) := ht
    obtain ⟨-, -, -, d3, -, d5, d6, d7, d8, -, -, -, -, ⟨tc, dc, ic⟩, -, -⟩ := C07_InodeItem_decodes f r t
    rw [hi]
    simp only [Go.ok_bind, inodeColumns, d3, d5, d6, d7, d8, dc, Go.pure_eq]
    refine ⟨_, rfl, e, name, rest, _, rfl, h2, Or.inr ⟨f, tc, hf, ic, rfl⟩, ?_⟩
    cases showInode <;> simp [tabLine]
  · have hi : (Ix.mk b (~~~0)).findInodeItem owner e.location.objectID = .ok none := findData_none hb hm ho _ hk
    rw [hi]
    simp only [Go.ok_bind, inodeColumns, Go.pure_eq]
    refine ⟨_, rfl, e, name, rest, _, rfl, h2, Or.inl ⟨hk, rfl⟩, ?_⟩
    rw [question_cols]
    cases showInode <;> simp [tabLine]

theorem lsKeys_ok : ∀ dis : List DirItem, (∀ d ∈ dis, wholeEntry (Slice.data d)) →
    ∃ ks, lsKeys dis = .ok ks ∧ ks.map (·.1) = dis ∧ ∀ k ∈ ks, lsKey k.1 = .ok k.2 := by
  intro dis
  induction dis with
  | nil => intro _; exact ⟨[], rfl, rfl, by simp⟩
  | cons d r ih =>
    intro hw
    obtain ⟨ks, h1, h2, h3⟩ := ih (fun x hx => hw x (List.mem_cons_of_mem _ hx))
    obtain ⟨⟨n, hn⟩, -, t, ht⟩ := (hw d List.mem_cons_self).fields
    have hk : lsKey d = .ok (t == FtDir, n) := by
      simp only [lsKey, DirItem.isDir, ht, hn, Go.ok_bind, Go.pure_eq]
    refine ⟨(d, (t == FtDir, n)) :: ks, ?_, by simp [h2], ?_⟩
    · simp only [lsKeys, hk, h1, Go.ok_bind, Go.pure_eq]
    · intro k hkm
      rcases List.mem_cons.mp hkm with rfl | hkm
      · exact hk
      · exact h3 k hkm

theorem lsLess_order {a b : Bool × Bytes} (h : lsLess b a = false) :
    (a.1 = false ∧ b.1 = true) ∨ (a.1 = b.1 ∧ bytesLt b.2 a.2 = false) := by
  obtain ⟨a1, a2⟩ := a
  obtain ⟨b1, b2⟩ := b
  cases a1 <;> cases b1 <;> simp_all [lsLess]

theorem lsSort_ok {srt : Sorter} (hsrt : SortOK srt) (dis : List DirItem) (hw : ∀ d ∈ dis, wholeEntry (Slice.data d)) :
    ∃ es, lsSort srt dis = .ok es ∧ es.Perm dis ∧ es.Pairwise ListedBefore := by
  obtain ⟨ks, h1, h2, h3⟩ := lsKeys_ok dis hw
  obtain ⟨hp, hs⟩ := hsrt ks
  refine ⟨(srt ks).map (·.1), by simp only [lsSort, h1, Go.ok_bind, Go.pure_eq], h2 ▸ hp.map _, ?_⟩
  rw [List.pairwise_map]
  refine hs.imp_of_mem ?_
  intro a b ha hb hlt
  have ka := h3 a (hp.mem_iff.mp ha)
  have kb := h3 b (hp.mem_iff.mp hb)
  simp only [lsKey, Go.bind_eq_ok] at ka kb
  obtain ⟨da, ha1, na, ha2, ha3⟩ := ka
  obtain ⟨db, hb1, nb, hb2, hb3⟩ := kb
  cases ha3' : a.2
  cases hb3' : b.2
  rw [ha3'] at ha3 hlt
  rw [hb3'] at hb3 hlt
  cases ha3
  cases hb3
  exact ⟨da, na, db, nb, ha1, ha2, hb1, hb2, lsLess_order hlt⟩

theorem foldCollect : ∀ (items : List (Range × Slice)) (s : List DirItem),
    foldRange collectBody s items = .ok (s ++ items.map (·.2), false) := by
  intro items
  induction items with
  | nil => intro s; simp [foldRange]
  | cons e r ih =>
    intro s
    obtain ⟨r1, d1⟩ := e
    simp only [foldRange, collectBody, Go.ok_bind, Bool.false_eq_true, if_false]
    rw [ih (s ++ [d1])]
    simp

/-- The lines of whole entries, and which of them are recursed into. -/
theorem listLoop_ok {b : Bucket} (hb : b.WF) {m : Bytes} (hm : b.stores metadataVersionKey m) {owner : UInt64}
    (ho : owner ≠ ~~~0) (hin : b.InodesOK owner) (ft : Time → Bytes) (recursive showInode : Bool) :
    ∀ es : List DirItem, (∀ d ∈ es, wholeEntry (Slice.data d)) →
    ∃ lines todo, listLoop ft ⟨b, ~~~0⟩ owner recursive showInode es = .ok (lines.flatten, todo) ∧
      List.Forall₂ (b.lineShows ft owner showInode) es lines ∧
      ∀ d, d ∈ todo ↔ recursive = true ∧ d ∈ es ∧ DirItem.isDir d = .ok true := by
  intro es
  induction es with
  | nil => intro _; exact ⟨[], [], rfl, .nil, by simp⟩
  | cons d r ih =>
    intro hw
    obtain ⟨lines, todo, h1, h2, h3⟩ := ih (fun x hx => hw x (List.mem_cons_of_mem _ hx))
    obtain ⟨line, h4, h5⟩ := C64_line b hb m hm owner ho hin ft showInode d (hw d List.mem_cons_self)
    obtain ⟨-, -, t, ht⟩ := (hw d List.mem_cons_self).fields
    have hd : DirItem.isDir d = .ok (t == FtDir) := by simp only [DirItem.isDir, ht, Go.ok_bind, Go.pure_eq]
    cases recursive with
    | false =>
      refine ⟨line :: lines, todo, ?_, .cons h5 h2, ?_⟩
      · simp only [listLoop, h4, h1, Go.ok_bind, Bool.false_eq_true, if_false, Go.pure_eq, List.flatten_cons]
      · intro x
        rw [h3]
        simp
    | true =>
      refine ⟨line :: lines, if (t == FtDir) = true then d :: todo else todo, ?_, .cons h5 h2, ?_⟩
      · simp only [listLoop, h4, h1, Go.ok_bind, if_true, hd, Go.pure_eq, List.flatten_cons]
      · intro x
        by_cases htd : (t == FtDir) = true
        · rw [if_pos htd]
          simp only [List.mem_cons, h3, true_and]
          constructor
          · rintro (rfl | ⟨hx, hx2⟩)
            · exact ⟨Or.inl rfl, by rw [hd, htd]⟩
            · exact ⟨Or.inr hx, hx2⟩
          · rintro ⟨rfl | hx, hx2⟩
            · exact Or.inl rfl
            · exact Or.inr ⟨hx, hx2⟩
        · rw [if_neg htd, h3]
          simp only [List.mem_cons, true_and]
          constructor
          · rintro ⟨hx, hx2⟩; exact ⟨Or.inr hx, hx2⟩
          · rintro ⟨rfl | hx, hx2⟩
            · rw [hd] at hx2; simp only [Go.ok.injEq] at hx2; exact absurd hx2 htd
            · exact ⟨hx, hx2⟩

/-- C64: the listing of a directory whose entries are whole and of one generation shows
every entry exactly once: its lines are those of a permutation of the stored entries
that has non-directories first and names ascending. -/
theorem C64_listing_partial (b : Bucket) (hb : b.WF) (m : Bytes) (hm : b.stores metadataVersionKey m)
    (owner dir g : UInt64) (hdir : b.DirWhole owner dir g) (hin : b.InodesOK owner)
    (srt : Sorter) (hsrt : SortOK srt) (ft : Time → Bytes) (showInode : Bool) :
    ∃ N vs es lines, b.entries owner dir g vs ∧ es.Perm (vs.map (·.2)) ∧ es.Pairwise ListedBefore ∧
      List.Forall₂ (b.lineShows ft owner showInode) es lines ∧
      ∀ rf fuel, N ≤ rf → 0 < fuel →
        listDirectory rf srt ft ⟨b, ~~~0⟩ owner showInode fuel dir false = .ok lines.flatten := by
  have ho := hdir.range.ordinary
  obtain ⟨l, hl, rfl⟩ := hb.exists_abs
  obtain ⟨rd, items, hr, hy, hp, hs⟩ := rangeAll_single hl ⟨m, hm⟩ hdir.range hdir.newest
  generalize hits : (items.map fun e => (Range.at l.enc (VKey.mk owner (KL2 84 dir) (~~~0)).encode e.1, e.2)) = its at hy
  have hits2 : its.map (·.2) = items.map (·.2) := by rw [← hits]; simp [Function.comp_def]
  have hw : ∀ d ∈ its.map (·.2), wholeEntry (Slice.data d) := by
    intro d hd
    rw [hits2] at hd
    obtain ⟨⟨⟨w, y⟩, s⟩, h1, rfl⟩ := List.mem_map.mp hd
    obtain ⟨off, rfl, h2, h3⟩ := (hs w y s).mp h1
    exact hdir.whole off y s h2 h3
  obtain ⟨es, he1, he2, he3⟩ := lsSort_ok hsrt _ hw
  obtain ⟨lines, todo, h1, h2, h3⟩ := listLoop_ok (AStore.enc_wf hl) hm ho hin ft false showInode es
    (fun d hd => hw d (he2.mem_iff.mp hd))
  refine ⟨its.length + 1, items.map (fun e => (e.1.1.key.offset, e.2)), es, lines, ?_, ?_, he3, h2, ?_⟩
  · constructor
    · rw [List.pairwise_map]
      refine hp.imp_of_mem ?_
      rintro ⟨⟨w, y⟩, s⟩ ⟨⟨w', y'⟩, s'⟩ ha hb hlt
      obtain ⟨off, rfl, -, -⟩ := (hs w y s).mp ha
      obtain ⟨off', rfl, -, -⟩ := (hs w' y' s').mp hb
      simp only at hlt ⊢
      rw [UInt64.lt_iff_toNat_lt]
      have h' := VKey.num_lt_iff.mp hlt
      clear hlt hs hp hw hits2 hits hy
      simp [VKey.before, VKey.fields, Key.fields, lexLt] at h'
      exact h'
    · intro off d
      rw [List.mem_map]
      constructor
      · rintro ⟨⟨⟨w, y⟩, s⟩, h1, h2⟩
        obtain ⟨off', rfl, h3, h4⟩ := (hs w y s).mp h1
        simp only [Prod.mk.injEq] at h2
        obtain ⟨rfl, rfl⟩ := h2
        exact ⟨y, h3, h4⟩
      · rintro ⟨x, h1, h2⟩
        exact ⟨((_, x), d), (hs _ _ _).mpr ⟨off, rfl, h1, h2⟩, rfl⟩
  · have hcomp : (items.map (fun e => (e.1.1.key.offset, e.2))).map (·.2) = items.map (·.2) := by
      simp [Function.comp_def]
    rw [hcomp, ← hits2]
    exact he2
  · intro rf fuel hrf hfu
    obtain ⟨f, rfl⟩ : ∃ f, fuel = f + 1 := ⟨fuel - 1, by omega⟩
    have htodo : todo = [] := by
      cases todo with
      | nil => rfl
      | cons t ts => exact absurd ((h3 t).mp List.mem_cons_self).1 (by simp)
    have hri : (Ix.mk l.enc (~~~0)).dirItems owner dir = .ok rd := hr
    simp only [listDirectory, hri, Go.ok_bind, rangeLoop_eq _ hy rf [] (by omega), foldCollect, List.nil_append,
      he1, h1, htodo, subLoop, Go.pure_eq, List.append_nil]

/-- `a` may stand before `b` in a listing. -/
def lsLe (a b : DirItem × (Bool × Bytes)) : Prop := lsLess b.2 a.2 = false

instance : DecidableRel lsLe := fun a b => inferInstanceAs (Decidable (lsLess b.2 a.2 = false))

theorem lsLess_total (a b : Bool × Bytes) : lsLess b a = false ∨ lsLess a b = false := by
  obtain ⟨a1, a2⟩ := a
  obtain ⟨b1, b2⟩ := b
  have h : bytesLt b2 a2 = false ∨ bytesLt a2 b2 = false := by
    cases h : bytesLt b2 a2 with
    | false => exact Or.inl rfl
    | true =>
      cases h' : bytesLt a2 b2 with
      | false => exact Or.inr rfl
      | true => have := bytesLt_trans h h'; rw [bytesLt_irrefl] at this; cases this
  cases a1 <;> cases b1 <;> simp [lsLess] <;> exact h

theorem lsLess_negTrans (a b c : Bool × Bytes) (h1 : lsLess b a = false) (h2 : lsLess c b = false) :
    lsLess c a = false := by
  have key : ∀ {x y z : Bytes}, bytesLt y x = false → bytesLt z y = false → bytesLt z x = false := by
    intro x y z hxy hyz
    cases hzx : bytesLt z x with
    | false => rfl
    | true =>
      exfalso
      cases hxy' : bytesLt x y with
      | true => rw [bytesLt_trans hzx hxy'] at hyz; cases hyz
      | false =>
        have := bytesLt_connected hxy' hxy
        subst this
        rw [hzx] at hyz; cases hyz
  obtain ⟨a1, a2⟩ := a
  obtain ⟨b1, b2⟩ := b
  obtain ⟨c1, c2⟩ := c
  revert h1 h2
  cases a1 <;> cases b1 <;> cases c1 <;> simp [lsLess] <;> exact key

instance : Std.Total lsLe := ⟨fun a b => lsLess_total a.2 b.2⟩
instance : IsTrans _ lsLe := ⟨fun a b c h1 h2 => lsLess_negTrans a.2 b.2 c.2 h1 h2⟩

/-- `sort.Sort` is modelled by any function satisfying `SortOK`; insertion sort is one. -/
def lsInsertSort : Sorter := fun l => l.insertionSort lsLe

theorem lsInsertSort_ok : SortOK lsInsertSort := fun l =>
  ⟨List.perm_insertionSort _ _, List.pairwise_insertionSort lsLe l⟩

/-- A directory with a sub-directory "z", the files "b" and "a" and one inode. -/
def exLsStore : AStore :=
  [(⟨5, ⟨257, 1, 0⟩, 9⟩, mkItem ⟨257, 1, 0⟩ (InodeItemRec.mk 9 9 12 0 0 1 1000 100 0o100644 0 0 0 0 0 0 0 ⟨0, 0⟩ ⟨0, 0⟩ ⟨0, 0⟩ ⟨0, 0⟩).layout),
   (⟨5, ⟨256, 84, 1⟩, 10⟩, mkItem ⟨256, 84, 1⟩ (exEntry ⟨258, 1, 0⟩ 2 [122])),
   (⟨5, ⟨256, 84, 2⟩, 10⟩, mkItem ⟨256, 84, 2⟩ (exEntry ⟨257, 1, 0⟩ 1 [98])),
   (⟨5, ⟨256, 84, 3⟩, 10⟩, mkItem ⟨256, 84, 3⟩ (exEntry ⟨259, 1, 0⟩ 7 [97])),
   (⟨5, ⟨256, 96, 2⟩, 10⟩, mkItem ⟨256, 96, 2⟩ []),
   (metadataVersionKey, [])]

theorem exLsStore_sorted : exLsStore.Sorted := sorted_of_before (by decide +kernel)

theorem exLsStore_intact (e : VKey × Bytes) (he : e ∈ exLsStore) (ho : e.1.owner ≠ ~~~0) : ∃ d, holdsItem e.2 d := by
  simp only [exLsStore, List.mem_cons, List.not_mem_nil, or_false] at he
  rcases he with rfl | rfl | rfl | rfl | rfl | rfl
  · exact ⟨_, mkItem_holds _ _ (by decide +kernel)⟩
  · exact ⟨_, mkItem_holds _ _ (by decide)⟩
  · exact ⟨_, mkItem_holds _ _ (by decide)⟩
  · exact ⟨_, mkItem_holds _ _ (by decide)⟩
  · exact ⟨_, mkItem_holds _ _ (by decide)⟩
  · exact absurd rfl ho

theorem exLsStore_gens : ∀ e ∈ exLsStore, e.1.owner ≠ ~~~0 → (e.1.gen ≠ ~~~0 ∧ e.1.key ≠ KL0) ∧
    (e.1.key.typ = 84 → e.1.gen = 10) := by decide +kernel

/-- The hypotheses of `C64_listing_partial` are met, and what it says there. -/
example : exLsStore.enc.WF ∧ exLsStore.enc.stores metadataVersionKey [] ∧ exLsStore.enc.DirWhole 5 256 10 ∧
    exLsStore.enc.InodesOK 5 ∧ exLsStore.enc.hasKey 5 ⟨257, 1, 0⟩ ∧ exLsStore.enc.hasKey 5 ⟨256, 84, 3⟩ := by
  refine ⟨AStore.enc_wf exLsStore_sorted, enc_stores.mpr (by simp [exLsStore]), ⟨?_, ?_, ?_⟩, ?_, ?_, ?_⟩
  · exact rangeOK_of (by decide) (fun e he ho => exLsStore_intact e he (by rw [ho]; decide))
      (fun e he ho => (exLsStore_gens e he (by rw [ho]; decide)).1) (by decide +kernel)
  · intro off hk
    obtain ⟨g', x, hx⟩ := enc_hasKey.mp hk
    have := (exLsStore_gens _ hx (by show ¬ (5 : UInt64) = ~~~0; decide)).2 rfl
    simp only at this
    subst this
    refine ⟨enc_hasVersion.mpr ⟨x, hx⟩, fun g'' hv => ?_⟩
    obtain ⟨y, hy⟩ := enc_hasVersion.mp hv
    have := (exLsStore_gens _ hy (by show ¬ (5 : UInt64) = ~~~0; decide)).2 rfl
    simp only at this
    rw [this]; exact UInt64.le_refl _
  · intro off x d hs hd
    have hm := enc_stores.mp hs
    simp only [exLsStore, List.mem_cons, List.not_mem_nil, or_false, Prod.mk.injEq, VKey.mk.injEq, Key.mk.injEq] at hm
    rcases hm with ⟨⟨-, ⟨-, h, -⟩, -⟩, -⟩ | ⟨-, rfl⟩ | ⟨-, rfl⟩ | ⟨-, rfl⟩ | ⟨⟨-, ⟨-, h, -⟩, -⟩, -⟩ | ⟨h, -⟩
    · exact absurd h (by decide)
    · rw [item_data_mk _ _ (by decide)] at hd; cases hd; exact entry_whole _ _ _ (by decide)
    · rw [item_data_mk _ _ (by decide)] at hd; cases hd; exact entry_whole _ _ _ (by decide)
    · rw [item_data_mk _ _ (by decide)] at hd; cases hd; exact entry_whole _ _ _ (by decide)
    · exact absurd h (by decide)
    · exact absurd (congrArg VKey.owner h) (by show ¬ (5 : UInt64) = ~~~0; decide)
  · intro ino hk
    obtain ⟨g', x, hx⟩ := enc_hasKey.mp hk
    have hm := hx
    simp only [exLsStore, List.mem_cons, List.not_mem_nil, or_false, Prod.mk.injEq, VKey.mk.injEq, Key.mk.injEq] at hm
    rcases hm with ⟨⟨-, ⟨rfl, -, -⟩, rfl⟩, rfl⟩ | ⟨⟨-, ⟨-, h, -⟩, -⟩, -⟩ | ⟨⟨-, ⟨-, h, -⟩, -⟩, -⟩ | ⟨⟨-, ⟨-, h, -⟩, -⟩, -⟩ |
      ⟨⟨-, ⟨-, h, -⟩, -⟩, -⟩ | ⟨h, -⟩
    · refine ⟨InodeItemRec.mk 9 9 12 0 0 1 1000 100 0o100644 0 0 0 0 0 0 0 ⟨0, 0⟩ ⟨0, 0⟩ ⟨0, 0⟩ ⟨0, 0⟩, 9, _, [],
        newest_of hx (by decide +kernel), enc_stores.mpr hx, ?_⟩
      rw [List.append_nil]
      exact mkItem_holds _ _ (by decide +kernel)
    · exact absurd h (by decide)
    · exact absurd h (by decide)
    · exact absurd h (by decide)
    · exact absurd h (by decide)
    · exact absurd (congrArg VKey.owner h) (by show ¬ (5 : UInt64) = ~~~0; decide)
  · exact enc_hasKey.mpr ⟨9, _, by simp only [exLsStore, List.mem_cons]; left; rfl⟩
  · exact enc_hasKey.mpr ⟨10, _, by simp only [exLsStore, List.mem_cons]; right; right; right; left; rfl⟩

example : listDirectory 5 lsInsertSort (fun _ => [84]) ⟨exLsStore.enc, ~~~0⟩ 5 false 1 256 false =
    .ok (ascii "l?????????\t?\t?\t?\t?\t?\ta\n-rw-r--r--\t1\t1000\t100\t12\tT\tb\nd?????????\t?\t?\t?\t?\t?\tz\n") := by
  decide +kernel

/-! ## C65 -/

/-- A directory that contains itself. -/
def exLoopStore : AStore :=
  [(⟨5, ⟨256, 84, 1⟩, 10⟩, mkItem ⟨256, 84, 1⟩ (exEntry ⟨256, 1, 0⟩ 2 [97])),
   (⟨5, ⟨256, 96, 2⟩, 10⟩, mkItem ⟨256, 96, 2⟩ []),
   (metadataVersionKey, [])]

/-- C65 is false of the code: `ls --recursive` on an index with a directory that
contains itself never ends. -/
theorem C65_cycle_hangs (srt : Sorter) (hsrt : SortOK srt) (ft : Time → Bytes) (rf fuel : Nat) (showInode : Bool) :
    listDirectory rf srt ft ⟨exLoopStore.enc, ~~~0⟩ 5 showInode fuel 256 true = .hang := by
  induction fuel with
  | zero => rfl
  | succ n ih =>
    let d : DirItem := ⟨exEntry ⟨256, 1, 0⟩ 2 [97], []⟩
    obtain ⟨rd, hrd⟩ : ∃ rd, (Ix.mk exLoopStore.enc (~~~0)).dirItems 5 256 = .ok rd := by
      have : ((Ix.mk exLoopStore.enc (~~~0)).dirItems 5 256).isOk = true := by decide +kernel
      exact Go.isOk_iff.mp this
    have h2 : ((Ix.mk exLoopStore.enc (~~~0)).dirItems 5 256 >>= fun rd => rangeLoop collectBody 2 [] rd) =
        .ok ([d], false) := by decide +kernel
    rw [hrd] at h2
    simp only [Go.ok_bind] at h2
    simp only [listDirectory, hrd, Go.ok_bind]
    rcases Nat.lt_or_ge rf 2 with h | h
    · have h0 : rangeLoop collectBody rf [] rd = .hang := by
        rcases Nat.lt_or_ge rf 1 with h | h
        · rw [show rf = 0 by omega]; rfl
        · rw [show rf = 1 by omega]
          have : ((Ix.mk exLoopStore.enc (~~~0)).dirItems 5 256 >>= fun rd => rangeLoop collectBody 1 [] rd) = .hang := by
            decide +kernel
          rw [hrd] at this
          exact this
      rw [h0]; rfl
    · rw [rangeLoop_mono _ h2 h]
      simp only [Go.ok_bind]
      have hk : lsKeys [d] = .ok [(d, (true, [97]))] := by decide +kernel
      have hs : srt [(d, (true, [97]))] = [(d, (true, [97]))] := List.perm_singleton.mp (hsrt _).1
      have hi : (Ix.mk exLoopStore.enc (~~~0)).findInodeItem 5 256 = .ok none := by decide +kernel
      have hloc : DirItem.location d = .ok ⟨256, 1, 0⟩ := entry_location _ _ _
      have ht : DirItem.typ d = .ok 2 := by decide +kernel
      have hn : DirItem.name d = .ok [97] := by decide +kernel
      have hd : DirItem.isDir d = .ok true := by decide +kernel
      simp only [lsSort, hk, Go.ok_bind, Go.pure_eq, hs, List.map_cons, List.map_nil, listLoop, listDirItem, hloc, ht, hi,
        inodeColumns, hn, if_true, hd, subLoop, ih, Go.hang_bind]

/-- C65, what holds: if no directory of the tree contains itself, directly or through
others (every directory entry leads to a directory of smaller rank), directories are
well behaved and items intact, recursive listing ends. -/
theorem C65_acyclic_partial (b : Bucket) (hb : b.WF) (m : Bytes) (hm : b.stores metadataVersionKey m) (hok : b.DirsOK)
    (hfull : ∀ o dir d, o ≠ ~~~0 → b.dirItem o dir d → wholeEntry (Slice.data d))
    (owner : UInt64) (ho : owner ≠ ~~~0) (hin : b.InodesOK owner) (rank : UInt64 → Nat)
    (hrank : ∀ dir d loc, b.dirItem owner dir d → DirItem.isDir d = .ok true → DirItem.location d = .ok loc →
      rank loc.objectID < rank dir)
    (srt : Sorter) (hsrt : SortOK srt) (ft : Time → Bytes) (showInode : Bool) (dir : UInt64) (recursive : Bool) :
    ∃ N text, ∀ rf fuel, N ≤ rf → N ≤ fuel →
      listDirectory rf srt ft ⟨b, ~~~0⟩ owner showInode fuel dir recursive = .ok text := by
  obtain ⟨l, hl, rfl⟩ := hb.exists_abs
  generalize hr : rank dir = r
  induction r using Nat.strongRecOn generalizing dir recursive with
  | ind r ih =>
    subst hr
    obtain ⟨rd, items, h1, h2, h3⟩ := dirItems_yields hl ⟨m, hm⟩ hok (~~~0) dir ho
    have hw : ∀ d ∈ items.map (·.2), wholeEntry (Slice.data d) := by
      intro d hd
      obtain ⟨e, he, rfl⟩ := List.mem_map.mp hd
      exact hfull _ _ _ ho (h3 e he)
    obtain ⟨es, he1, he2, -⟩ := lsSort_ok hsrt _ hw
    obtain ⟨lines, todo, h4, -, h6⟩ := listLoop_ok (AStore.enc_wf hl) hm ho hin ft recursive showInode es
      (fun d hd => hw d (he2.mem_iff.mp hd))
    have hsub : ∀ todo : List DirItem, (∀ d ∈ todo, d ∈ es ∧ DirItem.isDir d = .ok true) →
        ∃ N text, ∀ rf fuel, N ≤ rf → N ≤ fuel →
          subLoop (fun d => listDirectory rf srt ft ⟨l.enc, ~~~0⟩ owner showInode fuel d true) todo = .ok text := by
      intro todo
      induction todo with
      | nil => intro _; exact ⟨0, [], fun _ _ _ _ => rfl⟩
      | cons d t iht =>
        intro hd
        obtain ⟨N1, t1, ht1⟩ := iht (fun x hx => hd x (List.mem_cons_of_mem _ hx))
        obtain ⟨hdm, hdir⟩ := hd d List.mem_cons_self
        have hdm' := he2.mem_iff.mp hdm
        obtain ⟨⟨n, hn⟩, ⟨loc, hloc⟩, -⟩ := (hw d hdm').fields
        obtain ⟨e, he, hed⟩ := List.mem_map.mp hdm'
        have hit := h3 e he
        rw [hed] at hit
        obtain ⟨N2, t2, ht2⟩ := ih _ (hrank dir d loc hit hdir hloc) loc.objectID true rfl
        refine ⟨max N1 N2, n ++ (58 :: 10 :: (t2 ++ t1)), fun rf fuel hrf hfu => ?_⟩
        simp only [subLoop, hn, hloc, Go.ok_bind, ht2 rf fuel (by omega) (by omega), ht1 rf fuel (by omega) (by omega),
          Go.pure_eq]
    obtain ⟨N, t, hN⟩ := hsub todo (fun d hd => ((h6 d).mp hd).2)
    refine ⟨max (N + 1) (items.length + 1), lines.flatten ++ t, fun rf fuel hrf hfu => ?_⟩
    obtain ⟨f, rfl⟩ : ∃ f, fuel = f + 1 := ⟨fuel - 1, by omega⟩
    simp only [listDirectory, h1, Go.ok_bind, rangeLoop_eq _ h2 rf [] (by omega), foldCollect, List.nil_append,
      he1, h4, hN rf f (by omega) (by omega), Go.pure_eq]

/-- The rank condition holds for `exPathStore`, where `/a` leads to directory 257 and
`/a/b` to a subvolume. -/
example : ∃ rank : UInt64 → Nat, ∀ dir d loc, exPathStore.enc.dirItem 5 dir d → DirItem.isDir d = .ok true →
    DirItem.location d = .ok loc → rank loc.objectID < rank dir := by
  refine ⟨fun x => 1000 - x.toNat, ?_⟩
  rintro dir d loc ⟨off, g, x, hs, hd⟩ - hloc
  have hm := enc_stores.mp hs
  simp only [exPathStore, List.mem_cons, List.not_mem_nil, or_false, Prod.mk.injEq, VKey.mk.injEq, Key.mk.injEq] at hm
  rcases hm with ⟨⟨-, ⟨rfl, -, -⟩, -⟩, rfl⟩ | ⟨⟨-, ⟨rfl, -, -⟩, -⟩, rfl⟩ | ⟨⟨-, ⟨-, h, -⟩, -⟩, -⟩ | ⟨⟨h, -⟩, -⟩ | ⟨⟨h, -⟩, -⟩ | ⟨h, -⟩
  · rw [item_data_mk _ _ (by decide)] at hd; cases hd
    rw [entry_location] at hloc; cases hloc; decide
  · rw [item_data_mk _ _ (by decide)] at hd; cases hd
    rw [entry_location] at hloc; cases hloc; decide
  · exact absurd h (by decide)
  · exact absurd h (by decide)
  · exact absurd h (by decide)
  · exact absurd (congrArg VKey.owner h) (by show ¬ (5 : UInt64) = ~~~0; decide)

end Btrfscue
