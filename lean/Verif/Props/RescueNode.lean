import Verif.Proof.RescueNode
import Verif.Proof.Lookup
import Verif.Props.Path
import Verif.Props.Identify
import Verif.Props.Derived
/-!
# C52, C53, C68, C69, C70: nodes of the mounted file system
-/

namespace Btrfscue

/-! ## C52 -/

/-- C52: the answers to a sequence of operations on a mounted node are those that each
operation would give on a node nothing was done with before (crashing or hanging
included): caches do not show. -/
theorem C52_history_independent (fuel : Nat) (ix : Ix) (owner inode : UInt64) (ops : List NodeOp) :
    runOps fuel ix (newRescueNode owner inode) ops = runFresh fuel ix owner inode ops :=
  runOps_eq ops (nodeOK_fresh fuel ix owner inode)

/-- C52: whatever the index contains, if a directory can be listed, then no name is listed
twice, `Lookup` of a name that is not listed answers ENOENT, and `Lookup` of a listed name
(unless it crashes on a damaged entry or inode) finds a child that is a directory exactly
if it was listed as one — but the lookup still fails, with ENOATTR, exactly if there is no inode item
for that child (see `C52_no_inode_refuted`). -/
theorem C52_listed_iff_found_partial (fuel : Nat) (ix : Ix) (owner inode : UInt64) (ord : DirMap → DirMap) (ho : MapOrder ord)
    (n : RescueNode) (es : List (Bytes × Bool))
    (h : (newRescueNode owner inode).openDir fuel ord ix = .ok (n, es)) :
    (es.map (·.1)).Nodup ∧
    (∀ name, name ∉ es.map (·.1) → ∃ n', (newRescueNode owner inode).lookup fuel ix name = .ok (n', .error .ENOENT)) ∧
    (∀ name isDir, (name, isDir) ∈ es → ∀ n' r, (newRescueNode owner inode).lookup fuel ix name = .ok (n', r) →
      ∃ c a, r = .ok (c, isDir, a) ∧ ((∃ x, a = .ok x ∧ ∃ ii, ix.findInodeItem c.owner c.ixInode = .ok (some ii)) ∨
        (a = .error .ENOATTR ∧ ix.findInodeItem c.owner c.ixInode = .ok none))) := by
  unfold RescueNode.openDir at h
  simp only [Go.bind_eq_ok] at h
  obtain ⟨f, h1, es', h2, h3⟩ := h
  cases h3
  have hok := ensure_fresh_ok h1
  have hp := ho n.dirItems
  obtain ⟨a1, a2⟩ := openDirLoop_spec _ h2 fun e he => (hok.names e (hp.mem_iff.mp he)).1
  have hkeys : (es.map (·.1)).Perm (n.dirItems.map (·.1)) := by rw [a1]; exact hp.map _
  refine ⟨hkeys.nodup_iff.mpr hok.nodup, ?_, ?_⟩
  · intro name hn
    refine ⟨n, ?_⟩
    have : n.dirItems.find name = none := DirMap.find_none.mpr fun hc => hn (hkeys.mem_iff.mpr hc)
    rw [lookup_eq, h1]
    simp only [Go.ok_bind, lookupIn, this]
  · intro name isDir hmem n' r hr
    obtain ⟨e, he, he1, he2⟩ := a2 _ hmem
    simp only at he1 he2
    have hin : (name, e.2) ∈ n.dirItems := by
      rw [← he1]; exact hp.mem_iff.mp he
    rw [lookup_eq, h1] at hr
    simp only [Go.ok_bind, lookupIn] at hr
    cases hf : n.dirItems.find name with
    | none => exact absurd (List.mem_map_of_mem hin) (DirMap.find_none.mp hf)
    | some d =>
      have hd := DirMap.find_mem hf
      have : d = e.2 := by
        have hnd := hok.nodup
        exact (List.inj_on_of_nodup_map hnd hd hin rfl |> Prod.mk.inj).2
      subst this
      rw [hf] at hr
      simp only [Go.bind_eq_ok, he2, Go.ok_bind] at hr
      obtain ⟨r', ⟨loc, -, sv, -, ca, hca, h4⟩, h5⟩ := hr
      cases h4
      cases h5
      refine ⟨_, _, rfl, ?_⟩
      generalize hq : (if (!sv) = true then newRescueNode n.owner loc.objectID else newRescueNode loc.objectID FirstFreeObjectID) = q at hca
      have hqa : q.attr = none := by
        rw [← hq]; cases sv <;> rfl
      unfold RescueNode.getAttr at hca
      rw [hqa] at hca
      simp only [Go.bind_eq_ok] at hca
      obtain ⟨ii, h6, h7⟩ := hca
      cases ii with
      | none => cases h7; exact Or.inr ⟨rfl, h6⟩
      | some ii =>
        simp only [Go.bind_eq_ok] at h7
        obtain ⟨x, -, h7⟩ := h7
        cases h7
        exact Or.inl ⟨x, rfl, ii, h6⟩

/-- C52 is false of the code for entries that lead to something whose inode item is lost: "a" is
listed, as a directory, and an intact entry, but `Lookup` fails with ENOATTR. -/
theorem C52_no_inode_refuted : exPathStore.Sorted ∧
    ((newRescueNode 5 256).openDir 9 id ⟨exPathStore.enc, ~~~0⟩ >>= fun r => pure r.2) = .ok [([97], true)] ∧
    ((newRescueNode 5 256).lookup 9 ⟨exPathStore.enc, ~~~0⟩ [97] >>= fun r => pure (r.2.map fun c => c.2.2)) = .ok (.ok (.error .ENOATTR)) := by
  exact ⟨exPathStore_sorted, by decide +kernel, by decide +kernel⟩

/-- C52: a directory all of whose entries have one generation and are whole is listed
completely: the names are exactly those of the stored entries. -/
theorem C52_listing_complete (b : Bucket) (hb : b.WF) (m : Bytes) (hm : b.stores metadataVersionKey m)
    (owner dir : UInt64) (hok : b.RangeOK owner (KL2 84 dir)) (g : UInt64)
    (hg : ∀ off, b.hasKey owner ⟨dir, 84, off⟩ → b.newest owner ⟨dir, 84, off⟩ g)
    (hfull : ∀ off x d, b.stores ⟨owner, ⟨dir, 84, off⟩, g⟩ x → Item.data ⟨x, []⟩ = .ok d → wholeEntry (Slice.data d))
    (ord : DirMap → DirMap) (ho : MapOrder ord) :
    ∃ N es, (∀ fuel, N ≤ fuel → ∃ n, (newRescueNode owner dir).openDir fuel ord ⟨b, ~~~0⟩ = .ok (n, es)) ∧
      ∀ name, name ∈ es.map (·.1) ↔ ∃ off x d, b.stores ⟨owner, ⟨dir, 84, off⟩, g⟩ x ∧
        Item.data ⟨x, []⟩ = .ok d ∧ DirItem.name d = .ok name := by
  obtain ⟨l, hl, rfl⟩ := hb.exists_abs
  obtain ⟨rd, items, hr, hy, -, hs⟩ := rangeAll_single hl ⟨m, hm⟩ hok hg
  generalize hits : (items.map fun e => (Range.at l.enc (VKey.mk owner (KL2 84 dir) (~~~0)).encode e.1, e.2)) = its at hy
  have hmem : ∀ s : Slice, (∃ e ∈ its, e.2 = s) ↔ ∃ off x, l.enc.stores ⟨owner, ⟨dir, 84, off⟩, g⟩ x ∧ Item.data ⟨x, []⟩ = .ok s := by
    intro s
    rw [← hits]
    constructor
    · rintro ⟨e, he, rfl⟩
      obtain ⟨⟨⟨w, y⟩, s'⟩, h1, rfl⟩ := List.mem_map.mp he
      obtain ⟨off, rfl, h2, h3⟩ := (hs w y s').mp h1
      exact ⟨off, y, h2, h3⟩
    · rintro ⟨off, x, h2, h3⟩
      exact ⟨_, List.mem_map.mpr ⟨((_, x), s), (hs _ _ _).mpr ⟨off, rfl, h2, h3⟩, rfl⟩, rfl⟩
  have hwhole : ∀ e ∈ its, wholeEntry (Slice.data e.2) := by
    intro e he
    obtain ⟨off, x, h1, h2⟩ := (hmem e.2).mp ⟨e, he, rfl⟩
    exact hfull off x _ h1 h2
  have hfold : ∀ (its : List (Range × Slice)) (m0 : DirMap), (∀ e ∈ its, wholeEntry (Slice.data e.2)) →
      ∃ m', foldRange dirMapBody m0 its = .ok (m', false) := by
    intro its
    induction its with
    | nil => intro m0 _; exact ⟨m0, rfl⟩
    | cons x r ih =>
      intro m0 hw
      obtain ⟨rg, d⟩ := x
      obtain ⟨⟨nm, h1⟩, -, -⟩ := (hw _ List.mem_cons_self).fields
      obtain ⟨m', hm'⟩ := ih (m0.put nm d) fun e he => hw e (List.mem_cons_of_mem _ he)
      refine ⟨m', ?_⟩
      simp only at h1
      simp only [foldRange, dirMapBody, h1, Go.ok_bind, Go.pure_eq, Bool.false_eq_true, if_false]
      exact hm'
  obtain ⟨dm, hdm⟩ := hfold its [] hwhole
  obtain ⟨a1, -, a3, a4⟩ := foldDirMap its [] (P := fun d => wholeEntry (Slice.data d)) ⟨by simp, by simp⟩ hwhole hdm
  simp only at a1 a3 a4
  have hloop : ∀ (q : List (Bytes × DirItem)), (∀ e ∈ q, DirItem.name e.2 = .ok e.1 ∧ wholeEntry (Slice.data e.2)) →
      ∃ es, openDirLoop q = .ok es := by
    intro q
    induction q with
    | nil => intro _; exact ⟨[], rfl⟩
    | cons x r ih =>
      intro hw
      obtain ⟨h0, h1⟩ := hw x List.mem_cons_self
      obtain ⟨-, -, ⟨ty, h3⟩⟩ := h1.fields
      have h3 : DirItem.isDir x.2 = .ok (ty == FtDir) := by unfold DirItem.isDir; rw [h3]; rfl
      obtain ⟨es, hes⟩ := ih fun e he => hw e (List.mem_cons_of_mem _ he)
      simp only [openDirLoop, h0, Go.ok_bind, h3, hes, Go.pure_eq]
      exact ⟨_, rfl⟩
  have hp := ho dm
  obtain ⟨es, hes⟩ := hloop (ord dm) fun e he => a1.names e (hp.mem_iff.mp he)
  refine ⟨its.length + 1, es, ?_, ?_⟩
  · intro fuel hf
    refine ⟨{ newRescueNode owner dir with dirItems := dm }, ?_⟩
    have hr' : (Ix.mk l.enc (~~~0)).dirItems owner dir = .ok rd := hr
    have e1 : (newRescueNode owner dir).ensureDirItems fuel ⟨l.enc, ~~~0⟩ =
        .ok { newRescueNode owner dir with dirItems := dm } := by
      unfold RescueNode.ensureDirItems newRescueNode
      rw [if_neg (by simp)]
      simp only [hr', Go.ok_bind, rangeLoop_eq _ hy fuel _ (by omega), hdm]
      rfl
    unfold RescueNode.openDir
    rw [e1]
    simp only [Go.ok_bind, hes]
    rfl
  · intro name
    have b1 := (openDirLoop_spec _ hes fun e he => (a1.names e (hp.mem_iff.mp he)).1).1
    rw [b1, (hp.map _).mem_iff]
    constructor
    · intro h
      obtain ⟨e, he, rfl⟩ := List.mem_map.mp h
      rcases a4 e he with h | ⟨x, hx, hxe⟩
      · cases h
      · obtain ⟨off, y, h1, h2⟩ := (hmem e.2).mp ⟨x, hx, hxe⟩
        exact ⟨off, y, _, h1, h2, (a1.names e he).1⟩
    · rintro ⟨off, x, d, h1, h2, h3⟩
      obtain ⟨e, he, rfl⟩ := (hmem d).mpr ⟨off, x, h1, h2⟩
      obtain ⟨k, hk, hk2⟩ := a3 e he
      rw [h3] at hk
      cases hk
      exact hk2

/-- Listing and looking up in the store `exPathStore`: directory 256 of tree 5 holds
`a`, which is a directory. -/
example : (∃ n, (newRescueNode 5 256).openDir 9 id ⟨exPathStore.enc, ~~~0⟩ = .ok (n, [([97], true)])) ∧
    (∃ n c a, (newRescueNode 5 256).lookup 9 ⟨exPathStore.enc, ~~~0⟩ [97] = .ok (n, .ok (c, true, a)) ∧
      c.owner = 5 ∧ c.ixInode = 257) ∧
    (∃ n, (newRescueNode 5 256).lookup 9 ⟨exPathStore.enc, ~~~0⟩ [98] = .ok (n, .error .ENOENT)) := by
  refine ⟨⟨⟨5, 256, none, [([97], ⟨exEntry ⟨257, 1, 0⟩ 2 [97], []⟩)]⟩, by decide +kernel⟩,
    ⟨⟨5, 256, none, [([97], ⟨exEntry ⟨257, 1, 0⟩ 2 [97], []⟩)]⟩, ⟨5, 257, none, []⟩, .error .ENOATTR, by decide +kernel, rfl, rfl⟩,
    ⟨⟨5, 256, none, [([97], ⟨exEntry ⟨257, 1, 0⟩ 2 [97], []⟩)]⟩, by decide +kernel⟩⟩

/-! ## C53 -/

theorem listXAttrBody_nobreak (s : List Bytes) (r : Range) (d : Slice) (s' : List Bytes) (b : Bool)
    (h : listXAttrBody s r d = .ok (s', b)) : b = false := by
  simp only [listXAttrBody, Go.bind_eq_ok] at h
  obtain ⟨_, _, h⟩ := h
  cases h; rfl

/-- The first attribute called `attr` among the items of a run, and its value. -/
def firstNamed (attr : Bytes) : List (Range × Slice) → Option Slice
  | [] => none
  | (_, d) :: r => if DirItem.name d = .ok attr then some d else firstNamed attr r

/-- C53: if the attributes of a node can be listed, then the names are those of a complete
run over its stored attribute items, in order, and `GetXAttr` returns the value of the
first of them with the name asked for (crashing exactly if that value is cut off), and
ENOATTR for exactly the names that are not listed. -/
theorem C53_get_matches_list (fuel : Nat) (ix : Ix) (n : RescueNode) (names : List Bytes)
    (h : n.listXAttr fuel ix = .ok names) :
    ∃ rd items, ix.xattrItems n.owner n.ixInode = .ok rd ∧ Range.Yields rd items ∧
      items.map (fun e => DirItem.name e.2) = names.map Go.ok ∧
      ∀ attr,
        (attr ∉ names ∧ firstNamed attr items = none ∧ n.getXAttr fuel ix attr = .ok (.error .ENOATTR)) ∨
        (attr ∈ names ∧ ∃ d, firstNamed attr items = some d ∧
          n.getXAttr fuel ix attr = DirItem.data d >>= fun v => .ok (.ok v)) := by
  unfold RescueNode.listXAttr at h
  simp only [Go.bind_eq_ok] at h
  obtain ⟨rd, h1, ⟨s, b⟩, h2, h3⟩ := h
  cases h3
  obtain ⟨items, hy, hl, hf⟩ := rangeLoop_yields _ listXAttrBody_nobreak h2
  have hnames : ∀ (its : List (Range × Slice)) (s0 : List Bytes) (res : List Bytes × Bool),
      foldRange listXAttrBody s0 its = .ok res →
      ∃ ns, res.1 = s0 ++ ns ∧ its.map (fun e => DirItem.name e.2) = ns.map Go.ok := by
    intro its
    induction its with
    | nil => intro s0 res h; cases h; exact ⟨[], by simp⟩
    | cons x r ih =>
      intro s0 res h
      obtain ⟨rg, d⟩ := x
      simp only [foldRange, listXAttrBody, Go.bind_eq_ok] at h
      obtain ⟨⟨s', b'⟩, ⟨nm, a1, a2⟩, a3⟩ := h
      cases a2
      simp only [Bool.false_eq_true, if_false] at a3
      obtain ⟨ns, b1, b2⟩ := ih _ _ a3
      exact ⟨nm :: ns, by rw [b1]; simp, by simp only [List.map_cons, b2, a1]⟩
  obtain ⟨ns, b1, b2⟩ := hnames _ _ _ hf
  simp only [List.nil_append] at b1
  subst b1
  refine ⟨rd, items, h1, hy, b2, ?_⟩
  intro attr
  have hget : ∀ (its : List (Range × Slice)) (ns : List Bytes), its.map (fun e => DirItem.name e.2) = ns.map Go.ok →
      (attr ∉ ns ∧ firstNamed attr its = none ∧ foldRange (getXAttrBody attr) none its = .ok (none, false)) ∨
      (attr ∈ ns ∧ ∃ d, firstNamed attr its = some d ∧
        foldRange (getXAttrBody attr) none its = DirItem.data d >>= fun v => .ok (some v, true)) := by
    intro its
    induction its with
    | nil =>
      intro ns hns
      cases ns with
      | nil => exact Or.inl ⟨by simp, rfl, rfl⟩
      | cons _ _ => simp at hns
    | cons x r ih =>
      intro ns hns
      obtain ⟨rg, d⟩ := x
      cases ns with
      | nil => simp at hns
      | cons nm ns =>
        simp only [List.map_cons, List.cons.injEq] at hns
        obtain ⟨c1, c2⟩ := hns
        by_cases he : nm = attr
        · subst he
          refine Or.inr ⟨List.mem_cons_self, d, by simp only [firstNamed, c1, if_true], ?_⟩
          simp only [foldRange, getXAttrBody, c1, Go.ok_bind, if_true]
          cases DirItem.data d with
          | panic => rfl
          | hang => rfl
          | ok v => rfl
        · have hne : ¬ (Go.ok nm = Go.ok attr) := fun hc => he (Go.ok.inj hc)
          have e1 : foldRange (getXAttrBody attr) none ((rg, d) :: r) = foldRange (getXAttrBody attr) none r := by
            simp only [foldRange, getXAttrBody, c1, Go.ok_bind, if_neg he, Go.pure_eq, Bool.false_eq_true, if_false]
          have e2 : firstNamed attr ((rg, d) :: r) = firstNamed attr r := by
            simp only [firstNamed, c1, if_neg hne]
          rw [e1, e2]
          rcases ih ns c2 with ⟨d1, d2, d3⟩ | ⟨d1, d2⟩
          · exact Or.inl ⟨by simp only [List.mem_cons, not_or]; exact ⟨fun hc => he hc.symm, d1⟩, d2, d3⟩
          · exact Or.inr ⟨List.mem_cons_of_mem _ d1, d2⟩
  have hloop := rangeLoop_eq (getXAttrBody attr) hy fuel none hl
  rcases hget items s b2 with ⟨d1, d2, d3⟩ | ⟨d1, d, d2, d3⟩
  · refine Or.inl ⟨d1, d2, ?_⟩
    unfold RescueNode.getXAttr
    rw [h1]
    simp only [Go.ok_bind, hloop, d3]
    rfl
  · refine Or.inr ⟨d1, d, d2, ?_⟩
    unfold RescueNode.getXAttr
    rw [h1]
    simp only [Go.ok_bind, hloop, d3]
    cases DirItem.data d with
    | panic => rfl
    | hang => rfl
    | ok v => rfl

/-- An object with two extended attributes, `u` = `7 8` and `v` = empty. -/
def exXAttrStore : AStore :=
  [(⟨5, ⟨257, 24, 1⟩, 10⟩, mkItem ⟨257, 24, 1⟩ ((DirItemRec.mk ⟨0, 0, 0⟩ 7 2 1 8).layout ++ [117, 7, 8])),
   (⟨5, ⟨257, 24, 9⟩, 10⟩, mkItem ⟨257, 24, 9⟩ ((DirItemRec.mk ⟨0, 0, 0⟩ 7 0 1 8).layout ++ [118])),
   (⟨5, ⟨256, 96, 2⟩, 10⟩, mkItem ⟨256, 96, 2⟩ []),
   (metadataVersionKey, [])]

example : (newRescueNode 5 257).listXAttr 9 ⟨exXAttrStore.enc, ~~~0⟩ = .ok [[117], [118]] ∧
    (newRescueNode 5 257).getXAttr 9 ⟨exXAttrStore.enc, ~~~0⟩ [117] = .ok (.ok [7, 8]) ∧
    (newRescueNode 5 257).getXAttr 9 ⟨exXAttrStore.enc, ~~~0⟩ [119] = .ok (.error .ENOATTR) := by
  refine ⟨by decide +kernel, by decide +kernel, by decide +kernel⟩

/-! ## C68 -/

/-- C68: `GetAttr` of a mounted node reports what is stored in the newest inode item. -/
theorem C68_attr_of_newest_inode (b : Bucket) (hb : b.WF) (m : Bytes) (hm : b.stores metadataVersionKey m)
    (owner inode : UInt64) (ho : owner ≠ ~~~0) (g : UInt64) (x : Bytes) (f : InodeItemRec) (rest : Bytes)
    (hn : b.newest owner ⟨inode, 1, 0⟩ g) (hs : b.stores ⟨owner, ⟨inode, 1, 0⟩, g⟩ x)
    (hd : holdsItem x (f.layout ++ rest)) (h1 : f.atime.nsec.toNat < 1000000000)
    (h2 : f.mtime.nsec.toNat < 1000000000) (h3 : f.ctime.nsec.toNat < 1000000000) :
    ∃ n, (newRescueNode owner inode).getAttr ⟨b, ~~~0⟩ = .ok (n, .ok
      { ino := inode, size := f.size, mode := f.mode, nlink := f.nlink, uid := f.uid, gid := f.gid,
        rdev := UInt32.ofNat f.rdev.toNat,
        atime := f.atime.sec, atimensec := f.atime.nsec, mtime := f.mtime.sec, mtimensec := f.mtime.nsec,
        ctime := f.ctime.sec, ctimensec := f.ctime.nsec }) := by
  obtain ⟨t, ht⟩ := findData_newest hb hm ho hn hs hd
  have hi : (Ix.mk b (~~~0)).findInodeItem owner inode = .ok (some ⟨f.layout ++ rest, t⟩) := ht
  obtain ⟨-, -, -, d3, -, d5, d6, d7, d8, d9, -, -, ⟨ta, da, ia⟩, ⟨tc, dc, ic⟩, ⟨tm, dm, im⟩, -⟩ :=
    C07_InodeItem_decodes f rest t
  obtain ⟨a1, a2⟩ := isTime_small ia h1
  obtain ⟨m1, m2⟩ := isTime_small im h2
  obtain ⟨c1, c2⟩ := isTime_small ic h3
  have hr : f.rdev.toUInt32 = UInt32.ofNat f.rdev.toNat := rfl
  unfold RescueNode.getAttr newRescueNode
  simp only [hi, Go.ok_bind, attrOf, d3, d5, d6, d7, d8, d9, da, dc, dm, Go.pure_eq, a1, a2, m1, m2, c1, c2, hr]
  exact ⟨_, rfl⟩

/-- C68: without an inode item it answers ENOATTR. -/
theorem C68_no_inode (b : Bucket) (hb : b.WF) (m : Bytes) (hm : b.stores metadataVersionKey m)
    (owner inode : UInt64) (ho : owner ≠ ~~~0) (G : UInt64) (hn : ¬ b.hasKey owner ⟨inode, 1, 0⟩) :
    ∃ n, (newRescueNode owner inode).getAttr ⟨b, G⟩ = .ok (n, .error .ENOATTR) := by
  have hi : (Ix.mk b G).findInodeItem owner inode = .ok none := findData_none hb hm ho G hn
  unfold RescueNode.getAttr newRescueNode
  simp only [hi, Go.ok_bind, Go.pure_eq]
  exact ⟨_, rfl⟩

/-- C68: an open file reports the same attributes, except for the inode number (0). -/
theorem C68_file_attr (ix : Ix) (owner inode : UInt64) (ext : List ExtentMapEntry) (n : RescueNode) (a : FuseAttr)
    (h : (newRescueNode owner inode).getAttr ix = .ok (n, .ok a)) :
    extentFileGetAttr ix owner inode ext = .ok { a with ino := 0 } := by
  unfold RescueNode.getAttr newRescueNode at h
  simp only [Go.bind_eq_ok] at h
  obtain ⟨r, h1, h2⟩ := h
  cases r with
  | none => cases h2
  | some ii =>
    simp only [Go.bind_eq_ok] at h2
    obtain ⟨a', h3, h4⟩ := h2
    cases h4
    unfold extentFileGetAttr
    rw [h1]
    simp only [Go.ok_bind]
    simp only [attrOf, Go.bind_eq_ok] at h3 ⊢
    obtain ⟨v1, e1, v2, e2, v3, e3, v4, e4, v5, e5, v6, e6, v7, e7, v8, e8, v9, e9, e10⟩ := h3
    cases e10
    exact ⟨v1, e1, v2, e2, v3, e3, v4, e4, v5, e5, v6, e6, v7, e7, v8, e8, v9, e9, rfl⟩

/-- A store with an inode item in two versions; the newer one is reported. -/
def exInode (size : UInt64) : InodeItemRec :=
  ⟨7, 7, size, 4096, 0, 1, 1000, 100, 0o100644, 0, 0, 0, 0, 0, 0, 0, ⟨5, 6⟩, ⟨7, 8⟩, ⟨9, 10⟩, ⟨0, 0⟩⟩

def exInodeStore : AStore :=
  [(⟨5, ⟨257, 1, 0⟩, 10⟩, mkItem ⟨257, 1, 0⟩ (exInode 3).layout),
   (⟨5, ⟨257, 1, 0⟩, 11⟩, mkItem ⟨257, 1, 0⟩ (exInode 4).layout),
   (metadataVersionKey, [])]

example : exInodeStore.enc.WF ∧ exInodeStore.enc.stores metadataVersionKey [] ∧
    exInodeStore.enc.newest 5 ⟨257, 1, 0⟩ 11 ∧
    exInodeStore.enc.stores ⟨5, ⟨257, 1, 0⟩, 11⟩ (mkItem ⟨257, 1, 0⟩ (exInode 4).layout) ∧
    holdsItem (mkItem ⟨257, 1, 0⟩ (exInode 4).layout) ((exInode 4).layout ++ []) := by
  refine ⟨AStore.enc_wf (sorted_of_before (by decide +kernel)), enc_stores.mpr (by simp [exInodeStore]),
    ⟨enc_hasVersion.mpr ⟨_, by simp only [exInodeStore, List.mem_cons]; right; left; rfl⟩, ?_⟩,
    enc_stores.mpr (by simp [exInodeStore]), ?_⟩
  · intro g' hg'
    obtain ⟨x, hx⟩ := enc_hasVersion.mp hg'
    simp only [exInodeStore, List.mem_cons, List.not_mem_nil, or_false, Prod.mk.injEq, VKey.mk.injEq] at hx
    rcases hx with ⟨⟨-, -, rfl⟩, -⟩ | ⟨⟨-, -, rfl⟩, -⟩ | ⟨h, -⟩
    · decide
    · decide
    · exact absurd (congrArg VKey.owner h) (by show ¬ (5 : UInt64) = ~~~0; decide)
  · rw [List.append_nil]; exact mkItem_holds _ _ (by decide +kernel)

/-! ## C69 -/

/-- C69: `Readlink` returns the data of the newest extent item at offset 0 if that is
inline (as it is for symlinks). -/
theorem C69_readlink (b : Bucket) (hb : b.WF) (m : Bytes) (hm : b.stores metadataVersionKey m)
    (owner inode : UInt64) (ho : owner ≠ ~~~0) (g : UInt64) (x : Bytes) (f : InlineExtentRec) (data rest : Bytes)
    (hn : b.newest owner ⟨inode, 108, 0⟩ g) (hs : b.stores ⟨owner, ⟨inode, 108, 0⟩, g⟩ x)
    (hd : holdsItem x (f.layout ++ (data ++ rest))) (hr : f.ramBytes.toNat = data.length) (hlen : data.length ≤ 16384) :
    (newRescueNode owner inode).readlink ⟨b, ~~~0⟩ = .ok (.ok data) := by
  obtain ⟨t, ht⟩ := findData_newest hb hm ho hn hs hd
  have hi : (Ix.mk b (~~~0)).findFileExtentItem owner inode = .ok (some ⟨f.layout ++ (data ++ rest), t⟩) := ht
  obtain ⟨h1, h2⟩ := C12_inline_data f data rest t hr hlen
  unfold RescueNode.readlink newRescueNode
  simp only [hi, Go.ok_bind, h2, if_true, h1]
  rfl

/-- C69: it answers ENODATA if there is no extent item at offset 0, or a regular one. -/
theorem C69_no_target (b : Bucket) (hb : b.WF) (m : Bytes) (hm : b.stores metadataVersionKey m)
    (owner inode : UInt64) (ho : owner ≠ ~~~0) :
    (¬ b.hasKey owner ⟨inode, 108, 0⟩ → (newRescueNode owner inode).readlink ⟨b, ~~~0⟩ = .ok (.error .ENODATA)) ∧
    (∀ g x (f : FileExtentItemRec) rest, b.newest owner ⟨inode, 108, 0⟩ g → b.stores ⟨owner, ⟨inode, 108, 0⟩, g⟩ x →
      holdsItem x (f.layout ++ rest) → f.typ ≠ 0 →
      (newRescueNode owner inode).readlink ⟨b, ~~~0⟩ = .ok (.error .ENODATA)) := by
  constructor
  · intro hn
    have hi : (Ix.mk b (~~~0)).findFileExtentItem owner inode = .ok none := findData_none hb hm ho _ hn
    unfold RescueNode.readlink newRescueNode
    simp only [hi, Go.ok_bind]
    rfl
  · intro g x f rest hn hs hd ht
    obtain ⟨t, htt⟩ := findData_newest hb hm ho hn hs hd
    have hi : (Ix.mk b (~~~0)).findFileExtentItem owner inode = .ok (some ⟨f.layout ++ rest, t⟩) := htt
    unfold RescueNode.readlink newRescueNode
    simp only [hi, Go.ok_bind, C07_FileExtentItem_isInline, decide_eq_true_eq, if_neg ht]
    rfl

def exLinkStore : AStore :=
  [(⟨5, ⟨257, 108, 0⟩, 10⟩, mkItem ⟨257, 108, 0⟩ ((InlineExtentRec.mk 7 3 0 0 0).layout ++ [46, 46, 47])),
   (metadataVersionKey, [])]

example : (newRescueNode 5 257).readlink ⟨exLinkStore.enc, ~~~0⟩ = .ok (.ok [46, 46, 47]) := by decide +kernel
example : holdsItem (mkItem ⟨257, 108, 0⟩ ((InlineExtentRec.mk 7 3 0 0 0).layout ++ [46, 46, 47]))
    ((InlineExtentRec.mk 7 3 0 0 0).layout ++ ([46, 46, 47] ++ [])) :=
  mkItem_holds _ _ (by decide)

/-! ## C70 -/

/-- C70 (what is proved): on an index whose directories are well behaved, a child found
by `Lookup` is where a stored entry of that name leads. -/
theorem C70_lookup_leads_to_target_partial (b : Bucket) (hb : b.WF) (m : Bytes)
    (hm : b.stores metadataVersionKey m) (hok : b.DirsOK) (G owner inode : UInt64) (ho : owner ≠ ~~~0) (fuel : Nat)
    (name : Bytes) (n c : RescueNode) (isDir : Bool) (a : Except FuseErr FuseAttr)
    (h : (newRescueNode owner inode).lookup fuel ⟨b, G⟩ name = .ok (n, .ok (c, isDir, a))) :
    ∃ d loc, b.dirItem owner inode d ∧ DirItem.name d = .ok name ∧ DirItem.location d = .ok loc ∧
      (c.owner, c.ixInode) = target owner loc ∧ DirItem.isDir d = .ok isDir ∧
      c.owner ≠ ~~~0 ∧
      ∃ c', (newRescueNode c.owner c.ixInode).getAttr ⟨b, G⟩ = .ok (c', a) := by
  obtain ⟨l, hl, rfl⟩ := hb.exists_abs
  rw [lookup_eq] at h
  simp only [Go.bind_eq_ok] at h
  obtain ⟨f, h1, r, h2, h3⟩ := h
  cases h3
  obtain ⟨e1, e2, -, rd, items, h4, h5, h6⟩ := ensure_fresh h1
  obtain ⟨rd', items', h7, h8, h9⟩ := dirItems_yields hl ⟨m, hm⟩ hok G inode ho
  rw [h7] at h4
  cases h4
  have h6' : foldRange dirMapBody [] items' = .ok (n.dirItems, false) := by
    have a1 := rangeLoop_eq dirMapBody h5 (items.length + items'.length + 1) [] (by omega)
    have a2 := rangeLoop_eq dirMapBody h8 (items.length + items'.length + 1) [] (by omega)
    rw [← a2, a1, h6]
  have hmap := (foldDirMap items' [] (P := l.enc.dirItem owner inode) ⟨by simp, by simp⟩ h9 h6').1
  unfold lookupIn at h2
  cases hf : n.dirItems.find name with
  | none => rw [hf] at h2; cases h2
  | some d =>
    rw [hf] at h2
    simp only [Go.bind_eq_ok] at h2
    obtain ⟨loc, b1, sv, b2, isd, b3, ca, b4, b5⟩ := h2
    cases b5
    obtain ⟨c1, c2⟩ := hmap.names _ (DirMap.find_mem hf)
    have b4' := b4
    rw [e1] at b4
    have hsv := isSubvolume_iff b2
    rw [b1] at hsv
    have key : ∀ (q : RescueNode) (y : RescueNode × Except FuseErr FuseAttr), q.attr = none → q.getAttr ⟨l.enc, G⟩ = .ok y →
        y.1.owner = q.owner ∧ y.1.ixInode = q.ixInode := by
      intro q y hq hy
      unfold RescueNode.getAttr at hy
      rw [hq] at hy
      simp only [Go.bind_eq_ok] at hy
      obtain ⟨r, -, hy⟩ := hy
      cases r with
      | none => cases hy; exact ⟨rfl, rfl⟩
      | some ii =>
        simp only [Go.bind_eq_ok] at hy
        obtain ⟨_, -, hy⟩ := hy
        cases hy; exact ⟨rfl, rfl⟩
    have hk := key _ _ (by cases sv <;> rfl) b4
    have htgt : (ca.1.owner, ca.1.ixInode) = target owner loc := by
      unfold target
      obtain ⟨loc', hl1, hl2⟩ := hsv
      cases hl1
      cases sv with
      | true =>
        rw [if_pos (hl2.mp rfl), hk.1, hk.2]; rfl
      | false =>
        rw [if_neg (fun hc => by have := hl2.mpr hc; cases this), hk.1, hk.2]; rfl
    refine ⟨d, loc, c2, c1, b1, htgt, b3, ?_, ?_⟩
    · have hne := hok.noMetaTree owner inode d loc ho c2 b1
      unfold target at htgt
      by_cases ht : loc.typ = 132
      · rw [if_pos ht] at htgt
        rw [(Prod.mk.inj htgt).1]; exact hne ht
      · rw [if_neg ht] at htgt
        rw [(Prod.mk.inj htgt).1]; exact ho
    · refine ⟨ca.1, ?_⟩
      rw [hk.1, hk.2]
      cases sv <;> exact b4

/-- C70: walking down a path by `Lookup`s ends where a chain of stored entries of these
names leads. -/
theorem C70_walk_partial (b : Bucket) (hb : b.WF) (m : Bytes) (hm : b.stores metadataVersionKey m) (hok : b.DirsOK)
    (G : UInt64) (fuel : Nat) (names : List Bytes) (hne : names ≠ []) (owner inode : UInt64) (ho : owner ≠ ~~~0) (c : RescueNode)
    (h : walk fuel ⟨b, G⟩ (newRescueNode owner inode) names = .ok (some c)) :
    ∃ d loc o', b.PathTo owner inode names d ∧ DirItem.location d = .ok loc ∧ (c.owner, c.ixInode) = target o' loc ∧
      o' ≠ ~~~0 := by
  have key : ∀ (names : List Bytes), names ≠ [] → ∀ (owner inode : UInt64) (p : RescueNode), owner ≠ ~~~0 →
      NodeOK fuel ⟨b, G⟩ owner inode p → walk fuel ⟨b, G⟩ p names = .ok (some c) →
      ∃ d loc o', b.PathTo owner inode names d ∧ DirItem.location d = .ok loc ∧ (c.owner, c.ixInode) = target o' loc ∧
        o' ≠ ~~~0 := by
    intro names
    induction names with
    | nil => intro h; exact absurd rfl h
    | cons nm rest ih =>
      intro _ owner inode p ho hp hw
      simp only [walk, Go.bind_eq_ok] at hw
      obtain ⟨⟨p', r⟩, h1, h2⟩ := hw
      cases r with
      | error e => cases h2
      | ok x =>
        obtain ⟨ch, isd, a⟩ := x
        replace h2 : walk fuel ⟨b, G⟩ ch rest = .ok (some c) := by
          cases a with
          | error e => cases h2
          | ok a => exact h2
        have hc := (run_cached hp (.lookup nm)).1
        simp only [NodeOp.run, h1, Go.ok_bind, Go.pure_eq] at hc
        cases hfr : (newRescueNode owner inode).lookup fuel ⟨b, G⟩ nm with
        | panic => rw [hfr] at hc; cases hc
        | hang => rw [hfr] at hc; cases hc
        | ok y =>
          rw [hfr] at hc
          simp only [Go.ok_bind, Go.ok.injEq, NodeAnswer.child.injEq] at hc
          obtain ⟨y1, y2⟩ := y
          simp only at hc
          subst hc
          obtain ⟨d, loc, g1, g2, g3, g4, g5, g6, c', g7⟩ :=
            C70_lookup_leads_to_target_partial b hb m hm hok G owner inode ho fuel nm _ _ _ _ hfr
          rcases List.eq_nil_or_concat rest with hnil | -
          · subst hnil
            simp only [walk] at h2
            cases h2
            exact ⟨d, loc, owner, .last g1 g2, g3, g4, ho⟩
          · by_cases hr0 : rest = []
            · subst hr0
              simp only [walk] at h2
              cases h2
              exact ⟨d, loc, owner, .last g1 g2, g3, g4, ho⟩
            · have hch : NodeOK fuel ⟨b, G⟩ ch.owner ch.ixInode ch := by
                rw [lookup_eq] at hfr
                simp only [Go.bind_eq_ok] at hfr
                obtain ⟨f, -, r, hl, hr⟩ := hfr
                cases hr
                unfold lookupIn at hl
                split at hl
                · cases hl
                · simp only [Go.bind_eq_ok] at hl
                  obtain ⟨loc', -, sv, -, isd', -, ca, hca, hend⟩ := hl
                  cases hend
                  cases sv
                  · have := (getAttr_cached (nodeOK_fresh fuel ⟨b, G⟩ _ loc'.objectID)).2 _ hca
                    have e1 := this.owner; have e2 := this.inode
                    rw [e1, e2]; exact this
                  · have := (getAttr_cached (nodeOK_fresh fuel ⟨b, G⟩ loc'.objectID FirstFreeObjectID)).2 _ hca
                    have e1 := this.owner; have e2 := this.inode
                    rw [e1, e2]; exact this
              obtain ⟨d', loc', o', q1, q2, q3, q4⟩ := ih hr0 ch.owner ch.ixInode ch g6 hch h2
              refine ⟨d', loc', o', .step g1 g2 g3 ?_, q2, q3, q4⟩
              rw [← g4]
              exact q1
  exact key names hne owner inode _ ho (nodeOK_fresh _ _ _ _) h

/-- `exPathStore` with inode items: walking `a/b/c` crosses into subvolume 300 and ends at inode 258. Without
them the walk fails. -/
example : (walk 9 ⟨AStore.enc ((⟨5, ⟨257, 1, 0⟩, 10⟩, mkItem ⟨257, 1, 0⟩ (exInode 5).layout) :: exPathStore.take 3 ++
      (⟨300, ⟨256, 1, 0⟩, 10⟩, mkItem ⟨256, 1, 0⟩ (exInode 5).layout) :: (⟨300, ⟨258, 1, 0⟩, 10⟩, mkItem ⟨258, 1, 0⟩ (exInode 5).layout) ::
      exPathStore.drop 3), ~~~0⟩ (newRescueNode 5 256) [[97], [98], [99]] >>= fun r => pure (r.map fun c => (c.owner, c.ixInode))) =
      .ok (some (300, 258)) ∧
    walk 9 ⟨exPathStore.enc, ~~~0⟩ (newRescueNode 5 256) [[97], [98], [99]] = .ok none := by
  decide +kernel

end Btrfscue
