import Mathlib.Data.List.Perm.Basic
import Verif.Spec.LsTree
import Verif.Props.LsPath
import Verif.Props.MountImage
/-!
# C88: `ls` of an undamaged file system
-/

namespace Btrfscue

/-- The payload `d` is that of an entry. -/
def isEntry (d : DirItem) (q : Bytes × DirItemRec) : Prop :=
  ∃ rest, Slice.data d = q.2.layout ++ (q.1 ++ rest) ∧ q.2.nameLen.toNat = q.1.length ∧ q.1.length ≤ 255

theorem isEntry.whole {d : DirItem} {q : Bytes × DirItemRec} (h : isEntry d q) : wholeEntry (Slice.data d) := by
  obtain ⟨rest, h1, h2, h3⟩ := h
  exact ⟨q.2, q.1, rest, h1, h2, h3⟩

theorem isEntry.says {d : DirItem} {q : Bytes × DirItemRec} (h : isEntry d q) : DirItem.says d q.1 q.2.typ q.2.location := by
  obtain ⟨rest, h1, h2, h3⟩ := h
  exact entry_says h2 h3 d h1

theorem isEntry.isDir {d : DirItem} {q : Bytes × DirItemRec} (h : isEntry d q) : DirItem.isDir d = .ok (q.2.typ == 2) := by
  simp only [DirItem.isDir, h.says.2.1, Go.ok_bind, Go.pure_eq]

theorem forall2_of_exists {α β : Type} {R : α → β → Prop} : ∀ {l : List α}, (∀ x ∈ l, ∃ y, R x y) → ∃ ys, List.Forall₂ R l ys := by
  intro l
  induction l with
  | nil => intro _; exact ⟨[], .nil⟩
  | cons a r ih =>
    intro h
    obtain ⟨y, hy⟩ := h a (List.mem_cons_self ..)
    obtain ⟨ys, hys⟩ := ih fun x hx => h x (List.mem_cons_of_mem _ hx)
    exact ⟨y :: ys, .cons hy hys⟩

theorem forall2_mem_right {α β : Type} {R : α → β → Prop} {l : List α} {ys : List β} (h : List.Forall₂ R l ys) {y : β} (hy : y ∈ ys) :
    ∃ x ∈ l, R x y := by
  induction h with
  | nil => cases hy
  | cons h1 _ ih =>
    rcases List.mem_cons.mp hy with rfl | hy
    · exact ⟨_, List.mem_cons_self .., h1⟩
    · obtain ⟨x, hx, hr⟩ := ih hy
      exact ⟨x, List.mem_cons_of_mem _ hx, hr⟩

theorem forall2_mem_left {α β : Type} {R : α → β → Prop} {l : List α} {ys : List β} (h : List.Forall₂ R l ys) {x : α} (hx : x ∈ l) :
    ∃ y ∈ ys, R x y := by
  induction h with
  | nil => cases hx
  | cons h1 _ ih =>
    rcases List.mem_cons.mp hx with rfl | hx
    · exact ⟨_, List.mem_cons_self .., h1⟩
    · obtain ⟨y, hy, hr⟩ := ih hx
      exact ⟨y, List.mem_cons_of_mem _ hy, hr⟩

theorem forall2_pairwise {α β : Type} {R : α → β → Prop} {S : α → α → Prop} {T : β → β → Prop} {l : List α} {ys : List β}
    (h : List.Forall₂ R l ys) (hp : l.Pairwise S) (hst : ∀ a a' b b', R a b → R a' b' → S a a' → T b b') : ys.Pairwise T := by
  induction h with
  | nil => exact .nil
  | cons h1 h2 ih =>
    rw [List.pairwise_cons] at hp ⊢
    refine ⟨fun y hy => ?_, ih hp.2⟩
    obtain ⟨x, hx, hr⟩ := forall2_mem_right h2 hy
    exact hst _ _ _ _ h1 hr (hp.1 x hx)

/-- What listing a directory delivers, entry by entry. -/
theorem Bucket.Undamaged.listed {b : Bucket} (hb : b.WF) {m : Bytes} (hm : b.stores metadataVersionKey m) {gc : UInt64} (hu : b.Undamaged gc)
    {o : UInt64} (d : UInt64) (ho : o ≠ ~~~0) :
    ∃ rd items ps, (Ix.mk b (~~~0)).dirItems o d = .ok rd ∧ Range.Yields rd items ∧
      List.Forall₂ isEntry (items.map (·.2)) ps ∧ (ps.map (·.1)).Nodup ∧ ∀ n e, (n, e) ∈ ps ↔ b.entryNow o d n e := by
  have hen := fun name e => hu.entry hb (o := o) (d := d) (name := name) (e := e)
  obtain ⟨l, hl, rfl⟩ := hb.exists_abs
  have he : (Ix.mk l.enc (~~~0)).dirItems o d = (Ix.mk l.enc (~~~0)).range o (KF 84 d) (KL2 84 d) := rfl
  by_cases hk : ∃ off, l.enc.hasKey o ⟨d, 84, off⟩
  · obtain ⟨off0, hk⟩ := hk
    obtain ⟨g, hd⟩ := hu.dirs o d
    obtain ⟨rd, items, h1, h2, h3, h4⟩ := rangeAll_single hl ⟨m, hm⟩ (hu.dirRange o d off0 hk) (t := 84) (id := d) (g := g) fun off h => (hd off h).1
    obtain ⟨ps, hps⟩ := forall2_of_exists (l := items) (R := fun x q => isEntry x.2 q ∧ x.1.1 = ⟨o, ⟨d, 84, (NameHash q.1).toUInt64⟩, g⟩ ∧
        l.enc.entryNow o d q.1 q.2) (by
      rintro ⟨⟨w, y⟩, s⟩ hx
      obtain ⟨off, rfl, h5, h6⟩ := (h4 w y s).mp hx
      have hkey : l.enc.hasKey o ⟨d, 84, off⟩ := ⟨g, y, h5⟩
      obtain ⟨k1, x', e', name', data', k2, k3, k4, k5, k6, k7⟩ := hd off hkey
      have := hl.unique (enc_stores.mp h5) (enc_stores.mp k2)
      subst this
      obtain ⟨s', g1, g2⟩ := k3.data
      rw [h6] at g1
      cases g1
      subst k7
      exact ⟨(name', e'), ⟨data', g2, k4, k6⟩, rfl, (hen name' e').mpr ⟨g, y, data', k1, k2, k3, k4, k5, k6⟩⟩)
    refine ⟨rd, _, ps, h1, h2, ?_, ?_, fun n e => ⟨fun hq => ?_, fun h => ?_⟩⟩
    · rw [List.map_map]
      exact List.forall₂_map_left_iff.mpr (hps.imp fun _ _ h => h.1)
    · rw [List.Nodup, List.pairwise_map]
      refine forall2_pairwise hps h3 ?_
      rintro a a' q q' ⟨-, ha, -⟩ ⟨-, ha', -⟩ hlt heq
      rw [ha, ha', heq] at hlt
      exact Nat.lt_irrefl _ hlt
    · obtain ⟨x, -, -, -, h⟩ := forall2_mem_right hps hq
      exact h
    · obtain ⟨g', x, data, k1, k2, k3, k4, k5, k6⟩ := (hen n e).mp h
      have := newest_unique k1 (hd _ ⟨g', k1.1⟩).1
      subst this
      obtain ⟨s, g1, g2⟩ := k3.data
      obtain ⟨q, hq, ⟨rest, hq1, hq2, hq3⟩, hq4, hq5⟩ := forall2_mem_left hps ((h4 _ x s).mpr ⟨_, rfl, k2, g1⟩)
      simp only at hq1
      rw [g2] at hq1
      obtain ⟨e1, e2⟩ := dirItem_layout_inj hq1
      have e3 := (List.append_inj e2 (by rw [← k4, ← hq2, e1])).1
      rw [show (n, e) = q from Prod.ext e3 e1]
      exact hq
  · have hr' := range_none hl (first := KF 84 d) (last := KL2 84 d) (o := o) (~~~0)
      ⟨_, enc_stores.mp hm, Nat.le_of_lt (num_lt_of_owner (ne_max_lt ho))⟩
      (fun g x hx => hu.noKL o ho (enc_hasKey.mpr ⟨g, x, hx⟩))
      (fun k g x hx hc => hk ⟨k.offset, enc_hasKey.mpr ⟨g, x, by
        obtain ⟨k1, k2, k3⟩ := k
        obtain ⟨hc1, hc2⟩ := hc
        simp only [KF] at hc1 hc2
        subst hc1; subst hc2
        exact hx⟩⟩)
    refine ⟨_, [], [], he.trans hr', .done rfl, .nil, .nil, fun name e => ⟨fun h => (by cases h), fun h => ?_⟩⟩
    obtain ⟨g', x, data, k1, -⟩ := (hen name e).mp h
    exact absurd ⟨_, ⟨g', k1.1⟩⟩ hk

/-- Sorting. -/
theorem lsSort_entries {srt : Sorter} (hsrt : SortOK srt) {dis : List DirItem} {ps : List (Bytes × DirItemRec)}
    (h : List.Forall₂ isEntry dis ps) (hn : (ps.map (·.1)).Nodup) :
    ∃ es qs, lsSort srt dis = .ok es ∧ List.Forall₂ isEntry es qs ∧ qs.Perm ps ∧ qs.Pairwise entryBefore := by
  obtain ⟨es, h1, h2, h3⟩ := lsSort_ok hsrt dis fun d hd => by
    obtain ⟨q, -, hq⟩ := forall2_mem_left h hd
    exact hq.whole
  obtain ⟨qs, h4, h5⟩ := List.perm_comp_forall₂ h2 h
  refine ⟨es, qs, h1, h4, h5, ?_⟩
  have hn' : (qs.map (·.1)).Nodup := (h5.map _).nodup_iff.mpr hn
  rw [List.Nodup, List.pairwise_map] at hn'
  refine List.Pairwise.imp (fun {a b} h => ?_) (hn'.and (forall2_pairwise h4 h3 (T := fun a b => (a.2.typ ≠ 2 ∧ b.2.typ = 2) ∨
      ((a.2.typ = 2 ↔ b.2.typ = 2) ∧ bytesLt b.1 a.1 = false)) ?_))
  · obtain ⟨hne, h | ⟨hd, hb⟩⟩ := h
    · exact Or.inl h
    · refine Or.inr ⟨hd, ?_⟩
      cases hab : bytesLt a.1 b.1 with
      | true => rfl
      | false => exact absurd (bytesLt_connected hab hb) hne
  · rintro a a' q q' hq hq' ⟨da, na, db, nb, k1, k2, k3, k4, k5⟩
    rw [hq.isDir] at k1
    rw [hq'.isDir] at k3
    rw [hq.says.1] at k2
    rw [hq'.says.1] at k4
    simp only [Go.ok.injEq] at k1 k2 k3 k4
    subst k1; subst k2; subst k3; subst k4
    rcases k5 with ⟨k5, k6⟩ | ⟨k5, k6⟩
    · exact Or.inl ⟨by simpa using k5, by simpa using k6⟩
    · exact Or.inr ⟨by rw [← beq_iff_eq (a := q.2.typ), k5, beq_iff_eq], k6⟩

theorem target_plain {o : UInt64} {loc : Key} (h : loc.typ ≠ 132) : target o loc = (o, loc.objectID) := by
  rw [target, if_neg h]

/-- The line of an entry. -/
theorem listDirItem_entry {b : Bucket} (hb : b.WF) {m : Bytes} (hm : b.stores metadataVersionKey m) {o : UInt64}
    (ho : o ≠ ~~~0) (hin : b.InodesOK o) (ft : Time → Bytes) (si : Bool) {d : DirItem} {q : Bytes × DirItemRec} (h : isEntry d q)
    (hq : q.2.location.typ ≠ 132) :
    ∃ line, listDirItem ft ⟨b, ~~~0⟩ o d si = .ok line ∧ b.entryLine ft si o q line := by
  obtain ⟨line, h1, e, name, rest, cols, h2, h3, h4, h5⟩ := C64_line b hb m hm o ho hin ft si d h.whole
  obtain ⟨rest', k1, k2, k3⟩ := h
  rw [k1] at h2
  obtain ⟨e1, e2⟩ := dirItem_layout_inj h2
  have e3 := (List.append_inj e2 (by rw [← h3, ← k2, e1])).1
  refine ⟨line, h1, cols, ?_, ?_⟩
  · rw [target_plain hq, e1]
    exact h4
  · rw [target_plain hq, e1, e3]
    exact h5

theorem listLoop_entries {b : Bucket} (hb : b.WF) {m : Bytes} (hm : b.stores metadataVersionKey m) {o : UInt64}
    (ho : o ≠ ~~~0) (hin : b.InodesOK o) (ft : Time → Bytes) (recursive si : Bool) {es : List DirItem} {qs : List (Bytes × DirItemRec)}
    (h : List.Forall₂ isEntry es qs) (hq : ∀ q ∈ qs, q.2.location.typ ≠ 132) :
    ∃ lines todo, listLoop ft ⟨b, ~~~0⟩ o recursive si es = .ok (lines.flatten, todo) ∧
      List.Forall₂ (b.entryLine ft si o) qs lines ∧
      List.Forall₂ isEntry todo (if recursive then qs.filter (fun q => q.2.typ == 2) else []) := by
  induction h with
  | nil => exact ⟨[], [], rfl, .nil, by cases recursive <;> exact .nil⟩
  | @cons d q r qr h1 _ ih =>
    obtain ⟨lines, todo, h3, h4, h5⟩ := ih fun x hx => hq x (List.mem_cons_of_mem _ hx)
    obtain ⟨line, h6, h7⟩ := listDirItem_entry hb hm ho hin ft si h1 (hq q (List.mem_cons_self ..))
    cases recursive with
    | false =>
      refine ⟨line :: lines, todo, ?_, .cons h7 h4, h5⟩
      simp only [listLoop, h6, Go.ok_bind, Bool.false_eq_true, if_false, h3, Go.pure_eq, List.flatten_cons]
    | true =>
      refine ⟨line :: lines, if q.2.typ == 2 then d :: todo else todo, ?_, .cons h7 h4, ?_⟩
      · simp only [listLoop, h6, Go.ok_bind, if_true, h1.isDir, h3, Go.pure_eq, List.flatten_cons]
      · simp only [if_true] at h5 ⊢
        rw [List.filter_cons]
        by_cases ht : (q.2.typ == 2) = true
        · rw [if_pos ht, if_pos ht]
          exact .cons h1 h5
        · rw [if_neg ht, if_neg ht]
          exact h5

theorem subLoop_entries {b : Bucket} {o : UInt64} {ft : Time → Bytes} {si : Bool} {srt : Sorter} {todo : List DirItem}
    {qs : List (Bytes × DirItemRec)} (h : List.Forall₂ isEntry todo qs) (hq : ∀ q ∈ qs, q.2.location.typ ≠ 132)
    (hsub : ∀ q ∈ qs, ∃ N text, b.Listing ft si true o q.2.location.objectID text ∧
      ∀ rf fuel, N ≤ rf → N ≤ fuel → listDirectory rf srt ft ⟨b, ~~~0⟩ o si fuel q.2.location.objectID true = .ok text) :
    ∃ N text, b.SubListings ft si o qs text ∧ ∀ rf fuel, N ≤ rf → N ≤ fuel →
      subLoop (fun d => listDirectory rf srt ft ⟨b, ~~~0⟩ o si fuel d true) todo = .ok text := by
  induction h with
  | nil => exact ⟨0, [], .nil, fun _ _ _ _ => rfl⟩
  | @cons d q r qr h1 _ ih =>
    obtain ⟨N1, t1, ht1, hN1⟩ := ih (fun x hx => hq x (List.mem_cons_of_mem _ hx)) fun x hx => hsub x (List.mem_cons_of_mem _ hx)
    obtain ⟨N2, t2, ht2, hN2⟩ := hsub q (List.mem_cons_self ..)
    refine ⟨max N1 N2, _, .cons (n := q.1) (e := q.2) (by rw [target_plain (hq q (List.mem_cons_self ..))]; exact ht2) ht1, fun rf fuel hrf hfu => ?_⟩
    simp only [subLoop, h1.says.1, h1.says.2.2, Go.ok_bind, hN2 rf fuel (by omega) (by omega), hN1 rf fuel (by omega) (by omega),
      Go.pure_eq]
    have : ascii ":\n" = [58, 10] := by decide +kernel
    rw [this]
    simp

theorem Bucket.LeadsTo.trans {b : Bucket} {o d : UInt64} {names : List Bytes} {o' d' : UInt64} (h : b.LeadsTo o d names o' d')
    {more : List Bytes} {o'' d'' : UInt64} (h' : b.LeadsTo o' d' more o'' d'') : b.LeadsTo o d (names ++ more) o'' d'' := by
  induction h with
  | here => exact h'
  | step h1 _ ih => exact .step h1 (ih h')

/-- C88 (what is proved), a directory: in it (if recursive, below it) no entry leads to another
tree, and if recursive no directory contains itself. Then listing it, recursively or not, prints its listing. Missing:
subvolumes and loops, see `C88_subvolume_hangs`, C74 and C65. -/
theorem C88_listing_partial (b : Bucket) (hb : b.WF) (m : Bytes) (hm : b.stores metadataVersionKey m) (gc : UInt64)
    (hu : b.Undamaged gc) (o : UInt64) (ho : o ≠ ~~~0) (hin : b.InodesOK o) (srt : Sorter) (hsrt : SortOK srt)
    (ft : Time → Bytes) (si recursive : Bool) (dir : UInt64) (hp : b.PlainTree recursive o dir) :
    ∃ N text, b.Listing ft si recursive o dir text ∧ ∀ rf fuel, N ≤ rf → N ≤ fuel →
      listDirectory rf srt ft ⟨b, ~~~0⟩ o si fuel dir recursive = .ok text := by
  obtain ⟨rank, hrank⟩ := hp
  generalize hr : rank dir = r
  induction r using Nat.strongRecOn generalizing dir recursive with
  | ind r ih =>
    subst hr
    obtain ⟨rd, items, ps, h1, h2, h3, h4, h5⟩ := hu.listed hb hm dir ho
    obtain ⟨es, qs, h6, h7, h8, h9⟩ := lsSort_entries hsrt h3 h4
    have hmem : ∀ n e, (n, e) ∈ qs ↔ b.entryNow o dir n e := fun n e => h8.mem_iff.trans (h5 n e)
    have hq : ∀ q ∈ qs, q.2.location.typ ≠ 132 := fun q hq => (hrank [] dir .here (Or.inl rfl) q.1 q.2 ((hmem q.1 q.2).mp hq)).1
    obtain ⟨lines, todo, h10, h11, h12⟩ := listLoop_entries hb hm ho hin ft recursive si h7 hq
    have hsubset : ∀ q ∈ (if recursive then qs.filter (fun q => q.2.typ == 2) else []), q ∈ qs ∧ q.2.typ = 2 ∧ recursive = true := by
      intro q hq
      cases recursive with
      | false => cases hq
      | true =>
        obtain ⟨k1, k2⟩ := List.mem_filter.mp hq
        exact ⟨k1, by simpa using k2, rfl⟩
    obtain ⟨N, t, h13, h14⟩ := subLoop_entries (srt := srt) (ft := ft) (si := si) (b := b) (o := o) h12
      (fun q hq' => hq q (hsubset q hq').1) (fun q hq' => by
        obtain ⟨k1, k2, hrec⟩ := hsubset q hq'
        have hen := (hmem q.1 q.2).mp k1
        have hlt := (hrank [] dir .here (Or.inl rfl) q.1 q.2 hen).2 hrec k2
        have hstep : b.LeadsTo o dir [q.1] o q.2.location.objectID := by
          refine .step hen ?_
          rw [target_plain (hq q k1)]
          exact .here
        exact ih _ hlt true q.2.location.objectID (fun names d hd _ n e he => by
          have := hrank (q.1 :: names) d (hstep.trans hd) (Or.inr hrec) n e he
          exact ⟨this.1, fun _ => this.2 hrec⟩) rfl)
    refine ⟨max (N + 1) (items.length + 1), lines.flatten ++ t, .mk hmem h9 h11 h13, fun rf fuel hrf hfu => ?_⟩
    obtain ⟨f, rfl⟩ : ∃ f, fuel = f + 1 := ⟨fuel - 1, by omega⟩
    simp only [listDirectory, h1, Go.ok_bind, rangeLoop_eq _ h2 rf [] (by omega), foldCollect, List.nil_append,
      h6, h10, h14 rf f (by omega) (by omega), Go.pure_eq]

/-! ## The listing is determined -/

theorem isTime_unique {t t' : Time} {d : DiskTime} (h : IsTime t d) (h' : IsTime t' d) : t = t' := by
  obtain ⟨u, n⟩ := t
  obtain ⟨u', n'⟩ := t'
  obtain ⟨h1, h2, h3, h4⟩ := h
  obtain ⟨h1', h2', h3', h4'⟩ := h'
  simp only at h1 h2 h3 h4 h1' h2' h3' h4'
  have h5 := Int.dvd_sub h4 h4'
  have h6 : u = u' ∧ n = n' := by
    obtain ⟨k, hk⟩ := h5
    have hk' : u * 1000000000 + n - (u' * 1000000000 + n') = 18446744073709551616 * 1000000000 * k := by
      have e : ((2 ^ 64 * 1000000000 : Nat) : Int) = 18446744073709551616 * 1000000000 := by decide
      rw [e] at hk
      omega
    have : k = 0 := by omega
    subst this
    omega
  rw [h6.1, h6.2]

theorem inodeItem_layout_inj {f f' : InodeItemRec} {r r' : Bytes} (h : f.layout ++ r = f'.layout ++ r') :
    f.mode = f'.mode ∧ f.nlink = f'.nlink ∧ f.uid = f'.uid ∧ f.gid = f'.gid ∧ f.size = f'.size ∧
      ∀ t, IsTime t f.ctime → IsTime t f'.ctime := by
  obtain ⟨-, -, -, a3, -, a5, a6, a7, a8, -, -, -, -, ⟨tc, dc, ic⟩, -, -⟩ := C07_InodeItem_decodes f r []
  obtain ⟨-, -, -, b3, -, b5, b6, b7, b8, -, -, -, -, ⟨tc', dc', ic'⟩, -, -⟩ := C07_InodeItem_decodes f' r' []
  rw [h] at a3 a5 a6 a7 a8 dc
  rw [a3] at b3; rw [a5] at b5; rw [a6] at b6; rw [a7] at b7; rw [a8] at b8; rw [dc] at dc'
  simp only [Go.ok.injEq] at b3 b5 b6 b7 b8 dc'
  subst dc'
  exact ⟨b8, b5, b6, b7, b3, fun t ht => isTime_unique ht ic ▸ ic'⟩

theorem Bucket.columns_unique {b : Bucket} (hb : b.WF) {ft : Time → Bytes} {o : UInt64} {t : UInt8} {i : UInt64} {cols cols' : List Bytes}
    (h : b.columns ft o t i cols) (h' : b.columns ft o t i cols') : cols = cols' := by
  obtain ⟨l, hl, rfl⟩ := hb.exists_abs
  have hk : ∀ {f}, l.enc.inodeNow o i f → l.enc.hasKey o ⟨i, 1, 0⟩ := fun ⟨g, _, _, hn, _⟩ => ⟨g, hn.1⟩
  rcases h with ⟨h1, h2⟩ | ⟨f, tm, h1, h2, h3⟩ <;> rcases h' with ⟨k1, k2⟩ | ⟨f', tm', k1, k2, k3⟩
  · rw [h2, k2]
  · exact absurd (hk k1) h1
  · exact absurd (hk h1) k1
  · obtain ⟨g, x, r, g1, g2, g3⟩ := h1
    obtain ⟨g', x', r', g1', g2', g3'⟩ := k1
    have := newest_unique g1 g1'
    subst this
    have := hl.unique (enc_stores.mp g2) (enc_stores.mp g2')
    subst this
    obtain ⟨e1, e2, e3, e4, e5, e6⟩ := inodeItem_layout_inj (g3.unique g3')
    have e7 := isTime_unique (e6 tm h2) k2
    rw [h3, k3, e1, e2, e3, e4, e5, e7]

theorem entryBefore_asymm {a c : Bytes × DirItemRec} (h : entryBefore a c) (h' : entryBefore c a) : False := by
  rcases h with ⟨h1, h2⟩ | ⟨h1, h2⟩ <;> rcases h' with ⟨k1, k2⟩ | ⟨k1, k2⟩
  · exact h1 k2
  · exact h1 (k1.mp h2)
  · exact k1 (h1.mp k2)
  · have := bytesLt_trans h2 k2
    rw [bytesLt_irrefl] at this
    cases this

theorem entries_unique {es es' : List (Bytes × DirItemRec)} (hm : ∀ q, q ∈ es ↔ q ∈ es') (h : es.Pairwise entryBefore)
    (h' : es'.Pairwise entryBefore) : es = es' := by
  have nd : ∀ {l : List (Bytes × DirItemRec)}, l.Pairwise entryBefore → l.Nodup := fun hl =>
    hl.imp fun {a c} hac he => by
      subst he
      exact entryBefore_asymm hac hac
  refine List.Perm.eq_of_pairwise ?_ h h' ((List.perm_ext_iff_of_nodup (nd h) (nd h')).mpr hm)
  intro a c _ _ hac hca
  exact (entryBefore_asymm hac hca).elim

theorem forall2_unique {α β : Type} {R : α → β → Prop} (hR : ∀ a y y', R a y → R a y' → y = y') {l : List α} {ys ys' : List β}
    (h : List.Forall₂ R l ys) (h' : List.Forall₂ R l ys') : ys = ys' := by
  induction h generalizing ys' with
  | nil => cases h'; rfl
  | cons h1 _ ih =>
    cases h' with
    | cons k1 k2 => rw [hR _ _ _ h1 k1, ih k2]

/-- C88: there is only one listing of a directory: what `ls` prints does not depend on how
sorting treats its input, on the order in which leaves are found, or on anything else. -/
theorem C88_listing_unique (b : Bucket) (hb : b.WF) (ft : Time → Bytes) (si recursive : Bool) (o dir : UInt64) (text text' : Bytes)
    (h : b.Listing ft si recursive o dir text) (h' : b.Listing ft si recursive o dir text') : text = text' := by
  refine Bucket.Listing.rec (motive_1 := fun r o d t _ => ∀ t', b.Listing ft si r o d t' → t = t')
    (motive_2 := fun o qs t _ => ∀ t', b.SubListings ft si o qs t' → t = t') ?_ ?_ ?_ h text' h'
  · intro r o d es lines subs h1 h2 h3 _ ih t' ht'
    cases ht' with
    | @mk _ _ _ es' lines' subs' k1 k2 k3 k4 =>
      have he := entries_unique (fun q => (h1 q.1 q.2).trans (k1 q.1 q.2).symm) h2 k2
      subst he
      have hl : lines = lines' := forall2_unique (fun q y y' hy hy' => by
        obtain ⟨c, hc, rfl⟩ := hy
        obtain ⟨c', hc', rfl⟩ := hy'
        rw [Bucket.columns_unique hb hc hc']) h3 k3
      rw [hl, ih subs' k4]
  · intro o t' ht'
    cases ht'
    rfl
  · intro o n e r s t _ _ ih1 ih2 t' ht'
    cases ht' with
    | cons k1 k2 => rw [ih1 _ k1, ih2 _ k2]

/-! ## The command -/

theorem Bucket.LeadsTo.entryAt {b : Bucket} (hb : b.WF) {gc : UInt64} (hu : b.Undamaged gc)
    (htr : ∀ o d name e, b.entryNow o d name e → e.location.typ = 132 → e.location.objectID ≠ ~~~0) {o d : UInt64} {pre : List Bytes}
    {o' p : UInt64} (h : b.LeadsTo o d pre o' p) (ho : o ≠ ~~~0) {n : Bytes} {e : DirItemRec} (he : b.entryNow o' p n e) :
    ∃ x, b.EntryAt o d (pre ++ [n]) o' e x ∧ b.hashedEntry o' p n e x := by
  have hashed : ∀ {o d n e}, b.entryNow o d n e → ∃ x, b.hashedEntry o d n e x := by
    intro o d n e h
    obtain ⟨g, x, data, h1, h2, h3, h4, h5, h6⟩ := (hu.entry hb).mp h
    exact ⟨_, g, x, data, h1, h2, h3, rfl, h4, h6⟩
  induction h with
  | here =>
    obtain ⟨x, hx⟩ := hashed he
    exact ⟨x, .last ho hx, hx⟩
  | @step o d name e' rest o' i h1 h2 ih =>
    obtain ⟨x, hx⟩ := hashed h1
    obtain ⟨y, hy, hz⟩ := ih (by
      unfold target
      by_cases h : e'.location.typ = 132
      · rw [if_pos h]; exact htr _ _ _ _ h1 h
      · rw [if_neg h]; exact ho) he
    exact ⟨y, .step ho hx hy, hz⟩

theorem isEntry_of {d : DirItem} {n : Bytes} {e : DirItemRec} {p : Bytes} (hd : Slice.data d = p) {b : Bucket} {o dir : UInt64}
    (h : b.hashedEntry o dir n e p) : isEntry d (n, e) := by
  obtain ⟨g, x, rest, -, -, -, h1, h2, h3⟩ := h
  exact ⟨rest, hd.trans h1, h2, h3⟩

/-- What `ls` does with an argument that means an entry of the main tree. -/
theorem lsArg_entry {b : Bucket} (hb : b.WF) {m : Bytes} (hm : b.stores metadataVersionKey m) {gc : UInt64} (hu : b.Undamaged gc)
    (hM : b.Mountable) {arg : Bytes} {names : List Bytes} (ha : argMeans arg names) {n : Bytes} {e : DirItemRec} (h : b.EntryOf names n e)
    (rf : Nat) (ft : Time → Bytes) (o : LsOptions) :
    (e.typ = 2 → lsArg rf ft ⟨b, ~~~0⟩ o {} arg = .ok { todo := [(5, e.location.objectID)] }) ∧
    (e.typ ≠ 2 → ∃ line, b.entryLine ft o.inode 5 (n, e) line ∧ lsArg rf ft ⟨b, ~~~0⟩ o {} arg = .ok { out := line }) := by
  obtain ⟨pre, p, rfl, h1, h2, h3⟩ := h
  obtain ⟨x, hx, hxe⟩ := h1.entryAt hb hu hM.trees (by decide) h2
  obtain ⟨a, r, har⟩ : ∃ a r, pre ++ [n] = a :: r := by
    cases pre with
    | nil => exact ⟨_, _, rfl⟩
    | cons a r => exact ⟨_, _, rfl⟩
  rw [har] at hx
  obtain ⟨k, hk⟩ : ∃ k, goClean arg = List.replicate k 47 ++ joinPath (a :: r) := by
    rw [← har]
    rcases ha.2 with h | ⟨-, h⟩
    · exact ⟨1, h⟩
    · exact ⟨0, h⟩
  obtain ⟨d, hd1, hd2, hd⟩ := lsArg_path b hb m hm arg a r k (by rw [← har]; exact ha.1) hk 5 e x hx rf ft o {}
  refine ⟨fun ht => by rw [hd, if_pos ht]; rfl, fun ht => ?_⟩
  obtain ⟨line, l1, l2⟩ := listDirItem_entry hb hm (by decide) (hM.inodes 5 (by decide)) ft o.inode (isEntry_of hd1 hxe) h3
  refine ⟨line, l2, ?_⟩
  rw [hd, if_neg ht, l1]
  rfl

/-- C88 (what is proved), the command on an open index. An argument that leads to a
directory of the main tree prints its listing, one that leads to something else prints its
line; without arguments the top directory is listed. Missing: subvolumes and loops. -/
theorem C88_ls_partial (b : Bucket) (hb : b.WF) (m : Bytes) (hm : b.stores metadataVersionKey m) (gc : UInt64)
    (hu : b.Undamaged gc) (hM : b.Mountable) (srt : Sorter) (hsrt : SortOK srt) (ft : Time → Bytes) (o : LsOptions) :
    (b.PlainTree o.recursive 5 256 → ∃ N text, b.Listing ft o.inode o.recursive 5 256 text ∧ ∀ rf fuel, N ≤ rf → N ≤ fuel →
      doListFiles rf fuel srt ft ⟨b, ~~~0⟩ o [] = .ok (text, []) ∧
      ∀ arg, argMeans arg [] → doListFiles rf fuel srt ft ⟨b, ~~~0⟩ o [arg] = .ok (text, [])) ∧
    ∀ arg names n e, argMeans arg names → b.EntryOf names n e →
      (e.typ = 2 → b.PlainTree o.recursive 5 e.location.objectID → ∃ N text, b.Listing ft o.inode o.recursive 5 e.location.objectID text ∧
        ∀ rf fuel, N ≤ rf → N ≤ fuel → doListFiles rf fuel srt ft ⟨b, ~~~0⟩ o [arg] = .ok (text, [])) ∧
      (e.typ ≠ 2 → ∃ line, b.entryLine ft o.inode 5 (n, e) line ∧
        ∀ rf fuel, doListFiles rf fuel srt ft ⟨b, ~~~0⟩ o [arg] = .ok (line, [])) := by
  refine ⟨fun hp => ?_, fun arg names n e ha he => ⟨fun ht hp => ?_, fun ht => ?_⟩⟩
  · obtain ⟨N, text, h1, h2⟩ := C88_listing_partial b hb m hm gc hu 5 (by decide) (hM.inodes 5 (by decide)) srt hsrt ft o.inode o.recursive 256 hp
    refine ⟨N, text, h1, fun rf fuel hrf hfu => ⟨(C74_ls_root _ [] (Or.inl rfl) rf fuel srt ft o text).mpr (h2 rf fuel hrf hfu),
      fun arg ha => (C74_ls_root _ [arg] (Or.inr ⟨arg, rfl, ?_⟩) rf fuel srt ft o text).mpr (h2 rf fuel hrf hfu)⟩⟩
    rcases ha.2 with h | ⟨h, -⟩
    · exact h
    · exact absurd rfl h
  · obtain ⟨N, text, h1, h2⟩ := C88_listing_partial b hb m hm gc hu 5 (by decide) (hM.inodes 5 (by decide)) srt hsrt ft o.inode o.recursive _ hp
    refine ⟨N, text, h1, fun rf fuel hrf hfu => ?_⟩
    simp only [doListFiles, List.isEmpty_cons, Bool.false_eq_true, if_false, lsArgsLoop, (lsArg_entry hb hm hu hM ha he rf ft o).1 ht, Go.ok_bind,
      lsTodoLoop, Go.pure_eq, h2 rf fuel hrf hfu, List.nil_append, List.append_nil]
  · obtain ⟨line, h1, -⟩ := (lsArg_entry hb hm hu hM ha he 0 ft o).2 ht
    refine ⟨line, h1, fun rf fuel => ?_⟩
    obtain ⟨line', k1, k2⟩ := (lsArg_entry hb hm hu hM ha he rf ft o).2 ht
    have : line' = line := by
      obtain ⟨c, hc, rfl⟩ := h1
      obtain ⟨c', hc', rfl⟩ := k1
      rw [Bucket.columns_unique hb hc hc']
    subst this
    simp only [doListFiles, List.isEmpty_cons, Bool.false_eq_true, if_false, lsArgsLoop, k2, Go.ok_bind,
      lsTodoLoop, Go.pure_eq, List.append_nil]

namespace Bucket.SameItems

variable {a b : Bucket}

theorem columns (h : a.SameItems b) {ft : Time → Bytes} {o : UInt64} {t : UInt8} {i : UInt64} {cols : List Bytes}
    (hc : a.columns ft o t i cols) : b.columns ft o t i cols := by
  rcases hc with ⟨h1, h2⟩ | ⟨f, tm, h1, h2, h3⟩
  · exact Or.inl ⟨fun hk => h1 (h.hasKey.mpr hk), h2⟩
  · exact Or.inr ⟨f, tm, h.inodeNow h1, h2, h3⟩

theorem entryLine (h : a.SameItems b) {ft : Time → Bytes} {si : Bool} {o : UInt64} {q : Bytes × DirItemRec} {line : Bytes}
    (hl : a.entryLine ft si o q line) : b.entryLine ft si o q line := by
  obtain ⟨cols, h1, h2⟩ := hl
  exact ⟨cols, h.columns h1, h2⟩

theorem listing (h : a.SameItems b) {ft : Time → Bytes} {si r : Bool} {o d : UInt64} {t : Bytes} (hl : a.Listing ft si r o d t) :
    b.Listing ft si r o d t := by
  refine Bucket.Listing.rec (motive_1 := fun r o d t _ => b.Listing ft si r o d t)
    (motive_2 := fun o qs t _ => b.SubListings ft si o qs t) ?_ ?_ ?_ hl
  · intro r o d es lines subs h1 h2 h3 _ ih
    exact .mk (fun n e => (h1 n e).trans ⟨h.entryNow, h.symm.entryNow⟩) h2 (h3.imp fun _ _ hl => h.entryLine hl) ih
  · exact .nil
  · intro o n e r s t _ _ ih1 ih2
    exact .cons ih1 ih2

theorem plainTree (h : a.SameItems b) {r : Bool} {o d : UInt64} (hp : a.PlainTree r o d) : b.PlainTree r o d := by
  obtain ⟨rank, hr⟩ := hp
  exact ⟨rank, fun names d hd hn n e he => hr names d (h.symm.leadsTo hd) hn n e (h.symm.entryNow he)⟩

theorem entryOf (h : a.SameItems b) {names : List Bytes} {n : Bytes} {e : DirItemRec} (he : a.EntryOf names n e) : b.EntryOf names n e := by
  obtain ⟨pre, p, h1, h2, h3, h4⟩ := he
  exact ⟨pre, p, h1, h.leadsTo h2, h.entryNow h3, h4⟩

end Bucket.SameItems

/-- C88: recon, then ls. The image holds an undamaged file system (as in C84). Then listing with
the index file made by scanning it prints what the image gives: the listing of the top
directory, or of the directory of the main tree that the argument leads to, or the line
of the entry it leads to. -/
theorem C88_ls_image_partial (dev : Bytes) (bs : UInt64) (id : UUID) (ha : ReconArgs dev bs id)
    (hw : wellFormedDevice dev bs id) (hg : imageAgrees dev bs.toNat id) (b : Bucket) (hb : b.IndexOf dev bs.toNat id)
    (gc : UInt64) (hu : b.Undamaged gc) (hM : b.Mountable) (srt : Sorter) (hsrt : SortOK srt) (ft : Time → Bytes) (o : LsOptions) :
    ∃ f, (∀ fuel, dev.length < fuel → recon fuel dev bs id .absent = (f, .done)) ∧
    (b.PlainTree o.recursive 5 256 → ∃ N text, b.Listing ft o.inode o.recursive 5 256 text ∧ ∀ rf fuel, N ≤ rf → N ≤ fuel →
      lsCommand rf fuel srt ft (some f) o [] () = .ok (text, []) () ∧
      ∀ arg, argMeans arg [] → lsCommand rf fuel srt ft (some f) o [arg] () = .ok (text, []) ()) ∧
    ∀ arg names n e, argMeans arg names → b.EntryOf names n e →
      (e.typ = 2 → b.PlainTree o.recursive 5 e.location.objectID → ∃ N text, b.Listing ft o.inode o.recursive 5 e.location.objectID text ∧
        ∀ rf fuel, N ≤ rf → N ≤ fuel → lsCommand rf fuel srt ft (some f) o [arg] () = .ok (text, []) ()) ∧
      (e.typ ≠ 2 → ∃ line, b.entryLine ft o.inode 5 (n, e) line ∧
        ∀ rf fuel, lsCommand rf fuel srt ft (some f) o [arg] () = .ok (line, []) ()) := by
  obtain ⟨r, hr', h1, ix, h2, h3⟩ := recon_indexOf ha hw hg hb.spared
  have hs := hb.same hr'
  obtain ⟨m, hm⟩ := hr'.metadata
  obtain ⟨k1, k2⟩ := C88_ls_partial r hr'.wf m hm gc (hs.undamaged hu) (hs.mountable hM) srt hsrt ft o
  have hcmd : ∀ rf fuel args x, doListFiles rf fuel srt ft ⟨r, ~~~0⟩ o args = .ok x →
      lsCommand rf fuel srt ft (some (.db (some r))) o args () = .ok x () := by
    intro rf fuel args x hx
    simp only [lsCommand, openView, h2, h3, Cmd.bind_def, Cmd.lift_ok, hx]
  refine ⟨_, fun fuel hf => h1 .absent (Or.inl rfl) fuel hf, fun hp => ?_, fun arg names n e harg he => ⟨fun ht hp => ?_, fun ht => ?_⟩⟩
  · obtain ⟨N, text, g1, g2⟩ := k1 (hs.plainTree hp)
    exact ⟨N, text, hs.symm.listing g1, fun rf fuel hrf hfu => ⟨hcmd _ _ _ _ (g2 rf fuel hrf hfu).1,
      fun arg harg => hcmd _ _ _ _ ((g2 rf fuel hrf hfu).2 arg harg)⟩⟩
  · obtain ⟨N, text, g1, g2⟩ := (k2 arg names n e harg (hs.entryOf he)).1 ht (hs.plainTree hp)
    exact ⟨N, text, hs.symm.listing g1, fun rf fuel hrf hfu => hcmd _ _ _ _ (g2 rf fuel hrf hfu)⟩
  · obtain ⟨line, g1, g2⟩ := (k2 arg names n e harg (hs.entryOf he)).2 ht
    exact ⟨line, hs.symm.entryLine g1, fun rf fuel => hcmd _ _ _ _ (g2 rf fuel)⟩

end Btrfscue
