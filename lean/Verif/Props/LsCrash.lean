import Verif.Spec.LsCrash
import Verif.Props.MountCrash
import Verif.Props.Ls
import Verif.Props.LsPath
/-!
# C117: which damage a listing survives
-/

namespace Btrfscue

instance (ft : Time → Bytes) (d : InodeItem) : NH (inodeColumns ft (some d)) := by unfold inodeColumns; infer_instance

theorem columns_ok {ft : Time → Bytes} {d : Bytes} (h : 136 ≤ d.length) : ∃ c, inodeColumns ft (some ⟨d, []⟩) = .ok c := by
  obtain ⟨-, -, b1, -, b2, b3, b4, b5, b6, -, -, b7, b8, b9, -⟩ := C08_InodeItem_bounds d
  obtain ⟨_, c1⟩ := Go.isOk_iff.mp (b1.mpr (by omega))
  obtain ⟨_, c2⟩ := Go.isOk_iff.mp (b2.mpr (by omega))
  obtain ⟨_, c3⟩ := Go.isOk_iff.mp (b3.mpr (by omega))
  obtain ⟨_, c4⟩ := Go.isOk_iff.mp (b4.mpr (by omega))
  obtain ⟨_, c5⟩ := Go.isOk_iff.mp (b5.mpr (by omega))
  obtain ⟨_, c8⟩ := Go.isOk_iff.mp (b8.mpr (by omega))
  simp only [inodeColumns, c1, c2, c3, c4, c5, c8, Go.ok_bind]
  exact ⟨_, rfl⟩

theorem columns_short {ft : Time → Bytes} {d : Bytes} (h : d.length < 136) : inodeColumns ft (some ⟨d, []⟩) = .panic := by
  refine notOk_panic fun hok => ?_
  obtain ⟨a, ha⟩ := Go.isOk_iff.mp hok
  simp only [inodeColumns, Go.bind_eq_ok] at ha
  obtain ⟨_, _, _, _, _, _, _, _, _, _, ct, hct, _⟩ := ha
  have := (C08_InodeItem_bounds d).2.2.2.2.2.2.2.2.2.2.2.2.1.mp (Go.isOk_iff.mpr ⟨ct, hct⟩)
  omega

section
variable {b : Bucket} {o : UInt64} {m : Bytes}

theorem line_crash (hb : b.WF) (hm : b.stores metadataVersionKey m) (ho : o ≠ ~~~0)
    (hex : ∀ v x, b.stores v x → v.owner = o → ∃ d, holdsExactly x d) (ft : Time → Bytes) (si : Bool)
    {d : Bytes} {e : DirItemRec} {n : Bytes} (hn : namedBy d e n) :
    (listDirItem ft ⟨b, ~~~0⟩ o ⟨d, []⟩ si).CrashIff (b.lsTorn o e.location.objectID) := by
  obtain ⟨f1, f2, -, -⟩ := hn.fields (t := [])
  unfold listDirItem Ix.findInodeItem
  simp only [f1, f2, Go.ok_bind, hn.name]
  rcases findData_now hb hm ho ⟨e.location.objectID, 1, 0⟩ (fun g x h => hex _ x h rfl) with ⟨d', h1, h2, h3⟩ | ⟨h1, h2⟩
  · rw [show (Ix.mk b (~~~0)).findData o (KF InodeItemKey e.location.objectID) = _ from h3]
    simp only [Go.ok_bind]
    rcases Nat.lt_or_ge d'.length 136 with hl | hl
    · rw [columns_short hl]
      exact Or.inl ⟨⟨d', h1, hl⟩, rfl⟩
    · obtain ⟨a, ha⟩ := columns_ok (ft := ft) hl
      rw [ha]
      refine Or.inr ⟨fun ⟨d'', k1, k2⟩ => ?_, _, rfl⟩
      rw [h2 d'' k1] at k2
      omega
  · rw [show (Ix.mk b (~~~0)).findData o (KF InodeItemKey e.location.objectID) = _ from h2]
    exact Or.inr ⟨fun ⟨d'', k1, _⟩ => h1 d'' k1, _, rfl⟩

theorem lsKeys_crash : ∀ ds : List Bytes, (lsKeys (ds.map fun d => ⟨d, []⟩)).CrashIff (∃ d ∈ ds, ¬ named d) := by
  intro ds
  induction ds with
  | nil => exact Or.inr ⟨by simp, _, rfl⟩
  | cons d ds ih =>
    simp only [List.map_cons, lsKeys]
    by_cases hn : named d
    · obtain ⟨e, n, hen⟩ := hn
      simp only [lsKey, DirItem.isDir, (hen.fields (t := [])).2.1, hen.name, Go.ok_bind, Go.pure_eq]
      refine (ih.then fun a _ => ⟨_, rfl⟩).of ⟨fun ⟨d', h1, h2⟩ => ⟨d', List.mem_cons_of_mem _ h1, h2⟩, ?_⟩
      rintro ⟨d', h1, h2⟩
      rcases List.mem_cons.mp h1 with rfl | h1
      · exact absurd ⟨e, n, hen⟩ h2
      · exact ⟨d', h1, h2⟩
    · refine Or.inl ⟨⟨d, List.mem_cons_self, hn⟩, ?_⟩
      simp only [lsKey, not_named hn]
      have : NH (DirItem.isDir ⟨d, []⟩) := by unfold DirItem.isDir DirItem.typ; infer_instance
      cases h : DirItem.isDir ⟨d, []⟩ with
      | ok _ => rfl
      | panic => rfl
      | hang => exact absurd h this.out

/-- The entry is for a directory. -/
def isDirEntry (d : Bytes) : Prop := ∃ e n, namedBy d e n ∧ e.typ = 2

theorem namedBy.isDir {d : Bytes} {e : DirItemRec} {n t : Bytes} (h : namedBy d e n) : DirItem.isDir ⟨d, t⟩ = .ok (e.typ == 2) := by
  simp only [DirItem.isDir, (h.fields (t := t)).2.1, Go.ok_bind, Go.pure_eq]

theorem listLoop_crash (hb : b.WF) (hm : b.stores metadataVersionKey m) (ho : o ≠ ~~~0)
    (hex : ∀ v x, b.stores v x → v.owner = o → ∃ d, holdsExactly x d) (ft : Time → Bytes) (r si : Bool) :
    ∀ ds : List Bytes, (∀ d ∈ ds, named d) →
      ((∃ d ∈ ds, ∃ e n, namedBy d e n ∧ b.lsTorn o e.location.objectID) ∧
        listLoop ft ⟨b, ~~~0⟩ o r si (ds.map fun d => ⟨d, []⟩) = .panic) ∨
      ((¬ ∃ d ∈ ds, ∃ e n, namedBy d e n ∧ b.lsTorn o e.location.objectID) ∧
        ∃ out, ∃ todo : List Bytes, listLoop ft ⟨b, ~~~0⟩ o r si (ds.map fun d => ⟨d, []⟩) = .ok (out, todo.map fun d => ⟨d, []⟩) ∧
          ∀ d : Bytes, d ∈ todo ↔ r = true ∧ d ∈ ds ∧ isDirEntry d) := by
  intro ds
  induction ds with
  | nil => intro _; exact Or.inr ⟨by simp, [], [], rfl, by simp⟩
  | cons d ds ih =>
    intro hall
    obtain ⟨e, n, hen⟩ := hall d List.mem_cons_self
    simp only [List.map_cons, listLoop]
    rcases line_crash hb hm ho hex ft si hen with ⟨h1, h2⟩ | ⟨h1, line, h2⟩
    · rw [h2]
      exact Or.inl ⟨⟨d, List.mem_cons_self, e, n, hen, h1⟩, rfl⟩
    · have hno : ¬ ∃ e n, namedBy d e n ∧ b.lsTorn o e.location.objectID := by
        rintro ⟨e', n', k1, k2⟩
        rw [← (hen.unique k1).2.1] at k2
        exact h1 k2
      have hdir : (if r then DirItem.isDir ⟨d, []⟩ else .ok false) = .ok (r && (e.typ == 2)) := by
        cases r
        · rfl
        · rw [if_pos rfl, hen.isDir]; rfl
      rw [h2, hdir]
      simp only [Go.ok_bind]
      rcases ih (fun d' hd' => hall d' (List.mem_cons_of_mem _ hd')) with ⟨⟨d', k1, k2⟩, k3⟩ | ⟨k1, out, todo, k2, k3⟩
      · rw [k3]
        exact Or.inl ⟨⟨d', List.mem_cons_of_mem _ k1, k2⟩, rfl⟩
      · rw [k2]
        have hisd : isDirEntry d ↔ e.typ = 2 := by
          constructor
          · rintro ⟨e', n', k1, k2⟩
            have h1 := (hen.fields (t := [])).2.1
            rw [(k1.fields (t := [])).2.1] at h1
            rw [← Go.ok.inj h1]; exact k2
          · exact fun h => ⟨e, n, hen, h⟩
        refine Or.inr ⟨?_, line ++ out, if (r && (e.typ == 2)) then d :: todo else todo, ?_, ?_⟩
        · rintro ⟨d', h1', h2'⟩
          rcases List.mem_cons.mp h1' with rfl | h1'
          · exact hno h2'
          · exact k1 ⟨d', h1', h2'⟩
        · cases (r && (e.typ == 2)) <;> rfl
        · intro d'
          cases hr : (r && (e.typ == 2)) with
          | true =>
            rw [if_pos rfl, List.mem_cons, List.mem_cons, k3]
            simp only [Bool.and_eq_true, beq_iff_eq] at hr
            constructor
            · rintro (rfl | h)
              · exact ⟨hr.1, Or.inl rfl, hisd.mpr hr.2⟩
              · exact ⟨h.1, Or.inr h.2.1, h.2.2⟩
            · rintro ⟨a1, rfl | a2, a3⟩
              · exact Or.inl rfl
              · exact Or.inr ⟨a1, a2, a3⟩
          | false =>
            rw [if_neg (by simp), k3, List.mem_cons]
            constructor
            · exact fun h => ⟨h.1, Or.inr h.2.1, h.2.2⟩
            · rintro ⟨a1, rfl | a2, a3⟩
              · rw [a1, Bool.true_and, beq_eq_false_iff_ne] at hr
                exact absurd (hisd.mp a3) hr
              · exact ⟨a1, a2, a3⟩

theorem subLoop_crash {F : UInt64 → Go Bytes} {P : UInt64 → Prop} : ∀ ds : List Bytes, (∀ d ∈ ds, named d) →
    (∀ d ∈ ds, ∀ e n, namedBy d e n → (F e.location.objectID).CrashIff (P e.location.objectID)) →
    (subLoop F (ds.map fun d => ⟨d, []⟩)).CrashIff (∃ d ∈ ds, ∃ e n, namedBy d e n ∧ P e.location.objectID) := by
  intro ds
  induction ds with
  | nil => intro _ _; exact Or.inr ⟨by simp, _, rfl⟩
  | cons d ds ih =>
    intro hall hF
    obtain ⟨e, n, hen⟩ := hall d List.mem_cons_self
    have hF' := hF d List.mem_cons_self e n hen
    have ih' := ih (fun d' hd' => hall d' (List.mem_cons_of_mem _ hd')) fun d' hd' => hF d' (List.mem_cons_of_mem _ hd')
    simp only [List.map_cons, subLoop, hen.name, (hen.fields (t := [])).1, Go.ok_bind]
    refine (hF'.bind fun sub _ => ih'.then fun out _ => ⟨_, rfl⟩).of ⟨?_, ?_⟩
    · rintro (h | ⟨d', h1, h2⟩)
      · exact ⟨d, List.mem_cons_self, e, n, hen, h⟩
      · exact ⟨d', List.mem_cons_of_mem _ h1, h2⟩
    · rintro ⟨d', h1, e', n', h2, h3⟩
      rcases List.mem_cons.mp h1 with rfl | h1
      · rw [← (hen.unique h2).2.1] at h3
        exact Or.inl h3
      · exact Or.inr ⟨d', h1, e', n', h2, h3⟩

theorem subLoop_panics {F : UInt64 → Go Bytes} : ∀ ds : List Bytes, (∀ d ∈ ds, named d) →
    subLoop F (ds.map fun d => ⟨d, []⟩) = .panic → ∃ d ∈ ds, ∃ e n, namedBy d e n ∧ F e.location.objectID = .panic := by
  intro ds
  induction ds with
  | nil => intro _ h; cases h
  | cons d ds ih =>
    intro hall h
    obtain ⟨e, n, hen⟩ := hall d List.mem_cons_self
    simp only [List.map_cons, subLoop, hen.name, (hen.fields (t := [])).1, Go.ok_bind] at h
    cases hF : F e.location.objectID with
    | panic => exact ⟨d, List.mem_cons_self, e, n, hen, hF⟩
    | hang => rw [hF] at h; cases h
    | ok sub =>
      rw [hF] at h
      simp only [Go.ok_bind] at h
      cases hs : subLoop F (ds.map fun d => ⟨d, []⟩) with
      | ok _ => rw [hs] at h; cases h
      | hang => rw [hs] at h; cases h
      | panic =>
        obtain ⟨d', h1, h2⟩ := ih (fun d' hd' => hall d' (List.mem_cons_of_mem _ hd')) hs
        exact ⟨d', List.mem_cons_of_mem _ h1, h2⟩

/-- One directory. -/
theorem listDirectory_crash (hb : b.WF) (hm : b.stores metadataVersionKey m) {dir : UInt64} (hr : b.RangeOK o (KL2 84 dir))
    (hex : ∀ v x, b.stores v x → v.owner = o → ∃ d, holdsExactly x d) :
    ∃ (ds : List Bytes), (∀ d, d ∈ ds ↔ ∃ off, b.seenData o 84 dir off d) ∧ ds.length ≤ b.length ∧
      ∀ rf, ds.length + 1 ≤ rf → ∀ srt, SortOK srt → ∀ ft si fuel r,
      (b.lsBad o dir ∧ listDirectory rf srt ft ⟨b, ~~~0⟩ o si (fuel + 1) dir r = .panic) ∨
      (¬ b.lsBad o dir ∧ ∃ out, ∃ todo : List Bytes, (∀ d, d ∈ todo ↔ r = true ∧ d ∈ ds ∧ isDirEntry d) ∧
        listDirectory rf srt ft ⟨b, ~~~0⟩ o si (fuel + 1) dir r =
          (subLoop (fun d => listDirectory rf srt ft ⟨b, ~~~0⟩ o si fuel d true) (todo.map fun d => ⟨d, []⟩) >>= fun sub => .ok (out ++ sub))) := by
  obtain ⟨rd, its, h1, hy, hpw, -, hs⟩ := seen_run hb hm hr hex
  have hds : ∀ d, d ∈ its.map (fun e => e.2.2) ↔ ∃ off, b.seenData o 84 dir off d := by
    intro d
    rw [List.mem_map]
    constructor
    · rintro ⟨⟨off, r, d'⟩, k1, rfl⟩
      exact ⟨off, (hs _ _).mp ⟨r, k1⟩⟩
    · rintro ⟨off, k⟩
      obtain ⟨r, hr'⟩ := (hs off d).mpr k
      exact ⟨_, hr', rfl⟩
  have hlen : its.length ≤ b.length := by
    obtain ⟨l, -, rfl⟩ := hb.exists_abs
    have hn : (its.map (·.1)).Nodup := by
      rw [List.nodup_iff_pairwise_ne, List.pairwise_map]
      exact hpw.imp fun h he => by rw [he, UInt64.lt_iff_toNat_lt] at h; exact absurd h (Nat.lt_irrefl _)
    have hsub : its.map (·.1) ⊆ l.map fun e => e.1.key.offset := fun x hx => by
      obtain ⟨⟨off, r, d⟩, he, rfl⟩ := List.mem_map.mp hx
      obtain ⟨g, y, -, hy', -⟩ := (hs off d).mp ⟨r, he⟩
      exact List.mem_map.mpr ⟨_, enc_stores.mp hy', rfl⟩
    have := (List.subperm_of_subset hn hsub).length_le
    rw [List.length_map, List.length_map] at this
    simpa [AStore.enc] using this
  refine ⟨its.map fun e => e.2.2, hds, by rw [List.length_map]; exact hlen, fun rf hrf srt hsrt ft si fuel r => ?_⟩
  rw [List.length_map] at hrf
  have h1' : (Ix.mk b (~~~0)).dirItems o dir = .ok rd := h1
  simp only [listDirectory]
  rw [h1']
  simp only [Go.ok_bind]
  rw [rangeLoop_eq _ hy rf _ (by rw [List.length_map]; omega), foldCollect]
  simp only [Go.ok_bind, List.nil_append]
  have hmap : ((its.map fun e => (e.2.1, (⟨e.2.2, []⟩ : Slice))).map (·.2)) = (its.map fun e => e.2.2).map fun d => ⟨d, []⟩ := by
    rw [List.map_map, List.map_map]; rfl
  rw [hmap]
  generalize its.map (fun e => e.2.2) = ds at hds ⊢
  rcases lsKeys_crash ds with ⟨⟨d, k1, k2⟩, k3⟩ | ⟨k1, ks, k2⟩
  · obtain ⟨off, k4⟩ := (hds d).mp k1
    refine Or.inl ⟨⟨off, d, k4, Or.inl k2⟩, ?_⟩
    unfold lsSort
    rw [k3]
    rfl
  · have hnamed : ∀ d ∈ ds, named d := fun d hd => by
      by_contra hn
      exact k1 ⟨d, hd, hn⟩
    have hperm : ∃ es : List Bytes, es.Perm ds ∧ lsSort srt (ds.map fun d => ⟨d, []⟩) = .ok (es.map fun d => ⟨d, []⟩) := by
      have hks : ks.map (·.1) = ds.map fun d => ⟨d, []⟩ := by
        clear hds hnamed k1
        induction ds generalizing ks with
        | nil => cases k2; rfl
        | cons d ds ih =>
          simp only [List.map_cons, lsKeys, Go.bind_eq_ok] at k2
          obtain ⟨k, -, ks', h, h'⟩ := k2
          cases h'
          simp only [List.map_cons]
          rw [ih ks' h]
      have hp : ((srt ks).map (·.1)).Perm (ds.map fun d => (⟨d, []⟩ : DirItem)) := hks ▸ (hsrt ks).1.map _
      refine ⟨((srt ks).map (·.1)).map Slice.data, ?_, ?_⟩
      · have := hp.map Slice.data
        rw [List.map_map] at this
        simpa [Function.comp_def] using this
      · unfold lsSort
        rw [k2]
        simp only [Go.ok_bind, Go.pure_eq]
        congr 1
        rw [List.map_map]
        have : ∀ x ∈ (srt ks).map (·.1), (((fun d => (⟨d, []⟩ : Slice)) ∘ Slice.data) x : DirItem) = x := by
          intro x hx
          obtain ⟨d, -, rfl⟩ := List.mem_map.mp (hp.mem_iff.mp hx)
          rfl
        exact (List.map_congr_left this).trans (List.map_id _) |>.symm
    obtain ⟨es, hpe, hsort⟩ := hperm
    rw [hsort]
    simp only [Go.ok_bind]
    rcases listLoop_crash hb hm hr.ordinary hex ft r si es (fun d hd => hnamed d (hpe.mem_iff.mp hd)) with
      ⟨⟨d, a1, e, n, a2, a3⟩, a4⟩ | ⟨a1, out, todo, a2, a3⟩
    · obtain ⟨off, k4⟩ := (hds d).mp (hpe.mem_iff.mp a1)
      rw [a4]
      exact Or.inl ⟨⟨off, d, k4, Or.inr ⟨e, n, a2, a3⟩⟩, rfl⟩
    · rw [a2]
      refine Or.inr ⟨?_, out, todo, fun d => by rw [a3, hpe.mem_iff], rfl⟩
      rintro ⟨off, d, c1, c2 | ⟨e, n, c2, c3⟩⟩
      · exact c2 (hnamed d ((hds d).mpr ⟨off, c1⟩))
      · exact a1 ⟨d, hpe.mem_iff.mpr ((hds d).mpr ⟨off, c1⟩), e, n, c2, c3⟩

end

/-- C117, exactly, for a listing that is not recursive: it crashes if and only if iterating over the
entries of the directory gets to one that ends before its name does, or that leads to an inode item
that is cut off; whatever the items contain otherwise, it returns. -/
theorem C117_directory_crash_iff (b : Bucket) (hb : b.WF) (m : Bytes) (hm : b.stores metadataVersionKey m) (o dir : UInt64)
    (hr : b.RangeOK o (KL2 84 dir)) (hex : ∀ v x, b.stores v x → v.owner = o → ∃ d, holdsExactly x d) :
    ∃ N, ∀ rf, N ≤ rf → ∀ srt, SortOK srt → ∀ ft si fuel, 0 < fuel →
      (listDirectory rf srt ft ⟨b, ~~~0⟩ o si fuel dir false = .panic ↔ b.lsBad o dir) ∧
      listDirectory rf srt ft ⟨b, ~~~0⟩ o si fuel dir false ≠ .hang := by
  obtain ⟨ds, -, -, h⟩ := listDirectory_crash hb hm hr hex
  refine ⟨ds.length + 1, fun rf hrf srt hsrt ft si fuel hf => ?_⟩
  obtain ⟨f, rfl⟩ : ∃ f, fuel = f + 1 := ⟨fuel - 1, by omega⟩
  rcases h rf hrf srt hsrt ft si f false with ⟨h1, h2⟩ | ⟨h1, out, todo, h2, h3⟩
  · rw [h2]; exact ⟨⟨fun _ => h1, fun _ => rfl⟩, by simp⟩
  · obtain rfl : todo = [] := List.eq_nil_iff_forall_not_mem.mpr fun d hd => by simpa using (h2 d).mp hd
    rw [h3]
    exact ⟨⟨fun h => (by cases h), fun h => absurd h h1⟩, by simp [subLoop]⟩

/-- C117, exactly, for a recursive listing: where one cannot go down for ever, it crashes if and only
if there is such an entry somewhere below the directory, and returns otherwise. -/
theorem C117_recursive_crash_iff (b : Bucket) (hb : b.WF) (m : Bytes) (hm : b.stores metadataVersionKey m) (o dir : UInt64)
    (hr : ∀ d, b.RangeOK o (KL2 84 d)) (hex : ∀ v x, b.stores v x → v.owner = o → ∃ d, holdsExactly x d)
    (hacc : Acc (b.lsChild o) dir) :
    ∃ N, ∀ rf, N ≤ rf → ∀ fuel, N ≤ fuel → ∀ srt, SortOK srt → ∀ ft si,
      (listDirectory rf srt ft ⟨b, ~~~0⟩ o si fuel dir true = .panic ↔ ∃ d', b.lsBelow o d' dir ∧ b.lsBad o d') ∧
      listDirectory rf srt ft ⟨b, ~~~0⟩ o si fuel dir true ≠ .hang := by
  suffices h : ∃ N, ∀ rf, N ≤ rf → ∀ fuel, N ≤ fuel → ∀ srt, SortOK srt → ∀ ft si,
      (listDirectory rf srt ft ⟨b, ~~~0⟩ o si fuel dir true).CrashIff (∃ d', b.lsBelow o d' dir ∧ b.lsBad o d') by
    obtain ⟨N, h⟩ := h
    refine ⟨N, fun rf hrf fuel hf srt hsrt ft si => ?_⟩
    rcases h rf hrf fuel hf srt hsrt ft si with ⟨h1, h2⟩ | ⟨h1, a, h2⟩
    · rw [h2]; exact ⟨⟨fun _ => h1, fun _ => rfl⟩, by simp⟩
    · rw [h2]; exact ⟨⟨fun h => (by cases h), fun h => absurd h h1⟩, by simp⟩
  induction hacc with
  | intro dir _ ih =>
    obtain ⟨ds, hds, -, hstep⟩ := listDirectory_crash hb hm (hr dir) hex
    -- a bound for all the directories in it
    have hbound : ∀ l : List Bytes, (∀ d ∈ l, d ∈ ds) → ∃ N, ∀ d ∈ l, ∀ e n, namedBy d e n → e.typ = 2 → ∀ rf, N ≤ rf → ∀ fuel, N ≤ fuel →
        ∀ srt, SortOK srt → ∀ ft si, (listDirectory rf srt ft ⟨b, ~~~0⟩ o si fuel e.location.objectID true).CrashIff
          (∃ d', b.lsBelow o d' e.location.objectID ∧ b.lsBad o d') := by
      intro l
      induction l with
      | nil => intro _; exact ⟨0, by simp⟩
      | cons d l ihl =>
        intro hl
        obtain ⟨N1, h1⟩ := ihl fun d' hd' => hl d' (List.mem_cons_of_mem _ hd')
        by_cases hd : isDirEntry d
        · obtain ⟨e, n, hen, ht⟩ := hd
          obtain ⟨off, hoff⟩ := (hds d).mp (hl d List.mem_cons_self)
          obtain ⟨N2, h2⟩ := ih e.location.objectID ⟨off, d, e, n, hoff, hen, ht, rfl⟩
          refine ⟨max N1 N2, fun d' hd' e' n' hen' ht' rf hrf fuel hfuel => ?_⟩
          rcases List.mem_cons.mp hd' with rfl | hd'
          · rw [← (hen.unique hen').2.1]
            exact h2 rf (by omega) fuel (by omega)
          · exact h1 d' hd' e' n' hen' ht' rf (by omega) fuel (by omega)
        · refine ⟨N1, fun d' hd' e' n' hen' ht' => ?_⟩
          rcases List.mem_cons.mp hd' with rfl | hd'
          · exact absurd ⟨e', n', hen', ht'⟩ hd
          · exact h1 d' hd' e' n' hen' ht'
    obtain ⟨N, hN⟩ := hbound ds fun _ h => h
    refine ⟨max (N + 1) (ds.length + 1), fun rf hrf fuel hfuel srt hsrt ft si => ?_⟩
    obtain ⟨f, rfl⟩ : ∃ f, fuel = f + 1 := ⟨fuel - 1, by omega⟩
    rcases hstep rf (by omega) srt hsrt ft si f true with ⟨h1, h2⟩ | ⟨h1, out, todo, h2, h3⟩
    · exact Or.inl ⟨⟨dir, .refl, h1⟩, h2⟩
    · rw [h3]
      have htodo : ∀ d ∈ todo, d ∈ ds ∧ isDirEntry d := fun d hd => ((h2 d).mp hd).2
      refine Go.CrashIff.of ((subLoop_crash (P := fun d => ∃ d', b.lsBelow o d' d ∧ b.lsBad o d') todo ?_ ?_).then fun _ _ => ⟨_, rfl⟩) ⟨?_, ?_⟩
      · intro d hd
        obtain ⟨-, e, n, k, -⟩ := htodo d hd
        exact ⟨e, n, k⟩
      · intro d hd e n hen
        obtain ⟨k1, e', n', k2, k3⟩ := htodo d hd
        have ht : e.typ = 2 := by
          have h1 := (hen.fields (t := [])).2.1
          rw [(k2.fields (t := [])).2.1] at h1
          rw [← Go.ok.inj h1]; exact k3
        exact hN d k1 e n hen ht rf (by omega) f (by omega) srt hsrt ft si
      · rintro ⟨d, hd, e, n, hen, d', k1, k2⟩
        obtain ⟨a1, e', n', a2, a3⟩ := htodo d hd
        obtain ⟨off, hoff⟩ := (hds d).mp a1
        refine ⟨d', k1.tail ⟨off, d, e', n', hoff, a2, a3, ?_⟩, k2⟩
        rw [(hen.unique a2).2.1]
      · rintro ⟨d', k1, k2⟩
        rcases Relation.ReflTransGen.cases_tail k1 with rfl | ⟨c, k3, off, d, e, n, a1, a2, a3, rfl⟩
        · exact absurd k2 h1
        · exact ⟨d, (h2 d).mpr ⟨rfl, (hds d).mpr ⟨off, a1⟩, e, n, a2, a3⟩, e, n, a2, d', k3, k2⟩

/-- C117: a recursive listing only crashes because of such an entry somewhere below the directory,
also where one can go down for ever. -/
theorem C117_recursive_crash_cause (b : Bucket) (hb : b.WF) (m : Bytes) (hm : b.stores metadataVersionKey m) (o : UInt64)
    (hr : ∀ d, b.RangeOK o (KL2 84 d)) (hex : ∀ v x, b.stores v x → v.owner = o → ∃ d, holdsExactly x d)
    (rf : Nat) (hrf : b.length + 1 ≤ rf) (srt : Sorter) (hsrt : SortOK srt) (ft : Time → Bytes) (si : Bool) :
    ∀ (fuel : Nat) (dir : UInt64), listDirectory rf srt ft ⟨b, ~~~0⟩ o si fuel dir true = .panic →
      ∃ d', b.lsBelow o d' dir ∧ b.lsBad o d' := by
  intro fuel
  induction fuel with
  | zero => intro dir h; cases h
  | succ f ih =>
    intro dir h
    obtain ⟨ds, hds, hlen, hstep⟩ := listDirectory_crash hb hm (hr dir) hex
    rcases hstep rf (by omega) srt hsrt ft si f true with ⟨h1, -⟩ | ⟨-, out, todo, h2, h3⟩
    · exact ⟨dir, .refl, h1⟩
    · rw [h3] at h
      have hsub : subLoop (fun d => listDirectory rf srt ft ⟨b, ~~~0⟩ o si f d true) (todo.map fun d => ⟨d, []⟩) = .panic := by
        revert h
        cases subLoop (fun d => listDirectory rf srt ft ⟨b, ~~~0⟩ o si f d true) (todo.map fun d => ⟨d, []⟩) with
        | ok _ => intro h; cases h
        | hang => intro h; cases h
        | panic => intro _; rfl
      have htodo : ∀ d ∈ todo, d ∈ ds ∧ isDirEntry d := fun d hd => ((h2 d).mp hd).2
      obtain ⟨d, hd, e, n, hen, hp⟩ := subLoop_panics todo (fun d hd => by
        obtain ⟨-, e, n, k, -⟩ := htodo d hd
        exact ⟨e, n, k⟩) hsub
      obtain ⟨d', k1, k2⟩ := ih _ hp
      obtain ⟨a1, e', n', a2, a3⟩ := htodo d hd
      obtain ⟨off, hoff⟩ := (hds d).mp a1
      exact ⟨d', k1.tail ⟨off, d, e', n', hoff, a2, a3, by rw [(hen.unique a2).2.1]⟩, k2⟩

/-- C117 for the command without arguments: `ls` crashes exactly because of the entries of the top
directory; with `--recursive`, where one cannot go down for ever, exactly because of one somewhere
below it. -/
theorem C117_ls_crash_iff (b : Bucket) (hb : b.WF) (m : Bytes) (hm : b.stores metadataVersionKey m)
    (hr : ∀ d, b.RangeOK 5 (KL2 84 d)) (hex : ∀ v x, b.stores v x → v.owner = 5 → ∃ d, holdsExactly x d) :
    (∃ N, ∀ rf, N ≤ rf → ∀ fuel, N ≤ fuel → ∀ srt, SortOK srt → ∀ ft si,
      (doListFiles rf fuel srt ft ⟨b, ~~~0⟩ ⟨false, si⟩ [] = .panic ↔ b.lsBad 5 256) ∧
      doListFiles rf fuel srt ft ⟨b, ~~~0⟩ ⟨false, si⟩ [] ≠ .hang) ∧
    (Acc (b.lsChild 5) 256 → ∃ N, ∀ rf, N ≤ rf → ∀ fuel, N ≤ fuel → ∀ srt, SortOK srt → ∀ ft si,
      (doListFiles rf fuel srt ft ⟨b, ~~~0⟩ ⟨true, si⟩ [] = .panic ↔ ∃ d', b.lsBelow 5 d' 256 ∧ b.lsBad 5 d') ∧
      doListFiles rf fuel srt ft ⟨b, ~~~0⟩ ⟨true, si⟩ [] ≠ .hang) := by
  have key : ∀ rf fuel srt ft (r si : Bool) (P : Prop),
      (listDirectory rf srt ft ⟨b, ~~~0⟩ 5 si fuel 256 r = .panic ↔ P) ∧ listDirectory rf srt ft ⟨b, ~~~0⟩ 5 si fuel 256 r ≠ .hang →
      (doListFiles rf fuel srt ft ⟨b, ~~~0⟩ ⟨r, si⟩ [] = .panic ↔ P) ∧ doListFiles rf fuel srt ft ⟨b, ~~~0⟩ ⟨r, si⟩ [] ≠ .hang := by
    intro rf fuel srt ft r si P h
    have hd : lsArg rf ft ⟨b, ~~~0⟩ ⟨r, si⟩ {} [47] = .ok { todo := [(5, 256)] } := by
      simp [lsArg, show goClean [47] = [47] by decide, FSTreeObjectID, FirstFreeObjectID]
    simp only [doListFiles, List.isEmpty_nil, if_true, lsArgsLoop, hd, Go.ok_bind, lsTodoLoop, Go.pure_eq]
    revert h
    cases listDirectory rf srt ft ⟨b, ~~~0⟩ 5 si fuel 256 r with
    | ok _ => intro h; exact ⟨⟨fun h => (by cases h), fun hp => (by cases h.1.mpr hp)⟩, by simp⟩
    | panic => intro h; exact ⟨⟨fun _ => h.1.mp rfl, fun _ => rfl⟩, by simp⟩
    | hang => intro h; exact absurd rfl h.2
  constructor
  · obtain ⟨N, h⟩ := C117_directory_crash_iff b hb m hm 5 256 (hr 256) hex
    exact ⟨max N 1, fun rf hrf fuel hf srt hsrt ft si => key _ _ _ _ _ _ _ (h rf (by omega) srt hsrt ft si fuel (by omega))⟩
  · intro hacc
    obtain ⟨N, h⟩ := C117_recursive_crash_iff b hb m hm 5 256 hr hex hacc
    exact ⟨N, fun rf hrf fuel hf srt hsrt ft si => key _ _ _ _ _ _ _ (h rf hrf fuel hf srt hsrt ft si)⟩

/-- C117: `ls` returns if all entries of the top directory have their names and the inode items they
lead to are there up to the change time (or not at all). Missing: as `C117_one_torn_entry_refuted`
shows, one entry that is cut off is enough. -/
theorem C117_whole_items_partial (b : Bucket) (hb : b.WF) (m : Bytes) (hm : b.stores metadataVersionKey m)
    (hr : ∀ d, b.RangeOK 5 (KL2 84 d)) (hex : ∀ v x, b.stores v x → v.owner = 5 → ∃ d, holdsExactly x d)
    (hentry : ∀ off d, b.seenData 5 84 256 off d → named d) (hinode : ∀ i d, b.nowData 5 ⟨i, 1, 0⟩ d → 136 ≤ d.length) :
    ∃ N, ∀ rf, N ≤ rf → ∀ fuel, N ≤ fuel → ∀ srt, SortOK srt → ∀ ft si, ∃ r,
      doListFiles rf fuel srt ft ⟨b, ~~~0⟩ ⟨false, si⟩ [] = .ok r := by
  obtain ⟨⟨N, h⟩, -⟩ := C117_ls_crash_iff b hb m hm hr hex
  refine ⟨N, fun rf hrf fuel hf srt hsrt ft si => ?_⟩
  obtain ⟨h1, h2⟩ := h rf hrf fuel hf srt hsrt ft si
  cases hx : doListFiles rf fuel srt ft ⟨b, ~~~0⟩ ⟨false, si⟩ [] with
  | ok r => exact ⟨r, rfl⟩
  | hang => exact absurd hx h2
  | panic =>
    obtain ⟨off, d, k1, k2 | ⟨e, n, -, d', k2, k3⟩⟩ := h1.mp hx
    · exact absurd (hentry off d k1) k2
    · have := hinode _ d' k2
      omega

theorem exTornDir_all (d : UInt64) : exTornDir.enc.RangeOK 5 (KL2 84 d) :=
  exTornDir_range _ _ (by decide) ⟨(⟨5, ⟨258, 132, 0⟩, 10⟩, mkItem ⟨258, 132, 0⟩ []),
    by simp only [exTornDir, List.mem_cons, true_or, or_true], rfl, Or.inl (show (84 : UInt8) < 132 by decide)⟩

/-- C117 is false of the code: with one entry of the top directory cut off, `ls` crashes, and lists
none of the others. -/
theorem C117_one_torn_entry_refuted : ∃ N, ∀ rf, N ≤ rf → ∀ fuel, N ≤ fuel → ∀ srt, SortOK srt → ∀ ft si,
    doListFiles rf fuel srt ft ⟨exTornDir.enc, ~~~0⟩ ⟨false, si⟩ [] = .panic := by
  obtain ⟨⟨N, h⟩, -⟩ := C117_ls_crash_iff exTornDir.enc (AStore.enc_wf exTornDir_sorted) [] (enc_stores.mpr (by simp [exTornDir]))
    exTornDir_all (fun v x hv ho => exTornDir_exact _ (enc_stores.mp hv) (by rw [ho]; decide))
  exact ⟨N, fun rf hrf fuel hf srt hsrt ft si => (h rf hrf fuel hf srt hsrt ft si).1.mpr ⟨2, _, exTornDir_seen, Or.inl short_not_named⟩⟩

theorem exAsk_all (d : UInt64) : exAsk.enc.RangeOK 5 (KL2 84 d) := (exAsk_askable d).entries

/-- `C117_whole_items_partial` and the recursive half of `C117_ls_crash_iff` apply to the store of
`Props/MountCrash.lean`, with the file "a". -/
example : ∃ N, ∀ rf, N ≤ rf → ∀ fuel, N ≤ fuel → ∀ srt, SortOK srt → ∀ ft si, ∃ r,
      doListFiles rf fuel srt ft ⟨exAsk.enc, ~~~0⟩ ⟨false, si⟩ [] = .ok r := by
  refine C117_whole_items_partial _ (AStore.enc_wf exAsk_sorted) [] (enc_stores.mpr (by simp [exAsk, exOneExtent])) exAsk_all
    (fun v x hv ho => exAsk_exact _ (enc_stores.mp hv) (by rw [ho]; decide)) ?_ ?_
  · rintro off d ⟨g, x, -, h2, h3⟩
    rw [(exAsk_data h2 h3).1 rfl rfl]
    exact ⟨_, _, exEntry_named⟩
  · rintro i d ⟨g, x, -, h2, h3⟩
    rw [(exAsk_data h2 h3).2.2.1 rfl]
    decide +kernel

example : Acc (exAsk.enc.lsChild 5) 256 := by
  refine ⟨_, ?_⟩
  rintro d' ⟨off, d, e, n, ⟨g, x, -, h2, h3⟩, h4, h5, -⟩
  rw [(exAsk_data h2 h3).1 rfl rfl] at h4
  have h1 := (h4.fields (t := [])).2.1
  rw [(exEntry_named.fields (t := [])).2.1] at h1
  rw [← Go.ok.inj h1] at h5
  exact absurd h5 (by decide)

end Btrfscue
