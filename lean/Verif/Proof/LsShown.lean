import Verif.Spec.LsShown
import Verif.Props.LsLoop
import Verif.Props.PathExact
/-!
# What `ls --recursive` prints, on any index
-/

namespace Btrfscue

/-- The line of an entry, in the tree of the directory. -/
theorem listDirItem_shown {b : Bucket} (hb : b.WF) {m : Bytes} (hm : b.stores metadataVersionKey m) {o : UInt64}
    (ho : o ≠ ~~~0) (hin : b.InodesOK o) (ft : Time → Bytes) (si : Bool) {d : DirItem} {q : Bytes × DirItemRec} (h : isEntry d q)
    (ts : List Shown) :
    ∃ s : Shown, s.inside = ts ∧ s.name = q.1 ∧ s.typ = q.2.typ ∧ s.ino = q.2.location.objectID ∧
      listDirItem ft ⟨b, ~~~0⟩ o d si = .ok s.line ∧ b.shownFor ft si o d s := by
  obtain ⟨line, h1, e, name, rest, cols, h2, h3, h4, h5⟩ := C64_line b hb m hm o ho hin ft si d h.whole
  obtain ⟨rest', k1, k2, k3⟩ := h
  have h2' := h2
  rw [k1] at h2
  obtain ⟨e1, e2⟩ := dirItem_layout_inj h2
  have e3 := (List.append_inj e2 (by rw [← h3, ← k2, e1])).1
  refine ⟨⟨name, e.typ, e.location.objectID, (if si then [decimal e.location.objectID.toNat] else []) ++ cols, ts⟩, rfl, e3.symm,
    by rw [e1], by rw [e1], ?_, e, cols, ⟨rest, h2', h3⟩, rfl, rfl, h4, rfl⟩
  rw [h1, h5]
  simp only [Shown.line, List.append_assoc]

theorem shown_loop {b : Bucket} (hb : b.WF) {m : Bytes} (hm : b.stores metadataVersionKey m) {o : UInt64}
    (ho : o ≠ ~~~0) (hin : b.InodesOK o) (ft : Time → Bytes) (si : Bool) {es : List DirItem} {qs : List (Bytes × DirItemRec)}
    (h : List.Forall₂ isEntry es qs) {F : Nat → Nat → UInt64 → Go Bytes} {P : UInt64 → List Shown → Prop}
    (hF : ∀ q ∈ qs, q.2.typ = 2 → ∃ N ts, P q.2.location.objectID ts ∧ ∀ rf fuel, N ≤ rf → N ≤ fuel →
      F rf fuel q.2.location.objectID = .ok (listingText ts)) :
    ∃ N ts todo, List.Forall₂ (fun d s => b.shownFor ft si o d s) es ts ∧
      List.Forall₂ (fun (q : Bytes × DirItemRec) (s : Shown) => s.name = q.1 ∧ s.typ = q.2.typ) qs ts ∧
      (∀ s ∈ ts, s.typ = 2 → P s.ino s.inside) ∧ (∀ s ∈ ts, s.typ ≠ 2 → s.inside = []) ∧
      listLoop ft ⟨b, ~~~0⟩ o true si es = .ok ((ts.map Shown.line).flatten, todo) ∧
      ∀ rf fuel, N ≤ rf → N ≤ fuel → subLoop (F rf fuel) todo = .ok (shownBelow ts) := by
  induction h with
  | nil => exact ⟨0, [], [], .nil, .nil, by simp, by simp, rfl, fun _ _ _ _ => rfl⟩
  | @cons d q r qr h1 _ ih =>
    obtain ⟨N, ts, todo, g1, g2, g3, g4, g5, g6⟩ := ih fun x hx => hF x (List.mem_cons_of_mem _ hx)
    by_cases ht : q.2.typ = 2
    · obtain ⟨N', us, k1, k2⟩ := hF q (List.mem_cons_self ..) ht
      obtain ⟨s, s1, s2, s3, s4, s5, s6⟩ := listDirItem_shown hb hm ho hin ft si h1 us
      refine ⟨max N N', s :: ts, d :: todo, .cons s6 g1, .cons ⟨s2, s3⟩ g2, ?_, ?_, ?_, fun rf fuel hrf hfu => ?_⟩
      · intro x hx hxt
        rcases List.mem_cons.mp hx with rfl | hx
        · rw [s1, s4]; exact k1
        · exact g3 x hx hxt
      · intro x hx hxt
        rcases List.mem_cons.mp hx with rfl | hx
        · exact absurd (s3.trans ht) hxt
        · exact g4 x hx hxt
      · have hb2 : (q.2.typ == 2) = true := beq_iff_eq.mpr ht
        simp only [listLoop, s5, Go.ok_bind, if_true, h1.isDir, hb2, g5, Go.pure_eq, List.map_cons, List.flatten_cons]
      · simp only [subLoop, h1.says.1, h1.says.2.2, Go.ok_bind, k2 rf fuel (by omega) (by omega), g6 rf fuel (by omega) (by omega),
          Go.pure_eq, shownBelow]
        obtain ⟨n, t, i, c, u⟩ := s
        simp only at s1 s2 s3
        subst s1 s2
        rw [s3, Shown.listing, if_pos ht]
        have : ascii ":\n" = [58, 10] := by decide +kernel
        rw [this, listingText]
        simp
    · obtain ⟨s, s1, s2, s3, s4, s5, s6⟩ := listDirItem_shown hb hm ho hin ft si h1 []
      refine ⟨N, s :: ts, todo, .cons s6 g1, .cons ⟨s2, s3⟩ g2, ?_, ?_, ?_, fun rf fuel hrf hfu => ?_⟩
      · intro x hx hxt
        rcases List.mem_cons.mp hx with rfl | hx
        · exact absurd (s3.symm.trans hxt) ht
        · exact g3 x hx hxt
      · intro x hx hxt
        rcases List.mem_cons.mp hx with rfl | hx
        · exact s1
        · exact g4 x hx hxt
      · have hb2 : (q.2.typ == 2) = false := beq_eq_false_iff_ne.mpr ht
        simp only [listLoop, s5, Go.ok_bind, if_true, h1.isDir, hb2, g5, Go.pure_eq, List.map_cons, List.flatten_cons,
          Bool.false_eq_true, if_false]
      · rw [g6 rf fuel hrf hfu, shownBelow]
        obtain ⟨n, t, i, c, u⟩ := s
        simp only at s3
        rw [Shown.listing, if_neg (by rw [s3]; exact ht), List.nil_append]

/-- The entries of a directory that iterating over it gets to. -/
theorem seen_listed {b : Bucket} (hb : b.WF) {m : Bytes} (hm : b.stores metadataVersionKey m) (hok : b.DirsOK)
    (hfull : ∀ o dir d, o ≠ ~~~0 → b.dirItem o dir d → wholeEntry (Slice.data d)) {o : UInt64} (dir : UInt64) (ho : o ≠ ~~~0)
    {srt : Sorter} (hsrt : SortOK srt) :
    ∃ rd items vs es qs, (Ix.mk b (~~~0)).dirItems o dir = .ok rd ∧ Range.Yields rd items ∧ b.seenItems o 84 dir vs ∧
      lsSort srt (items.map (·.2)) = .ok es ∧ es.Perm (vs.map (·.2)) ∧ List.Forall₂ isEntry es qs ∧
      qs.Pairwise (fun a c => (a.2.typ ≠ 2 ∧ c.2.typ = 2) ∨ ((a.2.typ = 2 ↔ c.2.typ = 2) ∧ bytesLt c.1 a.1 = false)) ∧
      ∀ n e, (n, e) ∈ qs ↔ b.entrySeen o dir n e := by
  obtain ⟨rd, items, vs, h1, h2, h3, h4⟩ := seen_dirs hb hm hok dir ho
  have hw : ∀ d ∈ vs.map (·.2), wholeEntry (Slice.data d) := by
    intro d hd
    obtain ⟨⟨off, s⟩, hs, rfl⟩ := List.mem_map.mp hd
    obtain ⟨g, x, -, k2, k3⟩ := (h3.2 off s).mp hs
    exact hfull o dir s ho ⟨off, g, x, k2, k3⟩
  obtain ⟨es, e1, e2, e3⟩ := lsSort_ok hsrt (items.map (·.2)) (by rw [h4]; exact hw)
  rw [h4] at e2
  obtain ⟨qs, hq⟩ := forall2_of_exists (l := es) (R := isEntry) fun d hd => by
    obtain ⟨e, name, rest, w1, w2, w3⟩ := hw d (e2.mem_iff.mp hd)
    exact ⟨(name, e), rest, w1, w2, w3⟩
  refine ⟨rd, items, vs, es, qs, h1, h2, h3, e1, e2, hq, ?_, fun n e => ⟨fun hm' => ?_, ?_⟩⟩
  · refine forall2_pairwise hq e3 ?_
    rintro a a' q q' hq hq' ⟨da, na, db, nb, k1, k2, k3, k4, k5⟩
    rw [hq.isDir] at k1
    rw [hq'.isDir] at k3
    rw [hq.says.1] at k2
    rw [hq'.says.1] at k4
    simp only [Go.ok.injEq] at k1 k2 k3 k4
    subst k1; subst k2; subst k3; subst k4
    rcases k5 with ⟨k5, k6⟩ | ⟨k5, k6⟩
    · exact Or.inl ⟨by simpa using k5, by simpa using k6⟩
    · exact Or.inr ⟨by rw [← beq_iff_eq (a := q.2.typ), k5, beq_iff_eq], k6⟩
  · obtain ⟨d, hd, rest, w1, w2, w3⟩ := forall2_mem_right hq hm'
    obtain ⟨⟨off, s⟩, hs, rfl⟩ := List.mem_map.mp (e2.mem_iff.mp hd)
    obtain ⟨g, x, k1, k2, k3⟩ := (h3.2 off s).mp hs
    obtain ⟨y, hy⟩ := (hok.ranges o _ ho ⟨g, x, k2⟩ rfl).intact _ _ k2 rfl
    obtain ⟨s', h5, rfl⟩ := hy.data
    rw [k3] at h5
    cases h5
    exact ⟨off, g, x, _, k1, k2, hy, rest, w1, w2⟩
  · rintro ⟨off, g, x, p, k1, k2, k3, k4⟩
    obtain ⟨s, h5, rfl⟩ := k3.data
    have hs : (off, s) ∈ vs := (h3.2 off s).mpr ⟨g, x, k1, k2, h5⟩
    obtain ⟨q, hq', rest, w1, w2, w3⟩ := forall2_mem_left hq (e2.mem_iff.mpr (List.mem_map.mpr ⟨_, hs, rfl⟩))
    obtain ⟨rfl, rfl⟩ := startsEntry_unique k4 ⟨rest, w1, w2⟩
    exact hq'

theorem acc_of_not_endlessSeen {b : Bucket} {o dir : UInt64} (h : ¬ b.endlessSeen o dir) : Acc (b.insideSeen o) dir := by
  refine Classical.byContradiction fun hacc => h ?_
  have hstep : ∀ x : {d // ¬ Acc (b.insideSeen o) d}, ∃ y : {d // ¬ Acc (b.insideSeen o) d}, b.insideSeen o y.1 x.1 := by
    rintro ⟨x, hx⟩
    refine Classical.byContradiction fun hno => hx ⟨x, fun y hy => Classical.byContradiction fun hya => hno ⟨⟨y, hya⟩, hy⟩⟩
  refine ⟨fun n => (Nat.rec ⟨dir, hacc⟩ (fun _ x => Classical.choose (hstep x)) n : {d // ¬ Acc (b.insideSeen o) d}).1, rfl, fun n => ?_⟩
  exact Classical.choose_spec (hstep _)

/-- One level of a recursive listing. -/
theorem listDirectory_seen_step {b : Bucket} (hb : b.WF) {m : Bytes} (hm : b.stores metadataVersionKey m) (hok : b.DirsOK)
    (hfull : ∀ o dir d, o ≠ ~~~0 → b.dirItem o dir d → wholeEntry (Slice.data d))
    {o : UInt64} (ho : o ≠ ~~~0) (hin : b.InodesOK o) {srt : Sorter} (hsrt : SortOK srt) (ft : Time → Bytes) (si : Bool) (dir : UInt64) :
    ∃ (N : Nat) (out : Bytes) (todo : List DirItem), (∀ d ∈ todo, wholeEntry (Slice.data d)) ∧
      (∀ d', b.insideSeen o d' dir ↔ ∃ d ∈ todo, ∃ loc, DirItem.location d = .ok loc ∧ loc.objectID = d') ∧
      ∀ rf fuel, (rf ≤ N → listDirectory rf srt ft ⟨b, ~~~0⟩ o si (fuel + 1) dir true = .hang) ∧
        (N < rf → listDirectory rf srt ft ⟨b, ~~~0⟩ o si (fuel + 1) dir true =
          (subLoop (fun d => listDirectory rf srt ft ⟨b, ~~~0⟩ o si fuel d true) todo).bind fun s => .ok (out ++ s)) := by
  obtain ⟨rd, items, vs, es, qs, h1, h2, -, h6, -, h7, -, hmem⟩ := seen_listed hb hm hok hfull dir ho hsrt
  have hwh : ∀ d ∈ es, wholeEntry (Slice.data d) := fun d hd => by
    obtain ⟨q, -, hq⟩ := forall2_mem_left h7 hd
    exact hq.whole
  obtain ⟨lines, todo, h10, -, h12⟩ := listLoop_ok hb hm ho hin ft true si es hwh
  refine ⟨items.length, lines.flatten, todo, fun d hd => hwh d ((h12 d).mp hd).2.1, fun d' => ⟨?_, ?_⟩, fun rf fuel => ⟨fun hrf => ?_, fun hrf => ?_⟩⟩
  · rintro ⟨n, e, h, ht, rfl⟩
    obtain ⟨d, hd, hq⟩ := forall2_mem_right h7 ((hmem n e).mpr h)
    refine ⟨d, (h12 d).mpr ⟨rfl, hd, ?_⟩, _, hq.says.2.2, rfl⟩
    rw [hq.isDir, ht]
    rfl
  · rintro ⟨d, hd, loc, hloc, rfl⟩
    obtain ⟨-, hd1, hd2⟩ := (h12 d).mp hd
    obtain ⟨q, hq, hqd⟩ := forall2_mem_left h7 hd1
    rw [hqd.isDir] at hd2
    rw [hqd.says.2.2] at hloc
    simp only [Go.ok.injEq] at hd2 hloc
    exact ⟨q.1, q.2, (hmem q.1 q.2).mp hq, by simpa using hd2, by rw [hloc]⟩
  · have hh : rangeLoop collectBody rf [] rd = .hang := by
      cases hc : rangeLoop collectBody rf [] rd with
      | hang => rfl
      | panic => exact absurd hc (collect_total h2 rf [])
      | ok r =>
        obtain ⟨items', k1, k2, -⟩ := rangeLoop_yields collectBody (fun s r d s' b h => by
          simp only [collectBody, Go.ok.injEq, Prod.mk.injEq] at h
          exact h.2.symm) hc
        have := h2.unique k1
        subst this
        omega
    simp only [listDirectory, h1, Go.ok_bind, hh, Go.hang_bind]
  · simp only [listDirectory, h1, Go.ok_bind, rangeLoop_eq _ h2 rf [] hrf, foldCollect, List.nil_append, h6, h10]
    rfl

theorem listDirectory_seen_noPanic {b : Bucket} (hb : b.WF) {m : Bytes} (hm : b.stores metadataVersionKey m) (hok : b.DirsOK)
    (hfull : ∀ o dir d, o ≠ ~~~0 → b.dirItem o dir d → wholeEntry (Slice.data d))
    {o : UInt64} (ho : o ≠ ~~~0) (hin : b.InodesOK o) {srt : Sorter} (hsrt : SortOK srt) (ft : Time → Bytes) (si : Bool) (rf fuel : Nat) (dir : UInt64) :
    listDirectory rf srt ft ⟨b, ~~~0⟩ o si fuel dir true ≠ .panic := by
  induction fuel generalizing dir with
  | zero => intro h; cases h
  | succ f ih =>
    obtain ⟨N, out, todo, h1, -, h3⟩ := listDirectory_seen_step hb hm hok hfull ho hin hsrt ft si dir
    rcases Nat.lt_or_ge N rf with h | h
    · rw [(h3 rf f).2 h]
      have := subLoop_noPanic (f := fun d => listDirectory rf srt ft ⟨b, ~~~0⟩ o si f d true) ih todo h1
      cases hs : subLoop (fun d => listDirectory rf srt ft ⟨b, ~~~0⟩ o si f d true) todo with
      | panic => exact absurd hs this
      | hang => intro h; cases h
      | ok t => intro h; cases h
    · rw [(h3 rf f).1 h]
      intro h; cases h

/-- A set of directories, each with one of the set in it: listing none of them ends. -/
theorem listDirectory_seen_hangs {b : Bucket} (hb : b.WF) {m : Bytes} (hm : b.stores metadataVersionKey m) (hok : b.DirsOK)
    (hfull : ∀ o dir d, o ≠ ~~~0 → b.dirItem o dir d → wholeEntry (Slice.data d))
    {o : UInt64} (ho : o ≠ ~~~0) (hin : b.InodesOK o) {srt : Sorter} (hsrt : SortOK srt) (ft : Time → Bytes) (si : Bool)
    {S : UInt64 → Prop} (hS : ∀ d, S d → ∃ d', S d' ∧ b.insideSeen o d' d) (rf fuel : Nat) (dir : UInt64) (hd : S dir) :
    listDirectory rf srt ft ⟨b, ~~~0⟩ o si fuel dir true = .hang := by
  induction fuel generalizing dir with
  | zero => rfl
  | succ f ih =>
    obtain ⟨N, out, todo, h1, h2, h3⟩ := listDirectory_seen_step hb hm hok hfull ho hin hsrt ft si dir
    rcases Nat.lt_or_ge N rf with h | h
    · rw [(h3 rf f).2 h]
      obtain ⟨d', k1, k2⟩ := hS dir hd
      obtain ⟨d, k3, loc, k4, k5⟩ := (h2 d').mp k2
      rw [subLoop_hang (fun d => listDirectory_seen_noPanic hb hm hok hfull ho hin hsrt ft si rf f d) todo h1
        ⟨d, k3, loc, k4, by rw [k5]; exact ih d' k1⟩]
      rfl
    · exact (h3 rf f).1 h

/-- And if one cannot go down for ever, it prints the listing. -/
theorem listDirectory_shown {b : Bucket} (hb : b.WF) {m : Bytes} (hm : b.stores metadataVersionKey m) (hok : b.DirsOK)
    (hfull : ∀ o dir d, o ≠ ~~~0 → b.dirItem o dir d → wholeEntry (Slice.data d))
    {o : UInt64} (ho : o ≠ ~~~0) (hin : b.InodesOK o) {srt : Sorter} (hsrt : SortOK srt) (ft : Time → Bytes) (si : Bool) (dir : UInt64)
    (h : Acc (b.insideSeen o) dir) :
    ∃ N ts, b.ShownTree ft si o dir ts ∧ ∀ rf fuel, N ≤ rf → N ≤ fuel →
      listDirectory rf srt ft ⟨b, ~~~0⟩ o si fuel dir true = .ok (listingText ts) := by
  induction h with
  | intro dir _ ih =>
    obtain ⟨rd, items, vs, es, qs, h1, h2, h3, h4, h5, h6, h7, hmem⟩ := seen_listed hb hm hok hfull dir ho hsrt
    obtain ⟨N, ts, todo, g1, g2, g3, g4, g5, g6⟩ := shown_loop hb hm ho hin ft si h6
      (F := fun rf fuel d => listDirectory rf srt ft ⟨b, ~~~0⟩ o si fuel d true) (P := b.ShownTree ft si o)
      fun q hq ht => ih _ ⟨q.1, q.2, (hmem q.1 q.2).mp hq, ht, rfl⟩
    refine ⟨N + items.length + 1, ts, .mk h3 h5 g1 ?_ g3 g4, fun rf fuel hrf hfu => ?_⟩
    · refine forall2_pairwise g2 h7 ?_
      rintro a a' s s' ⟨k1, k2⟩ ⟨k3, k4⟩ hlt
      unfold shownBefore
      rw [k1, k2, k3, k4]
      exact hlt
    · obtain ⟨f, rfl⟩ : ∃ f, fuel = f + 1 := ⟨fuel - 1, by omega⟩
      simp only [listDirectory, h1, Go.ok_bind, rangeLoop_eq _ h2 rf [] (by omega), foldCollect, List.nil_append,
        h4, g5, g6 rf f (by omega) (by omega), Go.pure_eq, listingText]

end Btrfscue
