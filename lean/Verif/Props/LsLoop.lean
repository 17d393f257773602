import Verif.Props.LsTree
import Verif.Props.MountImage
/-!
# C65, C88: when recursive listing ends
-/

namespace Btrfscue

/-- `d'` is a directory in directory `d` of tree `o`, as recursive listing follows entries:
their object number, in the same tree, whatever they lead to. -/
def Bucket.lsInside (b : Bucket) (o d' d : UInt64) : Prop :=
  ∃ n e, b.entryNow o d n e ∧ e.typ = 2 ∧ e.location.objectID = d'

theorem Range.Yields.unique {rd : Range × Slice} {xs ys : List (Range × Slice)} (h : Range.Yields rd xs) (h' : Range.Yields rd ys) : xs = ys := by
  induction h generalizing ys with
  | done hn =>
    cases h' with
    | done _ => rfl
    | step k _ _ => rw [hn] at k; cases k
  | step hn hx _ ih =>
    cases h' with
    | done k => rw [hn] at k; cases k
    | step _ k2 k3 =>
      rw [hx] at k2
      simp only [Go.ok.injEq, Prod.mk.injEq] at k2
      obtain ⟨rfl, rfl⟩ := k2
      rw [ih k3]

theorem subLoop_noPanic {f : UInt64 → Go Bytes} (hf : ∀ d, f d ≠ .panic) :
    ∀ todo : List DirItem, (∀ d ∈ todo, wholeEntry (Slice.data d)) → subLoop f todo ≠ .panic := by
  intro todo
  induction todo with
  | nil => intro _ h; cases h
  | cons d r ih =>
    intro hw
    obtain ⟨⟨n, hn⟩, ⟨loc, hloc⟩, -⟩ := (hw d (List.mem_cons_self ..)).fields
    have h1 := hf loc.objectID
    have h2 := ih fun x hx => hw x (List.mem_cons_of_mem _ hx)
    simp only [subLoop, hn, hloc, Go.ok_bind]
    cases hfd : f loc.objectID with
    | panic => exact absurd hfd h1
    | hang => simp [Go.hang_bind]
    | ok s =>
      cases hr : subLoop f r with
      | panic => exact absurd hr h2
      | hang => simp [Go.ok_bind, Go.hang_bind]
      | ok t => simp [Go.ok_bind, Go.pure_eq]

theorem subLoop_hang {f : UInt64 → Go Bytes} (hf : ∀ d, f d ≠ .panic) :
    ∀ todo : List DirItem, (∀ d ∈ todo, wholeEntry (Slice.data d)) →
      (∃ d ∈ todo, ∃ loc, DirItem.location d = .ok loc ∧ f loc.objectID = .hang) → subLoop f todo = .hang := by
  intro todo
  induction todo with
  | nil => rintro _ ⟨d, hd, -⟩; cases hd
  | cons d r ih =>
    rintro hw ⟨d', hd', loc', hl', hh⟩
    obtain ⟨⟨n, hn⟩, ⟨loc, hloc⟩, -⟩ := (hw d (List.mem_cons_self ..)).fields
    have h1 := hf loc.objectID
    simp only [subLoop, hn, hloc, Go.ok_bind]
    cases hfd : f loc.objectID with
    | panic => exact absurd hfd h1
    | hang => rfl
    | ok s =>
      rcases List.mem_cons.mp hd' with rfl | hm
      · rw [hloc] at hl'
        simp only [Go.ok.injEq] at hl'
        subst hl'
        rw [hfd] at hh
        cases hh
      · rw [ih (fun x hx => hw x (List.mem_cons_of_mem _ hx)) ⟨d', hm, loc', hl', hh⟩]
        rfl

/-- One level of a recursive listing: it does not end for lack of `rf`, or the entries are
listed and then the directories among them. -/
theorem listDirectory_step {b : Bucket} (hb : b.WF) {m : Bytes} (hm : b.stores metadataVersionKey m) {gc : UInt64} (hu : b.Undamaged gc)
    {o : UInt64} (ho : o ≠ ~~~0) (hin : b.InodesOK o) {srt : Sorter} (hsrt : SortOK srt) (ft : Time → Bytes) (si : Bool) (dir : UInt64) :
    ∃ (N : Nat) (out : Bytes) (todo : List DirItem), (∀ d ∈ todo, wholeEntry (Slice.data d)) ∧
      (∀ d', b.lsInside o d' dir ↔ ∃ d ∈ todo, ∃ loc, DirItem.location d = .ok loc ∧ loc.objectID = d') ∧
      ∀ rf fuel, (rf ≤ N → listDirectory rf srt ft ⟨b, ~~~0⟩ o si (fuel + 1) dir true = .hang) ∧
        (N < rf → listDirectory rf srt ft ⟨b, ~~~0⟩ o si (fuel + 1) dir true =
          (subLoop (fun d => listDirectory rf srt ft ⟨b, ~~~0⟩ o si fuel d true) todo).bind fun s => .ok (out ++ s)) := by
  obtain ⟨rd, items, ps, h1, h2, h3, h4, h5⟩ := hu.listed hb hm dir ho
  obtain ⟨es, qs, h6, h7, h8, h9⟩ := lsSort_entries hsrt h3 h4
  have hmem : ∀ n e, (n, e) ∈ qs ↔ b.entryNow o dir n e := fun n e => h8.mem_iff.trans (h5 n e)
  have hwh : ∀ d ∈ es, wholeEntry (Slice.data d) := fun d hd => by
    obtain ⟨q, -, hq⟩ := forall2_mem_left h7 hd
    exact hq.whole
  obtain ⟨lines, todo, h10, -, h12⟩ := listLoop_ok hb hm ho hin ft true si es hwh
  refine ⟨items.length, lines.flatten, todo, fun d hd => hwh d ((h12 d).mp hd).2.1, fun d' => ⟨?_, ?_⟩, fun rf fuel => ⟨fun hrf => ?_, fun hrf => ?_⟩⟩
  · rintro ⟨n, e, h, ht, rfl⟩
    obtain ⟨d, hd, hq⟩ := forall2_mem_right h7 ((hmem n e).mpr h)
    refine ⟨d, (h12 d).mpr ⟨rfl, hd, ?_⟩, _, hq.says.2.2, rfl⟩
    rw [hq.isDir, ht]
    rfl
  · rintro ⟨d, hd, loc, hloc, rfl⟩
    obtain ⟨-, hd1, hd2⟩ := (h12 d).mp hd
    obtain ⟨q, hq, hqd⟩ := forall2_mem_left h7 hd1
    rw [hqd.isDir] at hd2
    rw [hqd.says.2.2] at hloc
    simp only [Go.ok.injEq] at hd2 hloc
    exact ⟨q.1, q.2, (hmem q.1 q.2).mp hq, by simpa using hd2, by rw [hloc]⟩
  · have hh : rangeLoop collectBody rf [] rd = .hang := by
      cases hc : rangeLoop collectBody rf [] rd with
      | hang => rfl
      | panic => exact absurd hc (collect_total h2 rf [])
      | ok r =>
        obtain ⟨items', k1, k2, -⟩ := rangeLoop_yields collectBody (fun s r d s' b h => by
          simp only [collectBody, Go.ok.injEq, Prod.mk.injEq] at h
          exact h.2.symm) hc
        have := h2.unique k1
        subst this
        omega
    simp only [listDirectory, h1, Go.ok_bind, hh, Go.hang_bind]
  · simp only [listDirectory, h1, Go.ok_bind, rangeLoop_eq _ h2 rf [] hrf, foldCollect, List.nil_append, h6, h10]
    rfl

theorem subLoop_ends {F : Nat → Nat → UInt64 → Go Bytes} :
    ∀ todo : List DirItem, (∀ d ∈ todo, wholeEntry (Slice.data d)) →
      (∀ d ∈ todo, ∀ loc, DirItem.location d = .ok loc → ∃ N t, ∀ rf fuel, N ≤ rf → N ≤ fuel → F rf fuel loc.objectID = .ok t) →
      ∃ N t, ∀ rf fuel, N ≤ rf → N ≤ fuel → subLoop (F rf fuel) todo = .ok t := by
  intro todo
  induction todo with
  | nil => intro _ _; exact ⟨0, [], fun _ _ _ _ => rfl⟩
  | cons d r ih =>
    intro hw hF
    obtain ⟨⟨n, hn⟩, ⟨loc, hloc⟩, -⟩ := (hw d (List.mem_cons_self ..)).fields
    obtain ⟨N1, t1, h1⟩ := hF d (List.mem_cons_self ..) loc hloc
    obtain ⟨N2, t2, h2⟩ := ih (fun x hx => hw x (List.mem_cons_of_mem _ hx)) fun x hx => hF x (List.mem_cons_of_mem _ hx)
    refine ⟨max N1 N2, n ++ (58 :: 10 :: (t1 ++ t2)), fun rf fuel hrf hfu => ?_⟩
    simp only [subLoop, hn, hloc, Go.ok_bind, h1 rf fuel (by omega) (by omega), h2 rf fuel (by omega) (by omega), Go.pure_eq]

theorem listDirectory_noPanic {b : Bucket} (hb : b.WF) {m : Bytes} (hm : b.stores metadataVersionKey m) {gc : UInt64} (hu : b.Undamaged gc)
    {o : UInt64} (ho : o ≠ ~~~0) (hin : b.InodesOK o) {srt : Sorter} (hsrt : SortOK srt) (ft : Time → Bytes) (si : Bool) (rf fuel : Nat) (dir : UInt64) :
    listDirectory rf srt ft ⟨b, ~~~0⟩ o si fuel dir true ≠ .panic := by
  induction fuel generalizing dir with
  | zero => intro h; cases h
  | succ f ih =>
    obtain ⟨N, out, todo, h1, -, h3⟩ := listDirectory_step hb hm hu ho hin hsrt ft si dir
    rcases Nat.lt_or_ge N rf with h | h
    · rw [(h3 rf f).2 h]
      have := subLoop_noPanic (f := fun d => listDirectory rf srt ft ⟨b, ~~~0⟩ o si f d true) ih todo h1
      cases hs : subLoop (fun d => listDirectory rf srt ft ⟨b, ~~~0⟩ o si f d true) todo with
      | panic => exact absurd hs this
      | hang => intro h; cases h
      | ok t => intro h; cases h
    · rw [(h3 rf f).1 h]
      intro h; cases h

/-- A set of directories, each with one of the set in it: listing none of them ends. -/
theorem listDirectory_hangs {b : Bucket} (hb : b.WF) {m : Bytes} (hm : b.stores metadataVersionKey m) {gc : UInt64} (hu : b.Undamaged gc)
    {o : UInt64} (ho : o ≠ ~~~0) (hin : b.InodesOK o) {srt : Sorter} (hsrt : SortOK srt) (ft : Time → Bytes) (si : Bool)
    {S : UInt64 → Prop} (hS : ∀ d, S d → ∃ d', S d' ∧ b.lsInside o d' d) (rf fuel : Nat) (dir : UInt64) (hd : S dir) :
    listDirectory rf srt ft ⟨b, ~~~0⟩ o si fuel dir true = .hang := by
  induction fuel generalizing dir with
  | zero => rfl
  | succ f ih =>
    obtain ⟨N, out, todo, h1, h2, h3⟩ := listDirectory_step hb hm hu ho hin hsrt ft si dir
    rcases Nat.lt_or_ge N rf with h | h
    · rw [(h3 rf f).2 h]
      obtain ⟨d', k1, k2⟩ := hS dir hd
      obtain ⟨d, k3, loc, k4, k5⟩ := (h2 d').mp k2
      rw [subLoop_hang (fun d => listDirectory_noPanic hb hm hu ho hin hsrt ft si rf f d) todo h1
        ⟨d, k3, loc, k4, by rw [k5]; exact ih d' k1⟩]
      rfl
    · exact (h3 rf f).1 h

/-- A directory from which one can go down for ever, in the way recursive listing does. -/
def Bucket.lsEndless (b : Bucket) (o dir : UInt64) : Prop :=
  ∃ s : Nat → UInt64, s 0 = dir ∧ ∀ n, b.lsInside o (s (n + 1)) (s n)

theorem acc_of_not_endless {b : Bucket} {o dir : UInt64} (h : ¬ b.lsEndless o dir) : Acc (b.lsInside o) dir := by
  refine Classical.byContradiction fun hacc => h ?_
  have hstep : ∀ x : {d // ¬ Acc (b.lsInside o) d}, ∃ y : {d // ¬ Acc (b.lsInside o) d}, b.lsInside o y.1 x.1 := by
    rintro ⟨x, hx⟩
    refine Classical.byContradiction fun hno => hx ⟨x, fun y hy => Classical.byContradiction fun hya => hno ⟨⟨y, hya⟩, hy⟩⟩
  refine ⟨fun n => (Nat.rec ⟨dir, hacc⟩ (fun _ x => Classical.choose (hstep x)) n : {d // ¬ Acc (b.lsInside o) d}).1, rfl, fun n => ?_⟩
  exact Classical.choose_spec (hstep _)

/-- C65, exactly: on an index of an undamaged file system `ls --recursive` of a directory ends,
with one text, if one cannot go down from it for ever, and else never ends. -/
theorem C65_ends_iff (b : Bucket) (hb : b.WF) (m : Bytes) (hm : b.stores metadataVersionKey m) (gc : UInt64)
    (hu : b.Undamaged gc) (o : UInt64) (ho : o ≠ ~~~0) (hin : b.InodesOK o) (srt : Sorter) (hsrt : SortOK srt)
    (ft : Time → Bytes) (si : Bool) (dir : UInt64) :
    (¬ b.lsEndless o dir → ∃ N text, ∀ rf fuel, N ≤ rf → N ≤ fuel →
      listDirectory rf srt ft ⟨b, ~~~0⟩ o si fuel dir true = .ok text) ∧
    (b.lsEndless o dir → ∀ rf fuel, listDirectory rf srt ft ⟨b, ~~~0⟩ o si fuel dir true = .hang) := by
  constructor
  · intro h
    induction acc_of_not_endless h with
    | intro dir _ ih =>
      obtain ⟨N, out, todo, h1, h2, h3⟩ := listDirectory_step hb hm hu ho hin hsrt ft si dir
      obtain ⟨N', t, h4⟩ := subLoop_ends (F := fun rf fuel d => listDirectory rf srt ft ⟨b, ~~~0⟩ o si fuel d true) todo h1
        (fun d hd loc hloc => by
          have hi := (h2 loc.objectID).mpr ⟨d, hd, loc, hloc, rfl⟩
          refine ih _ hi fun ⟨s, hs0, hs⟩ => h ⟨fun n => Nat.rec dir (fun k _ => s k) n, rfl, fun n => ?_⟩
          cases n with
          | zero => show b.lsInside o (s 0) dir; rw [hs0]; exact hi
          | succ n => exact hs n)
      refine ⟨max (N + 1) (N' + 1), out ++ t, fun rf fuel hrf hfu => ?_⟩
      obtain ⟨f, rfl⟩ : ∃ f, fuel = f + 1 := ⟨fuel - 1, by omega⟩
      rw [(h3 rf f).2 (by omega), h4 rf f (by omega) (by omega)]
      rfl
  · rintro ⟨s, rfl, hs⟩ rf fuel
    exact listDirectory_hangs hb hm hu ho hin hsrt ft si (S := fun d => ∃ n, d = s n)
      (fun d hd => by obtain ⟨n, rfl⟩ := hd; exact ⟨s (n + 1), ⟨n + 1, rfl⟩, hs n⟩) rf fuel _ ⟨0, rfl⟩

/-- C88 is false of the code where the first subvolume made (its number is 256) is in the top
directory: object 256 of the main tree is the top directory, so `ls --recursive` never
ends. -/
theorem C88_subvolume_hangs (b : Bucket) (hb : b.WF) (m : Bytes) (hm : b.stores metadataVersionKey m) (gc : UInt64)
    (hu : b.Undamaged gc) (hM : b.Mountable) (n : Bytes) (e : DirItemRec) (he : b.entryNow 5 256 n e) (ht : e.typ = 2)
    (hloc : e.location.objectID = 256) (srt : Sorter) (hsrt : SortOK srt) (ft : Time → Bytes) (inode : Bool) (rf fuel : Nat) :
    doListFiles rf fuel srt ft ⟨b, ~~~0⟩ ⟨true, inode⟩ [] = .hang := by
  have h := (C65_ends_iff b hb m hm gc hu 5 (by decide) (hM.inodes 5 (by decide)) srt hsrt ft inode 256).2
    ⟨fun _ => 256, rfl, fun _ => ⟨n, e, he, ht, hloc⟩⟩ rf fuel
  have ha : lsArg rf ft ⟨b, ~~~0⟩ ⟨true, inode⟩ {} [47] = .ok { todo := [(5, 256)] } := by
    simp [lsArg, show goClean [47] = [47] by decide, FSTreeObjectID, FirstFreeObjectID]
  simp only [doListFiles, List.isEmpty_nil, if_true, lsArgsLoop, ha, Go.ok_bind, lsTodoLoop, h, Go.hang_bind]

/-- The same for the whole way: the image holds an undamaged file system with its first
subvolume in the top directory; `ls --recursive` with the index file made by scanning it
never ends. -/
theorem C88_subvolume_hangs_image (dev : Bytes) (bs : UInt64) (id : UUID) (ha : ReconArgs dev bs id)
    (hw : wellFormedDevice dev bs id) (hg : imageAgrees dev bs.toNat id) (b : Bucket) (hb : b.IndexOf dev bs.toNat id)
    (gc : UInt64) (hu : b.Undamaged gc) (hM : b.Mountable) (n : Bytes) (e : DirItemRec) (he : b.entryNow 5 256 n e) (ht : e.typ = 2)
    (hloc : e.location.objectID = 256) (srt : Sorter) (hsrt : SortOK srt) (ft : Time → Bytes) (inode : Bool) :
    ∃ f, (∀ fuel, dev.length < fuel → recon fuel dev bs id .absent = (f, .done)) ∧
      ∀ rf fuel, lsCommand rf fuel srt ft (some f) ⟨true, inode⟩ [] () = .hang () := by
  obtain ⟨r, hr', h1, ix, h2, h3⟩ := recon_indexOf ha hw hg hb.spared
  have hs := hb.same hr'
  obtain ⟨m, hm⟩ := hr'.metadata
  refine ⟨_, fun fuel hf => h1 .absent (Or.inl rfl) fuel hf, fun rf fuel => ?_⟩
  have := C88_subvolume_hangs r hr'.wf m hm gc (hs.undamaged hu) (hs.mountable hM) n e (hs.entryNow he) ht hloc srt hsrt ft inode rf fuel
  simp only [lsCommand, openView, h2, h3, Cmd.bind_def, Cmd.lift_ok, this]
  rfl

/-! ## Examples -/

/-- Below directory 258 of `exAll` all is plain; listing the top directory, even not recursively,
meets the subvolume. -/
theorem exAll_plainTree (r : Bool) : exAll.enc.PlainTree r 5 258 := by
  refine ⟨fun _ => 0, fun names d hd _ n e he => ?_⟩
  have h5 : ∀ x ∈ exAllEntries, x.1 = 5 → x.2.1 ≠ 256 → x.2.2.2.2.typ ≠ 132 ∧ x.2.2.2.1 ≠ 2 ∧ x.2.2.2.2.objectID = 259 := by decide
  have hd' : d ≠ 256 := by
    cases hd with
    | here => decide
    | step h hr =>
      have k := h5 _ (exAll_entry h) rfl (show ¬ (258 : UInt64) = 256 by decide)
      simp only at k
      rw [target_plain k.1, k.2.2] at hr
      cases hr with
      | here => decide
      | step h hr =>
        exfalso
        have : ∀ x ∈ exAllEntries, x.2.1 ≠ 259 := by decide
        exact this _ (exAll_entry h) rfl
  have k := h5 _ (exAll_entry he) rfl hd'
  exact ⟨k.1, fun _ h2 => absurd h2 k.2.1⟩

/-- The hypotheses of C88 are met: by the image with five leaves; "/b" is a plain directory, "a" a
file; and its subvolume is in the top directory, so listing that does not end. -/
example : ReconArgs exAllImage 4096 uuidAllFs ∧ wellFormedDevice exAllImage 4096 uuidAllFs ∧
    imageAgrees exAllImage (4096 : UInt64).toNat uuidAllFs ∧ exAll.enc.IndexOf exAllImage (4096 : UInt64).toNat uuidAllFs ∧
    exAll.enc.Undamaged 7 ∧ exAll.enc.Mountable ∧ SortOK lsInsertSort ∧
    (argMeans (ascii "/b/") [[98]] ∧ ∃ e, exAll.enc.EntryOf [[98]] [98] e ∧ e.typ = 2 ∧ exAll.enc.PlainTree true 5 e.location.objectID) ∧
    (argMeans (ascii "./a") [[97]] ∧ ∃ e, exAll.enc.EntryOf [[97]] [97] e ∧ e.typ ≠ 2) ∧
    ∃ e, exAll.enc.entryNow 5 256 [115] e ∧ e.typ = 2 ∧ e.location.objectID = 256 := by
  refine ⟨leaves_args exAllLeaves_ok (by decide), leaves_wellFormed exAllLeaves_ok, exAll_agrees, exAll_indexOf, exAll_undamaged,
    exAll_mountable, lsInsertSort_ok, ⟨?_, ?_⟩, ⟨?_, ?_⟩, ?_⟩
  · exact ⟨by decide, Or.inl (by decide)⟩
  · obtain ⟨e, h1, h2, h3⟩ := entry_of_mem (o := 5) (d := 256) (n := [98]) (t := 2) (loc := ⟨258, 1, 0⟩) (by decide)
    refine ⟨e, ⟨[], 256, rfl, .here, h1, by rw [h3]; decide⟩, h2, ?_⟩
    rw [h3]
    exact exAll_plainTree true
  · exact ⟨by decide, Or.inr ⟨by decide, by decide⟩⟩
  · obtain ⟨e, h1, h2, h3⟩ := entry_of_mem (o := 5) (d := 256) (n := [97]) (t := 1) (loc := ⟨257, 1, 0⟩) (by decide)
    exact ⟨e, ⟨[], 256, rfl, .here, h1, by rw [h3]; decide⟩, by rw [h2]; decide⟩
  · obtain ⟨e, h1, h2, h3⟩ := entry_of_mem (o := 5) (d := 256) (n := [115]) (t := 2) (loc := ⟨256, 132, ~~~0⟩) (by decide)
    exact ⟨e, h1, h2, by rw [h3]⟩

/-- Both cases of `C65_ends_iff` occur: from directory 258 of `exAll` one cannot go down, from its
top directory for ever. -/
example : ¬ exAll.enc.lsEndless 5 258 ∧ exAll.enc.lsEndless 5 256 := by
  constructor
  · rintro ⟨s, h0, hs⟩
    obtain ⟨n, e, h1, h2, -⟩ := hs 0
    rw [h0] at h1
    have : ∀ x ∈ exAllEntries, x.2.1 = 258 → x.2.2.2.1 ≠ 2 := by decide
    exact this _ (exAll_entry h1) rfl h2
  · obtain ⟨e, h1, h2, h3⟩ := entry_of_mem (o := 5) (d := 256) (n := [115]) (t := 2) (loc := ⟨256, 132, ~~~0⟩) (by decide)
    exact ⟨fun _ => 256, rfl, fun _ => ⟨[115], e, h1, h2, by rw [h3]⟩⟩

end Btrfscue
