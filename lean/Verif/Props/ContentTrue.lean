import Verif.Proof.TrueBytes
import Verif.Props.ContentExact
/-!
# C58, C59: no byte is made up, whatever the device does
-/

namespace Btrfscue

open Cmd

section
variable {env : Env} {fd : Nat} {P : Nat → UInt8 → Prop} {f0 : HostFS} {p0 : List HostFS} {C : Option (List StripeMapEntry) → Prop}

theorem true_fold {body : Range → Slice → Rec (Option RecErr)} : ∀ (its : List (Range × Slice)),
    (∀ e ∈ its, ∀ s, TrueSince P fd f0 p0 s → C s.cache →
      wp (body e.1 e.2) (fun _ t => TrueSince P fd f0 p0 t ∧ C t.cache) (fun _ => False) s) →
    ∀ s, TrueSince P fd f0 p0 s → C s.cache →
      wp (foldRec body its) (fun _ t => TrueSince P fd f0 p0 t ∧ C t.cache) (fun _ => False) s := by
  intro its
  induction its with
  | nil => intro _ s h hC; exact ⟨h, hC⟩
  | cons e r ih =>
    intro hall s h hC
    simp only [foldRec]
    rw [wp_bind]
    refine wp_mono (hall e List.mem_cons_self s h hC) ?_ fun _ h => h
    rintro x t ⟨h1, h2⟩
    cases x with
    | some x => exact ⟨h1, h2⟩
    | none => exact ih (fun x hx => hall x (List.mem_cons_of_mem _ hx)) t h1 h2

end

theorem stat_past {env : Env} {p : Bytes} {s : RecState} :
    wp (sysStat env p) (fun _ t => t.fs = s.fs ∧ t.cache = s.cache ∧ t.past = s.past) (fun _ => False) s := by
  unfold wp sysStat
  simp only [bind_def, tick]
  by_cases hf : env.fails .stat s.calls = true
  · simp only [hf, if_true, pure_run]; exact ⟨trivial, trivial, trivial⟩
  · simp only [hf, Bool.false_eq_true, if_false, bind_def, get_run, pure_run]; exact ⟨trivial, trivial, trivial⟩

theorem open_past {env : Env} {p : Bytes} {s : RecState} :
    wp (sysOpen env p) (fun r t => t.cache = s.cache ∧
      (∀ fd, r = some fd → s.fs.openTrunc p = some (t.fs, fd) ∧ t.past = s.fs :: s.past) ∧
      (r = none → t.fs = s.fs ∧ t.past = s.past)) (fun _ => False) s := by
  unfold wp sysOpen
  simp only [bind_def, note, modify_run, tick]
  by_cases hf : env.fails .open s.calls = true
  · simp only [hf, if_true, pure_run]
    exact ⟨trivial, fun _ h => (by cases h), fun _ => ⟨by first | rfl | trivial, by first | rfl | trivial⟩⟩
  · simp only [hf, Bool.false_eq_true, if_false, bind_def, get_run]
    cases ho : s.fs.openTrunc p with
    | none => exact ⟨rfl, fun _ h => (by cases h), fun _ => ⟨rfl, rfl⟩⟩
    | some x =>
      obtain ⟨f, i⟩ := x
      exact ⟨rfl, fun fd h => (by cases h; exact ⟨rfl, rfl⟩), fun h => (by cases h)⟩

attribute [local irreducible] Cmd.wp

theorem contents_true {b : Bucket} (hb : b.WF) {m : Bytes} (hm : b.stores metadataVersionKey m)
    {owner ino : UInt64} (hrange : b.RangeOK owner (KL2 108 ino)) (hin : b.ExtentsIntact owner ino) (hp : b.ExtentsFit owner ino)
    {N0 : Nat} {map : List StripeMapEntry} (hM : PlaceOK b N0 map) {size : Option UInt64} {D : Bytes} {rf : Nat} (hrf : N0 ≤ rf)
    (hrf' : b.length < rf) {env : Env} (hh : Truthful env D) {fd : Nat} {f0 : HostFS} {p0 : List HostFS} {s : RecState}
    (h : TrueSince (b.anyByte owner ino D) fd f0 p0 s) (hc : s.cache = none ∨ s.cache = some map) :
    wp (recoverContents env rf ⟨b, ~~~0⟩ owner ino fd size) (fun _ t => TrueSince (b.anyByte owner ino D) fd f0 p0 t ∧
      (t.cache = none ∨ t.cache = some map)) (fun _ => False) s := by
  have hplace := hM.place
  obtain ⟨l, hl, rfl⟩ := hb.exists_abs
  obtain ⟨rd, items, hr, hy, hpw, hs⟩ := rangeAll_run hl ⟨m, hm⟩ hrange
  have hile : items.length ≤ l.enc.length := by
    rw [show l.enc.length = l.length from List.length_map _]
    exact items_le hpw fun e he => enc_stores.mp ((hs _ _ _).mp he).choose_spec.choose_spec.2.2.1
  have htrunc : ∀ n t, TrueSince (l.enc.anyByte owner ino D) fd f0 p0 t → (t.cache = none ∨ t.cache = some map) →
      wp (sysTruncate env fd n) (fun _ t => TrueSince (l.enc.anyByte owner ino D) fd f0 p0 t ∧
        (t.cache = none ∨ t.cache = some map)) (fun _ => False) t := by
    intro n t ht hct
    refine wp_mono (true_truncate ht) ?_ fun _ h => h
    rintro _ u ⟨h1, h2⟩
    exact ⟨h1, by rw [h2]; exact hct⟩
  unfold recoverContents
  rw [show (Ix.mk l.enc (~~~0)).fileExtentItems owner ino = .ok rd from hr, wp_bind, wp_lift_ok]
  by_cases hnx : rd.1.hasNext = true
  · simp only [hnx, Bool.not_true, Bool.false_eq_true, if_false]
    rw [wp_bind]
    have hloop : wp (rangeLoopRec (recoverExtent env rf ⟨l.enc, ~~~0⟩ fd size) rf rd) (fun _ t =>
        TrueSince (l.enc.anyByte owner ino D) fd f0 p0 t ∧ (t.cache = none ∨ t.cache = some map)) (fun _ => False) s := by
      have hlen : (items.map fun e => (Range.at l.enc (VKey.mk owner (KL2 108 ino) (~~~0)).encode e.1, e.2)).length < rf := by
        rw [List.length_map]; omega
      refine wp_congr (rangeLoopRec_yields hy rf s hlen) ?_
      refine true_fold (C := fun c => c = none ∨ c = some map) _ ?_ s h hc
      intro e' he' s' hs' hc'
      obtain ⟨⟨⟨w, y⟩, sl⟩, he, rfl⟩ := List.mem_map.mp he'
      obtain ⟨off, g, k0, rfl, k1, k2⟩ := (hs _ _ _).mp he
      obtain ⟨f, ⟨x, d, rest, k3, k4, k5⟩, k6, k7⟩ := hin off g k0 ⟨y, k1⟩
      obtain ⟨dev, phys, k7⟩ := placed_total k7
      obtain rfl := hl.unique (enc_stores.mp k1) (enc_stores.mp k3)
      obtain ⟨⟨sd, st⟩, k8, k9⟩ := k4.data
      rw [k8] at k2
      cases k2
      simp only at k9
      subst k9; subst k5
      have hseen : l.enc.extentSeen owner ino off f := ⟨g, k0, y, _, rest, k3, k4, rfl⟩
      have hk : (Range.at l.enc (VKey.mk owner (KL2 108 ino) (~~~0)).encode (⟨owner, ⟨ino, 108, off⟩, g⟩, y)).rKey = .ok ⟨ino, 108, off⟩ := by
        simp only [Range.at, Range.rKey, key_encode]
      refine true_extent (C := fun c => c = none ∨ c = some map) (phys := phys) hh hk k6 (hp.small _ _ hseen) (hp.holes _ _ hseen)
        (fun hz => hp.addr _ _ _ _ hseen hz k7) ?_ ?_ hs' hc'
      · intro hz c hc
        exact ⟨some map, dev, hplace rf hrf c hc _ _ _ hz k7, Or.inr rfl⟩
      · intro hz j v hj hD
        exact ⟨off, f, hseen, ⟨by omega, by omega⟩, Or.inr ⟨hz, dev, phys, k7, by
          rwa [show off.toNat + j - off.toNat = j by omega]⟩⟩
    refine wp_mono hloop ?_ fun _ h => h
    rintro r t ⟨g1, g2⟩
    cases r with
    | some x => exact wp_pure' ⟨g1, g2⟩
    | none =>
      cases size with
      | none => simp only [finishFile]; exact wp_pure' ⟨g1, g2⟩
      | some sz =>
        simp only [finishFile]
        rw [wp_bind]
        refine wp_mono (htrunc _ t g1 g2) ?_ fun _ h => h
        rintro ok u ⟨u1, u2⟩
        cases ok <;> exact wp_pure' ⟨u1, u2⟩
  · simp only [hnx, Bool.not_false, if_true]
    cases size with
    | none => simp only [finishEmpty]; exact wp_pure' ⟨h, hc⟩
    | some sz =>
      simp only [finishEmpty]
      rw [wp_bind]
      refine wp_mono (htrunc _ s h hc) ?_ fun _ h => h
      rintro ok u ⟨u1, u2⟩
      exact wp_pure' ⟨u1, u2⟩

theorem file_true {b : Bucket} (hb : b.WF) {m : Bytes} (hm : b.stores metadataVersionKey m)
    {owner ino : UInt64} (ho : owner ≠ ~~~0) (hrange : b.RangeOK owner (KL2 108 ino)) (hin : b.ExtentsIntact owner ino)
    (hp : b.ExtentsFit owner ino) {size : Option UInt64} (hsz : b.knownSize owner ino size)
    {N0 : Nat} {map : List StripeMapEntry} (hM : PlaceOK b N0 map) {D : Bytes} {rf : Nat} (hrf : N0 ≤ rf)
    (hrf' : b.length < rf) {env : Env} (hh : Truthful env D) (clobber : Bool) (target : Bytes) {s : RecState}
    (hc : s.cache = none ∨ s.cache = some map) :
    wp (recoverFile env rf ⟨b, ~~~0⟩ clobber owner ino target) (fun _ t =>
      (t.cache = none ∨ t.cache = some map) ∧
      ∀ f, t.reached f → s.reached f ∨ ∃ d, f.readFile target = some d ∧ TrueOrZero (b.anyByte owner ino D) d)
      (fun _ => False) s := by
  unfold recoverFile
  rw [wp_bind]
  refine wp_mono stat_past ?_ fun _ h => h
  rintro st t ⟨t1, t2, t3⟩
  have hkeep : ∀ u : RecState, u.fs = t.fs → u.past = t.past → ∀ f, u.reached f → s.reached f := by
    rintro u u1 u2 f hf
    unfold RecState.reached at hf ⊢
    rwa [u1, u2, t1, t3] at hf
  by_cases hst : (st.isSome && !clobber) = true
  · rw [if_pos hst]
    exact wp_pure' ⟨by rw [t2]; exact hc, fun f hf => Or.inl (hkeep t rfl rfl f hf)⟩
  · rw [if_neg hst, inodeSize_known hb hm ho hsz, wp_bind, wp_lift_ok, wp_bind]
    refine wp_mono open_past ?_ fun _ h => h
    rintro r u ⟨u1, u2, u3⟩
    have hcu : u.cache = none ∨ u.cache = some map := by rw [u1, t2]; exact hc
    cases r with
    | none => exact wp_pure' ⟨hcu, fun f hf => Or.inl (hkeep u (u3 rfl).1 (u3 rfl).2 f hf)⟩
    | some fd =>
      obtain ⟨k1, k2⟩ := u2 fd rfl
      obtain ⟨h1, e, h2⟩ := openTrunc_resolve k1
      simp only
      have htrue : TrueSince (b.anyByte owner ino D) fd u.fs u.past u :=
        ⟨⟨Grown.refl _, [], h1, TrueOrZero.nil⟩, fun f hf => Or.inl hf⟩
      refine wp_mono (contents_true hb hm hrange hin hp hM hrf hrf' hh htrue hcu) ?_ fun _ h => h
      rintro _ v ⟨⟨v1, v2⟩, v3⟩
      have hread : ∀ f, HoldsTrue (b.anyByte owner ino D) fd u.fs f →
          ∃ d, f.readFile target = some d ∧ TrueOrZero (b.anyByte owner ino D) d := by
        rintro f ⟨hg, d, hd, hd'⟩
        refine ⟨d, ?_, hd'⟩
        unfold HostFS.readFile
        rw [resolve_grown hg h2 ⟨_, h1⟩]
        simp only [hd]
      refine ⟨v3, fun f hf => ?_⟩
      rcases hf with rfl | hf
      · exact Or.inr (hread _ v1)
      · rcases v2 f hf with hf | hf
        · left
          rw [k2, t1, t3] at hf
          rcases List.mem_cons.mp hf with rfl | hf
          · exact Or.inl rfl
          · exact Or.inr hf
        · exact Or.inr (hread f hf)

/-- C59, whatever the device does: read errors, of any kind and at any time, and failing system
calls may cost bytes, but none are made up. At every point of recovering a file, and after it,
whether it reported an error or not, what is at the file's path is what was there before or a
file each of whose bytes is zero or a byte of one of its extents at that position; and the
program does not crash. For any extents and chunks, of any generations, that are intact. -/
theorem C59_no_byte_made_up (b : Bucket) (hb : b.WF) (m : Bytes) (hm : b.stores metadataVersionKey m)
    (owner ino : UInt64) (ho : owner ≠ ~~~0) (hrange : b.RangeOK owner (KL2 108 ino)) (hchunks : b.RangeOK 3 (KL2 228 256))
    (hseen : b.SeenIntact) (hin : b.ExtentsIntact owner ino) (hp : b.ExtentsFit owner ino) (size : Option UInt64)
    (hsz : b.knownSize owner ino size) :
    ∃ N, ∀ (D : Bytes) (rf : Nat), N ≤ rf → ∀ env, Truthful env D → ∀ (clobber : Bool) (target : Bytes) (s : RecState), s.cache = none →
      ∃ r s', recoverFile env rf ⟨b, ~~~0⟩ clobber owner ino target s = .ok r s' ∧
        ∀ f, s'.reached f → s.reached f ∨
          ∃ d, f.readFile target = some d ∧ ∀ i v, d[i]? = some v → v = 0 ∨ b.anyByte owner ino D i v := by
  obtain ⟨N, map, hM⟩ := placeOK hb hm hchunks hseen
  refine ⟨max N (b.length + 1), fun D rf hrf env hh clobber target s hc => ?_⟩
  have := file_true hb hm ho hrange hin hp hsz hM (rf := rf) (by omega) (by omega) hh clobber target (s := s) (Or.inl hc)
  unfold wp at this
  cases hrun : recoverFile env rf ⟨b, ~~~0⟩ clobber owner ino target s with
  | ok r s' => rw [hrun] at this; exact ⟨r, s', rfl, this.2⟩
  | exit s' => rw [hrun] at this; exact this.elim
  | crash s' => rw [hrun] at this; exact this.elim
  | hang s' => rw [hrun] at this; exact this.elim

/-! ### The hypotheses can be met: `exTwoExtents 11`, whose extents are of different generations -/

theorem exTwo_extent {off : UInt64} {f : FileExtentItemRec} (h : (exTwoExtents 11).enc.extentSeen 5 257 off f) :
    off = 0 ∧ f = FileExtentItemRec.mk 9 4 0 0 0 1 16 4 0 4 := by
  obtain ⟨g, hr, hat⟩ := h
  obtain ⟨x, d, rest, h1, h2, h3⟩ := id hat
  have hx := exTwo_mem h1
  have hsort : (exTwoExtents 11).Sorted := sorted_of_before (by decide +kernel)
  have hfirst : (exTwoExtents 11).enc.runVersion 5 108 257 0 10 := by
    have hk : (exTwoExtents 11).enc.hasVersion 5 ⟨257, 108, 0⟩ 10 := enc_hasVersion.mpr ⟨_, by
      simp only [exTwoExtents, List.mem_cons]; right; right; right; right; right; left; rfl⟩
    refine ⟨⟨0, ⟨hk, fun g' hg' => ?_⟩, fun o' _ => by rw [UInt64.le_iff_toNat_le]; exact Nat.zero_le _⟩, fun o' _ ho' => ?_⟩
    · obtain ⟨y, hy⟩ := enc_hasVersion.mp hg'
      have : ∀ e ∈ exTwoExtents 11, e.1.key = ⟨257, 108, 0⟩ → e.1.gen = 10 := by decide +kernel
      have := this _ hy rfl
      simp only at this
      rw [this, UInt64.le_iff_toNat_le]
    · rw [UInt64.le_iff_toNat_le] at ho'
      have : o' = 0 := UInt64.toNat_inj.mp (Nat.le_zero.mp ho')
      rw [this]; exact hk
  obtain rfl := runVersion_gen hr hfirst
  have : ∀ e ∈ exTwoExtents 11, e.1.owner = 5 → e.1.key.typ = 108 → e.1.gen = 10 → e.1.key.offset = 0 := by decide +kernel
  have ho := this _ hx rfl rfl rfl
  simp only at ho
  subst ho
  exact ⟨rfl, extentAt_unique hsort hat ⟨_, _, [], enc_stores.mpr (by
    simp only [exTwoExtents, List.mem_cons]; right; right; right; right; right; left; rfl),
    mkItem_holds _ _ (by decide), (List.append_nil _).symm⟩⟩

theorem exTwo_place : ∃ N map, PlaceOK (exTwoExtents 11).enc N map :=
  placeOK exTwo_ok.1 exTwo_ok.2.1 exTwo_ok.2.2.2.1 exTwo_ok.2.2.2.2.1

theorem exTwo_placed {dev phys : UInt64} (h : (exTwoExtents 11).enc.placed 16 dev phys) : phys = 0 := by
  obtain ⟨N, map, hM⟩ := exTwo_place
  have : ∀ start s, (exTwoExtents 11).enc.chunkSeen start s → start = 16 := by
    rintro start s ⟨g, c, ss, h1, x, d, r, h2, -⟩
    have : ∀ e ∈ exTwoExtents 11, e.1.owner = 3 → e.1.key.typ = 228 → e.1.key.offset = 16 := by decide +kernel
    exact this _ (exTwo_mem h2) rfl rfl
  exact (hM.unique h (dev' := 1) (phys' := 0) (Or.inr ⟨by decide, 16, _, exTwo_chunk, rfl, by decide, Or.inl ⟨by decide, fun st s hs _ => by
    rw [this st s hs]; exact UInt64.le_refl _⟩⟩)).2

theorem exTwo_fit : (exTwoExtents 11).enc.ExtentsFit 5 257 where
  small off f h := by obtain ⟨rfl, rfl⟩ := exTwo_extent h; decide
  holes off f h := by obtain ⟨rfl, rfl⟩ := exTwo_extent h; decide
  addr off f dev phys h _ hp := by
    obtain ⟨rfl, rfl⟩ := exTwo_extent h
    rw [exTwo_placed hp]; decide

theorem exTwo_size : (exTwoExtents 11).enc.knownSize 5 257 (some 8) := by
  refine ⟨⟨10, _, exInode 8, [], ⟨enc_hasVersion.mpr ⟨_, by simp only [exTwoExtents, List.mem_cons]; right; right; right; left; rfl⟩, ?_⟩,
    enc_stores.mpr (by simp only [exTwoExtents, List.mem_cons]; right; right; right; left; rfl),
    by rw [List.append_nil]; exact mkItem_holds _ _ (by decide +kernel), rfl⟩, by decide⟩
  intro g' hg'
  obtain ⟨y, hy⟩ := enc_hasVersion.mp hg'
  have : ∀ e ∈ exTwoExtents 11, e.1.key = ⟨257, 1, 0⟩ → e.1.gen = 10 := by decide +kernel
  have := this _ hy rfl
  simp only at this
  rw [this]
  exact UInt64.le_refl _

/-- `C58_content_exact`, `C59_error_exact` and `C59_no_byte_made_up` apply to `exTwoExtents 11`. On a
device with 8 bytes the file is recovered, without an error; it has the 8 bytes the inode item says, and
the fifth is zero: the second extent is not got to. -/
example : ∃ N, ∀ rf, N ≤ rf → ∃ s', recoverFile (imageEnv [1, 2, 3, 4, 5, 6, 7, 8]) rf ⟨(exTwoExtents 11).enc, ~~~0⟩ false 5 257
      (ascii "/a") (RecState.start exEmptyHost) = .ok none s' ∧
    ∃ d, s'.fs.readFile (ascii "/a") = some d ∧ d.length = 8 ∧ d[4]? = some 0 := by
  obtain ⟨h1, h2, h3, h4, h5, h6, -⟩ := exTwo_ok
  obtain ⟨N, h⟩ := C59_error_exact (exTwoExtents 11).enc h1 [] h2 5 257 (by decide) h3 h4 h5 h6 exTwo_fit (some 8) exTwo_size
  refine ⟨N, fun rf hrf => ?_⟩
  obtain ⟨r, s', hs, k1, k2⟩ := h [1, 2, 3, 4, 5, 6, 7, 8] rf hrf (imageEnv [1, 2, 3, 4, 5, 6, 7, 8]) ⟨fun _ _ => rfl, fun _ => rfl⟩ false
    (ascii "/a") (RecState.start exEmptyHost) rfl (by decide +kernel) (Or.inr (by decide +kernel))
  obtain rfl := k1.mpr (by
    intro off f dev phys hs _ _ hp
    obtain ⟨rfl, rfl⟩ := exTwo_extent hs
    rw [exTwo_placed hp]; decide)
  obtain ⟨d, hd, hl, -, hby⟩ := k2 rfl
  have hlen : d.length = 8 := hl 8 rfl
  refine ⟨s', hs, d, hd, hlen, ?_⟩
  have hv := List.getElem?_eq_getElem (l := d) (i := 4) (by omega)
  rcases hby 4 _ hv with ⟨off, f, e1, e2, -⟩ | ⟨-, e⟩
  · obtain ⟨rfl, rfl⟩ := exTwo_extent e1
    exact absurd e2.2 (by decide)
  · rw [hv, e]

/-- C58 is false of the code for a file whose extents are of different generations: the second
extent, written later, is missing, and no error is reported. -/
theorem C58_mixed_generations_lost :
    (recoverFile (imageEnv [1, 2, 3, 4, 5, 6, 7, 8]) 9 ⟨(exTwoExtents 11).enc, ~~~0⟩ false 5 257 (ascii "/a")
      (RecState.start exEmptyHost)).seen = some (none, some [1, 2, 3, 4, 0, 0, 0, 0]) := by decide +kernel

/-- A device that fails in the middle of an extent (`C59_read_error_is_silent`): `C59_no_byte_made_up`
applies, and says that the bytes there are of the extents or lost. -/
example (env : Env) (h : Truthful env [1, 2, 3, 4, 5, 6, 7, 8]) : ∃ N, ∀ rf, N ≤ rf → ∃ r s',
    recoverFile env rf ⟨(exTwoExtents 11).enc, ~~~0⟩ false 5 257 (ascii "/a") (RecState.start exEmptyHost) = .ok r s' ∧
    ∀ f, s'.reached f → f = exEmptyHost ∨ ∃ d, f.readFile (ascii "/a") = some d ∧ (d[1]? = none ∨ d[1]? = some 0 ∨ d[1]? = some 2) := by
  obtain ⟨h1, h2, h3, h4, h5, h6, -⟩ := exTwo_ok
  obtain ⟨N, hN⟩ := C59_no_byte_made_up (exTwoExtents 11).enc h1 [] h2 5 257 (by decide) h3 h4 h5 h6 exTwo_fit (some 8) exTwo_size
  refine ⟨N, fun rf hrf => ?_⟩
  obtain ⟨r, s', hs, hall⟩ := hN [1, 2, 3, 4, 5, 6, 7, 8] rf hrf env h false (ascii "/a") (RecState.start exEmptyHost) rfl
  refine ⟨r, s', hs, fun f hf => ?_⟩
  rcases hall f hf with (h | h) | ⟨d, hd, hby⟩
  · exact Or.inl h
  · cases h
  · refine Or.inr ⟨d, hd, ?_⟩
    cases hv : d[1]? with
    | none => exact Or.inl rfl
    | some v =>
      right
      rcases hby 1 v hv with rfl | ⟨off, g, e1, e2, e3⟩
      · exact Or.inl rfl
      · obtain ⟨rfl, rfl⟩ := exTwo_extent e1
        rcases e3 with ⟨z, -⟩ | ⟨-, dev, phys, e4, e5⟩
        · exact absurd z (by decide)
        · rw [exTwo_placed e4] at e5
          exact Or.inr e5.symm

end Btrfscue
