import Verif.Proof.Piece
import Verif.Props.ContentTrue
import Verif.Props.RecoverLink
import Verif.Spec.RecoverSeen
/-!
# Recovering files and links writes only true bytes, whatever fails
-/

namespace Btrfscue

open Cmd

attribute [local irreducible] Cmd.wp

/-- Writing the data in an item. -/
theorem true_inline {env : Env} {fd : Nat} {P : Nat → UInt8 → Prop} {f0 : HostFS} {p0 : List HostFS}
    {C : Option (List StripeMapEntry) → Prop} {rf : Nat} {ix : Ix}
    {size : Option UInt64} {r : Range} {off ino : UInt64} {f : InlineExtentRec} {data rest tail : Bytes}
    (hk : r.rKey = .ok ⟨ino, 108, off⟩) (hr : f.ramBytes.toNat < 2 ^ 63) (hl : data.length = min f.ramBytes.toNat 16384)
    (hlt : ∀ sz, size = some sz → sz.toNat < 2 ^ 63) (hs : off.toNat + data.length < 2 ^ 63)
    (hP : ∀ j v, data[j]? = some v → P (off.toNat + j) v)
    {s : RecState} (h : TrueSince P fd f0 p0 s) (hC : C s.cache) :
    wp (recoverExtent env rf ix fd size r ⟨f.layout ++ (data ++ rest), tail⟩) (fun _ t => TrueSince P fd f0 p0 t ∧ C t.cache)
      (fun _ => False) s := by
  obtain ⟨i1, i2⟩ := inline_data f data rest tail hr hl
  unfold recoverExtent
  simp only [hk, i2, i1, wp_bind, wp_lift_ok, if_true]
  unfold recoverInline
  rcases inlineLimit_eq hlt hs with ⟨h1, h2⟩ | ⟨n, h1, h2, h3, h4⟩
  · simp only
    rw [if_neg (by omega)]
    exact wp_pure' ⟨h, hC⟩
  · simp only [h1]
    rw [if_pos (by omega)]
    have hto : (Slice.mk data (List.replicate (env.slack data.length) 0)).to (n : Int).toNat =
        .ok ⟨data.take n, data.drop n ++ List.replicate (env.slack data.length) 0⟩ := by
      rw [Int.toNat_natCast, to_eq, if_pos (by omega), List.take_append_of_le_length h3,
        List.drop_append_of_le_length h3]
    rw [wp_bind, hto, wp_lift_ok, wp_bind, int64_small (x := off) (by omega)]
    refine wp_mono (true_write h ?_) ?_ fun _ h => h
    · intro j v hv
      right
      simp only [List.getElem?_take] at hv
      rw [Int.toNat_natCast]
      split at hv
      · exact hP j v hv
      · cases hv
    · rintro ok t ⟨g1, g2⟩
      exact wp_pure' ⟨g1, g2 ▸ hC⟩

/-- Filling an open file from its extents. -/
theorem pieces_true {b : Bucket} (hb : b.WF) {m : Bytes} (hm : b.stores metadataVersionKey m)
    {owner ino : UInt64} {size : Option UInt64} (hok : b.FileReadable owner ino size)
    {N0 : Nat} {map : List StripeMapEntry} (hM : PlaceOK b N0 map) {D : Bytes} {rf : Nat} (hrf : N0 ≤ rf)
    (hrf' : b.length < rf) {env : Env} (hh : Truthful env D) {fd : Nat} {f0 : HostFS} {p0 : List HostFS} {s : RecState}
    (h : TrueSince (b.anyPieceByte owner ino D) fd f0 p0 s) (hc : s.cache = none ∨ s.cache = some map) :
    wp (recoverContents env rf ⟨b, ~~~0⟩ owner ino fd size) (fun _ t => TrueSince (b.anyPieceByte owner ino D) fd f0 p0 t ∧
      (t.cache = none ∨ t.cache = some map)) (fun _ => False) s := by
  obtain ⟨hrange, hin, hp, hsize⟩ := hok
  have hlt : ∀ sz, size = some sz → sz.toNat < 2 ^ 63 := fun sz h => by subst h; exact hsize.2
  have hplace := hM.place
  obtain ⟨l, hl, rfl⟩ := hb.exists_abs
  obtain ⟨rd, items, hr, hy, hpw, hs⟩ := rangeAll_run hl ⟨m, hm⟩ hrange
  have hile : items.length ≤ l.enc.length := by
    rw [show l.enc.length = l.length from List.length_map _]
    exact items_le hpw fun e he => enc_stores.mp ((hs _ _ _).mp he).choose_spec.choose_spec.2.2.1
  have htrunc : ∀ n t, TrueSince (l.enc.anyPieceByte owner ino D) fd f0 p0 t → (t.cache = none ∨ t.cache = some map) →
      wp (sysTruncate env fd n) (fun _ t => TrueSince (l.enc.anyPieceByte owner ino D) fd f0 p0 t ∧
        (t.cache = none ∨ t.cache = some map)) (fun _ => False) t := by
    intro n t ht hct
    refine wp_mono (true_truncate ht) ?_ fun _ h => h
    rintro _ u ⟨h1, h2⟩
    exact ⟨h1, by rw [h2]; exact hct⟩
  unfold recoverContents
  rw [show (Ix.mk l.enc (~~~0)).fileExtentItems owner ino = .ok rd from hr, wp_bind, wp_lift_ok]
  by_cases hnx : rd.1.hasNext = true
  · simp only [hnx, Bool.not_true, Bool.false_eq_true, if_false]
    rw [wp_bind]
    have hloop : wp (rangeLoopRec (recoverExtent env rf ⟨l.enc, ~~~0⟩ fd size) rf rd) (fun _ t =>
        TrueSince (l.enc.anyPieceByte owner ino D) fd f0 p0 t ∧ (t.cache = none ∨ t.cache = some map)) (fun _ => False) s := by
      have hlen : (items.map fun e => (Range.at l.enc (VKey.mk owner (KL2 108 ino) (~~~0)).encode e.1, e.2)).length < rf := by
        rw [List.length_map]; omega
      refine wp_congr (rangeLoopRec_yields hy rf s hlen) ?_
      refine true_fold (C := fun c => c = none ∨ c = some map) _ ?_ s h hc
      intro e' he' s' hs' hc'
      obtain ⟨⟨⟨w, y⟩, sl⟩, he, rfl⟩ := List.mem_map.mp he'
      obtain ⟨off, g, k0, rfl, k1, k2⟩ := (hs _ _ _).mp he
      obtain ⟨p, hseen, h7⟩ := hin off g k0 ⟨y, k1⟩
      have hheld : p.heldBy sl.data := by
        obtain ⟨g', x, d, q0, q1, q2, q3⟩ := hseen
        obtain rfl := runVersion_gen k0 q0
        obtain rfl := hl.unique (enc_stores.mp k1) (enc_stores.mp q1)
        obtain ⟨s', h8, h9⟩ := q2.data
        rw [h8] at k2
        cases k2
        rw [h9]; exact q3
      have hk : (Range.at l.enc (VKey.mk owner (KL2 108 ino) (~~~0)).encode (⟨owner, ⟨ino, 108, off⟩, g⟩, y)).rKey = .ok ⟨ino, 108, off⟩ := by
        simp only [Range.at, Range.rKey, key_encode]
      obtain ⟨sd, st⟩ := sl
      cases p with
      | raw f =>
        obtain ⟨dev, phys, k7⟩ := placed_total (h7 f rfl)
        obtain ⟨ht', rest, rfl⟩ := hheld
        refine true_extent (C := fun c => c = none ∨ c = some map) (phys := phys) hh hk ht' (hp.small _ _ hseen) (hp.holes _ _ hseen)
          (fun hz => hp.addr _ _ _ _ hseen hz k7) ?_ ?_ hs' hc'
        · intro hz c hc
          exact ⟨some map, dev, hplace rf hrf c hc _ _ _ hz k7, Or.inr rfl⟩
        · intro hz j v hj hD
          exact ⟨off, .raw f, hseen, ⟨by omega, by simp only [Piece.size]; omega⟩, Or.inr ⟨hz, dev, phys, k7, by
            rwa [show off.toNat + j - off.toNat = j by omega]⟩⟩
      | inline data =>
        obtain ⟨f, rest, rfl, hram, hlen⟩ := hheld
        refine true_inline (C := fun c => c = none ∨ c = some map) hk hram hlen hlt (hp.small _ _ hseen) ?_ hs' hc'
        intro j v hj
        have := (List.getElem?_eq_some_iff.mp hj).1
        exact ⟨off, .inline data, hseen, ⟨by omega, by simp only [Piece.size]; omega⟩, by
          simp only [Bucket.pieceByte]
          rwa [show off.toNat + j - off.toNat = j by omega]⟩
    refine wp_mono hloop ?_ fun _ h => h
    rintro r t ⟨g1, g2⟩
    cases r with
    | some x => exact wp_pure' ⟨g1, g2⟩
    | none =>
      cases size with
      | none => simp only [finishFile]; exact wp_pure' ⟨g1, g2⟩
      | some sz =>
        simp only [finishFile]
        rw [wp_bind]
        refine wp_mono (htrunc _ t g1 g2) ?_ fun _ h => h
        rintro ok u ⟨u1, u2⟩
        cases ok <;> exact wp_pure' ⟨u1, u2⟩
  · simp only [hnx, Bool.not_false, if_true]
    cases size with
    | none => simp only [finishEmpty]; exact wp_pure' ⟨h, hc⟩
    | some sz =>
      simp only [finishEmpty]
      rw [wp_bind]
      refine wp_mono (htrunc _ s h hc) ?_ fun _ h => h
      rintro ok u ⟨u1, u2⟩
      exact wp_pure' ⟨u1, u2⟩

/-- Recovering a file. -/
theorem file_true_pieces {b : Bucket} (hb : b.WF) {m : Bytes} (hm : b.stores metadataVersionKey m)
    {owner ino : UInt64} {size : Option UInt64} (hok : b.FileReadable owner ino size)
    {N0 : Nat} {map : List StripeMapEntry} (hM : PlaceOK b N0 map) {D : Bytes} {rf : Nat} (hrf : N0 ≤ rf)
    (hrf' : b.length < rf) {env : Env} (hh : Truthful env D) (clobber : Bool) (target : Bytes) {s : RecState}
    (hc : s.cache = none ∨ s.cache = some map) :
    wp (recoverFile env rf ⟨b, ~~~0⟩ clobber owner ino target) (fun _ t =>
      (t.cache = none ∨ t.cache = some map) ∧
      ∀ f, t.reached f → s.reached f ∨ ∃ d, f.readFile target = some d ∧ TrueOrZero (b.anyPieceByte owner ino D) d)
      (fun _ => False) s := by
  unfold recoverFile
  rw [wp_bind]
  refine wp_mono stat_past ?_ fun _ h => h
  rintro st t ⟨t1, t2, t3⟩
  have hkeep : ∀ u : RecState, u.fs = t.fs → u.past = t.past → ∀ f, u.reached f → s.reached f := by
    rintro u u1 u2 f hf
    unfold RecState.reached at hf ⊢
    rwa [u1, u2, t1, t3] at hf
  by_cases hst : (st.isSome && !clobber) = true
  · rw [if_pos hst]
    exact wp_pure' ⟨by rw [t2]; exact hc, fun f hf => Or.inl (hkeep t rfl rfl f hf)⟩
  · rw [if_neg hst, inodeSize_known hb hm hok.range.ordinary hok.size, wp_bind, wp_lift_ok, wp_bind]
    refine wp_mono open_past ?_ fun _ h => h
    rintro r u ⟨u1, u2, u3⟩
    have hcu : u.cache = none ∨ u.cache = some map := by rw [u1, t2]; exact hc
    cases r with
    | none => exact wp_pure' ⟨hcu, fun f hf => Or.inl (hkeep u (u3 rfl).1 (u3 rfl).2 f hf)⟩
    | some fd =>
      obtain ⟨k1, k2⟩ := u2 fd rfl
      obtain ⟨h1, e, h2⟩ := openTrunc_resolve k1
      simp only
      have htrue : TrueSince (b.anyPieceByte owner ino D) fd u.fs u.past u :=
        ⟨⟨Grown.refl _, [], h1, TrueOrZero.nil⟩, fun f hf => Or.inl hf⟩
      refine wp_mono (pieces_true hb hm hok hM hrf hrf' hh htrue hcu) ?_ fun _ h => h
      rintro _ v ⟨⟨v1, v2⟩, v3⟩
      have hread : ∀ f, HoldsTrue (b.anyPieceByte owner ino D) fd u.fs f →
          ∃ d, f.readFile target = some d ∧ TrueOrZero (b.anyPieceByte owner ino D) d := by
        rintro f ⟨hg, d, hd, hd'⟩
        refine ⟨d, ?_, hd'⟩
        unfold HostFS.readFile
        rw [resolve_grown hg h2 ⟨_, h1⟩]
        simp only [hd]
      refine ⟨v3, fun f hf => ?_⟩
      rcases hf with rfl | hf
      · exact Or.inr (hread _ v1)
      · rcases v2 f hf with hf | hf
        · left
          rw [k2, t1, t3] at hf
          rcases List.mem_cons.mp hf with rfl | hf
          · exact Or.inl rfl
          · exact Or.inr hf
        · exact Or.inr (hread f hf)

/-- Recovering a link without `--clobber`: at every point there is what was there before, or the
link with its target. -/
theorem link_true {b : Bucket} (hb : b.WF) {m : Bytes} (hm : b.stores metadataVersionKey m)
    {o i : UInt64} {x : Bytes} (hx : b.targetSeen o i x) {rf : Nat} {env : Env} {q : Bytes} {s : RecState} :
    wp (recoverSymlink env rf ⟨b, ~~~0⟩ false o i q) (fun _ t => ∀ f, t.reached f → s.reached f ∨ f.readLink q = some x)
      (fun _ => False) s := by
  obtain ⟨ho, g, z, d, k1, k2, k3, f, rest, rfl, k4, k5⟩ := hx
  obtain ⟨t', ht'⟩ := findData_newest hb hm ho k1 k2 k3
  have hi : (Ix.mk b (~~~0)).findFileExtentItem o i = .ok (some ⟨f.layout ++ (x ++ rest), t'⟩) := ht'
  obtain ⟨g1, g2⟩ := inline_data f x rest t' k4 k5
  have hl : wp (sysLstat env q) (fun _ t => t.fs = s.fs ∧ t.past = s.past) (fun _ => False) s := by
    unfold wp sysLstat
    simp only [bind_def, tick]
    by_cases hf : env.fails .lstat s.calls = true
    · simp only [hf, if_true, pure_run]
      exact ⟨trivial, trivial⟩
    · simp only [hf, Bool.false_eq_true, if_false, bind_def, get_run, pure_run]
      exact ⟨trivial, trivial⟩
  unfold recoverSymlink
  rw [wp_bind]
  refine wp_mono hl ?_ fun _ h => h
  rintro st t ⟨t1, t2⟩
  have hkeep : ∀ u : RecState, u.fs = t.fs → u.past = t.past → ∀ f, u.reached f → s.reached f := by
    rintro u u1 u2 f hf
    unfold RecState.reached at hf ⊢
    rwa [u1, u2, t1, t2] at hf
  by_cases hst : st.isSome = true
  · simp only [hst, if_true, Bool.not_false]
    exact wp_pure' fun f hf => Or.inl (hkeep t rfl rfl f hf)
  · simp only [hst, Bool.false_eq_true, if_false]
    unfold recoverLink
    rw [hi, wp_bind, wp_lift_ok]
    simp only
    unfold symlinkTarget
    simp only [g2, g1, wp_bind, wp_lift_ok, if_true]
    refine wp_pure' ?_
    unfold makeLink
    simp only
    rw [wp_bind]
    have hlink : wp (sysSymlink env x q) (fun _ u => ∀ f, u.reached f → s.reached f ∨ f.readLink q = some x) (fun _ => False) t := by
      unfold wp sysSymlink
      simp only [bind_def, note, modify_run, tick]
      by_cases hf : env.fails .symlink t.calls = true
      · simp only [hf, if_true, pure_run]
        exact fun f hf => Or.inl (hkeep _ rfl rfl f hf)
      · simp only [hf, Bool.false_eq_true, if_false, bind_def, get_run]
        cases hs : t.fs.symlink x q with
        | none =>
          simp only [applyFS, pure_run]
          exact fun f hf => Or.inl (hkeep _ rfl rfl f hf)
        | some f' =>
          simp only [applyFS, setFS, bind_def, modify_run, pure_run]
          intro f hf
          rcases hf with rfl | hf
          · exact Or.inr (symlink_readLink hs)
          · refine Or.inl (hkeep t rfl rfl f ?_)
            rcases List.mem_cons.mp hf with rfl | hf
            · exact Or.inl rfl
            · exact Or.inr hf
    refine wp_mono hlink ?_ fun _ h => h
    rintro ok u hu
    cases ok <;> exact wp_pure' hu

end Btrfscue
