import Verif.Proof.FileCrash
import Verif.Props.PieceEx
/-!
# C75: which damage to a file's metadata recover survives
-/

namespace Btrfscue

open Cmd

attribute [local irreducible] Cmd.wp

theorem wp_returns {α : Type} {c : Rec α} {Q : α → RecState → Prop} {s : RecState} (h : wp c Q (fun _ => False) s) :
    ∃ a t, c s = .ok a t ∧ Q a t := by
  unfold Cmd.wp at h
  cases hc : c s with
  | ok a t => rw [hc] at h; exact ⟨a, t, rfl, h⟩
  | exit t => rw [hc] at h; exact h.elim
  | crash t => rw [hc] at h; exact h.elim
  | hang t => rw [hc] at h; exact h.elim

/-- C75: if all the extent items of a file that iterating gets to are sound — complete, no hole
longer than `2^48` bytes, a chunk for those with an address — then recovering the file ends
without a crash, in every environment: whatever system calls fail, whatever the device answers,
wherever the extents claim to be. (Stronger than `C75_readable_ends_partial`.) -/
theorem C75_sound_ends_partial (b : Bucket) (hb : b.WF) (m : Bytes) (hm : b.stores metadataVersionKey m)
    (owner ino : UInt64) (size : Option UInt64) (hsize : b.knownSize owner ino size) (hrange : b.RangeOK owner (KL2 108 ino))
    (hchunks : b.RangeOK 3 (KL2 228 256)) (hseen : b.SeenIntact)
    (hsound : ∀ off g x, b.runVersion owner 108 ino off g → b.stores ⟨owner, ⟨ino, 108, off⟩, g⟩ x →
      ∃ d, holdsItem x d ∧ b.soundExtent d) :
    ∃ N, ∀ rf, N ≤ rf → ∀ env (clobber : Bool) (target : Bytes) (s : RecState), s.cache = none →
      ∃ r s', recoverFile env rf ⟨b, ~~~0⟩ clobber owner ino target s = .ok r s' := by
  obtain ⟨N, map, hbuilt, hphys⟩ := physical_core hb hm hchunks hseen
  have hlt : ∀ sz, size = some sz → sz.toNat < 2 ^ 63 := fun sz h => by subst h; exact hsize.2
  refine ⟨max N (b.length + 1), fun rf hrf env clobber target s hc => ?_⟩
  have hsz := inodeSize_known hb hm hrange.ordinary hsize
  obtain ⟨C, hC⟩ : ∃ C : Option (List StripeMapEntry) → Prop, ∀ c, C c ↔ (c = none ∨ c = some map) := ⟨_, fun _ => Iff.rfl⟩
  have hph : (∃ start s, b.chunkSeen start s) → ∀ c, C c → ∀ a, ∃ c' x, (Ix.mk b (~~~0)).physical rf c a = .ok (c', x) ∧ C c' := by
    intro hex c hc a
    obtain ⟨k1, k2, -⟩ := hphys rf (by omega) c ((hC c).mp hc) a
    have hM : PlaceOK b N map := by
      refine ⟨hbuilt, ?_⟩
      rintro fuel hfu cache hc dbn dev phys hnz (⟨h0, -⟩ | ⟨-, start, s, h1, rfl, rfl, h4⟩)
      · exact absurd h0 hnz
      · obtain ⟨k1, k2, -⟩ := hphys fuel hfu cache hc dbn
        rcases h4 with ⟨h4, h5⟩ | ⟨h4, h5⟩
        · exact k1 start s h1 h4 h5
        · exact k2 start s h1 h4 h5
    by_cases ha : a = 0
    · subst ha
      by_cases hz : ∃ start s, b.chunkSeen start s ∧ start ≤ (0 : UInt64)
      · obtain ⟨start, st, h1, h2⟩ := hz
        have h0 : start = 0 := UInt64.toNat_inj.mp (by rw [UInt64.le_iff_toNat_le] at h2; simpa using h2)
        refine ⟨_, _, k1 start st h1 h2 fun start' _ _ h => ?_, (hC _).mpr (Or.inr rfl)⟩
        rw [h0]; exact h
      · have : ∀ n : Nat, ∀ start s, b.chunkSeen start s → start.toNat = n →
            ∃ start s, b.chunkSeen start s ∧ ∀ start' s', b.chunkSeen start' s' → start ≤ start' := by
          intro n
          induction n using Nat.strong_induction_on with
          | _ n ih =>
            intro start st h1 h2
            by_cases hmin : ∀ start' s', b.chunkSeen start' s' → start ≤ start'
            · exact ⟨start, st, h1, hmin⟩
            · simp only [not_forall] at hmin
              obtain ⟨start', s', h3, h4⟩ := hmin
              rw [UInt64.le_iff_toNat_le] at h4
              exact ih start'.toNat (by omega) start' s' h3 rfl
        obtain ⟨start, st, h1⟩ := hex
        obtain ⟨start, st, h1, h2⟩ := this _ start st h1 rfl
        refine ⟨_, _, k2 start st h1 ?_ h2, (hC _).mpr (Or.inr rfl)⟩
        rw [UInt64.lt_iff_toNat_lt]
        rcases Nat.lt_or_ge (0 : UInt64).toNat start.toNat with h | h
        · exact h
        · exact absurd ⟨start, st, h1, UInt64.le_iff_toNat_le.mpr h⟩ hz
    · obtain ⟨dev, phys, h⟩ := placed_total (b := b) (dbn := a) (fun _ => hex)
      exact ⟨some map, (dev, phys), hM.place rf (by omega) c ((hC c).mp hc) a dev phys ha h, (hC _).mpr (Or.inr rfl)⟩
  have hcont : ∀ fd, Ends C (recoverContents env rf ⟨b, ~~~0⟩ owner ino fd size) := by
    intro fd
    obtain ⟨l, hl, rfl⟩ := hb.exists_abs
    obtain ⟨rd, items, hr, hy, hpw, hs⟩ := rangeAll_run hl ⟨m, hm⟩ hrange
    have hile : items.length ≤ l.enc.length := by
      rw [show l.enc.length = l.length from List.length_map _]
      exact items_le hpw fun e he => enc_stores.mp ((hs _ _ _).mp he).choose_spec.choose_spec.2.2.1
    have hfin : Ends C (finishFile env fd size) := by
      unfold finishFile
      cases size with
      | none => exact Ends.pure
      | some sz => exact Ends.bind Ends.sysTruncate fun _ => Ends.ite (fun _ => Ends.pure) fun _ => Ends.pure
    have hemp : Ends C (finishEmpty env fd size) := by
      unfold finishEmpty
      cases size with
      | none => exact Ends.pure
      | some sz => exact Ends.bind Ends.sysTruncate fun _ => Ends.pure
    intro s hs'
    unfold recoverContents
    rw [show (Ix.mk l.enc (~~~0)).fileExtentItems owner ino = .ok rd from hr, wp_bind, wp_lift_ok]
    rcases yields_head hy with ⟨-, hno⟩ | ⟨rest, -, hyes⟩
    · rw [hno]
      exact hemp s hs'
    · rw [hyes]
      simp only [Bool.not_true, Bool.false_eq_true, if_false]
      rw [wp_bind]
      refine wp_congr (rangeLoopRec_yields hy rf s (by rw [List.length_map]; omega)) ?_
      refine wp_mono (Ends.foldRec (C := C) _ ?_ s hs') (fun r t ht => ?_) fun _ h => h
      · intro e he
        obtain ⟨⟨⟨w, y⟩, sl⟩, he', rfl⟩ := List.mem_map.mp he
        obtain ⟨off, g, h0, rfl, h1, h2⟩ := (hs _ _ _).mp he'
        obtain ⟨d, hd, hsd⟩ := hsound off g y h0 h1
        obtain ⟨sl', h8, h9⟩ := hd.data
        rw [h8] at h2
        cases h2
        obtain ⟨sd, st⟩ := sl
        subst h9
        refine Ends.extent (k := ⟨ino, 108, off⟩) hsd hph hlt ?_
        simp only [Range.at, Range.rKey, key_encode]
      · cases r with
        | some e => exact Ends.pure (a := some e) t ht
        | none => exact hfin t ht
  refine (wp_returns (Q := fun _ _ => True) ?_).imp fun a h => h.imp fun t h => h.1
  refine wp_mono ((show Ends C _ from ?_) s ((hC _).mpr (Or.inl hc))) (fun _ _ _ => trivial) fun _ h => h
  unfold recoverFile
  refine Ends.bind Ends.sysStat fun st => Ends.ite (fun _ => Ends.pure) fun _ => fun t ht => ?_
  rw [hsz, wp_bind, wp_lift_ok]
  refine Ends.bind Ends.sysOpen (fun fd => ?_) t ht
  cases fd with
  | none => exact Ends.pure
  | some fd => exact hcont fd

/-- The first item that is not good crashes the loop, if the ones before it are copied. -/
theorem crash_fold {env : Env} {D : Bytes} {C : Option (List StripeMapEntry) → Prop} {fd : Nat}
    {body : Range → Slice → Rec (Option RecErr)} (good : Range × Slice → Prop) (hq : Quiet env D) :
    ∀ (its : List (Range × Slice)),
      (∀ e ∈ its, good e → ∃ w ok, ok ∧ Fills env D C fd w ok (body e.1 e.2)) →
      (∀ e ∈ its, ¬ good e → ∀ s : RecState, C s.cache → ∃ t, body e.1 e.2 s = .crash t) →
      (∃ e ∈ its, ¬ good e) → ∀ (s : RecState) (d0 : Bytes), s.fs.inodes[fd]? = some (.file d0) → C s.cache →
      ∃ t, foldRec body its s = .crash t := by
  intro its
  induction its with
  | nil => rintro - - ⟨e, he, -⟩; cases he
  | cons e its ih =>
    intro hg hbad hex s d0 hf hc
    unfold foldRec
    by_cases hge : good e
    · obtain ⟨w, ok, hok, hfill⟩ := hg e List.mem_cons_self hge
      obtain ⟨r, t, hr, -, h2, h3, h4⟩ := wp_returns (hfill s d0 hf hc)
      obtain rfl := h4 hq hok
      rw [bind_ok hr]
      refine ih (fun e' he' => hg e' (List.mem_cons_of_mem _ he')) (fun e' he' => hbad e' (List.mem_cons_of_mem _ he')) ?_ t _ (h3 rfl).1 h2
      obtain ⟨e', he', hb'⟩ := hex
      rcases List.mem_cons.mp he' with rfl | h
      · exact absurd hge hb'
      · exact ⟨e', h, hb'⟩
    · obtain ⟨t, ht⟩ := hbad e List.mem_cons_self hge s hc
      exact ⟨t, bind_crash ht⟩

set_option maxHeartbeats 1000000 in
/-- C75, exactly: on a quiet machine, if all the data that the file's sound extents point to is on
the device, recovering the file crashes if and only if one of the extent items that iterating gets
to is damaged: cut short, a hole of more than `2^48` bytes, or one with an address when no chunk
is known. -/
theorem C75_crash_iff (b : Bucket) (hb : b.WF) (m : Bytes) (hm : b.stores metadataVersionKey m)
    (owner ino : UInt64) (size : Option UInt64) (hsize : b.knownSize owner ino size) (hrange : b.RangeOK owner (KL2 108 ino))
    (hchunks : b.RangeOK 3 (KL2 228 256)) (hseen : b.SeenIntact)
    (hexact : ∀ off g x, b.runVersion owner 108 ino off g → b.stores ⟨owner, ⟨ino, 108, off⟩, g⟩ x → ∃ d, holdsExactly x d)
    (hsmall : ∀ off p, b.pieceSeen owner ino off p → off.toNat + p.size < 2 ^ 63)
    (haddr : ∀ off f dev phys, b.pieceSeen owner ino off (.raw f) → f.diskByteNr ≠ 0 → b.placed f.diskByteNr dev phys →
      (phys + f.offset).toNat + f.numBytes.toNat < 2 ^ 63) :
    ∃ N, ∀ rf, N ≤ rf → ∀ env D, Quiet env D → b.PiecesOnDevice owner ino D →
      ∀ (clobber : Bool) (target : Bytes) (s : RecState), s.cache = none →
      (clobber = true ∨ s.fs.stat true target = none) → s.fs.openTrunc target ≠ none →
      ((∃ t, recoverFile env rf ⟨b, ~~~0⟩ clobber owner ino target s = .crash t) ↔
        ∃ off d, b.extentData owner ino off d ∧ ¬ b.soundExtent d) := by
  obtain ⟨N1, hends⟩ : ∃ N1, (¬ ∃ off d, b.extentData owner ino off d ∧ ¬ b.soundExtent d) →
      ∀ rf, N1 ≤ rf → ∀ env (clobber : Bool) (target : Bytes) (s : RecState), s.cache = none →
      ∃ r s', recoverFile env rf ⟨b, ~~~0⟩ clobber owner ino target s = .ok r s' := by
    by_cases hall : ∃ off d, b.extentData owner ino off d ∧ ¬ b.soundExtent d
    · exact ⟨0, fun h => absurd hall h⟩
    · obtain ⟨N1, h⟩ := C75_sound_ends_partial b hb m hm owner ino size hsize hrange hchunks hseen (by
        intro off g x h0 h1
        obtain ⟨d, hd⟩ := hexact off g x h0 h1
        refine ⟨d, hd.holds, ?_⟩
        by_contra hns
        exact hall ⟨off, d, ⟨g, x, h0, h1, hd⟩, hns⟩)
      exact ⟨N1, fun _ => h⟩
  obtain ⟨N, map, hbuilt, hphys⟩ := physical_core hb hm hchunks hseen
  have hM : PlaceOK b N map := by
    refine ⟨hbuilt, ?_⟩
    rintro fuel hfu cache hc dbn dev phys hnz (⟨h0, -⟩ | ⟨-, start, s, h1, rfl, rfl, h4⟩)
    · exact absurd h0 hnz
    · obtain ⟨k1, k2, -⟩ := hphys fuel hfu cache hc dbn
      rcases h4 with ⟨h4, h5⟩ | ⟨h4, h5⟩
      · exact k1 start s h1 h4 h5
      · exact k2 start s h1 h4 h5
  have hlt : ∀ sz, size = some sz → sz.toNat < 2 ^ 63 := fun sz h => by subst h; exact hsize.2
  have hsz := inodeSize_known hb hm hrange.ordinary hsize
  refine ⟨max N1 (max N (b.length + 1)), fun rf hrf env D hq hon clobber target s hc hclob hopen => ⟨fun ⟨t, ht⟩ => ?_, fun hex => ?_⟩⟩
  · by_contra hno
    obtain ⟨r, s', h⟩ := hends hno rf (by omega) env clobber target s hc
    rw [h] at ht
    cases ht
  · have hcont : ∀ fd (u : RecState), u.fs.inodes[fd]? = some (.file []) → u.cache = none →
        ∃ t, recoverContents env rf ⟨b, ~~~0⟩ owner ino fd size u = .crash t := by
      intro fd u hfd huc
      obtain ⟨l, hl, rfl⟩ := hb.exists_abs
      obtain ⟨rd, items, hr, hy, hpw, hs⟩ := rangeAll_run hl ⟨m, hm⟩ hrange
      have hile : items.length ≤ l.enc.length := by
        rw [show l.enc.length = l.length from List.length_map _]
        exact items_le hpw fun e he => enc_stores.mp ((hs _ _ _).mp he).choose_spec.choose_spec.2.2.1
      have hfold : ∃ t, foldRec (recoverExtent env rf ⟨l.enc, ~~~0⟩ fd size)
          (items.map fun e => (Range.at l.enc (VKey.mk owner (KL2 108 ino) (~~~0)).encode e.1, e.2)) u = .crash t := by
        refine crash_fold (C := fun c => c = none ∨ c = some map) (fun e => l.enc.soundExtent e.2.data) hq _ ?_ ?_ ?_ u [] hfd (Or.inl huc)
        · intro e he hgood
          obtain ⟨⟨⟨w, y⟩, sl⟩, he', rfl⟩ := List.mem_map.mp he
          obtain ⟨off, g, h0, rfl, h1, h2⟩ := (hs _ _ _).mp he'
          obtain ⟨d, hd⟩ := hexact off g y h0 h1
          rw [hd.data] at h2
          cases h2
          have hk : (Range.at l.enc (VKey.mk owner (KL2 108 ino) (~~~0)).encode (⟨owner, ⟨ino, 108, off⟩, g⟩, y)).rKey = .ok ⟨ino, 108, off⟩ := by
            simp only [Range.at, Range.rKey, key_encode]
          obtain ⟨p, hp, hf⟩ := hgood
          have hps : l.enc.pieceSeen owner ino off p := ⟨g, y, d, h0, h1, hd.holds, hp⟩
          have hs1 := hsmall off p hps
          cases p with
          | inline data =>
            obtain ⟨f, rest, hdd, hram, hlen⟩ := hp
            simp only at hdd
            subst hdd
            exact ⟨_, True, trivial, fills_inline hk hram hlen hlt hs1⟩
          | raw f =>
            obtain ⟨ht', rest, hdd⟩ := hp
            simp only at hdd
            subst hdd
            obtain ⟨hz, hch⟩ := hf f rfl
            obtain ⟨dev, phys, hpl⟩ := placed_total hch
            have hph : f.diskByteNr ≠ 0 → ∀ c, (c = none ∨ c = some map) →
                ∃ c' dev', (Ix.mk l.enc (~~~0)).physical rf c f.diskByteNr = .ok (c', dev', phys) ∧ (c' = none ∨ c' = some map) :=
              fun hz c hc => ⟨some map, dev, hM.place rf (by omega) c hc _ _ _ hz hpl, Or.inr rfl⟩
            exact ⟨_, _, fun hz hn => hon off f dev phys hps hz hn hpl,
              fills_extent hq.honest hk ht' hs1 hz (fun h => haddr off f dev phys hps h hpl) hph⟩
        · intro e he hbad s' hc'
          obtain ⟨⟨⟨w, y⟩, sl⟩, he', rfl⟩ := List.mem_map.mp he
          obtain ⟨off, g, h0, rfl, h1, h2⟩ := (hs _ _ _).mp he'
          obtain ⟨d, hd⟩ := hexact off g y h0 h1
          rw [hd.data] at h2
          cases h2
          refine crash_extent (k := ⟨ino, 108, off⟩) hbad (fun hno c hc a => (hphys rf (by omega) c hc a).2.2 hno) ?_ s' hc'
          simp only [Range.at, Range.rKey, key_encode]
        · obtain ⟨off, d, ⟨g, x, h0, h1, hd⟩, hns⟩ := hex
          have hm' := (hs _ _ _).mpr ⟨off, g, h0, rfl, h1, hd.data⟩
          exact ⟨_, List.mem_map_of_mem hm', hns⟩
      obtain ⟨t, hfold⟩ := hfold
      refine ⟨t, ?_⟩
      unfold recoverContents
      rw [show (Ix.mk l.enc (~~~0)).fileExtentItems owner ino = .ok rd from hr, bind_ok (lift_ok _ _)]
      rcases yields_head hy with ⟨hnil, -⟩ | ⟨rest, -, hyes⟩
      · rw [hnil] at hfold
        cases hfold
      · rw [hyes]
        simp only [Bool.not_true, Bool.false_eq_true, if_false]
        exact bind_crash ((rangeLoopRec_yields hy rf u (by rw [List.length_map]; omega)).trans hfold)
    unfold recoverFile
    obtain ⟨st, t, hst, t1, t2, t3⟩ := wp_returns (wp_statAt (env := env) (p := target) (s := s))
    rw [bind_ok hst]
    have hns : ¬ (st.isSome && !clobber) = true := by
      intro h
      rw [Bool.and_eq_true, Bool.not_eq_true'] at h
      rcases hclob with h' | h'
      · rw [h.2] at h'; cases h'
      · exact t3 h.1 h'
    rw [if_neg hns, hsz, bind_ok (lift_ok _ _)]
    obtain ⟨r, u, hu, u1, u2, u3, u4⟩ := wp_returns (wp_sysOpen (env := env) (p := target) (s := t))
    rw [bind_ok hu]
    cases r with
    | none => exact absurd rfl (u4 hq.calls (by rw [t1]; exact hopen))
    | some fd =>
      obtain ⟨h1, -, -⟩ := openTrunc_resolve (u2 fd rfl)
      exact hcont fd u h1 (by rw [u1, t2, hc])

/-! ### The hypotheses can be met -/

/-- `C75_sound_ends_partial` applies to a file with an inline and another extent: recovering it ends
whatever the environment does. -/
example : ∃ N, ∀ rf, N ≤ rf → ∀ env (target : Bytes) (fs : HostFS),
    ∃ r s', recoverFile env rf ⟨exMixedPieces.enc, ~~~0⟩ false 5 257 target (RecState.start fs) = .ok r s' := by
  obtain ⟨N, h⟩ := C75_sound_ends_partial exMixedPieces.enc exMixedPieces_wf [] exMixedPieces_meta 5 257 none
    exMixedPieces_readable.size exMixedPieces_readable.range
    (exMixedPieces_range _ _ (by decide) (by decide +kernel)) exMixedPieces_seen (by
      intro off g x h0 h1
      have hu : ∀ p, exMixedPieces.enc.pieceSeen 5 257 off p → (∀ f, p = .raw f → f.diskByteNr ≠ 0) → ∃ d, holdsItem x d ∧ exMixedPieces.enc.soundExtent d := by
        rintro p ⟨g', x', d, k0, k1, k2, k3⟩ hf
        obtain rfl := runVersion_gen h0 k0
        have hsort : exMixedPieces.Sorted := sorted_of_before (by decide +kernel)
        obtain rfl := hsort.unique (enc_stores.mp h1) (enc_stores.mp k1)
        exact ⟨d, k2, p, k3, fun f h => ⟨fun h0 => absurd h0 (hf f h), fun _ => ⟨_, _, exMixedPieces_chunk⟩⟩⟩
      rcases exMixedPieces_pieces h0 ⟨x, h1⟩ with ⟨-, h⟩ | ⟨-, h⟩
      · exact hu _ h fun f hf => (by cases hf)
      · exact hu _ h fun f hf => (by injection hf with hf; subst hf; decide))
  exact ⟨N, fun rf hrf env target fs => h rf hrf env false target (RecState.start fs) rfl⟩

/-- A file with an inline extent and one that was cut short. -/
def exTornPieces : AStore :=
  [(⟨3, ⟨1, 216, 1⟩, 7⟩, mkItem ⟨1, 216, 1⟩ []),
   (⟨3, ⟨256, 228, 16⟩, 7⟩, exChunk 16 64 1 0),
   (⟨3, ⟨257, 229, 0⟩, 7⟩, mkItem ⟨257, 229, 0⟩ []),
   (⟨5, ⟨257, 108, 0⟩, 10⟩, mkItem ⟨257, 108, 0⟩ (exInline 3 [1, 2, 3])),
   (⟨5, ⟨257, 108, 2⟩, 10⟩, mkItem ⟨257, 108, 2⟩ [9, 9]),
   (⟨5, ⟨258, 132, 0⟩, 10⟩, mkItem ⟨258, 132, 0⟩ []),
   (metadataVersionKey, [])]

theorem exTorn_sorted : exTornPieces.Sorted := sorted_of_before (by decide +kernel)

theorem exTorn_intact (e : VKey × Bytes) (he : e ∈ exTornPieces) (ho : e.1.owner ≠ ~~~0) : ∃ d, holdsItem e.2 d := by
  simp only [exTornPieces, List.mem_cons, List.not_mem_nil, or_false] at he
  rcases he with rfl | rfl | rfl | rfl | rfl | rfl | rfl
  · exact ⟨_, mkItem_holds _ _ (by decide)⟩
  · exact exChunk_holds _ _ _ _
  · exact ⟨_, mkItem_holds _ _ (by decide)⟩
  · exact ⟨_, mkItem_holds _ _ (by decide +kernel)⟩
  · exact ⟨_, mkItem_holds _ _ (by decide +kernel)⟩
  · exact ⟨_, mkItem_holds _ _ (by decide)⟩
  · exact absurd rfl ho

theorem exTorn_range (o : UInt64) (last : Key) (ho : o ≠ ~~~0) (hc : ∃ e ∈ exTornPieces, e.1.owner = o ∧ last.before e.1.key) :
    exTornPieces.enc.RangeOK o last :=
  rangeOK_of ho (fun e he h => exTorn_intact e he (h ▸ ho))
    (fun e he h => (by decide +kernel : ∀ e ∈ exTornPieces, e.1.owner ≠ ~~~0 → e.1.gen ≠ ~~~0 ∧ e.1.key ≠ KL0) e he (h ▸ ho)) hc

theorem exTorn_seen : exTornPieces.enc.SeenIntact := by
  rintro start g - ⟨x, hx⟩
  have : ∀ e ∈ exTornPieces, e.1.owner = 3 → e.1.key.typ = 228 → e = (⟨3, ⟨256, 228, 16⟩, 7⟩, exChunk 16 64 1 0) := by decide +kernel
  have h := this _ (enc_stores.mp hx) rfl rfl
  simp only [Prod.mk.injEq, VKey.mk.injEq, Key.mk.injEq] at h
  obtain ⟨⟨-, ⟨-, -, rfl⟩, rfl⟩, rfl⟩ := h
  exact ⟨_, _, exChunk_at (enc_stores.mp hx)⟩

theorem exTorn_items : ∀ e ∈ exTornPieces, e.1.owner = 5 → e.1.key.typ = 108 →
    e = (⟨5, ⟨257, 108, 0⟩, 10⟩, mkItem ⟨257, 108, 0⟩ (exInline 3 [1, 2, 3])) ∨
    e = (⟨5, ⟨257, 108, 2⟩, 10⟩, mkItem ⟨257, 108, 2⟩ [9, 9]) := by decide +kernel

theorem short_not_piece (p : Piece) : ¬ p.heldBy [9, 9] := by
  intro h
  have : 21 ≤ ([9, 9] : Bytes).length := by
    cases p with
    | inline d => obtain ⟨f, rest, h, -⟩ := h; rw [h]; simp [InlineExtentRec.layout]; omega
    | raw f => obtain ⟨-, rest, h⟩ := h; rw [h]; simp [FileExtentItemRec.layout]; omega
  simp at this

/-- Its only piece. -/
theorem exTorn_piece {off : UInt64} {p : Piece} (h : exTornPieces.enc.pieceSeen 5 257 off p) : off = 0 ∧ p = .inline [1, 2, 3] := by
  obtain ⟨g, x, d, h1, h2, h3, h4⟩ := id h
  obtain ⟨sl, h5, h6⟩ := h3.data
  rcases exTorn_items _ (enc_stores.mp h2) rfl rfl with h' | h'
  · simp only [Prod.mk.injEq, VKey.mk.injEq, Key.mk.injEq] at h'
    obtain ⟨⟨-, ⟨-, -, rfl⟩, rfl⟩, rfl⟩ := h'
    refine ⟨rfl, pieceSeen_unique exTorn_sorted h ⟨10, _, _, h1, h2, mkItem_holds _ _ (by decide +kernel), ⟨9, 3, 0, 0, 0⟩, [], rfl, by decide, by decide⟩⟩
  · simp only [Prod.mk.injEq, VKey.mk.injEq, Key.mk.injEq] at h'
    obtain ⟨⟨-, ⟨-, -, rfl⟩, rfl⟩, rfl⟩ := h'
    rw [(mkItem_exactly _ [9, 9] (by decide)).data] at h5
    cases h5
    subst h6
    exact absurd h4 (short_not_piece p)

theorem exTorn_first : exTornPieces.enc.extentData 5 257 2 [9, 9] := by
  obtain ⟨off, g, h1, ⟨x, h2⟩⟩ := run_first (b := exTornPieces.enc) (o := 5) (t := 108) (id := 257)
    ⟨2, enc_hasKey.mpr ⟨10, mkItem ⟨257, 108, 2⟩ [9, 9], by simp only [exTornPieces, List.mem_cons, true_or, or_true]⟩⟩
  have h3 : g = 10 := by
    have : ∀ e ∈ exTornPieces, e.1.owner = 5 → e.1.gen = 10 := by decide +kernel
    exact this _ (enc_stores.mp h2) rfl
  subst h3
  refine ⟨10, mkItem ⟨257, 108, 2⟩ [9, 9], ?_, enc_stores.mpr (by simp only [exTornPieces, List.mem_cons, true_or, or_true]),
    mkItem_exactly _ _ (by decide)⟩
  refine ⟨h1.1, fun off' hk _ => ?_⟩
  obtain ⟨g, y, hy⟩ := enc_hasKey.mp hk
  have : ∀ e ∈ exTornPieces, e.1.owner = 5 → e.1.gen = 10 := by decide +kernel
  have := this _ hy rfl
  simp only at this
  subst this
  exact enc_hasVersion.mpr ⟨y, hy⟩

/-- `C75_crash_iff` applies: recovering that file crashes. -/
example : ∃ N, ∀ rf, N ≤ rf → ∃ t, recoverFile (imageEnv []) rf ⟨exTornPieces.enc, ~~~0⟩ false 5 257 (ascii "/a")
    (RecState.start exEmptyHost) = .crash t := by
  obtain ⟨N, h⟩ := C75_crash_iff exTornPieces.enc (AStore.enc_wf exTorn_sorted) [] (enc_stores.mpr (by simp [exTornPieces])) 5 257 none
    (by
      rintro ⟨g, hv⟩
      obtain ⟨x, hx⟩ := enc_hasVersion.mp hv
      have : ∀ e ∈ exTornPieces, e.1.key ≠ ⟨257, 1, 0⟩ := by decide +kernel
      exact this _ hx rfl)
    (exTorn_range _ _ (by decide) (by decide +kernel)) (exTorn_range _ _ (by decide) (by decide +kernel)) exTorn_seen
    (by
      intro off g x _ h1
      rcases exTorn_items _ (enc_stores.mp h1) rfl rfl with h' | h' <;>
      · simp only [Prod.mk.injEq] at h'
        rw [h'.2]
        exact ⟨_, mkItem_exactly _ _ (by decide +kernel)⟩)
    (by
      intro off p h
      obtain ⟨rfl, rfl⟩ := exTorn_piece h
      decide)
    (by
      intro off f dev phys h
      cases (exTorn_piece h).2)
  refine ⟨N, fun rf hrf => (h rf hrf (imageEnv []) [] ⟨fun _ _ => rfl, fun _ => rfl⟩ ?_ false (ascii "/a") (RecState.start exEmptyHost) rfl
    (Or.inr (by decide +kernel)) (by decide +kernel)).mpr ⟨2, [9, 9], exTorn_first, fun ⟨p, hp, _⟩ => short_not_piece p hp⟩⟩
  intro off f dev phys h
  cases (exTorn_piece h).2

end Btrfscue
