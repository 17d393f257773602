import Verif.Spec.ContentExact
import Verif.Proof.PwriteLast
import Verif.Props.RecoverContent
import Verif.Props.RecoverLost
import Verif.Props.OpenExact
/-!
# C58, C59: the contents of recovered files, for any extents and generations
-/

namespace Btrfscue

open Cmd

/-- `map` is the list of stripes the program caches: with it, or without any, addresses are
translated to their places. -/
structure PlaceOK (b : Bucket) (N : Nat) (map : List StripeMapEntry) : Prop where
  built : ∀ fuel, N ≤ fuel → (Ix.mk b (~~~0)).buildStripeMap fuel = .ok map
  place : ∀ fuel, N ≤ fuel → ∀ cache, cache = none ∨ cache = some map → ∀ dbn dev phys, dbn ≠ 0 → b.placed dbn dev phys →
    (Ix.mk b (~~~0)).physical fuel cache dbn = .ok (some map, dev, phys)

theorem placeOK {b : Bucket} (hb : b.WF) {m : Bytes} (hm : b.stores metadataVersionKey m)
    (hchunks : b.RangeOK 3 (KL2 228 256)) (hseen : b.SeenIntact) : ∃ N map, PlaceOK b N map := by
  obtain ⟨N0, map, hbuilt, hphys⟩ := physical_core hb hm hchunks hseen
  refine ⟨N0, map, ⟨hbuilt, ?_⟩⟩
  rintro fuel hfu cache hc dbn dev phys hnz (⟨h0, -⟩ | ⟨-, start, s, h1, rfl, rfl, h4⟩)
  · exact absurd h0 hnz
  · obtain ⟨k1, k2, -⟩ := hphys fuel hfu cache hc dbn
    rcases h4 with ⟨h4, h5⟩ | ⟨h4, h5⟩
    · exact k1 start s h1 h4 h5
    · exact k2 start s h1 h4 h5

theorem PlaceOK.unique {b : Bucket} {N : Nat} {map : List StripeMapEntry} (h : PlaceOK b N map) {dbn dev phys dev' phys' : UInt64}
    (h1 : b.placed dbn dev phys) (h2 : b.placed dbn dev' phys') : dev = dev' ∧ phys = phys' := by
  by_cases hz : dbn = 0
  · rcases h1 with ⟨-, rfl, rfl⟩ | ⟨n, -⟩
    · rcases h2 with ⟨-, rfl, rfl⟩ | ⟨n, -⟩
      · exact ⟨rfl, rfl⟩
      · exact absurd hz n
    · exact absurd hz n
  · have p1 := h.place N (Nat.le_refl _) none (Or.inl rfl) _ _ _ hz h1
    rw [h.place N (Nat.le_refl _) none (Or.inl rfl) _ _ _ hz h2] at p1
    injection p1 with p1
    injection p1 with _ p1
    injection p1 with p1 p2
    exact ⟨p1.symm, p2.symm⟩

attribute [local irreducible] Cmd.wp

set_option maxHeartbeats 800000 in
/-- Filling an open file from its extents. -/
theorem contents_exact {b : Bucket} (hb : b.WF) {m : Bytes} (hm : b.stores metadataVersionKey m)
    {owner ino : UInt64} (hrange : b.RangeOK owner (KL2 108 ino)) (hin : b.ExtentsIntact owner ino) (hp : b.ExtentsFit owner ino)
    {size : Option UInt64} (hlt : ∀ sz, size = some sz → sz.toNat < 2 ^ 63)
    {N0 : Nat} {map : List StripeMapEntry} (hM : PlaceOK b N0 map) :
    ∀ (D : Bytes) (rf : Nat), N0 ≤ rf → b.length < rf → ∀ env, Honest env D → ∀ (fd : Nat) (s : RecState),
      s.fs.inodes[fd]? = some (.file []) → (s.cache = none ∨ s.cache = some map) →
      wp (recoverContents env rf ⟨b, ~~~0⟩ owner ino fd size) (fun r t => Wrote fd s t ∧
        (t.cache = none ∨ t.cache = some map) ∧
        (r = none → (size = none ∨ sized b env owner ino) → ∃ d, t.fs.inodes[fd]? = some (.file d) ∧
          (∀ sz, size = some sz → d.length = sz.toNat) ∧ (size = none → b.seenEnd owner ino d.length) ∧
          ∀ i v, d[i]? = some v → b.seenByte owner ino D i v) ∧
        (r = none → b.SeenOnDevice owner ino D) ∧
        (Quiet env D → b.SeenOnDevice owner ino D → r = none)) (fun _ => False) s := by
  have hpu := fun {dbn dev phys dev' phys' : UInt64} => hM.unique (dbn := dbn) (dev := dev) (phys := phys) (dev' := dev') (phys' := phys')
  have hplace := hM.place
  obtain ⟨l, hl, rfl⟩ := hb.exists_abs
  obtain ⟨rd, items, hr, hy, hpw, hs⟩ := rangeAll_run hl ⟨m, hm⟩ hrange
  have hdec : ∀ e : (VKey × Bytes) × Slice, e ∈ items → ∃ (off g : UInt64) (f : FileExtentItemRec) (rest : Bytes) (phys dev : UInt64)
      (t : Bytes), e.1.1 = ⟨owner, ⟨ino, 108, off⟩, g⟩ ∧
      (l.enc.runVersion owner 108 ino off g ∧ l.enc.extentAt owner ino g off f) ∧ f.typ ≠ 0 ∧ l.enc.placed f.diskByteNr dev phys ∧
      e.2 = ⟨f.layout ++ rest, t⟩ := by
    rintro ⟨⟨w, y⟩, s⟩ he
    obtain ⟨off, g, h0, rfl, h1, h2⟩ := (hs _ _ _).mp he
    obtain ⟨f, ⟨x, d, rest, h3, h4, h5⟩, h6, h7⟩ := hin off g h0 ⟨y, h1⟩
    obtain ⟨dev, phys, h7⟩ := placed_total h7
    obtain rfl := hl.unique (enc_stores.mp h1) (enc_stores.mp h3)
    obtain ⟨⟨sd, st⟩, h8, h9⟩ := h4.data
    rw [h8] at h2
    cases h2
    simp only at h9
    subst h9; subst h5
    exact ⟨off, g, f, rest, phys, dev, st, rfl, ⟨h0, y, _, rest, h3, h4, rfl⟩, h6, h7, rfl⟩
  have : Nonempty FileExtentItemRec := ⟨⟨0, 0, 0, 0, 0, 0, 0, 0, 0, 0⟩⟩
  choose! off gn f rest phys dev tl h1 h2' h3 h4 h5 using hdec
  have h2 : ∀ e ∈ items, l.enc.extentSeen owner ino (off e) (f e) := fun e he => ⟨_, h2' e he⟩
  have hmem : ∀ o' f', l.enc.extentSeen owner ino o' f' → ∃ e ∈ items, off e = o' ∧ f e = f' := by
    rintro o' f' ⟨g', hrun, hat⟩
    obtain ⟨x, d, r', k1, k2, k3⟩ := id hat
    obtain ⟨s', k4, -⟩ := k2.data
    have hm' := (hs _ _ _).mpr ⟨o', g', hrun, rfl, k1, k4⟩
    refine ⟨_, hm', ?_⟩
    have e1 : off ((⟨owner, ⟨ino, 108, o'⟩, g'⟩, x), s') = o' ∧ gn ((⟨owner, ⟨ino, 108, o'⟩, g'⟩, x), s') = g' := by
      have := h1 _ hm'
      injection this with _ hk hg
      injection hk with _ _ hk
      exact ⟨hk.symm, hg.symm⟩
    have h2'' := (h2' _ hm').2
    rw [e1.1, e1.2] at h2''
    exact ⟨e1.1, extentAt_unique hl h2'' hat⟩
  have hile : items.length ≤ l.enc.length := by
    rw [show l.enc.length = l.length from List.length_map _]
    exact items_le hpw fun e he => enc_stores.mp ((hs _ _ _).mp he).choose_spec.choose_spec.2.2.1
  have hoffs : items.Pairwise (fun x y => off x < off y) := by
    refine List.Pairwise.imp_of_mem ?_ hpw
    intro x y hx hy hxy
    rw [h1 x hx, h1 y hy, VKey.num_eq, VKey.num_eq, VKey.p25_eq, VKey.p25_eq] at hxy
    have hg := runVersion_gen (h2' x hx).1 (h2' y hy).1
    rw [hg] at hxy
    have h17 : (VKey.mk owner ⟨ino, 108, off x⟩ (gn y)).p17 = (VKey.mk owner ⟨ino, 108, off y⟩ (gn y)).p17 :=
      VKey.p17_inj.mpr ⟨rfl, rfl, rfl⟩
    rw [h17] at hxy
    rw [UInt64.lt_iff_toNat_lt]
    simp only at hxy
    omega
  intro D rf hrf hrf' env hh fd s hfd hc
  obtain ⟨w, hw⟩ : ∃ w : (VKey × Bytes) × Slice → Nat × Bytes, ∀ e, w e = ((off e).toNat, extentBytes D (f e) (phys e)) :=
    ⟨_, fun _ => rfl⟩
  obtain ⟨ok, hokdef⟩ : ∃ ok : (VKey × Bytes) × Slice → Prop, ∀ e, ok e = ((f e).diskByteNr ≠ 0 → (f e).numBytes ≠ 0 →
    (phys e + (f e).offset).toNat + (f e).numBytes.toNat ≤ D.length) := ⟨_, fun _ => rfl⟩
  have hfill : ∀ e ∈ items, Fills env D (fun c => c = none ∨ c = some map) fd (w e) (ok e)
      (recoverExtent env rf ⟨l.enc, ~~~0⟩ fd size
        (Range.at l.enc (VKey.mk owner (KL2 108 ino) (~~~0)).encode e.1) e.2) := by
    intro e he
    rw [h5 e he, hw, hokdef]
    have hs' := hp.small _ _ (h2 e he)
    have hz' := hp.holes _ _ (h2 e he)
    have ha' := fun hz => hp.addr _ _ _ _ (h2 e he) hz (h4 e he)
    have ht' := h3 e he
    have hk : (Range.at l.enc (VKey.mk owner (KL2 108 ino) (~~~0)).encode e.1).rKey = .ok ⟨ino, 108, off e⟩ := by
      simp only [Range.at, Range.rKey, h1 e he, key_encode]
    have hph : (f e).diskByteNr ≠ 0 → ∀ c, (c = none ∨ c = some map) →
        ∃ c' dev, (Ix.mk l.enc (~~~0)).physical rf c (f e).diskByteNr = .ok (c', dev, phys e) ∧ (c' = none ∨ c' = some map) := by
      intro hz c hc
      exact ⟨some map, dev e, hplace rf hrf c hc _ _ _ hz (h4 e he), Or.inr rfl⟩
    refine fills_extent hh hk ?_ ?_ ?_ ?_ ?_
    · exact ht'
    · exact hs'
    · exact hz'
    · exact ha'
    · exact hph
  have hlenD : ∀ e ∈ items, ok e → (extentBytes D (f e) (phys e)).length = (f e).numBytes.toNat := by
    intro e he hok
    rw [hokdef] at hok
    unfold extentBytes
    by_cases hz : (f e).diskByteNr = 0
    · rw [if_pos hz, List.length_replicate]
    · rw [if_neg hz, List.length_take, List.length_drop]
      by_cases hn : (f e).numBytes = 0
      · rw [hn]; simp
      · have := hok hz hn
        omega
  have hcov : (∀ e ∈ items, ok e) → ∀ e ∈ items, ∀ i, covers (w e) i ↔ (f e).at (off e) i := by
    intro hok e he i
    rw [hw e]
    unfold covers FileExtentItemRec.at
    rw [show ((off e).toNat, extentBytes D (f e) (phys e)).2.length = (f e).numBytes.toNat from hlenD e he (hok e he)]
  have hcontent : (∀ e ∈ items, ok e) → ∀ n i v, (ptruncate (writes [] (items.map w)) n)[i]? = some v →
      l.enc.seenByte owner ino D i v := by
    intro hok n i v hi
    rcases truncated_last hi with ⟨pre, x, post, hx, hc, hn, hv⟩ | ⟨hn, rfl⟩
    · obtain ⟨pre', r', rfl, rfl, hx'⟩ := List.map_eq_append_iff.mp hx
      obtain ⟨e, post', rfl, rfl, rfl⟩ := List.map_eq_cons_iff.mp hx'
      have he : e ∈ pre' ++ e :: post' := List.mem_append_right _ List.mem_cons_self
      left
      refine ⟨off e, f e, h2 e he, (hcov hok e he i).mp hc, ?_, ?_⟩
      · intro o' f' hat hcv
        obtain ⟨e', he', rfl, rfl⟩ := hmem o' f' hat
        have hcv' := (hcov hok e' he' i).mpr hcv
        obtain ⟨-, hq, hpp⟩ := List.pairwise_append.mp hoffs
        rw [UInt64.le_iff_toNat_le]
        rcases List.mem_append.mp he' with h | h
        · have := hpp e' h e List.mem_cons_self
          rw [UInt64.lt_iff_toNat_lt] at this
          omega
        · rcases List.mem_cons.mp h with rfl | h
          · exact Nat.le_refl _
          · exact absurd hcv' (hn _ (List.mem_map_of_mem h))
      · rw [hw e] at hv
        have hv' : (extentBytes D (f e) (phys e))[i - (off e).toNat]? = some v := hv
        unfold extentBytes at hv'
        by_cases hz : (f e).diskByteNr = 0
        · left
          refine ⟨hz, ?_⟩
          rw [if_pos hz, List.getElem?_replicate] at hv'
          split at hv'
          · cases hv'; rfl
          · cases hv'
        · right
          refine ⟨hz, dev e, phys e, h4 e he, ?_⟩
          rw [if_neg hz, List.getElem?_take] at hv'
          split at hv'
          · rwa [List.getElem?_drop] at hv'
          · cases hv'
    · right
      refine ⟨fun o' f' hat hin => ?_, rfl⟩
      obtain ⟨e, he, rfl, rfl⟩ := hmem o' f' hat
      exact hn _ (List.mem_map_of_mem he) ((hcov hok e he i).mpr hin)
  have hokD : (∀ e ∈ items, ok e) → l.enc.SeenOnDevice owner ino D := by
    intro hok o' f' dev' phys' hat hz hn htr
    obtain ⟨e, he, rfl, rfl⟩ := hmem o' f' hat
    have := (hpu htr (h4 e he)).2
    rw [this]
    have hok' := hok e he
    rw [hokdef] at hok'
    exact hok' hz hn
  unfold recoverContents
  rw [show (Ix.mk l.enc (~~~0)).fileExtentItems owner ino = .ok rd from hr, wp_bind, wp_lift_ok]
  have hlenw : (∀ e ∈ items, ok e) → l.enc.seenEnd owner ino (writes [] (items.map w)).length := by
    intro hok
    obtain ⟨-, a1, a2⟩ := writes_length (items.map w) []
    have hlw : ∀ e ∈ items, (w e).2.length = (f e).numBytes.toNat := fun e he => by
      rw [hw e]; exact hlenD e he (hok e he)
    have hne : ∀ e ∈ items, ((w e).2 ≠ [] ↔ (f e).numBytes ≠ 0) := fun e he => by
      rw [Ne, ← List.length_eq_zero_iff, hlw e he, Ne, ← UInt64.toNat_inj]; rfl
    have hoff : ∀ e, (w e).1 = (off e).toNat := fun e => by rw [hw e]
    constructor
    · intro o' f' hat hn
      obtain ⟨e, he, rfl, rfl⟩ := hmem o' f' hat
      have := a1 (w e) (List.mem_map_of_mem he) ((hne e he).mpr hn)
      rwa [hlw e he, hoff] at this
    · rcases a2 with a2 | ⟨x, hx, hx1, hx2⟩
      · exact Or.inl a2
      · obtain ⟨e, he, rfl⟩ := List.mem_map.mp hx
        exact Or.inr ⟨off e, f e, h2 e he, (hne e he).mp hx1, by rw [hx2, hlw e he, hoff]⟩
  have hraw : (∀ e ∈ items, ok e) → ∀ i v, (writes [] (items.map w))[i]? = some v → l.enc.seenByte owner ino D i v := by
    intro hok i v hv
    rw [← ptruncate_self (writes [] (items.map w))] at hv
    exact hcontent hok _ i v hv
  rcases yields_head hy with ⟨hnil, hnx⟩ | ⟨rest', hcons, hnx⟩
  · have hin' : items = [] := List.map_eq_nil_iff.mp hnil
    have hno : ∀ off, ¬ l.enc.hasKey owner ⟨ino, 108, off⟩ := by
      intro off' hk
      obtain ⟨o1, g1, hrun, hver⟩ := run_first ⟨off', hk⟩
      obtain ⟨f', hat, -⟩ := hin o1 g1 hrun hver
      obtain ⟨e, he, -⟩ := hmem _ _ ⟨g1, hrun, hat⟩
      rw [hin'] at he; cases he
    subst hin'
    simp only [hnx, Bool.not_false, if_true]
    cases size with
    | none =>
      simp only [finishEmpty]
      exact wp_pure' ⟨Wrote.refl _ _, hc, fun _ _ => ⟨[], hfd, fun _ h => (by cases h), fun _ => hlenw (by simp),
        fun i v hv => (by cases hv)⟩, fun _ => hokD (by simp), fun _ _ => rfl⟩
    | some size =>
      have hlt' := hlt size rfl
      have h63 : int64OfU64 size = (size.toNat : Int) := int64_small hlt'
      simp only [finishEmpty]
      rw [wp_bind, h63]
      refine wp_mono (wp_sysTruncate hfd (by omega)) ?_ fun _ h => h
      rintro okt t ⟨g1, g2, g3, g4⟩
      refine wp_pure' ⟨g1, g2 ▸ hc, fun _ hsz => ?_, fun _ => hokD (by simp), fun _ _ => rfl⟩
      rcases hsz with h | ⟨off', h⟩ | hsz
      · cases h
      · exact absurd h (hno off')
      · refine ⟨_, g3 (g4 hsz), ?_, fun h => (by cases h), ?_⟩
        · intro sz h
          injection h with h
          rw [Int.toNat_natCast, ← h]; exact ptruncate_length _ _
        · rw [Int.toNat_natCast]; exact hcontent (by simp) _
  · simp only [hnx, Bool.not_true, Bool.false_eq_true, if_false]
    rw [wp_bind]
    have hloop : wp (rangeLoopRec (recoverExtent env rf ⟨l.enc, ~~~0⟩ fd size) rf rd) (fun r t => Wrote fd s t ∧
        (t.cache = none ∨ t.cache = some map) ∧
        (r = none → t.fs.inodes[fd]? = some (.file (writes [] (items.map w))) ∧ ∀ e ∈ items, ok e) ∧
        (Quiet env D → (∀ e ∈ items, ok e) → r = none)) (fun _ => False) s := by
      have hlen : (items.map fun e => (Range.at l.enc (VKey.mk owner (KL2 108 ino) (~~~0)).encode e.1, e.2)).length < rf := by
        rw [List.length_map]; omega
      refine wp_congr (rangeLoopRec_yields hy rf s hlen) ?_
      have hF := @fills_fold env D fd (fun c => c = none ∨ c = some map) (recoverExtent env rf ⟨l.enc, ~~~0⟩ fd size)
        ((VKey × Bytes) × Slice) (fun e => (Range.at l.enc (VKey.mk owner (KL2 108 ino) (~~~0)).encode e.1, e.2)) w ok items
      exact hF hfill s [] hfd hc
    refine wp_mono hloop ?_ fun _ h => h
    rintro r t ⟨g1, g2, g3, g4⟩
    have hokq : l.enc.SeenOnDevice owner ino D → ∀ e ∈ items, ok e := fun hon e he => by
      rw [hokdef]; exact fun hz hn => hon _ _ _ _ (h2 e he) hz hn (h4 e he)
    cases r with
    | some x => exact wp_pure' ⟨g1, g2, fun h => (by cases h), fun h => (by cases h), fun hq hon => by have := g4 hq (hokq hon); cases this⟩
    | none =>
      obtain ⟨g5, g6⟩ := g3 rfl
      cases size with
      | none =>
        simp only [finishFile]
        exact wp_pure' ⟨g1, g2, fun _ _ => ⟨_, g5, fun _ h => (by cases h), fun _ => hlenw g6, hraw g6⟩,
          fun _ => hokD g6, fun _ _ => rfl⟩
      | some size =>
        have hlt' := hlt size rfl
        have h63 : int64OfU64 size = (size.toNat : Int) := int64_small hlt'
        simp only [finishFile]
        rw [wp_bind, h63]
        refine wp_mono (wp_sysTruncate g5 (by omega)) ?_ fun _ h => h
        rintro okt u ⟨k1, k2, k3, k4⟩
        cases okt with
        | false => exact wp_pure' ⟨g1.trans k1, by rw [k2]; exact g2, fun h => (by cases h), fun h => (by cases h), fun hq hon => by have := k4 (hq.calls .truncate); cases this⟩
        | true =>
          refine wp_pure' ⟨g1.trans k1, by rw [k2]; exact g2, fun _ _ => ⟨_, k3 rfl, ?_, fun h => (by cases h), ?_⟩, fun _ => hokD g6, fun _ _ => rfl⟩
          · intro sz h
            injection h with h
            rw [Int.toNat_natCast, ← h]; exact ptruncate_length _ _
          · rw [Int.toNat_natCast]; exact hcontent g6 _

theorem inodeSize_known {b : Bucket} (hb : b.WF) {m : Bytes} (hm : b.stores metadataVersionKey m) {o ino : UInt64}
    (ho : o ≠ ~~~0) {size : Option UInt64} (h : b.knownSize o ino size) :
    (do inodeSize (← (Ix.mk b (~~~0)).findInodeItem o ino) : Go (Option UInt64)) = .ok size := by
  cases size with
  | none => exact inodeSize_none hb hm ho h
  | some size => exact inodeSize_is hb hm ho h.1

theorem file_exact {b : Bucket} (hb : b.WF) {m : Bytes} (hm : b.stores metadataVersionKey m)
    {owner ino : UInt64} (ho : owner ≠ ~~~0) (hrange : b.RangeOK owner (KL2 108 ino)) (hin : b.ExtentsIntact owner ino)
    (hp : b.ExtentsFit owner ino) {size : Option UInt64} (hsz : b.knownSize owner ino size)
    {N0 : Nat} {map : List StripeMapEntry} (hM : PlaceOK b N0 map) :
    ∀ (D : Bytes) (rf : Nat), N0 ≤ rf → b.length < rf → ∀ env, Honest env D → ∀ (clobber : Bool) (target : Bytes) (s : RecState),
      (s.cache = none ∨ s.cache = some map) →
      wp (recoverFile env rf ⟨b, ~~~0⟩ clobber owner ino target) (fun r t =>
        (r = none → (clobber = false ∧ s.fs.stat true target ≠ none ∧ t.fs = s.fs) ∨
          ((size = none ∨ sized b env owner ino → ∃ d, t.fs.readFile target = some d ∧ b.seenContent owner ino size D d) ∧
           b.SeenOnDevice owner ino D)) ∧
        (Quiet env D → b.SeenOnDevice owner ino D → s.fs.openTrunc target ≠ none → r = none)) (fun _ => False) s := by
  have hcore := contents_exact hb hm hrange hin hp (size := size) (fun sz h => by subst h; exact hsz.2) hM
  intro D rf hrf hrf' env hh clobber target s hc
  unfold recoverFile
  rw [wp_bind]
  refine wp_mono wp_statAt ?_ fun _ h => h
  rintro st t ⟨t1, t2, t3⟩
  by_cases hst : (st.isSome && !clobber) = true
  · rw [if_pos hst]
    rw [Bool.and_eq_true, Bool.not_eq_true'] at hst
    exact wp_pure' ⟨fun _ => Or.inl ⟨hst.2, t3 hst.1, t1⟩, fun _ _ _ => rfl⟩
  · rw [if_neg hst, inodeSize_known hb hm ho hsz, wp_bind, wp_lift_ok, wp_bind]
    refine wp_mono wp_sysOpen ?_ fun _ h => h
    rintro r u ⟨u1, u2, u3, u4⟩
    cases r with
    | none =>
      refine wp_pure' ⟨fun h => (by cases h), fun hq _ ho => ?_⟩
      rw [← t1] at ho
      exact absurd rfl (u4 hq.calls ho)
    | some fd =>
      obtain ⟨h1, e, h2⟩ := openTrunc_resolve (u2 fd rfl)
      simp only
      have hcu : u.cache = none ∨ u.cache = some map := by rw [u1, t2]; exact hc
      have hw := hcore D rf hrf hrf' env hh fd u h1 hcu
      generalize recoverContents env rf ⟨b, ~~~0⟩ owner ino fd size = c at hw ⊢
      refine wp_mono hw ?_ fun _ h => h
      rintro r v ⟨w1, w2, w3, w4, w5⟩
      refine ⟨fun hr => Or.inr ⟨fun hs => ?_, w4 hr⟩, fun hq hon _ => w5 hq hon⟩
      obtain ⟨d, hd, hl⟩ := w3 hr hs
      refine ⟨d, ?_, hl⟩
      unfold HostFS.readFile
      rw [resolve_grown w1.grown h2 ⟨_, h1⟩]
      simp only [hd]

/-- The bytes put together are determined. -/
theorem seenContent_unique {b : Bucket} (hb : b.WF) {N0 : Nat} {map : List StripeMapEntry} (hM : PlaceOK b N0 map)
    {owner ino : UInt64} {size : Option UInt64} {D d d' : Bytes} (h : b.seenContent owner ino size D d)
    (h' : b.seenContent owner ino size D d') : d = d' := by
  have hpu := fun {dbn dev phys dev' phys' : UInt64} => hM.unique (dbn := dbn) (dev := dev) (phys := phys) (dev' := dev') (phys' := phys')
  obtain ⟨l, hl, rfl⟩ := hb.exists_abs
  have hsu : ∀ {off f f'}, l.enc.extentSeen owner ino off f → l.enc.extentSeen owner ino off f' → f = f' := by
    rintro off f f' ⟨g, h1, h2⟩ ⟨g', h1', h2'⟩
    obtain rfl := runVersion_gen h1 h1'
    exact extentAt_unique hl h2 h2'
  have hlen : d.length = d'.length := by
    cases size with
    | some sz => rw [h.1 sz rfl, h'.1 sz rfl]
    | none =>
      obtain ⟨a1, a2⟩ := h.2.1 rfl
      obtain ⟨b1, b2⟩ := h'.2.1 rfl
      rcases a2 with a2 | ⟨o1, f1, a3, a4, a5⟩ <;> rcases b2 with b2 | ⟨o2, f2, b3, b4, b5⟩
      · omega
      · have := a1 _ _ b3 b4; omega
      · have := b1 _ _ a3 a4; omega
      · have := a1 _ _ b3 b4; have := b1 _ _ a3 a4; omega
  refine List.ext_getElem? fun i => ?_
  by_cases hi : i < d.length
  · have e1 := List.getElem?_eq_getElem hi
    have e2 := List.getElem?_eq_getElem (l := d') (i := i) (by omega)
    rw [e1, e2]
    congr 1
    have k1 := h.2.2 i _ e1
    have k2 := h'.2.2 i _ e2
    rcases k1 with ⟨o1, f1, a1, a2, a3, a4⟩ | ⟨a1, a2⟩ <;> rcases k2 with ⟨o2, f2, b1, b2, b3, b4⟩ | ⟨b1, b2⟩
    · have c1 := a3 _ _ b1 b2
      have c2 := b3 _ _ a1 a2
      rw [UInt64.le_iff_toNat_le] at c1 c2
      obtain rfl : o1 = o2 := UInt64.toNat_inj.mp (by omega)
      obtain rfl := hsu a1 b1
      rcases a4 with ⟨z, a4⟩ | ⟨z, dv, ph, a4, a5⟩ <;> rcases b4 with ⟨z', b4⟩ | ⟨z', dv', ph', b4, b5⟩
      · rw [a4, b4]
      · exact absurd z z'
      · exact absurd z' z
      · obtain ⟨rfl, rfl⟩ := hpu a4 b4
        rw [a5] at b5
        exact Option.some.inj b5
    · exact absurd a2 (b1 _ _ a1)
    · exact absurd b2 (a1 _ _ b1)
    · rw [a2, b2]
  · rw [List.getElem?_eq_none (by omega), List.getElem?_eq_none (by omega)]

/-! ## C58 -/

/-- C58, for extents and chunks of any generations, overlapping, compressed, preallocated or not,
with an inode item or without: if recovering the file reports no error, then what is at its
path is exactly the bytes on the device under the extents that iterating gets to, in their
order, zeros elsewhere, cut to the size in the inode item — unless, without `--clobber`,
something was there. -/
theorem C58_content_exact (b : Bucket) (hb : b.WF) (m : Bytes) (hm : b.stores metadataVersionKey m)
    (owner ino : UInt64) (ho : owner ≠ ~~~0) (hrange : b.RangeOK owner (KL2 108 ino)) (hchunks : b.RangeOK 3 (KL2 228 256))
    (hseen : b.SeenIntact) (hin : b.ExtentsIntact owner ino) (hp : b.ExtentsFit owner ino) (size : Option UInt64)
    (hsz : b.knownSize owner ino size) :
    ∃ N, ∀ (D : Bytes) (rf : Nat), N ≤ rf → ∀ env, Honest env D → size = none ∨ sized b env owner ino →
      ∀ (clobber : Bool) (target : Bytes) (s s' : RecState), s.cache = none →
      recoverFile env rf ⟨b, ~~~0⟩ clobber owner ino target s = .ok none s' →
      (clobber = false ∧ s.fs.stat true target ≠ none ∧ s'.fs = s.fs) ∨
      ∃ d, s'.fs.readFile target = some d ∧ b.seenContent owner ino size D d ∧
        ∀ d', b.seenContent owner ino size D d' → d' = d := by
  obtain ⟨N, map, hM⟩ := placeOK hb hm hchunks hseen
  refine ⟨max N (b.length + 1), fun D rf hrf env hh hs clobber target s s' hc hrun => ?_⟩
  have := file_exact hb hm ho hrange hin hp hsz hM D rf (by omega) (by omega) env hh clobber target s (Or.inl hc)
  unfold wp at this
  rw [hrun] at this
  rcases this.1 rfl with h | ⟨h, -⟩
  · exact Or.inl h
  · obtain ⟨d, h1, h2⟩ := h hs
    exact Or.inr ⟨d, h1, h2, fun d' h' => seenContent_unique hb hM h' h2⟩

/-- C58, C59: with no failing system call and a device with contents `D`, recovering reports an
error exactly if some of the bytes of these extents are beyond the end of the device. -/
theorem C59_error_exact (b : Bucket) (hb : b.WF) (m : Bytes) (hm : b.stores metadataVersionKey m)
    (owner ino : UInt64) (ho : owner ≠ ~~~0) (hrange : b.RangeOK owner (KL2 108 ino)) (hchunks : b.RangeOK 3 (KL2 228 256))
    (hseen : b.SeenIntact) (hin : b.ExtentsIntact owner ino) (hp : b.ExtentsFit owner ino) (size : Option UInt64)
    (hsz : b.knownSize owner ino size) :
    ∃ N, ∀ (D : Bytes) (rf : Nat), N ≤ rf → ∀ env, Quiet env D →
      ∀ (clobber : Bool) (target : Bytes) (s : RecState), s.cache = none → s.fs.openTrunc target ≠ none →
      clobber = true ∨ s.fs.stat true target = none →
      ∃ r s', recoverFile env rf ⟨b, ~~~0⟩ clobber owner ino target s = .ok r s' ∧
        (r = none ↔ b.SeenOnDevice owner ino D) ∧
        (r = none → ∃ d, s'.fs.readFile target = some d ∧ b.seenContent owner ino size D d) := by
  obtain ⟨N, map, hM⟩ := placeOK hb hm hchunks hseen
  refine ⟨max N (b.length + 1), fun D rf hrf env hq clobber target s hc hop hcl => ?_⟩
  have := file_exact hb hm ho hrange hin hp hsz hM D rf (by omega) (by omega) env hq.honest clobber target s (Or.inl hc)
  unfold wp at this
  cases hrun : recoverFile env rf ⟨b, ~~~0⟩ clobber owner ino target s with
  | ok r s' =>
    rw [hrun] at this
    obtain ⟨h1, h2⟩ := this
    have h1' : r = none → (∃ d, s'.fs.readFile target = some d ∧ b.seenContent owner ino size D d) ∧ b.SeenOnDevice owner ino D := by
      intro hr
      rcases h1 hr with ⟨c1, c2, -⟩ | ⟨h1, h3⟩
      · rcases hcl with h | h
        · rw [h] at c1; cases c1
        · exact absurd h c2
      · exact ⟨h1 (Or.inr (Or.inr (hq.calls .truncate))), h3⟩
    exact ⟨r, s', rfl, ⟨fun hr => (h1' hr).2, fun hon => h2 hq hon hop⟩, fun hr => (h1' hr).1⟩
  | exit s' => rw [hrun] at this; exact this.elim
  | crash s' => rw [hrun] at this; exact this.elim
  | hang s' => rw [hrun] at this; exact this.elim

end Btrfscue
