import Verif.Proof.Piece
import Verif.Props.ContentExact
/-!
# C58, C59: the contents of recovered files, for any extents, inline or not, and generations
-/

namespace Btrfscue

open Cmd

attribute [local irreducible] Cmd.wp

/-- What is written for a piece. -/
def pieceWrite (D : Bytes) (size : Option UInt64) (off : UInt64) (phys : UInt64) : Piece → Bytes
  | .raw f => extentBytes D f phys
  | .inline data => cutData size off data

/-- All of it is there. -/
def pieceThere (D : Bytes) (phys : UInt64) : Piece → Prop
  | .raw f => f.diskByteNr ≠ 0 → f.numBytes ≠ 0 → (phys + f.offset).toNat + f.numBytes.toNat ≤ D.length
  | .inline _ => True

theorem extentBytes_length {D : Bytes} {f : FileExtentItemRec} {phys : UInt64} (h : pieceThere D phys (.raw f)) :
    (extentBytes D f phys).length = f.numBytes.toNat := by
  unfold extentBytes
  by_cases hz : f.diskByteNr = 0
  · rw [if_pos hz, List.length_replicate]
  · rw [if_neg hz, List.length_take, List.length_drop]
    by_cases hn : f.numBytes = 0
    · rw [hn]; simp
    · have := h hz hn
      omega

theorem pieceWrite_covers {D : Bytes} {size : Option UInt64} {off phys : UInt64} {p : Piece} (h : pieceThere D phys p) {i : Nat}
    (hi : ∀ sz, size = some sz → i < sz.toNat) : covers (off.toNat, pieceWrite D size off phys p) i ↔ p.at off i := by
  unfold covers Piece.at
  cases p with
  | raw f => simp only [pieceWrite, Piece.size, extentBytes_length h]
  | inline data =>
    simp only [pieceWrite, Piece.size]
    cases size with
    | none => rfl
    | some sz =>
      have := hi sz rfl
      simp only [cutData, List.length_take]
      omega

set_option maxHeartbeats 1000000 in
/-- Filling an open file from its extents. -/
theorem pieces_exact {b : Bucket} (hb : b.WF) {m : Bytes} (hm : b.stores metadataVersionKey m)
    {owner ino : UInt64} {size : Option UInt64} (hok : b.FileReadable owner ino size)
    {N0 : Nat} {map : List StripeMapEntry} (hM : PlaceOK b N0 map) :
    ∀ (D : Bytes) (rf : Nat), N0 ≤ rf → b.length < rf → ∀ env, Honest env D → ∀ (fd : Nat) (s : RecState),
      s.fs.inodes[fd]? = some (.file []) → (s.cache = none ∨ s.cache = some map) →
      wp (recoverContents env rf ⟨b, ~~~0⟩ owner ino fd size) (fun r t => Wrote fd s t ∧
        (t.cache = none ∨ t.cache = some map) ∧
        (r = none → (size = none ∨ sized b env owner ino) → ∃ d, t.fs.inodes[fd]? = some (.file d) ∧ b.fileSeen owner ino size D d) ∧
        (r = none → b.PiecesOnDevice owner ino D) ∧
        (Quiet env D → b.PiecesOnDevice owner ino D → r = none)) (fun _ => False) s := by
  obtain ⟨hrange, hin, hp, hsize⟩ := hok
  have hlt : ∀ sz, size = some sz → sz.toNat < 2 ^ 63 := fun sz h => by subst h; exact hsize.2
  have hpu := fun {dbn dev phys dev' phys' : UInt64} => hM.unique (dbn := dbn) (dev := dev) (phys := phys) (dev' := dev') (phys' := phys')
  have hplace := hM.place
  obtain ⟨l, hl, rfl⟩ := hb.exists_abs
  obtain ⟨rd, items, hr, hy, hpw, hs⟩ := rangeAll_run hl ⟨m, hm⟩ hrange
  have hdec : ∀ e : (VKey × Bytes) × Slice, e ∈ items → ∃ (off g : UInt64) (p : Piece) (phys dev : UInt64),
      e.1.1 = ⟨owner, ⟨ino, 108, off⟩, g⟩ ∧ l.enc.runVersion owner 108 ino off g ∧ l.enc.pieceSeen owner ino off p ∧
      (∀ f, p = .raw f → l.enc.placed f.diskByteNr dev phys) ∧ p.heldBy e.2.data := by
    rintro ⟨⟨w, y⟩, s⟩ he
    obtain ⟨off, g, h0, rfl, h1, h2⟩ := (hs _ _ _).mp he
    obtain ⟨p, hseen, h7⟩ := hin off g h0 ⟨y, h1⟩
    have hheld : p.heldBy s.data := by
      obtain ⟨g', x, d, k0, k1, k2, k3⟩ := hseen
      obtain rfl := runVersion_gen h0 k0
      obtain rfl := hl.unique (enc_stores.mp h1) (enc_stores.mp k1)
      obtain ⟨s', h8, h9⟩ := k2.data
      rw [h8] at h2
      cases h2
      rw [h9]; exact k3
    have hpl : ∃ dev phys, ∀ f, p = .raw f → l.enc.placed f.diskByteNr dev phys := by
      cases p with
      | inline data => exact ⟨0, 0, fun f h => by cases h⟩
      | raw f =>
        obtain ⟨dev, phys, h⟩ := placed_total (h7 f rfl)
        exact ⟨dev, phys, fun f' h' => by injection h' with h'; subst h'; exact h⟩
    obtain ⟨dev, phys, hpl⟩ := hpl
    exact ⟨off, g, p, phys, dev, rfl, h0, hseen, hpl, hheld⟩
  have : Nonempty Piece := ⟨.inline []⟩
  choose! off gn pc phys dev h1 hrun h2 h4 h5 using hdec
  have hmem : ∀ o' p', l.enc.pieceSeen owner ino o' p' → ∃ e ∈ items, off e = o' ∧ pc e = p' := by
    intro o' p' hat
    obtain ⟨g', x, d, k0, k1, k2, k3⟩ := id hat
    obtain ⟨s', k4, -⟩ := k2.data
    have hm' := (hs _ _ _).mpr ⟨o', g', k0, rfl, k1, k4⟩
    refine ⟨_, hm', ?_⟩
    have e1 : off ((⟨owner, ⟨ino, 108, o'⟩, g'⟩, x), s') = o' := by
      have := h1 _ hm'
      injection this with _ hk hg
      injection hk with _ _ hk
      exact hk.symm
    have h2'' := h2 _ hm'
    rw [e1] at h2''
    exact ⟨e1, pieceSeen_unique hl h2'' hat⟩
  have hile : items.length ≤ l.enc.length := by
    rw [show l.enc.length = l.length from List.length_map _]
    exact items_le hpw fun e he => enc_stores.mp ((hs _ _ _).mp he).choose_spec.choose_spec.2.2.1
  have hoffs : items.Pairwise (fun x y => off x < off y) := by
    refine List.Pairwise.imp_of_mem ?_ hpw
    intro x y hx hy hxy
    rw [h1 x hx, h1 y hy, VKey.num_eq, VKey.num_eq, VKey.p25_eq, VKey.p25_eq] at hxy
    have hg := runVersion_gen (hrun x hx) (hrun y hy)
    rw [hg] at hxy
    have h17 : (VKey.mk owner ⟨ino, 108, off x⟩ (gn y)).p17 = (VKey.mk owner ⟨ino, 108, off y⟩ (gn y)).p17 :=
      VKey.p17_inj.mpr ⟨rfl, rfl, rfl⟩
    rw [h17] at hxy
    rw [UInt64.lt_iff_toNat_lt]
    simp only at hxy
    omega
  intro D rf hrf hrf' env hh fd s hfd hc
  obtain ⟨w, hw⟩ : ∃ w : (VKey × Bytes) × Slice → Nat × Bytes, ∀ e, w e = ((off e).toNat, pieceWrite D size (off e) (phys e) (pc e)) :=
    ⟨_, fun _ => rfl⟩
  obtain ⟨ok, hokdef⟩ : ∃ ok : (VKey × Bytes) × Slice → Prop, ∀ e, ok e = pieceThere D (phys e) (pc e) := ⟨_, fun _ => rfl⟩
  have hfill : ∀ e ∈ items, Fills env D (fun c => c = none ∨ c = some map) fd (w e) (ok e)
      (recoverExtent env rf ⟨l.enc, ~~~0⟩ fd size
        (Range.at l.enc (VKey.mk owner (KL2 108 ino) (~~~0)).encode e.1) e.2) := by
    intro e he
    have hk : (Range.at l.enc (VKey.mk owner (KL2 108 ino) (~~~0)).encode e.1).rKey = .ok ⟨ino, 108, off e⟩ := by
      simp only [Range.at, Range.rKey, h1 e he, key_encode]
    have hs' := hp.small _ _ (h2 e he)
    have hz' := fun f (hf : pc e = .raw f) => hp.holes (off e) f (hf ▸ h2 e he)
    have ha' := fun f (hf : pc e = .raw f) hz => hp.addr (off e) f (dev e) (phys e) (hf ▸ h2 e he) hz (h4 e he f hf)
    have h5' := h5 e he
    have h4' := h4 e he
    rw [hw, hokdef]
    obtain ⟨e1, ed, et⟩ := e
    simp only at h5'
    cases hpc : pc (e1, ⟨ed, et⟩) with
    | raw f =>
      rw [hpc] at h5' hs'
      obtain ⟨ht', rest, rfl⟩ := h5'
      have hph : f.diskByteNr ≠ 0 → ∀ c, (c = none ∨ c = some map) →
          ∃ c' dev', (Ix.mk l.enc (~~~0)).physical rf c f.diskByteNr = .ok (c', dev', phys (e1, ⟨f.layout ++ rest, et⟩)) ∧ (c' = none ∨ c' = some map) := by
        intro hz c hc
        exact ⟨some map, dev _, hplace rf hrf c hc _ _ _ hz (h4' f hpc), Or.inr rfl⟩
      exact fills_extent hh hk ht' hs' (hz' f hpc) (ha' f hpc) hph
    | inline data =>
      rw [hpc] at h5' hs'
      obtain ⟨f, rest, rfl, hram, hlen⟩ := h5'
      exact fills_inline hk hram hlen hlt hs'
  have hcov : (∀ e ∈ items, ok e) → ∀ e ∈ items, ∀ i, (∀ sz, size = some sz → i < sz.toNat) → (covers (w e) i ↔ (pc e).at (off e) i) := by
    intro hok e he i hi
    rw [hw e]
    have := hok e he
    rw [hokdef] at this
    exact pieceWrite_covers this hi
  have hcontent : (∀ e ∈ items, ok e) → ∀ n i v, (∀ sz, size = some sz → n ≤ sz.toNat) →
      (ptruncate (writes [] (items.map w)) n)[i]? = some v → l.enc.fileSeenByte owner ino D i v := by
    intro hok n i v hsz hi
    have hin : i < n := by
      have := (List.getElem?_eq_some_iff.mp hi).1
      rwa [ptruncate_length] at this
    have hi' : ∀ sz, size = some sz → i < sz.toNat := fun sz h => by have := hsz sz h; omega
    rcases truncated_last hi with ⟨pre, x, post, hx, hc, hn, hv⟩ | ⟨hn, rfl⟩
    · obtain ⟨pre', r', rfl, rfl, hx'⟩ := List.map_eq_append_iff.mp hx
      obtain ⟨e, post', rfl, rfl, rfl⟩ := List.map_eq_cons_iff.mp hx'
      have he : e ∈ pre' ++ e :: post' := List.mem_append_right _ List.mem_cons_self
      left
      refine ⟨off e, pc e, h2 e he, (hcov hok e he i hi').mp hc, ?_, ?_⟩
      · intro o' f' hat hcv
        obtain ⟨e', he', rfl, rfl⟩ := hmem o' f' hat
        have hcv' := (hcov hok e' he' i hi').mpr hcv
        obtain ⟨-, hq, hpp⟩ := List.pairwise_append.mp hoffs
        rw [UInt64.le_iff_toNat_le]
        rcases List.mem_append.mp he' with h | h
        · have := hpp e' h e List.mem_cons_self
          rw [UInt64.lt_iff_toNat_lt] at this
          omega
        · rcases List.mem_cons.mp h with rfl | h
          · exact Nat.le_refl _
          · exact absurd hcv' (hn _ (List.mem_map_of_mem h))
      · have h4' := h4 e he
        rw [hw e] at hv
        have hv' : (pieceWrite D size (off e) (phys e) (pc e))[i - (off e).toNat]? = some v := hv
        cases hpc : pc e with
        | inline data =>
          rw [hpc] at hv'
          simp only [pieceWrite] at hv'
          simp only [Bucket.pieceByte]
          cases size with
          | none => exact hv'
          | some sz =>
            simp only [cutData, List.getElem?_take] at hv'
            split at hv'
            · exact hv'
            · cases hv'
        | raw f =>
          rw [hpc] at hv'
          simp only [pieceWrite] at hv'
          simp only [Bucket.pieceByte]
          unfold extentBytes at hv'
          by_cases hz : f.diskByteNr = 0
          · left
            refine ⟨hz, ?_⟩
            rw [if_pos hz, List.getElem?_replicate] at hv'
            split at hv'
            · cases hv'; rfl
            · cases hv'
          · right
            refine ⟨hz, dev e, phys e, h4' f hpc, ?_⟩
            rw [if_neg hz, List.getElem?_take] at hv'
            split at hv'
            · rwa [List.getElem?_drop] at hv'
            · cases hv'
    · right
      refine ⟨fun o' f' hat hin => ?_, rfl⟩
      obtain ⟨e, he, rfl, rfl⟩ := hmem o' f' hat
      exact hn _ (List.mem_map_of_mem he) ((hcov hok e he i hi').mpr hin)
  have hokD : (∀ e ∈ items, ok e) → l.enc.PiecesOnDevice owner ino D := by
    intro hok o' f' dev' phys' hat hz hn htr
    obtain ⟨e, he, rfl, hpe⟩ := hmem o' _ hat
    have := (hpu htr (h4 e he _ hpe)).2
    rw [this]
    have hok' := hok e he
    rw [hokdef, hpe] at hok'
    exact hok' hz hn
  unfold recoverContents
  rw [show (Ix.mk l.enc (~~~0)).fileExtentItems owner ino = .ok rd from hr, wp_bind, wp_lift_ok]
  have hlenw : size = none → (∀ e ∈ items, ok e) → l.enc.piecesEnd owner ino (writes [] (items.map w)).length := by
    intro hnone hok
    obtain ⟨-, a1, a2⟩ := writes_length (items.map w) []
    have hlw : ∀ e ∈ items, (w e).2.length = (pc e).size := fun e he => by
      have := hok e he
      rw [hokdef] at this
      rw [hw e]
      show (pieceWrite D size (off e) (phys e) (pc e)).length = _
      cases hpc : pc e with
      | raw f => rw [hpc] at this; exact extentBytes_length this
      | inline data => rw [hnone]; rfl
    have hne : ∀ e ∈ items, ((w e).2 ≠ [] ↔ (pc e).size ≠ 0) := fun e he => by
      rw [Ne, ← List.length_eq_zero_iff, hlw e he]
    have hoff : ∀ e, (w e).1 = (off e).toNat := fun e => by rw [hw e]
    constructor
    · intro o' f' hat hn
      obtain ⟨e, he, rfl, rfl⟩ := hmem o' f' hat
      have := a1 (w e) (List.mem_map_of_mem he) ((hne e he).mpr hn)
      rwa [hlw e he, hoff] at this
    · rcases a2 with a2 | ⟨x, hx, hx1, hx2⟩
      · exact Or.inl a2
      · obtain ⟨e, he, rfl⟩ := List.mem_map.mp hx
        exact Or.inr ⟨off e, pc e, h2 e he, (hne e he).mp hx1, by rw [hx2, hlw e he, hoff]⟩
  have hraw : size = none → (∀ e ∈ items, ok e) → ∀ i v, (writes [] (items.map w))[i]? = some v → l.enc.fileSeenByte owner ino D i v := by
    intro hnone hok i v hv
    rw [← ptruncate_self (writes [] (items.map w))] at hv
    exact hcontent hok _ i v (fun sz h => by rw [hnone] at h; cases h) hv
  rcases yields_head hy with ⟨hnil, hnx⟩ | ⟨rest', hcons, hnx⟩
  · have hin' : items = [] := List.map_eq_nil_iff.mp hnil
    have hno : ∀ off, ¬ l.enc.hasKey owner ⟨ino, 108, off⟩ := by
      intro off' hk
      obtain ⟨o1, g1, hrun, hver⟩ := run_first ⟨off', hk⟩
      obtain ⟨f', hat, -⟩ := hin o1 g1 hrun hver
      obtain ⟨e, he, -⟩ := hmem _ _ hat
      rw [hin'] at he; cases he
    subst hin'
    simp only [hnx, Bool.not_false, if_true]
    cases size with
    | none =>
      simp only [finishEmpty]
      exact wp_pure' ⟨Wrote.refl _ _, hc, fun _ _ => ⟨[], hfd, fun _ h => (by cases h), fun _ => hlenw rfl (by simp),
        fun i v hv => (by cases hv)⟩, fun _ => hokD (by simp), fun _ _ => rfl⟩
    | some size =>
      have hlt' := hlt size rfl
      have h63 : int64OfU64 size = (size.toNat : Int) := int64_small hlt'
      simp only [finishEmpty]
      rw [wp_bind, h63]
      refine wp_mono (wp_sysTruncate hfd (by omega)) ?_ fun _ h => h
      rintro okt t ⟨g1, g2, g3, g4⟩
      refine wp_pure' ⟨g1, g2 ▸ hc, fun _ hsz => ?_, fun _ => hokD (by simp), fun _ _ => rfl⟩
      rcases hsz with h | ⟨off', h⟩ | hsz
      · cases h
      · exact absurd h (hno off')
      · refine ⟨_, g3 (g4 hsz), ?_, fun h => (by cases h), ?_⟩
        · intro sz h
          injection h with h
          rw [Int.toNat_natCast, ← h]; exact ptruncate_length _ _
        · rw [Int.toNat_natCast]
          exact fun i v => hcontent (by simp) _ i v fun sz h => by injection h with h; exact Nat.le_of_eq (by rw [h])
  · simp only [hnx, Bool.not_true, Bool.false_eq_true, if_false]
    rw [wp_bind]
    have hloop : wp (rangeLoopRec (recoverExtent env rf ⟨l.enc, ~~~0⟩ fd size) rf rd) (fun r t => Wrote fd s t ∧
        (t.cache = none ∨ t.cache = some map) ∧
        (r = none → t.fs.inodes[fd]? = some (.file (writes [] (items.map w))) ∧ ∀ e ∈ items, ok e) ∧
        (Quiet env D → (∀ e ∈ items, ok e) → r = none)) (fun _ => False) s := by
      have hlen : (items.map fun e => (Range.at l.enc (VKey.mk owner (KL2 108 ino) (~~~0)).encode e.1, e.2)).length < rf := by
        rw [List.length_map]; omega
      refine wp_congr (rangeLoopRec_yields hy rf s hlen) ?_
      have hF := @fills_fold env D fd (fun c => c = none ∨ c = some map) (recoverExtent env rf ⟨l.enc, ~~~0⟩ fd size)
        ((VKey × Bytes) × Slice) (fun e => (Range.at l.enc (VKey.mk owner (KL2 108 ino) (~~~0)).encode e.1, e.2)) w ok items
      exact hF hfill s [] hfd hc
    refine wp_mono hloop ?_ fun _ h => h
    rintro r t ⟨g1, g2, g3, g4⟩
    have hokq : l.enc.PiecesOnDevice owner ino D → ∀ e ∈ items, ok e := fun hon e he => by
      rw [hokdef]
      have h2' := h2 e he
      have h4' := h4 e he
      cases hpc : pc e with
      | inline data => exact trivial
      | raw f => exact fun hz hn => hon _ f _ _ (hpc ▸ h2') hz hn (h4' f hpc)
    cases r with
    | some x => exact wp_pure' ⟨g1, g2, fun h => (by cases h), fun h => (by cases h), fun hq hon => by have := g4 hq (hokq hon); cases this⟩
    | none =>
      obtain ⟨g5, g6⟩ := g3 rfl
      cases size with
      | none =>
        simp only [finishFile]
        exact wp_pure' ⟨g1, g2, fun _ _ => ⟨_, g5, fun _ h => (by cases h), fun _ => hlenw rfl g6, hraw rfl g6⟩,
          fun _ => hokD g6, fun _ _ => rfl⟩
      | some size =>
        have hlt' := hlt size rfl
        have h63 : int64OfU64 size = (size.toNat : Int) := int64_small hlt'
        simp only [finishFile]
        rw [wp_bind, h63]
        refine wp_mono (wp_sysTruncate g5 (by omega)) ?_ fun _ h => h
        rintro okt u ⟨k1, k2, k3, k4⟩
        cases okt with
        | false => exact wp_pure' ⟨g1.trans k1, by rw [k2]; exact g2, fun h => (by cases h), fun h => (by cases h), fun hq hon => by have := k4 (hq.calls .truncate); cases this⟩
        | true =>
          refine wp_pure' ⟨g1.trans k1, by rw [k2]; exact g2, fun _ _ => ⟨_, k3 rfl, ?_, fun h => (by cases h), ?_⟩, fun _ => hokD g6, fun _ _ => rfl⟩
          · intro sz h
            injection h with h
            rw [Int.toNat_natCast, ← h]; exact ptruncate_length _ _
          · rw [Int.toNat_natCast]
            exact fun i v => hcontent g6 _ i v fun sz h => by injection h with h; exact Nat.le_of_eq (by rw [h])

/-- Recovering one file. -/
theorem file_pieces {b : Bucket} (hb : b.WF) {m : Bytes} (hm : b.stores metadataVersionKey m)
    {owner ino : UInt64} {size : Option UInt64} (hok : b.FileReadable owner ino size)
    {N0 : Nat} {map : List StripeMapEntry} (hM : PlaceOK b N0 map) :
    ∀ (D : Bytes) (rf : Nat), N0 ≤ rf → b.length < rf → ∀ env, Honest env D → ∀ (clobber : Bool) (target : Bytes) (s : RecState),
      (s.cache = none ∨ s.cache = some map) →
      wp (recoverFile env rf ⟨b, ~~~0⟩ clobber owner ino target) (fun r t =>
        (r = none → (clobber = false ∧ s.fs.stat true target ≠ none ∧ t.fs = s.fs) ∨
          ((size = none ∨ sized b env owner ino → ∃ d, t.fs.readFile target = some d ∧ b.fileSeen owner ino size D d) ∧
           b.PiecesOnDevice owner ino D)) ∧
        (Quiet env D → b.PiecesOnDevice owner ino D → s.fs.openTrunc target ≠ none → r = none)) (fun _ => False) s := by
  have hcore := pieces_exact hb hm hok hM
  intro D rf hrf hrf' env hh clobber target s hc
  unfold recoverFile
  rw [wp_bind]
  refine wp_mono wp_statAt ?_ fun _ h => h
  rintro st t ⟨t1, t2, t3⟩
  by_cases hst : (st.isSome && !clobber) = true
  · rw [if_pos hst]
    rw [Bool.and_eq_true, Bool.not_eq_true'] at hst
    exact wp_pure' ⟨fun _ => Or.inl ⟨hst.2, t3 hst.1, t1⟩, fun _ _ _ => rfl⟩
  · rw [if_neg hst, inodeSize_known hb hm hok.range.ordinary hok.size, wp_bind, wp_lift_ok, wp_bind]
    refine wp_mono wp_sysOpen ?_ fun _ h => h
    rintro r u ⟨u1, u2, u3, u4⟩
    cases r with
    | none =>
      refine wp_pure' ⟨fun h => (by cases h), fun hq _ ho => ?_⟩
      rw [← t1] at ho
      exact absurd rfl (u4 hq.calls ho)
    | some fd =>
      obtain ⟨h1, e, h2⟩ := openTrunc_resolve (u2 fd rfl)
      simp only
      have hcu : u.cache = none ∨ u.cache = some map := by rw [u1, t2]; exact hc
      have hw := hcore D rf hrf hrf' env hh fd u h1 hcu
      generalize recoverContents env rf ⟨b, ~~~0⟩ owner ino fd size = c at hw ⊢
      refine wp_mono hw ?_ fun _ h => h
      rintro r v ⟨w1, w2, w3, w4, w5⟩
      refine ⟨fun hr => Or.inr ⟨fun hs => ?_, w4 hr⟩, fun hq hon _ => w5 hq hon⟩
      obtain ⟨d, hd, hl⟩ := w3 hr hs
      refine ⟨d, ?_, hl⟩
      unfold HostFS.readFile
      rw [resolve_grown w1.grown h2 ⟨_, h1⟩]
      simp only [hd]

/-- The bytes put together are determined. -/
theorem fileSeen_unique {b : Bucket} (hb : b.WF) {N0 : Nat} {map : List StripeMapEntry} (hM : PlaceOK b N0 map)
    {owner ino : UInt64} {size : Option UInt64} {D d d' : Bytes} (h : b.fileSeen owner ino size D d)
    (h' : b.fileSeen owner ino size D d') : d = d' := by
  have hpu := fun {dbn dev phys dev' phys' : UInt64} => hM.unique (dbn := dbn) (dev := dev) (phys := phys) (dev' := dev') (phys' := phys')
  obtain ⟨l, hl, rfl⟩ := hb.exists_abs
  have hlen : d.length = d'.length := by
    cases size with
    | some sz => rw [h.1 sz rfl, h'.1 sz rfl]
    | none =>
      obtain ⟨a1, a2⟩ := h.2.1 rfl
      obtain ⟨b1, b2⟩ := h'.2.1 rfl
      rcases a2 with a2 | ⟨o1, f1, a3, a4, a5⟩ <;> rcases b2 with b2 | ⟨o2, f2, b3, b4, b5⟩
      · omega
      · have := a1 _ _ b3 b4; omega
      · have := b1 _ _ a3 a4; omega
      · have := a1 _ _ b3 b4; have := b1 _ _ a3 a4; omega
  refine List.ext_getElem? fun i => ?_
  by_cases hi : i < d.length
  · have e1 := List.getElem?_eq_getElem hi
    have e2 := List.getElem?_eq_getElem (l := d') (i := i) (by omega)
    rw [e1, e2]
    congr 1
    have k1 := h.2.2 i _ e1
    have k2 := h'.2.2 i _ e2
    rcases k1 with ⟨o1, f1, a1, a2, a3, a4⟩ | ⟨a1, a2⟩ <;> rcases k2 with ⟨o2, f2, b1, b2, b3, b4⟩ | ⟨b1, b2⟩
    · have c1 := a3 _ _ b1 b2
      have c2 := b3 _ _ a1 a2
      rw [UInt64.le_iff_toNat_le] at c1 c2
      obtain rfl : o1 = o2 := UInt64.toNat_inj.mp (by omega)
      obtain rfl := pieceSeen_unique hl a1 b1
      cases f1 with
      | inline data =>
        simp only [Bucket.pieceByte] at a4 b4
        rw [a4] at b4
        exact Option.some.inj b4
      | raw f =>
        simp only [Bucket.pieceByte] at a4 b4
        rcases a4 with ⟨z, a4⟩ | ⟨z, dv, ph, a4, a5⟩ <;> rcases b4 with ⟨z', b4⟩ | ⟨z', dv', ph', b4, b5⟩
        · rw [a4, b4]
        · exact absurd z z'
        · exact absurd z' z
        · obtain ⟨rfl, rfl⟩ := hpu a4 b4
          rw [a5] at b5
          exact Option.some.inj b5
    · exact absurd a2 (b1 _ _ a1)
    · exact absurd b2 (a1 _ _ b1)
    · rw [a2, b2]
  · rw [List.getElem?_eq_none (by omega), List.getElem?_eq_none (by omega)]

/-! ## C58 -/

/-- C58, for extents and chunks of any generations, inline or not, overlapping, compressed,
preallocated or not, with an inode item or without: if recovering the file reports no error,
then what is at its path is exactly the bytes of the extents that iterating gets to — on the
device or in the items —, in their order, zeros elsewhere, cut to the size in the inode item —
unless, without `--clobber`, something was there. -/
theorem C58_pieces_exact (b : Bucket) (hb : b.WF) (m : Bytes) (hm : b.stores metadataVersionKey m)
    (owner ino : UInt64) (size : Option UInt64) (hok : b.FileReadable owner ino size)
    (hchunks : b.RangeOK 3 (KL2 228 256)) (hseen : b.SeenIntact) :
    ∃ N, ∀ (D : Bytes) (rf : Nat), N ≤ rf → ∀ env, Honest env D → size = none ∨ sized b env owner ino →
      ∀ (clobber : Bool) (target : Bytes) (s s' : RecState), s.cache = none →
      recoverFile env rf ⟨b, ~~~0⟩ clobber owner ino target s = .ok none s' →
      (clobber = false ∧ s.fs.stat true target ≠ none ∧ s'.fs = s.fs) ∨
      ∃ d, s'.fs.readFile target = some d ∧ b.fileSeen owner ino size D d ∧
        ∀ d', b.fileSeen owner ino size D d' → d' = d := by
  obtain ⟨N, map, hM⟩ := placeOK hb hm hchunks hseen
  refine ⟨max N (b.length + 1), fun D rf hrf env hh hs clobber target s s' hc hrun => ?_⟩
  have := file_pieces hb hm hok hM D rf (by omega) (by omega) env hh clobber target s (Or.inl hc)
  unfold wp at this
  rw [hrun] at this
  rcases this.1 rfl with h | ⟨h, -⟩
  · exact Or.inl h
  · obtain ⟨d, h1, h2⟩ := h hs
    exact Or.inr ⟨d, h1, h2, fun d' h' => fileSeen_unique hb hM h' h2⟩

/-- C58, C59: with no failing system call and a device with contents `D`, recovering any file
that can be read reports an error exactly if some of the bytes of its extents are beyond the end
of the device. -/
theorem C59_pieces_error_exact (b : Bucket) (hb : b.WF) (m : Bytes) (hm : b.stores metadataVersionKey m)
    (owner ino : UInt64) (size : Option UInt64) (hok : b.FileReadable owner ino size)
    (hchunks : b.RangeOK 3 (KL2 228 256)) (hseen : b.SeenIntact) :
    ∃ N, ∀ (D : Bytes) (rf : Nat), N ≤ rf → ∀ env, Quiet env D →
      ∀ (clobber : Bool) (target : Bytes) (s : RecState), s.cache = none → s.fs.openTrunc target ≠ none →
      clobber = true ∨ s.fs.stat true target = none →
      ∃ r s', recoverFile env rf ⟨b, ~~~0⟩ clobber owner ino target s = .ok r s' ∧
        (r = none ↔ b.PiecesOnDevice owner ino D) ∧
        (r = none → ∃ d, s'.fs.readFile target = some d ∧ b.fileSeen owner ino size D d) := by
  obtain ⟨N, map, hM⟩ := placeOK hb hm hchunks hseen
  refine ⟨max N (b.length + 1), fun D rf hrf env hq clobber target s hc hop hcl => ?_⟩
  have := file_pieces hb hm hok hM D rf (by omega) (by omega) env hq.honest clobber target s (Or.inl hc)
  unfold wp at this
  cases hrun : recoverFile env rf ⟨b, ~~~0⟩ clobber owner ino target s with
  | ok r s' =>
    rw [hrun] at this
    obtain ⟨h1, h2⟩ := this
    have h1' : r = none → (∃ d, s'.fs.readFile target = some d ∧ b.fileSeen owner ino size D d) ∧ b.PiecesOnDevice owner ino D := by
      intro hr
      rcases h1 hr with ⟨c1, c2, -⟩ | ⟨h1, h3⟩
      · rcases hcl with h | h
        · rw [h] at c1; cases c1
        · exact absurd h c2
      · exact ⟨h1 (Or.inr (Or.inr (hq.calls .truncate))), h3⟩
    exact ⟨r, s', rfl, ⟨fun hr => (h1' hr).2, fun hon => h2 hq hon hop⟩, fun hr => (h1' hr).1⟩
  | exit s' => rw [hrun] at this; exact this.elim
  | crash s' => rw [hrun] at this; exact this.elim
  | hang s' => rw [hrun] at this; exact this.elim

end Btrfscue
