import Verif.Props.RecoverContent
import Verif.Props.RecoverInline
import Verif.Props.RecoverWrong
/-!
# C89: files whose inode item is lost

The inode item of a file may be missing from the index (its leaf was damaged) while its
extents are there. The size is then unknown.
-/

namespace Btrfscue

open Cmd

theorem inodeSize_none {b : Bucket} (hb : b.WF) {m : Bytes} (hm : b.stores metadataVersionKey m) {o ino : UInt64}
    (ho : o ≠ ~~~0) (h : ¬ b.hasKey o ⟨ino, 1, 0⟩) :
    (do inodeSize (← (Ix.mk b (~~~0)).findInodeItem o ino) : Go (Option UInt64)) = .ok none := by
  have hi : (Ix.mk b (~~~0)).findInodeItem o ino = .ok none := findData_none hb hm ho _ h
  rw [hi, Go.ok_bind]
  rfl

/-! ### Files stored in their extent item -/

theorem recoverInlineLost_run {env : Env} {fd : Nat} {start : UInt64} {data : Bytes} {s : RecState}
    (hfd : s.fs.inodes[fd]? = some (.file [])) (hst : start.toNat + data.length < 2 ^ 63) :
    wp (recoverInline env fd none start data) (fun r t => Wrote fd s t ∧ t.cache = s.cache ∧
      (r = none → t.fs.inodes[fd]? = some (.file (pwrite [] start.toNat data))) ∧
      ((∀ k n, env.fails k n = false) → r = none)) (fun _ => False) s := by
  have h0 : int64OfU64 start = start.toNat := int64_small (by omega)
  have hlim : inlineLimit none start data.length = (data.length : Int) := rfl
  unfold recoverInline
  simp only [hlim]
  by_cases hp : (0 : Int) < (data.length : Int)
  · rw [if_pos hp]
    have hto : (Slice.mk data (List.replicate (env.slack data.length) 0)).to (data.length : Int).toNat =
        .ok ⟨data, List.replicate (env.slack data.length) 0⟩ := by
      rw [Int.toNat_natCast, to_eq, if_pos (by omega), List.take_append_of_le_length (Nat.le_refl _),
        List.drop_append_of_le_length (Nat.le_refl _), List.take_length, List.drop_length, List.nil_append]
    rw [wp_bind, hto, wp_lift_ok, wp_bind, h0]
    refine wp_mono (wp_sysWrite hfd (by omega) (by simp only; omega)) ?_ fun _ h => h
    rintro ok t ⟨h1, h2, h3, h4⟩
    cases ok with
    | false => exact ⟨h1, h2, fun h => (by cases h), fun hq => by have := h4 hq; cases this⟩
    | true => exact ⟨h1, h2, fun _ => by rw [h3 rfl, Int.toNat_natCast], fun _ => rfl⟩
  · rw [if_neg hp]
    have : data = [] := List.length_eq_zero_iff.mp (by omega)
    subst this
    exact ⟨Wrote.refl _ _, rfl, fun _ => by rw [pwrite_nil]; exact hfd, fun _ => rfl⟩

attribute [local irreducible] Cmd.wp

theorem inlineLost_extent {env : Env} {rf : Nat} {ix : Ix} {fd : Nat} {ino start : UInt64} {r : Range} {f : InlineExtentRec}
    {data rest st : Bytes} {s : RecState} (hk : r.rKey = .ok ⟨ino, 108, start⟩) (h3 : f.ramBytes.toNat = data.length)
    (hfd : s.fs.inodes[fd]? = some (.file [])) (hl : data.length ≤ 16384)
    (hst : start.toNat + data.length < 2 ^ 63) :
    wp (recoverExtent env rf ix fd none r ⟨f.layout ++ (data ++ rest), st⟩) (fun r t => Wrote fd s t ∧ t.cache = s.cache ∧
      (r = none → t.fs.inodes[fd]? = some (.file (pwrite [] start.toNat data))) ∧
      ((∀ k n, env.fails k n = false) → r = none)) (fun _ => False) s := by
  obtain ⟨i1, i2⟩ := C12_inline_data f data rest st h3 hl
  unfold recoverExtent
  simp only [hk, i2, i1, wp_bind, wp_lift_ok, if_true]
  exact recoverInlineLost_run hfd hst

theorem inlineLost_fold {env : Env} {rf : Nat} {ix : Ix} {fd : Nat} {ino start : UInt64} {r : Range} {f : InlineExtentRec}
    {data rest st : Bytes} {s : RecState} (hk : r.rKey = .ok ⟨ino, 108, start⟩) (h3 : f.ramBytes.toNat = data.length)
    (hfd : s.fs.inodes[fd]? = some (.file [])) (hl : data.length ≤ 16384)
    (hst : start.toNat + data.length < 2 ^ 63) :
    wp (foldRec (recoverExtent env rf ix fd none) [(r, ⟨f.layout ++ (data ++ rest), st⟩)]) (fun r t => Wrote fd s t ∧ t.cache = s.cache ∧
      (r = none → t.fs.inodes[fd]? = some (.file (pwrite [] start.toNat data))) ∧
      ((∀ k n, env.fails k n = false) → r = none)) (fun _ => False) s := by
  have hx := inlineLost_extent (env := env) (rf := rf) (ix := ix) (rest := rest) (st := st) hk h3 hfd hl hst
  simp only [foldRec]
  generalize recoverExtent env rf ix fd none r ⟨f.layout ++ (data ++ rest), st⟩ = c at hx ⊢
  rw [wp_bind]
  refine wp_mono hx ?_ fun _ h => h
  rintro r t hr
  cases r with
  | none => exact wp_pure' hr
  | some e => exact wp_pure' hr

theorem inlineLost_core {b : Bucket} (hb : b.WF) {m : Bytes} (hm : b.stores metadataVersionKey m)
    {owner ino g start : UInt64} {data : Bytes} (hi : b.InlineFile owner ino g start data)
    {rf : Nat} (hrf : 2 ≤ rf) {env : Env} {fd : Nat} {s : RecState} (hfd : s.fs.inodes[fd]? = some (.file [])) :
    wp (recoverContents env rf ⟨b, ~~~0⟩ owner ino fd none) (fun r t => Wrote fd s t ∧ t.cache = s.cache ∧
      (r = none → t.fs.inodes[fd]? = some (.file (pwrite [] start.toNat data))) ∧
      ((∀ k n, env.fails k n = false) → r = none)) (fun _ => False) s := by
  obtain ⟨l, hl, rfl⟩ := hb.exists_abs
  obtain ⟨rd, items, hr, hy, hpw, hs⟩ := rangeAll_single (g := g) hl ⟨m, hm⟩ hi.range (fun off hk => by
    rw [hi.only off hk]; exact hi.newest)
  obtain ⟨x, f, rest, h1, h2, -, -, -, h3⟩ := hi.intact
  obtain ⟨sl, h4, h5⟩ := h2.data
  obtain ⟨sd, st⟩ := sl
  simp only at h5
  subst h5
  have hmem : ((⟨owner, ⟨ino, 108, start⟩, g⟩, x), ⟨f.layout ++ (data ++ rest), st⟩) ∈ items := (hs _ _ _).mpr ⟨start, rfl, h1, h4⟩
  have hall : ∀ e ∈ items, e = ((⟨owner, ⟨ino, 108, start⟩, g⟩, x), ⟨f.layout ++ (data ++ rest), st⟩) := by
    rintro ⟨⟨w, y⟩, s'⟩ he
    obtain ⟨off, rfl, e1, e2⟩ := (hs _ _ _).mp he
    obtain rfl := hi.only off ⟨g, y, e1⟩
    obtain rfl := hl.unique (enc_stores.mp e1) (enc_stores.mp h1)
    rw [h4] at e2
    cases e2
    rfl
  have hone : items = [((⟨owner, ⟨ino, 108, start⟩, g⟩, x), ⟨f.layout ++ (data ++ rest), st⟩)] := by
    cases items with
    | nil => cases hmem
    | cons a r =>
      obtain rfl := hall a List.mem_cons_self
      cases r with
      | nil => rfl
      | cons a' r' =>
        obtain rfl := hall a' (List.mem_cons_of_mem _ List.mem_cons_self)
        have := (List.pairwise_cons.mp hpw).1 _ List.mem_cons_self
        exact absurd this (Nat.lt_irrefl _)
  subst hone
  simp only [List.map_cons, List.map_nil] at hy
  have hk : (Range.at l.enc (VKey.mk owner (KL2 108 ino) (~~~0)).encode (⟨owner, ⟨ino, 108, start⟩, g⟩, x)).rKey = .ok ⟨ino, 108, start⟩ := by
    simp only [Range.at, Range.rKey, key_encode]
  have hbody := inlineLost_fold (env := env) (rf := rf) (ix := ⟨l.enc, ~~~0⟩) (rest := rest) (st := st) hk h3 hfd hi.short hi.small
  unfold recoverContents
  rw [show (Ix.mk l.enc (~~~0)).fileExtentItems owner ino = .ok rd from hr, wp_bind, wp_lift_ok]
  rcases yields_head hy with ⟨hnil, hnx⟩ | ⟨rest', hcons, hnx⟩
  · cases hnil
  · simp only [hnx, Bool.not_true, Bool.false_eq_true, if_false]
    rw [wp_bind]
    have heq := rangeLoopRec_yields (body := recoverExtent env rf ⟨l.enc, ~~~0⟩ fd none) hy rf s
    have hlen : [(Range.at l.enc (VKey.mk owner (KL2 108 ino) (~~~0)).encode (⟨owner, ⟨ino, 108, start⟩, g⟩, x), (⟨f.layout ++ (data ++ rest), st⟩ : Slice))].length < rf := by
      rw [List.length_singleton]; omega
    have heq' := heq hlen
    generalize rangeLoopRec (recoverExtent env rf ⟨l.enc, ~~~0⟩ fd none) rf rd = c at heq' ⊢
    have hloop := wp_congr heq' hbody
    refine wp_mono hloop ?_ fun _ h => h
    rintro r t ⟨g1, g2, g3, g4⟩
    cases r with
    | some e => exact wp_pure' ⟨g1, g2, fun h => (by cases h), fun hq => by have := g4 hq; cases this⟩
    | none =>
      simp only [finishFile]
      exact wp_pure' ⟨g1, g2, fun _ => g3 rfl, fun _ => rfl⟩

theorem lost_core {b : Bucket} (hb : b.WF) {m : Bytes} (hm : b.stores metadataVersionKey m)
    {owner ino g gc : UInt64} (ho : owner ≠ ~~~0) (ha : b.AddrOK gc) (hf : b.FileOK owner ino g gc)
    (hp : b.ExtentsPlain owner ino g gc) (hno : ¬ b.hasKey owner ⟨ino, 1, 0⟩) :
    ∃ N, ∀ (D : Bytes) (rf : Nat), N ≤ rf → ∀ env, Honest env D → ∀ (clobber : Bool) (target : Bytes) (s : RecState),
      s.cache = none →
      wp (recoverFile env rf ⟨b, ~~~0⟩ clobber owner ino target) (fun r t =>
        (r = none → (clobber = false ∧ s.fs.stat true target ≠ none ∧ t.fs = s.fs) ∨
          ∃ d, t.fs.readFile target = some d ∧ b.endsAt owner ino g d.length ∧
            ∀ i v, d[i]? = some v → b.fileByte owner ino g gc D i v) ∧
        (Quiet env D → b.OnDevice owner ino g gc D → s.fs.openTrunc target ≠ none → r = none)) (fun _ => False) s := by
  obtain ⟨N, map, hM⟩ := mapOK hb hm ha.range ha.chunks ha.disjoint
  have hcore := contents_gen hb hm ha hf hp (size := none) (fun _ h => by cases h) hM
  refine ⟨max N (b.length + 1), fun D rf hrf env hh clobber target s hc => ?_⟩
  unfold recoverFile
  rw [wp_bind]
  refine wp_mono wp_statAt ?_ fun _ h => h
  rintro st t ⟨t1, t2, t3⟩
  by_cases hst : (st.isSome && !clobber) = true
  · rw [if_pos hst]
    rw [Bool.and_eq_true, Bool.not_eq_true'] at hst
    exact wp_pure' ⟨fun _ => Or.inl ⟨hst.2, t3 hst.1, t1⟩, fun _ _ _ => rfl⟩
  · rw [if_neg hst, inodeSize_none hb hm ho hno, wp_bind, wp_lift_ok, wp_bind]
    refine wp_mono wp_sysOpen ?_ fun _ h => h
    rintro r u ⟨u1, u2, u3, u4⟩
    cases r with
    | none =>
      refine wp_pure' ⟨fun h => (by cases h), fun hq _ ho => ?_⟩
      rw [← t1] at ho
      exact absurd rfl (u4 hq.calls ho)
    | some fd =>
      obtain ⟨h1, e, h2⟩ := openTrunc_resolve (u2 fd rfl)
      simp only
      have hcu : u.cache = none ∨ u.cache = some map := by rw [u1, t2]; exact Or.inl hc
      have hw := hcore D rf (by omega) (by omega) env hh fd u h1 hcu
      generalize recoverContents env rf ⟨b, ~~~0⟩ owner ino fd none = c at hw ⊢
      refine wp_mono hw ?_ fun _ h => h
      rintro r v ⟨w1, w2, w3, w4, w5⟩
      refine ⟨fun hr => Or.inr ?_, fun hq hon _ => w5 hq hon⟩
      obtain ⟨d, hd, -, hl, hby⟩ := w3 hr (Or.inl rfl)
      refine ⟨d, ?_, hl rfl, hby⟩
      unfold HostFS.readFile
      rw [resolve_grown w1.grown h2 ⟨_, h1⟩]
      simp only [hd]

/-- C89: if recovering a file whose inode item is lost reports no error, the file at its
path holds the bytes of all its extents, zero between them, and ends where the furthest
extent ends — unless, without `--clobber`, something was there before, which is left as it
was. Whatever system calls fail and whatever part of the image the device delivers. -/
theorem C89_lost_inode_content (b : Bucket) (hb : b.WF) (m : Bytes) (hm : b.stores metadataVersionKey m)
    (owner ino g gc : UInt64) (ho : owner ≠ ~~~0) (ha : b.AddrOK gc) (hf : b.FileOK owner ino g gc)
    (hp : b.ExtentsPlain owner ino g gc) (hno : ¬ b.hasKey owner ⟨ino, 1, 0⟩) :
    ∃ N, ∀ (D : Bytes) (rf : Nat), N ≤ rf → ∀ env, Honest env D →
      ∀ (clobber : Bool) (target : Bytes) (s s' : RecState), s.cache = none →
      recoverFile env rf ⟨b, ~~~0⟩ clobber owner ino target s = .ok none s' →
      (clobber = false ∧ s.fs.stat true target ≠ none ∧ s'.fs = s.fs) ∨
      ∃ d, s'.fs.readFile target = some d ∧ b.endsAt owner ino g d.length ∧
        ∀ i v, d[i]? = some v → b.fileByte owner ino g gc D i v := by
  obtain ⟨N, h⟩ := lost_core hb hm ho ha hf hp hno
  refine ⟨N, fun D rf hrf env hh clobber target s s' hc hrun => ?_⟩
  have := h D rf hrf env hh clobber target s hc
  unfold wp at this
  rw [hrun] at this
  exact this.1 rfl

/-- C89: and if no system call fails, the device is complete and the file can be opened,
it is recovered. -/
theorem C89_lost_inode_recovered (b : Bucket) (hb : b.WF) (m : Bytes) (hm : b.stores metadataVersionKey m)
    (owner ino g gc : UInt64) (ho : owner ≠ ~~~0) (ha : b.AddrOK gc) (hf : b.FileOK owner ino g gc)
    (hp : b.ExtentsPlain owner ino g gc) (hno : ¬ b.hasKey owner ⟨ino, 1, 0⟩) :
    ∃ N, ∀ (D : Bytes) (rf : Nat), N ≤ rf → ∀ env, Quiet env D → b.OnDevice owner ino g gc D →
      ∀ (clobber : Bool) (target : Bytes) (s : RecState), s.cache = none → s.fs.openTrunc target ≠ none →
      clobber = true ∨ s.fs.stat true target = none →
      ∃ s', recoverFile env rf ⟨b, ~~~0⟩ clobber owner ino target s = .ok none s' ∧
        ∃ d, s'.fs.readFile target = some d ∧ b.endsAt owner ino g d.length ∧
        ∀ i v, d[i]? = some v → b.fileByte owner ino g gc D i v := by
  obtain ⟨N, h⟩ := lost_core hb hm ho ha hf hp hno
  refine ⟨N, fun D rf hrf env hq hon clobber target s hc hop hcl => ?_⟩
  have := h D rf hrf env hq.honest clobber target s hc
  unfold wp at this
  cases hrun : recoverFile env rf ⟨b, ~~~0⟩ clobber owner ino target s with
  | ok r s' =>
    rw [hrun] at this
    obtain ⟨h1, h2⟩ := this
    obtain rfl := h2 hq hon hop
    refine ⟨s', rfl, ?_⟩
    rcases h1 rfl with ⟨c1, c2, -⟩ | h1
    · rcases hcl with h | h
      · rw [h] at c1; cases c1
      · exact absurd h c2
    · exact h1
  | exit s' => rw [hrun] at this; exact this.elim
  | crash s' => rw [hrun] at this; exact this.elim
  | hang s' => rw [hrun] at this; exact this.elim

/-- C89 for files whose contents are stored in their extent item: the data is recovered in
full, after as many zeroes as the extent's offset says (none on real file systems). -/
theorem C89_lost_inode_inline (b : Bucket) (hb : b.WF) (m : Bytes) (hm : b.stores metadataVersionKey m)
    (owner ino g start : UInt64) (ho : owner ≠ ~~~0) (data : Bytes) (hi : b.InlineFile owner ino g start data)
    (hno : ¬ b.hasKey owner ⟨ino, 1, 0⟩) (hd : data ≠ [])
    (rf : Nat) (hrf : 2 ≤ rf) (env : Env) (clobber : Bool) (target : Bytes) (s : RecState) :
    ∃ r s', recoverFile env rf ⟨b, ~~~0⟩ clobber owner ino target s = .ok r s' ∧
      (r = none → (clobber = false ∧ s.fs.stat true target ≠ none ∧ s'.fs = s.fs) ∨
        s'.fs.readFile target = some (List.replicate start.toNat 0 ++ data)) ∧
      ((∀ k n, env.fails k n = false) → s.fs.openTrunc target ≠ none → r = none) := by
  have hw : wp (recoverFile env rf ⟨b, ~~~0⟩ clobber owner ino target) (fun r s' =>
      (r = none → (clobber = false ∧ s.fs.stat true target ≠ none ∧ s'.fs = s.fs) ∨
        s'.fs.readFile target = some (List.replicate start.toNat 0 ++ data)) ∧
      ((∀ k n, env.fails k n = false) → s.fs.openTrunc target ≠ none → r = none)) (fun _ => False) s := by
    unfold recoverFile
    rw [wp_bind]
    refine wp_mono wp_statAt ?_ fun _ h => h
    rintro st t ⟨t1, t2, t3⟩
    by_cases hst : (st.isSome && !clobber) = true
    · rw [if_pos hst]
      rw [Bool.and_eq_true, Bool.not_eq_true'] at hst
      exact wp_pure' ⟨fun _ => Or.inl ⟨hst.2, t3 hst.1, t1⟩, fun _ _ => rfl⟩
    · rw [if_neg hst, inodeSize_none hb hm ho hno, wp_bind, wp_lift_ok, wp_bind]
      refine wp_mono wp_sysOpen ?_ fun _ h => h
      rintro r u ⟨u1, u2, u3, u4⟩
      cases r with
      | none =>
        refine wp_pure' ⟨fun h => (by cases h), fun hq ho => ?_⟩
        rw [← t1] at ho
        exact absurd rfl (u4 hq ho)
      | some fd =>
        obtain ⟨h1, e, h2⟩ := openTrunc_resolve (u2 fd rfl)
        simp only
        have hw := inlineLost_core hb hm hi hrf (env := env) h1
        generalize recoverContents env rf ⟨b, ~~~0⟩ owner ino fd none = c at hw ⊢
        refine wp_mono hw ?_ fun _ h => h
        rintro r v ⟨w1, w2, w3, w4⟩
        refine ⟨fun hr => Or.inr ?_, fun hq _ => w4 hq⟩
        unfold HostFS.readFile
        rw [resolve_grown w1.grown h2 ⟨_, h1⟩]
        simp only [w3 hr]
        simp [pwrite, hd]
  unfold wp at hw
  cases hrun : recoverFile env rf ⟨b, ~~~0⟩ clobber owner ino target s with
  | ok r s' => rw [hrun] at hw; exact ⟨r, s', rfl, hw⟩
  | exit s' => rw [hrun] at hw; exact hw.elim
  | crash s' => rw [hrun] at hw; exact hw.elim
  | hang s' => rw [hrun] at hw; exact hw.elim

/-! ### The hypotheses can be met -/

/-- A file of two extents, 257, whose inode item is lost. -/
def exLostStore : AStore :=
  [(⟨3, ⟨1, 216, 1⟩, 7⟩, mkItem ⟨1, 216, 1⟩ []),
   (⟨3, ⟨256, 228, 0x1000000⟩, 7⟩, exChunk 0x1000000 0x800000 1 0x100000),
   (⟨3, ⟨256, 228, 0x1800000⟩, 7⟩, exChunk 0x1800000 0x800000 2 0x900000),
   (⟨3, ⟨257, 229, 0⟩, 7⟩, mkItem ⟨257, 229, 0⟩ []),
   (⟨5, ⟨256, 1, 0⟩, 10⟩, mkItem ⟨256, 1, 0⟩ (exInode 0).layout),
   (⟨5, ⟨257, 108, 0⟩, 10⟩, mkItem ⟨257, 108, 0⟩ (FileExtentItemRec.mk 9 8192 0 0 0 1 0x1001000 8192 4096 4096).layout),
   (⟨5, ⟨257, 108, 4096⟩, 10⟩, mkItem ⟨257, 108, 4096⟩ (FileExtentItemRec.mk 9 4096 0 0 0 1 0 0 0 4096).layout),
   (⟨5, ⟨258, 132, 0⟩, 10⟩, mkItem ⟨258, 132, 0⟩ []),
   (metadataVersionKey, [])]

theorem exLostStore_sorted : exLostStore.Sorted := sorted_of_before (by decide +kernel)

theorem exLostStore_intact (e : VKey × Bytes) (he : e ∈ exLostStore) (ho : e.1.owner ≠ ~~~0) : ∃ d, holdsItem e.2 d := by
  simp only [exLostStore, List.mem_cons, List.not_mem_nil, or_false] at he
  rcases he with rfl | rfl | rfl | rfl | rfl | rfl | rfl | rfl | rfl
  · exact ⟨_, mkItem_holds _ _ (by decide +kernel)⟩
  · exact exChunk_holds _ _ _ _
  · exact exChunk_holds _ _ _ _
  · exact ⟨_, mkItem_holds _ _ (by decide +kernel)⟩
  · exact ⟨_, mkItem_holds _ _ (by decide +kernel)⟩
  · exact ⟨_, mkItem_holds _ _ (by decide +kernel)⟩
  · exact ⟨_, mkItem_holds _ _ (by decide +kernel)⟩
  · exact ⟨_, mkItem_holds _ _ (by decide +kernel)⟩
  · exact absurd rfl ho

theorem exLostStore_gens : ∀ e ∈ exLostStore, e.1.owner ≠ ~~~0 → (e.1.gen ≠ ~~~0 ∧ e.1.key ≠ KL0) ∧
    (e.1.owner = 3 → e.1.gen = 7) ∧ (e.1.owner = 5 → e.1.gen = 10) := by decide +kernel

theorem exLostStore_newest {o : UInt64} {k : Key} {g : UInt64} (ho : o ≠ ~~~0)
    (hg : ∀ e ∈ exLostStore, e.1.owner = o → e.1.gen = g) (hk : exLostStore.enc.hasKey o k) :
    exLostStore.enc.newest o k g := by
  obtain ⟨g', x, hx⟩ := enc_hasKey.mp hk
  have := hg _ hx rfl
  simp only at this
  subst this
  refine ⟨enc_hasVersion.mpr ⟨x, hx⟩, fun g'' hv => ?_⟩
  obtain ⟨y, hy⟩ := enc_hasVersion.mp hv
  have := hg _ hy rfl
  simp only at this
  rw [this]
  exact UInt64.le_refl _

theorem exLostStore_addr : exLostStore.enc.AddrOK 7 where
  range := rangeOK_of (by decide) (fun e he ho => exLostStore_intact e he (by rw [ho]; decide))
    (fun e he ho => (exLostStore_gens e he (by rw [ho]; decide)).1) (by decide +kernel)
  chunks := by
    intro start hk
    refine ⟨exLostStore_newest (by decide) (fun e he ho => (exLostStore_gens e he (by rw [ho]; decide)).2.1 ho) hk, ?_⟩
    obtain ⟨g, x, hx⟩ := enc_hasKey.mp hk
    have hg := (exLostStore_gens _ hx (by show ¬ (3 : UInt64) = ~~~0; decide)).2.1 rfl
    simp only at hg
    subst hg
    have hx' := hx
    simp only [exLostStore, List.mem_cons, List.not_mem_nil, or_false, Prod.mk.injEq, VKey.mk.injEq, Key.mk.injEq] at hx'
    rcases hx' with ⟨⟨-, ⟨-, h, -⟩, -⟩, -⟩ | ⟨⟨-, ⟨-, -, rfl⟩, -⟩, rfl⟩ | ⟨⟨-, ⟨-, -, rfl⟩, -⟩, rfl⟩ | ⟨⟨-, ⟨h, -, -⟩, -⟩, -⟩ |
      ⟨⟨h, -⟩, -⟩ | ⟨⟨h, -⟩, -⟩ | ⟨⟨h, -⟩, -⟩ | ⟨⟨h, -⟩, -⟩ | ⟨h, -⟩
    · exact absurd h (by decide)
    · exact ⟨_, _, exChunk_at hx⟩
    · exact ⟨_, _, exChunk_at hx⟩
    · exact absurd h (by decide)
    · exact absurd h (by decide)
    · exact absurd h (by decide)
    · exact absurd h (by decide)
    · exact absurd h (by decide)
    · exact absurd (congrArg VKey.owner h) (by show ¬ (3 : UInt64) = ~~~0; decide)
  disjoint := by
    have hst : ∀ a c ss, exLostStore.enc.chunkAt 7 a c ss → (a = 0x1000000 ∨ a = 0x1800000) ∧ c.length = 0x800000 := by
      intro a c ss hat
      obtain ⟨x, d, rest, h1, h2, h3, h4⟩ := id hat
      have hx := enc_stores.mp h1
      have hx' := hx
      simp only [exLostStore, List.mem_cons, List.not_mem_nil, or_false, Prod.mk.injEq, VKey.mk.injEq, Key.mk.injEq] at hx'
      rcases hx' with ⟨⟨-, ⟨-, h, -⟩, -⟩, -⟩ | ⟨⟨-, ⟨-, -, rfl⟩, -⟩, rfl⟩ | ⟨⟨-, ⟨-, -, rfl⟩, -⟩, rfl⟩ | ⟨⟨-, ⟨h, -, -⟩, -⟩, -⟩ |
        ⟨⟨h, -⟩, -⟩ | ⟨⟨h, -⟩, -⟩ | ⟨⟨h, -⟩, -⟩ | ⟨⟨h, -⟩, -⟩ | ⟨h, -⟩
      · exact absurd h (by decide)
      · exact ⟨Or.inl rfl, chunkAt_length exLostStore_sorted hat (exChunk_at hx)⟩
      · exact ⟨Or.inr rfl, chunkAt_length exLostStore_sorted hat (exChunk_at hx)⟩
      · exact absurd h (by decide)
      · exact absurd h (by decide)
      · exact absurd h (by decide)
      · exact absurd h (by decide)
      · exact absurd h (by decide)
      · exact absurd (congrArg VKey.owner h) (by show ¬ (3 : UInt64) = ~~~0; decide)
    intro a c ss a' c' ss' h h' hlt
    obtain ⟨h1, h2⟩ := hst _ _ _ h
    obtain ⟨h3, -⟩ := hst _ _ _ h'
    rw [h2]
    rcases h1 with rfl | rfl <;> rcases h3 with rfl | rfl
    · exact absurd hlt (by decide)
    · decide
    · exact absurd hlt (by decide)
    · exact absurd hlt (by decide)

theorem exLostStore_ok : exLostStore.enc.FileOK 5 257 10 7 where
  range := rangeOK_of (by decide) (fun e he ho => exLostStore_intact e he (by rw [ho]; decide))
    (fun e he ho => (exLostStore_gens e he (by rw [ho]; decide)).1) (by decide +kernel)
  newest off hk := exLostStore_newest (by decide)
    (fun e he ho => (exLostStore_gens e he (by rw [ho]; decide)).2.2 ho) hk
  intact off hk := by
    obtain ⟨g, x, hx⟩ := enc_hasKey.mp hk
    have hg := (exLostStore_gens _ hx (by show ¬ (5 : UInt64) = ~~~0; decide)).2.2 rfl
    simp only at hg
    subst hg
    have hx' := hx
    simp only [exLostStore, List.mem_cons, List.not_mem_nil, or_false, Prod.mk.injEq, VKey.mk.injEq, Key.mk.injEq] at hx'
    rcases hx' with ⟨⟨h, -⟩, -⟩ | ⟨⟨h, -⟩, -⟩ | ⟨⟨h, -⟩, -⟩ | ⟨⟨h, -⟩, -⟩ | ⟨⟨-, ⟨-, h, -⟩, -⟩, -⟩ |
      ⟨⟨-, ⟨-, -, rfl⟩, -⟩, rfl⟩ | ⟨⟨-, ⟨-, -, rfl⟩, -⟩, rfl⟩ | ⟨⟨-, ⟨h, -⟩, -⟩, -⟩ | ⟨h, -⟩
    · exact absurd h (by decide)
    · exact absurd h (by decide)
    · exact absurd h (by decide)
    · exact absurd h (by decide)
    · exact absurd h (by decide)
    · refine ⟨_, ⟨_, _, [], enc_stores.mpr hx, mkItem_holds _ _ (by decide), (List.append_nil _).symm⟩, by decide, 1,
        0x101000, Or.inr ⟨by decide, 0x1000000, _, _, _, exChunk_at (len := 0x800000) (dev := 1) (off := 0x100000)
          (by simp only [exLostStore, List.mem_cons]; right; left; trivial), by decide +kernel, by decide +kernel, rfl, by decide +kernel⟩⟩
    · exact ⟨_, ⟨_, _, [], enc_stores.mpr hx, mkItem_holds _ _ (by decide), (List.append_nil _).symm⟩, by decide, 0, 0,
        Or.inl ⟨rfl, rfl, rfl⟩⟩
    · exact absurd h (by decide)
    · exact absurd (congrArg VKey.owner h) (by show ¬ (5 : UInt64) = ~~~0; decide)

theorem exLostStore_extents {g off : UInt64} {f : FileExtentItemRec} (h : exLostStore.enc.extentAt 5 257 g off f) :
    (off = 0 ∧ f = FileExtentItemRec.mk 9 8192 0 0 0 1 0x1001000 8192 4096 4096) ∨
    (off = 4096 ∧ f = FileExtentItemRec.mk 9 4096 0 0 0 1 0 0 0 4096) := by
  obtain ⟨x, d, rest, h1, h2, h3⟩ := id h
  have hx := enc_stores.mp h1
  have hg := (exLostStore_gens _ hx (by show ¬ (5 : UInt64) = ~~~0; decide)).2.2 rfl
  simp only at hg
  subst hg
  have hx' := hx
  simp only [exLostStore, List.mem_cons, List.not_mem_nil, or_false, Prod.mk.injEq, VKey.mk.injEq, Key.mk.injEq] at hx'
  rcases hx' with ⟨⟨h', -⟩, -⟩ | ⟨⟨h', -⟩, -⟩ | ⟨⟨h', -⟩, -⟩ | ⟨⟨h', -⟩, -⟩ | ⟨⟨-, ⟨-, h', -⟩, -⟩, -⟩ |
    ⟨⟨-, ⟨-, -, rfl⟩, -⟩, rfl⟩ | ⟨⟨-, ⟨-, -, rfl⟩, -⟩, rfl⟩ | ⟨⟨-, ⟨h', -⟩, -⟩, -⟩ | ⟨h', -⟩
  · exact absurd h' (by decide)
  · exact absurd h' (by decide)
  · exact absurd h' (by decide)
  · exact absurd h' (by decide)
  · exact absurd h' (by decide)
  · exact Or.inl ⟨rfl, extentAt_unique exLostStore_sorted h
      ⟨_, _, [], h1, mkItem_holds _ _ (by decide), (List.append_nil _).symm⟩⟩
  · exact Or.inr ⟨rfl, extentAt_unique exLostStore_sorted h
      ⟨_, _, [], h1, mkItem_holds _ _ (by decide), (List.append_nil _).symm⟩⟩
  · exact absurd h' (by decide)
  · exact absurd (congrArg VKey.owner h') (by show ¬ (5 : UInt64) = ~~~0; decide)

theorem exLostStore_phys {dev phys : UInt64} (h : exLostStore.enc.translated 7 0x1001000 dev phys) : phys = 0x101000 :=
  (translated_unique (AStore.enc_wf exLostStore_sorted) (m := []) (enc_stores.mpr (by simp [exLostStore])) exLostStore_addr h
    (dev' := 1) (Or.inr ⟨by decide, 0x1000000, _, _, _, exChunk_at (len := 0x800000) (dev := 1) (off := 0x100000)
          (by simp only [exLostStore, List.mem_cons]; right; left; trivial), by decide +kernel, by decide +kernel, rfl, by decide +kernel⟩)).2

theorem exLostStore_plain : exLostStore.enc.ExtentsPlain 5 257 10 7 where
  disjoint off f off' f' h h' hlt := by
    rcases exLostStore_extents h with ⟨rfl, rfl⟩ | ⟨rfl, rfl⟩ <;> rcases exLostStore_extents h' with ⟨rfl, rfl⟩ | ⟨rfl, rfl⟩
    · exact absurd hlt (by decide)
    · decide
    · exact absurd hlt (by decide)
    · exact absurd hlt (by decide)
  plain off f h := by
    rcases exLostStore_extents h with ⟨rfl, rfl⟩ | ⟨rfl, rfl⟩ <;> exact ⟨rfl, rfl, rfl, rfl⟩
  small off f h := by
    rcases exLostStore_extents h with ⟨rfl, rfl⟩ | ⟨rfl, rfl⟩ <;> decide
  holes off f h := by
    rcases exLostStore_extents h with ⟨rfl, rfl⟩ | ⟨rfl, rfl⟩ <;> decide
  addr off f dev phys h hz htr := by
    rcases exLostStore_extents h with ⟨rfl, rfl⟩ | ⟨rfl, rfl⟩
    · rw [exLostStore_phys htr]; decide
    · exact absurd rfl hz


theorem exLostStore_noInode : ¬ exLostStore.enc.hasKey 5 ⟨257, 1, 0⟩ := by
  intro h
  obtain ⟨g, x, hx⟩ := enc_hasKey.mp h
  have : ∀ e ∈ exLostStore, e.1.owner = 5 → e.1.key ≠ ⟨257, 1, 0⟩ := by decide +kernel
  exact this _ hx rfl rfl

/-- C89 applies to `exLostStore` and an image of sevens: 4096 of them and 4096 zeroes are
written to a new file on a host with an empty root directory. -/
example : ∃ N, ∀ rf, N ≤ rf →
    ∃ s', recoverFile { quietEnv with dev := fun _ => imageReader (List.replicate 0x200000 7) } rf ⟨exLostStore.enc, ~~~0⟩
        false 5 257 (ascii "/a") (RecState.start exEmptyHost) = .ok none s' ∧
      ∃ d, s'.fs.readFile (ascii "/a") = some d ∧ d.length = 8192 := by
  obtain ⟨N, h⟩ := C89_lost_inode_recovered exLostStore.enc (AStore.enc_wf exLostStore_sorted) [] (enc_stores.mpr (by simp [exLostStore]))
    5 257 10 7 (by decide) exLostStore_addr exLostStore_ok exLostStore_plain exLostStore_noInode
  refine ⟨N, fun rf hrf => ?_⟩
  obtain ⟨s', hs, d, hd, hl, hb⟩ := h (List.replicate 0x200000 7) rf hrf { quietEnv with dev := fun _ => imageReader (List.replicate 0x200000 7) }
    ⟨fun _ _ => rfl, fun _ => rfl⟩ (by
      intro off f dev phys hx hz htr
      rcases exLostStore_extents hx with ⟨rfl, rfl⟩ | ⟨rfl, rfl⟩
      · rw [exLostStore_phys htr, List.length_replicate]; decide
      · exact absurd rfl hz) false (ascii "/a") (RecState.start exEmptyHost) rfl (by decide +kernel) (Or.inr (by decide +kernel))
  refine ⟨s', hs, d, hd, ?_⟩
  have hlo := hl.1 4096 _ ⟨_, _, [], enc_stores.mpr (by simp only [exLostStore, List.mem_cons]; right; right; right; right; right; right; left; rfl),
          mkItem_holds _ _ (by decide), (List.append_nil _).symm⟩ (by decide)
  have hlo' : 8192 ≤ d.length := hlo
  rcases hl.2 with h0 | ⟨off, f, hx, -, he⟩
  · omega
  · rcases exLostStore_extents hx with ⟨rfl, rfl⟩ | ⟨rfl, rfl⟩
    · have he' : d.length = 0 + 4096 := he
      omega
    · exact he

/-- The inline file of the examples, its inode item lost. -/
def exLostInline : AStore := (exSmall 5 (exInline 3 [1, 2, 3])).eraseIdx 3

theorem exLostInline_sorted : exLostInline.Sorted := sorted_of_before (by decide +kernel)

theorem exLostInline_owner5 : ∀ e ∈ exLostInline, e.1.owner = 5 → (e.1.gen ≠ ~~~0 ∧ e.1.key ≠ KL0) ∧ e.1.gen = 10 ∧
    (e.1.key.typ = 108 → e.1.key.offset = 0) ∧ e.1.key ≠ ⟨257, 1, 0⟩ := by decide +kernel

theorem exLostInline_newest {k : Key} (hk : exLostInline.enc.hasKey 5 k) : exLostInline.enc.newest 5 k 10 := by
  obtain ⟨g', x, hx⟩ := enc_hasKey.mp hk
  have := (exLostInline_owner5 _ hx rfl).2.1
  simp only at this
  subst this
  refine ⟨enc_hasVersion.mpr ⟨x, hx⟩, fun g'' hv => ?_⟩
  obtain ⟨y, hy⟩ := enc_hasVersion.mp hv
  have := (exLostInline_owner5 _ hy rfl).2.1
  simp only at this
  rw [this]
  exact UInt64.le_refl _

theorem exLostInline_ok : exLostInline.enc.InlineFile 5 257 10 0 [1, 2, 3] where
  range := rangeOK_of (by decide) (by
      intro e he ho
      simp only [exLostInline, exSmall, List.eraseIdx, List.mem_cons, List.not_mem_nil, or_false] at he
      rcases he with rfl | rfl | rfl | rfl | rfl | rfl
      · exact ⟨_, mkItem_holds _ _ (by decide)⟩
      · exact exChunk_holds _ _ _ _
      · exact ⟨_, mkItem_holds _ _ (by decide)⟩
      · exact ⟨_, mkItem_holds _ _ (by decide +kernel)⟩
      · exact ⟨_, mkItem_holds _ _ (by decide)⟩
      · exact absurd ho (by decide))
    (fun e he ho => (exLostInline_owner5 e he ho).1) (by decide +kernel)
  newest := exLostInline_newest (enc_hasKey.mpr ⟨10, _, by simp only [exLostInline, exSmall, List.eraseIdx, List.mem_cons]; right; right; right; left; rfl⟩)
  only off hk := by
    obtain ⟨g, x, hx⟩ := enc_hasKey.mp hk
    exact (exLostInline_owner5 _ hx rfl).2.2.1 rfl
  intact := ⟨_, ⟨9, 3, 0, 0, 0⟩, [], enc_stores.mpr (by simp only [exLostInline, exSmall, List.eraseIdx, List.mem_cons]; right; right; right; left; rfl),
    mkItem_holds _ _ (by decide +kernel), rfl, rfl, rfl, by decide⟩
  short := by decide
  small := by decide

/-- `C89_lost_inode_inline` applies to it. -/
example : ¬ exLostInline.enc.hasKey 5 ⟨257, 1, 0⟩ := by
  intro h
  obtain ⟨g, x, hx⟩ := enc_hasKey.mp h
  exact (exLostInline_owner5 _ hx rfl).2.2.2 rfl

end Btrfscue
