import Verif.Props.RecoverContent
/-!
# C58, C59: inline files, and what goes wrong
-/

namespace Btrfscue

open Cmd

/-- What is written. -/
def inlineBytes (size start : Nat) (data : Bytes) : Bytes :=
  if start < size ∧ data ≠ [] then List.replicate start 0 ++ data.take (size - start) else []

theorem inlineBytes_get {size start : Nat} {data : Bytes} {i : Nat} (hi : i < size) :
    (ptruncate (inlineBytes size start data) size)[i]? = some (if start ≤ i then (data[i - start]?).getD 0 else 0) := by
  rw [ptruncate_get _ hi]
  unfold inlineBytes
  by_cases h : start < size ∧ data ≠ []
  · rw [if_pos h, List.length_append, List.length_replicate, List.length_take]
    by_cases h1 : start ≤ i
    · rw [if_pos h1, List.getElem?_append_right (by rw [List.length_replicate]; exact h1), List.length_replicate, List.getElem?_take,
        if_pos (show i - start < size - start by omega)]
      by_cases h2 : i - start < data.length
      · rw [if_pos (by omega), List.getElem?_eq_getElem h2]; rfl
      · rw [if_neg (by omega), List.getElem?_eq_none (by omega)]; rfl
    · rw [if_neg h1, if_pos (by omega), List.getElem?_append_left (by rw [List.length_replicate]; omega), List.getElem?_replicate,
        if_pos (by omega)]
  · rw [if_neg h]
    simp only [List.length_nil, Nat.not_lt_zero, if_false, Option.some.injEq]
    by_cases h1 : start ≤ i
    · rw [if_pos h1]
      have : data = [] := by
        by_cases hd : data = []
        · exact hd
        · exact absurd ⟨by omega, hd⟩ h
      rw [this]; rfl
    · rw [if_neg h1]

theorem recoverInline_run {env : Env} {fd : Nat} {size start : UInt64} {data : Bytes} {s : RecState}
    (hfd : s.fs.inodes[fd]? = some (.file [])) (hlt : size.toNat < 2 ^ 63) (hst : start.toNat + data.length < 2 ^ 63) :
    wp (recoverInline env fd (some size) start data) (fun r t => Wrote fd s t ∧ t.cache = s.cache ∧
      (r = none → t.fs.inodes[fd]? = some (.file (inlineBytes size.toNat start.toNat data))) ∧
      ((∀ k n, env.fails k n = false) → r = none)) (fun _ => False) s := by
  have h0 : int64OfU64 start = start.toNat := int64_small (by omega)
  have hwr : wrapInt64 ((start.toNat : Int) + data.length) = (start.toNat : Int) + data.length := wrapInt64_id (by omega) (by omega)
  have hsub : int64OfU64 (size - start) = (size.toNat : Int) - start.toNat := by
    have h1 := size.toNat_lt
    have h2 := start.toNat_lt
    unfold int64OfU64
    by_cases h : start.toNat ≤ size.toNat
    · rw [UInt64.toNat_sub_of_le _ _ (UInt64.le_iff_toNat_le.mpr h), if_pos (by omega)]
      omega
    · rw [UInt64.toNat_sub]
      have h3 : (2 ^ 64 - start.toNat + size.toNat) % 2 ^ 64 = 2 ^ 64 - start.toNat + size.toNat := Nat.mod_eq_of_lt (by omega)
      rw [h3, if_neg (by omega)]
      omega
  have hlim : inlineLimit (some size) start data.length = if (size.toNat : Int) < start.toNat + data.length then (size.toNat : Int) - start.toNat else data.length := by
    unfold inlineLimit
    simp only [h0, hsub, hwr, int64_small hlt]
  unfold recoverInline
  simp only [hlim]
  by_cases hp : (0 : Int) < if (size.toNat : Int) < start.toNat + data.length then (size.toNat : Int) - start.toNat else data.length
  · rw [if_pos hp]
    obtain ⟨n, hn, hnl, hn0, hnt⟩ : ∃ n : Nat, (if (size.toNat : Int) < start.toNat + data.length then (size.toNat : Int) - start.toNat else data.length) = n ∧
        n ≤ data.length ∧ 0 < n ∧ data.take n = data.take (size.toNat - start.toNat) ∧ start.toNat < size.toNat := by
      by_cases h : (size.toNat : Int) < start.toNat + data.length
      · rw [if_pos h] at hp ⊢
        exact ⟨size.toNat - start.toNat, by omega, by omega, by omega, rfl, by omega⟩
      · rw [if_neg h] at hp ⊢
        refine ⟨data.length, rfl, Nat.le_refl _, by omega, ?_, by omega⟩
        rw [List.take_length, List.take_of_length_le (by omega)]
    have hto : (Slice.mk data (List.replicate (env.slack data.length) 0)).to (n : Int).toNat =
        .ok ⟨data.take n, data.drop n ++ List.replicate (env.slack data.length) 0⟩ := by
      rw [Int.toNat_natCast, to_eq, if_pos (by omega), List.take_append_of_le_length hnl,
        List.drop_append_of_le_length hnl]
    rw [hn, wp_bind, hto, wp_lift_ok, wp_bind, h0]
    refine wp_mono (wp_sysWrite hfd (by omega) (by simp only [List.length_take]; omega)) ?_ fun _ h => h
    rintro ok t ⟨h1, h2, h3, h4⟩
    cases ok with
    | false => exact ⟨h1, h2, fun h => (by cases h), fun hq => by have := h4 hq; cases this⟩
    | true =>
      refine ⟨h1, h2, fun _ => ?_, fun _ => rfl⟩
      rw [h3 rfl, Int.toNat_natCast]
      have hne : data.take n ≠ [] := by
        intro h
        have := congrArg List.length h
        rw [List.length_take] at this
        simp only [List.length_nil] at this
        omega
      have hd : data ≠ [] := by
        rintro rfl
        simp at hne
      unfold inlineBytes
      rw [if_pos ⟨hnt.2, hd⟩, ← hnt.1]
      simp [pwrite, hne]
  · rw [if_neg hp]
    refine ⟨Wrote.refl _ _, rfl, fun _ => ?_, fun _ => rfl⟩
    unfold inlineBytes
    rw [if_neg ?_]
    · exact hfd
    · rintro ⟨h1, h2⟩
      have : 0 < data.length := List.length_pos_iff.mpr h2
      apply hp
      by_cases h : (size.toNat : Int) < start.toNat + data.length
      · rw [if_pos h]; omega
      · rw [if_neg h]; omega

attribute [local irreducible] Cmd.wp

theorem inline_extent {env : Env} {rf : Nat} {ix : Ix} {fd : Nat} {size ino start : UInt64} {r : Range} {f : InlineExtentRec}
    {data rest st : Bytes} {s : RecState} (hk : r.rKey = .ok ⟨ino, 108, start⟩) (h3 : f.ramBytes.toNat = data.length)
    (hfd : s.fs.inodes[fd]? = some (.file [])) (hlt : size.toNat < 2 ^ 63) (hl : data.length ≤ 16384)
    (hst : start.toNat + data.length < 2 ^ 63) :
    wp (recoverExtent env rf ix fd (some size) r ⟨f.layout ++ (data ++ rest), st⟩) (fun r t => Wrote fd s t ∧ t.cache = s.cache ∧
      (r = none → t.fs.inodes[fd]? = some (.file (inlineBytes size.toNat start.toNat data))) ∧
      ((∀ k n, env.fails k n = false) → r = none)) (fun _ => False) s := by
  obtain ⟨i1, i2⟩ := C12_inline_data f data rest st h3 hl
  unfold recoverExtent
  simp only [hk, i2, i1, wp_bind, wp_lift_ok, if_true]
  exact recoverInline_run hfd hlt hst

theorem inline_fold {env : Env} {rf : Nat} {ix : Ix} {fd : Nat} {size ino start : UInt64} {r : Range} {f : InlineExtentRec}
    {data rest st : Bytes} {s : RecState} (hk : r.rKey = .ok ⟨ino, 108, start⟩) (h3 : f.ramBytes.toNat = data.length)
    (hfd : s.fs.inodes[fd]? = some (.file [])) (hlt : size.toNat < 2 ^ 63) (hl : data.length ≤ 16384)
    (hst : start.toNat + data.length < 2 ^ 63) :
    wp (foldRec (recoverExtent env rf ix fd (some size)) [(r, ⟨f.layout ++ (data ++ rest), st⟩)]) (fun r t => Wrote fd s t ∧ t.cache = s.cache ∧
      (r = none → t.fs.inodes[fd]? = some (.file (inlineBytes size.toNat start.toNat data))) ∧
      ((∀ k n, env.fails k n = false) → r = none)) (fun _ => False) s := by
  have hx := inline_extent (env := env) (rf := rf) (ix := ix) (rest := rest) (st := st) hk h3 hfd hlt hl hst
  simp only [foldRec]
  generalize recoverExtent env rf ix fd (some size) r ⟨f.layout ++ (data ++ rest), st⟩ = c at hx ⊢
  rw [wp_bind]
  refine wp_mono hx ?_ fun _ h => h
  rintro r t hr
  cases r with
  | none => exact wp_pure' hr
  | some e => exact wp_pure' hr

/-- Filling an open file from its inline extent. -/
theorem inline_core {b : Bucket} (hb : b.WF) {m : Bytes} (hm : b.stores metadataVersionKey m)
    {owner ino g start : UInt64} {data : Bytes} (hi : b.InlineFile owner ino g start data) {size : UInt64} (hlt : size.toNat < 2 ^ 63)
    {rf : Nat} (hrf : 2 ≤ rf) {env : Env} {fd : Nat} {s : RecState} (hfd : s.fs.inodes[fd]? = some (.file [])) :
    wp (recoverContents env rf ⟨b, ~~~0⟩ owner ino fd (some size)) (fun r t => Wrote fd s t ∧ t.cache = s.cache ∧
      (r = none → t.fs.inodes[fd]? = some (.file (ptruncate (inlineBytes size.toNat start.toNat data) size.toNat))) ∧
      ((∀ k n, env.fails k n = false) → r = none)) (fun _ => False) s := by
  obtain ⟨l, hl, rfl⟩ := hb.exists_abs
  obtain ⟨rd, items, hr, hy, hpw, hs⟩ := rangeAll_single (g := g) hl ⟨m, hm⟩ hi.range (fun off hk => by
    rw [hi.only off hk]; exact hi.newest)
  obtain ⟨x, f, rest, h1, h2, -, -, -, h3⟩ := hi.intact
  obtain ⟨sl, h4, h5⟩ := h2.data
  obtain ⟨sd, st⟩ := sl
  simp only at h5
  subst h5
  have hmem : ((⟨owner, ⟨ino, 108, start⟩, g⟩, x), ⟨f.layout ++ (data ++ rest), st⟩) ∈ items := (hs _ _ _).mpr ⟨start, rfl, h1, h4⟩
  have hall : ∀ e ∈ items, e = ((⟨owner, ⟨ino, 108, start⟩, g⟩, x), ⟨f.layout ++ (data ++ rest), st⟩) := by
    rintro ⟨⟨w, y⟩, s'⟩ he
    obtain ⟨off, rfl, e1, e2⟩ := (hs _ _ _).mp he
    obtain rfl := hi.only off ⟨g, y, e1⟩
    obtain rfl := hl.unique (enc_stores.mp e1) (enc_stores.mp h1)
    rw [h4] at e2
    cases e2
    rfl
  have hone : items = [((⟨owner, ⟨ino, 108, start⟩, g⟩, x), ⟨f.layout ++ (data ++ rest), st⟩)] := by
    cases items with
    | nil => cases hmem
    | cons a r =>
      obtain rfl := hall a List.mem_cons_self
      cases r with
      | nil => rfl
      | cons a' r' =>
        obtain rfl := hall a' (List.mem_cons_of_mem _ List.mem_cons_self)
        have := (List.pairwise_cons.mp hpw).1 _ List.mem_cons_self
        exact absurd this (Nat.lt_irrefl _)
  subst hone
  simp only [List.map_cons, List.map_nil] at hy
  have hk : (Range.at l.enc (VKey.mk owner (KL2 108 ino) (~~~0)).encode (⟨owner, ⟨ino, 108, start⟩, g⟩, x)).rKey = .ok ⟨ino, 108, start⟩ := by
    simp only [Range.at, Range.rKey, key_encode]
  have hbody := inline_fold (env := env) (rf := rf) (ix := ⟨l.enc, ~~~0⟩) (rest := rest) (st := st) hk h3 hfd hlt hi.short hi.small
  have h63 : int64OfU64 size = (size.toNat : Int) := int64_small hlt
  unfold recoverContents
  rw [show (Ix.mk l.enc (~~~0)).fileExtentItems owner ino = .ok rd from hr, wp_bind, wp_lift_ok]
  rcases yields_head hy with ⟨hnil, hnx⟩ | ⟨rest', hcons, hnx⟩
  · cases hnil
  · simp only [hnx, Bool.not_true, Bool.false_eq_true, if_false]
    rw [wp_bind]
    have heq := rangeLoopRec_yields (body := recoverExtent env rf ⟨l.enc, ~~~0⟩ fd (some size)) hy rf s
    have hlen : [(Range.at l.enc (VKey.mk owner (KL2 108 ino) (~~~0)).encode (⟨owner, ⟨ino, 108, start⟩, g⟩, x), (⟨f.layout ++ (data ++ rest), st⟩ : Slice))].length < rf := by
      rw [List.length_singleton]; omega
    have heq' := heq hlen
    generalize rangeLoopRec (recoverExtent env rf ⟨l.enc, ~~~0⟩ fd (some size)) rf rd = c at heq' ⊢
    have hloop := wp_congr heq' hbody
    refine wp_mono hloop ?_ fun _ h => h
    rintro r t ⟨g1, g2, g3, g4⟩
    cases r with
    | some e => exact wp_pure' ⟨g1, g2, fun h => (by cases h), fun hq => by have := g4 hq; cases this⟩
    | none =>
      simp only [finishFile]
      rw [wp_bind, h63]
      refine wp_mono (wp_sysTruncate (g3 rfl) (by omega)) ?_ fun _ h => h
      rintro okt u ⟨k1, k2, k3, k4⟩
      cases okt with
      | false => exact wp_pure' ⟨g1.trans k1, k2.trans g2, fun h => (by cases h), fun hq => by have := k4 (hq .truncate); cases this⟩
      | true => exact wp_pure' ⟨g1.trans k1, k2.trans g2, fun _ => by rw [k3 rfl, Int.toNat_natCast], fun _ => rfl⟩

/-- Recovering an inline file. -/
theorem inline_uniform {b : Bucket} (hb : b.WF) {m : Bytes} (hm : b.stores metadataVersionKey m)
    {owner ino g start : UInt64} (ho : owner ≠ ~~~0) {data : Bytes} (hi : b.InlineFile owner ino g start data)
    {size : UInt64} (hsz : b.inodeSizeIs owner ino size) (hlt : size.toNat < 2 ^ 63)
    {rf : Nat} (hrf : 2 ≤ rf) (env : Env) (clobber : Bool) (target : Bytes) (s : RecState) :
    wp (recoverFile env rf ⟨b, ~~~0⟩ clobber owner ino target) (fun r s' =>
      (r = none → (clobber = false ∧ s.fs.stat true target ≠ none ∧ s'.fs = s.fs) ∨
        ∃ d, s'.fs.readFile target = some d ∧ d.length = size.toNat ∧
          ∀ i, i < size.toNat → d[i]? = some (if start.toNat ≤ i then (data[i - start.toNat]?).getD 0 else 0)) ∧
      ((∀ k n, env.fails k n = false) → s.fs.openTrunc target ≠ none → r = none)) (fun _ => False) s := by
  unfold recoverFile
  rw [wp_bind]
  refine wp_mono wp_statAt ?_ fun _ h => h
  rintro st t ⟨t1, t2, t3⟩
  by_cases hst : (st.isSome && !clobber) = true
  · rw [if_pos hst]
    rw [Bool.and_eq_true, Bool.not_eq_true'] at hst
    exact wp_pure' ⟨fun _ => Or.inl ⟨hst.2, t3 hst.1, t1⟩, fun _ _ => rfl⟩
  · rw [if_neg hst, inodeSize_is hb hm ho hsz, wp_bind, wp_lift_ok, wp_bind]
    refine wp_mono wp_sysOpen ?_ fun _ h => h
    rintro r u ⟨u1, u2, u3, u4⟩
    cases r with
    | none =>
      refine wp_pure' ⟨fun h => (by cases h), fun hq ho => ?_⟩
      rw [← t1] at ho
      exact absurd rfl (u4 hq ho)
    | some fd =>
      obtain ⟨h1, e, h2⟩ := openTrunc_resolve (u2 fd rfl)
      simp only
      have hw := inline_core hb hm hi hlt hrf (env := env) h1
      generalize recoverContents env rf ⟨b, ~~~0⟩ owner ino fd (some size) = c at hw ⊢
      refine wp_mono hw ?_ fun _ h => h
      rintro r v ⟨w1, w2, w3, w4⟩
      refine ⟨fun hr => Or.inr ⟨ptruncate (inlineBytes size.toNat start.toNat data) size.toNat, ?_, ptruncate_length _ _, fun i hi => inlineBytes_get hi⟩, fun hq _ => w4 hq⟩
      unfold HostFS.readFile
      rw [resolve_grown w1.grown h2 ⟨_, h1⟩]
      simp only [w3 hr]

/-- C58 for files whose contents are stored in their extent item: if recovering one reports
no error, the file at its path has the size the inode says and holds the data of the extent,
cut off or filled with zeroes at the end (and at the start, if the extent does not begin
there). Missing: compressed inline extents. -/
theorem C58_inline_partial (b : Bucket) (hb : b.WF) (m : Bytes) (hm : b.stores metadataVersionKey m)
    (owner ino g start : UInt64) (ho : owner ≠ ~~~0) (data : Bytes) (hi : b.InlineFile owner ino g start data)
    (size : UInt64) (hsz : b.inodeSizeIs owner ino size) (hlt : size.toNat < 2 ^ 63)
    (rf : Nat) (hrf : 2 ≤ rf) (env : Env) (clobber : Bool) (target : Bytes) (s : RecState) :
    ∃ r s', recoverFile env rf ⟨b, ~~~0⟩ clobber owner ino target s = .ok r s' ∧
      (r = none → (clobber = false ∧ s.fs.stat true target ≠ none ∧ s'.fs = s.fs) ∨
        ∃ d, s'.fs.readFile target = some d ∧ d.length = size.toNat ∧
          ∀ i, i < size.toNat → d[i]? = some (if start.toNat ≤ i then (data[i - start.toNat]?).getD 0 else 0)) ∧
      ((∀ k n, env.fails k n = false) → s.fs.openTrunc target ≠ none → r = none) := by
  have hw := inline_uniform hb hm ho hi hsz hlt hrf env clobber target s
  unfold wp at hw
  cases hrun : recoverFile env rf ⟨b, ~~~0⟩ clobber owner ino target s with
  | ok r s' => rw [hrun] at hw; exact ⟨r, s', rfl, hw⟩
  | exit s' => rw [hrun] at hw; exact hw.elim
  | crash s' => rw [hrun] at hw; exact hw.elim
  | hang s' => rw [hrun] at hw; exact hw.elim

end Btrfscue
