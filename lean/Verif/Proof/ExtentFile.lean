import Verif.Spec.ExtentFile
import Verif.Proof.Recon
/-!
# Reading extent backed files
-/

namespace Btrfscue

theorem wrapInt64_id {x : Int} (h1 : -(2 ^ 63) ≤ x) (h2 : x < 2 ^ 63) : wrapInt64 x = x := by
  unfold wrapInt64
  simp only
  split <;> omega

theorem int64_range (x : UInt64) : -(2 ^ 63) ≤ int64OfU64 x ∧ int64OfU64 x < 2 ^ 63 := by
  have := x.toNat_lt
  unfold int64OfU64
  split <;> omega

theorem zeroAt_len {buf buf' : Bytes} {dest chunk : Int} (hc : 0 ≤ chunk) (h : zeroAt buf dest chunk = .ok buf') :
    buf'.length = buf.length := by
  unfold zeroAt at h
  split at h
  · cases h
    simp only [List.length_append, List.length_take, List.length_replicate, List.length_drop]
    omega
  · cases h

theorem fillChunk_total {dev : Option ReaderAt} {e : ExtentMapEntry} {buf : Bytes} {dest chunk skip : Int}
    (h0 : 0 ≤ dest) (hc : 0 ≤ chunk) (h1 : dest + chunk ≤ buf.length) :
    fillChunk dev e buf dest chunk skip = .ok none ∨
    ∃ buf', fillChunk dev e buf dest chunk skip = .ok (some buf') ∧ buf'.length = buf.length := by
  have hz : ∃ b', zeroAt buf dest chunk = .ok b' := ⟨_, if_pos ⟨h0, h1⟩⟩
  obtain ⟨b', hz⟩ := hz
  have hl := zeroAt_len hc hz
  unfold fillChunk
  split
  · right; exact ⟨b', by rw [hz]; rfl, hl⟩
  · split
    · right; exact ⟨b', by rw [hz]; rfl, hl⟩
    · rename_i r
      simp only [readInto, if_pos (And.intro h0 h1)]
      generalize r _ _ = p
      obtain ⟨bs, err⟩ := p
      simp only [Go.ok_bind]
      split
      · left; rfl
      · right
        refine ⟨_, rfl, ?_⟩
        simp only [List.length_append, List.length_take, goCopy_length, List.length_drop]
        omega

/-- Reading never goes outside the buffer, whatever the extents. -/
theorem readLoop_total (dev : Option ReaderAt) (off : Int) (h0 : 0 ≤ off) (h1 : off < 2 ^ 63) :
    ∀ (m : List ExtentMapEntry) (c : Int) (buf : Bytes), buf.length < 2 ^ 63 → 0 ≤ c → c ≤ buf.length →
      readLoop dev off m c buf = .ok none ∨
      ∃ c' buf', readLoop dev off m c buf = .ok (some (c', buf')) ∧ buf'.length = buf.length ∧ 0 ≤ c' ∧ c' ≤ buf.length := by
  intro m
  induction m with
  | nil => intro c buf hb hc hc'; right; exact ⟨c, buf, rfl, rfl, hc, hc'⟩
  | cons e rest ih =>
    intro c buf hb hc hc'
    have hs := int64_range e.fileOffset
    have he := int64_range (e.fileOffset + e.length)
    unfold readLoop
    simp only
    generalize int64OfU64 e.fileOffset = st at *
    generalize int64OfU64 (e.fileOffset + e.length) = en at *
    by_cases hw : off + (buf.length - c) < 2 ^ 63
    · rw [wrapInt64_id (by omega) hw]
      by_cases c1 : off ≥ en
      · rw [if_pos c1]; exact ih c buf hb hc hc'
      · rw [if_neg c1]
        by_cases c2 : off + (buf.length - c) ≤ st
        · rw [if_pos c2]; right; exact ⟨c, buf, rfl, rfl, hc, hc'⟩
        · rw [if_neg c2]
          have hrs : (if off < st then st else off) ≥ off := by split <;> omega
          have hre : (if en < off + (buf.length - c) then en else off + (buf.length - c)) ≤ off + (buf.length - c) := by
            split <;> omega
          generalize (if off < st then st else off) = rs at *
          generalize (if en < off + (buf.length - c) then en else off + (buf.length - c)) = re at *
          by_cases c3 : re ≤ rs
          · rw [if_pos c3]; exact ih c buf hb hc hc'
          · rw [if_neg c3]
            rw [wrapInt64_id (x := re - rs) (by omega) (by omega), wrapInt64_id (x := rs - off) (by omega) (by omega),
              wrapInt64_id (x := c + (re - rs)) (by omega) (by omega)]
            rcases fillChunk_total (dev := dev) (e := e) (buf := buf) (dest := rs - off) (chunk := re - rs)
              (skip := rs - st) (by omega) (by omega) (by omega) with h | ⟨buf', h, hl⟩
            · rw [h]; left; rfl
            · rw [h]
              simp only [Go.ok_bind]
              rcases ih (c + (re - rs)) buf' (by omega) (by omega) (by omega) with h | ⟨c', b', h, h2, h3, h4⟩
              · left; exact h
              · right; exact ⟨c', b', h, by omega, h3, by omega⟩
    · -- the end of the request wraps around
      have hneg : wrapInt64 (off + (buf.length - c)) < 0 := by
        unfold wrapInt64; simp only; split <;> omega
      generalize wrapInt64 (off + (buf.length - c)) = w at *
      by_cases c1 : off ≥ en
      · rw [if_pos c1]; exact ih c buf hb hc hc'
      · rw [if_neg c1]
        by_cases c2 : w ≤ st
        · rw [if_pos c2]; right; exact ⟨c, buf, rfl, rfl, hc, hc'⟩
        · rw [if_neg c2, if_pos (by split <;> split <;> omega)]
          exact ih c buf hb hc hc'

/-- What filling a chunk does when the device has the data. -/
theorem fillChunk_image {D : Bytes} {e : ExtentMapEntry} {buf : Bytes} {dest chunk skip : Nat}
    (h1 : dest + chunk ≤ buf.length) (hD : D.length < 2 ^ 63)
    (hd : e.diskByteNr ≠ 0 → e.physOffset.toNat + skip + chunk ≤ D.length) :
    ∃ w : Bytes, fillChunk (some (imageReader D)) e buf dest chunk skip =
        .ok (some (buf.take dest ++ (w ++ buf.drop (dest + chunk)))) ∧ w.length = chunk ∧
      ∀ j v, w[j]? = some v → (e.diskByteNr = 0 ∧ v = 0) ∨
        (e.diskByteNr ≠ 0 ∧ D[e.physOffset.toNat + skip + j]? = some v) := by
  have hc : (0 : Int) ≤ (dest : Int) ∧ (dest : Int) + (chunk : Int) ≤ (buf.length : Int) := ⟨by omega, by omega⟩
  have hn : ((dest : Int) + (chunk : Int)).toNat = dest + chunk := by omega
  unfold fillChunk
  by_cases hz : e.diskByteNr = 0
  · rw [if_pos hz]
    refine ⟨List.replicate chunk 0, ?_, by simp, ?_⟩
    · simp only [zeroAt, if_pos hc, Int.toNat_natCast, hn]; rfl
    · intro j v hv
      left
      rw [List.getElem?_replicate] at hv
      split at hv
      · exact ⟨hz, (Option.some.inj hv).symm⟩
      · cases hv
  · rw [if_neg hz]
    have hd := hd hz
    refine ⟨(D.drop (e.physOffset.toNat + skip)).take chunk, ?_, ?_, ?_⟩
    · simp only [readInto, if_pos hc, Int.toNat_natCast, hn]
      rw [int64_small (by omega), wrapInt64_id (by omega) (by omega),
        show (e.physOffset.toNat : Int) + (skip : Int) = ((e.physOffset.toNat + skip : Nat) : Int) by omega,
        imageReader_full (by omega)]
      have hl : ((D.drop (e.physOffset.toNat + skip)).take chunk).length = chunk := by
        rw [List.length_take, List.length_drop]; omega
      have hg : goCopy ((buf.drop dest).take chunk) ((D.drop (e.physOffset.toNat + skip)).take chunk) =
          (D.drop (e.physOffset.toNat + skip)).take chunk := by
        unfold goCopy
        have h2 : ((buf.drop dest).take chunk).length = chunk := by
          rw [List.length_take, List.length_drop]; omega
        have h3 : ((buf.drop dest).take chunk).drop chunk = [] := List.drop_eq_nil_of_le (by omega)
        rw [h2, List.take_of_length_le (by omega), hl, h3, List.append_nil]
      simp only [Go.ok_bind, hg]
      rfl
    · rw [List.length_take, List.length_drop]; omega
    · intro j v hv
      right
      refine ⟨hz, ?_⟩
      rw [List.getElem?_take] at hv
      split at hv
      · rwa [List.getElem?_drop] at hv
      · cases hv

/-- The invariant of the loop: `c` bytes were read so far, all right; `X` is where the
extents still to come begin at the earliest. -/
theorem readLoop_spec {D : Bytes} {off L : Nat} (hL : off + L < 2 ^ 63) (hL0 : 0 < L) (P : Nat → UInt8 → Prop) :
    ∀ (m : List ExtentMapEntry) (c X : Nat) (buf : Bytes), ExtentsOK D m → (∀ e ∈ m, X ≤ e.fileOffset.toNat) →
      (∀ p, off ≤ p → X ≤ p → p < off + L → (∃ e ∈ m, e.covers p) ∨ ∀ e ∈ m, e.fileEnd ≤ p) →
      buf.length = L → c ≤ L → (∀ i < c, ∀ v, buf[i]? = some v → P i v) →
      (∀ e ∈ m, ∀ p v, e.covers p → off ≤ p → ((e.diskByteNr = 0 ∧ v = 0) ∨
        (e.diskByteNr ≠ 0 ∧ D[e.physOffset.toNat + (p - e.fileOffset.toNat)]? = some v)) → P (p - off) v) →
      ((c = 0 ∧ X ≤ off) ∨ (off + c = X ∧ 0 < c) ∨ (off + L ≤ X + c)) →
      ∃ c' buf', readLoop (some (imageReader D)) off m c buf = .ok (some ((c' : Nat), buf')) ∧ buf'.length = L ∧
        c ≤ c' ∧ c' ≤ L ∧ (∀ i < c', ∀ v, buf'[i]? = some v → P i v) ∧
        (c = 0 → X ≤ off → ∀ e ∈ m, e.covers off → min L (e.fileEnd - off) ≤ c') := by
  intro m
  induction m with
  | nil =>
    intro c X buf _ _ _ hb hc hg _ _
    exact ⟨c, buf, rfl, hb, Nat.le_refl _, hc, hg, by simp⟩
  | cons e rest ih =>
    intro c X buf hok hX hgap hb hc hg hP hst
    have hbound := hok.bounded e List.mem_cons_self
    have hrest : ExtentsOK D rest := ⟨hok.device, fun x hx => hok.bounded x (List.mem_cons_of_mem _ hx),
      (List.pairwise_cons.mp hok.ordered).2, fun x hx => hok.onDevice x (List.mem_cons_of_mem _ hx)⟩
    have hord := (List.pairwise_cons.mp hok.ordered).1
    have hXe := hX e List.mem_cons_self
    have hfe : e.fileEnd = e.fileOffset.toNat + e.length.toNat := rfl
    have e1 : int64OfU64 e.fileOffset = (e.fileOffset.toNat : Int) := int64_small (by omega)
    have e2 : int64OfU64 (e.fileOffset + e.length) = (e.fileEnd : Int) := by
      have : (e.fileOffset + e.length).toNat = e.fileEnd := by
        rw [UInt64.toNat_add, Nat.mod_eq_of_lt (by omega)]; rfl
      rw [int64_small (by omega), this]
    unfold readLoop
    simp only [e1, e2]
    rw [wrapInt64_id (x := (off : Int) + (buf.length - (c : Int))) (by omega) (by omega)]
    -- skipping an extent
    have skip : (∀ p, off ≤ p → X ≤ p → ¬ e.covers p) →
        ∃ c' buf', readLoop (some (imageReader D)) off rest c buf = .ok (some ((c' : Nat), buf')) ∧ buf'.length = L ∧
        c ≤ c' ∧ c' ≤ L ∧ (∀ i < c', ∀ v, buf'[i]? = some v → P i v) ∧
        (c = 0 → X ≤ off → ∀ x ∈ e :: rest, x.covers off → min L (x.fileEnd - off) ≤ c') := by
      intro hnc
      obtain ⟨c', b', h1, h2, h3, h4, h5, h6⟩ := ih c X buf hrest (fun x hx => hX x (List.mem_cons_of_mem _ hx))
        (by
          intro p p1 p2 p3
          rcases hgap p p1 p2 p3 with ⟨x, hx, hxc⟩ | h
          · rcases List.mem_cons.mp hx with rfl | hx
            · exact absurd hxc (hnc p p1 p2)
            · exact Or.inl ⟨x, hx, hxc⟩
          · exact Or.inr fun x hx => h x (List.mem_cons_of_mem _ hx))
        hb hc hg (fun x hx => hP x (List.mem_cons_of_mem _ hx)) hst
      refine ⟨c', b', h1, h2, h3, h4, h5, ?_⟩
      intro hc0 hX0 x hx hxc
      rcases List.mem_cons.mp hx with rfl | hx
      · exact absurd hxc (hnc off (Nat.le_refl _) hX0)
      · exact h6 hc0 hX0 x hx hxc
    -- leaving the loop
    have stop : (c = 0 → X ≤ off → ∀ x ∈ e :: rest, x.covers off → L = 0) →
        ∃ c' buf', (Go.ok (some ((c : Int), buf)) : Go (Option (Int × Bytes))) = .ok (some ((c' : Nat), buf')) ∧ buf'.length = L ∧
        c ≤ c' ∧ c' ≤ L ∧ (∀ i < c', ∀ v, buf'[i]? = some v → P i v) ∧
        (c = 0 → X ≤ off → ∀ x ∈ e :: rest, x.covers off → min L (x.fileEnd - off) ≤ c') := by
      intro h
      refine ⟨c, buf, rfl, hb, Nat.le_refl _, hc, hg, ?_⟩
      intro a1 a2 x hx hxc
      have := h a1 a2 x hx hxc
      omega
    by_cases c1 : (off : Int) ≥ (e.fileEnd : Int)
    · rw [if_pos c1]
      refine skip ?_
      intro p p1 _ hcov
      have := hcov.2; omega
    · rw [if_neg c1]
      by_cases c2 : (off : Int) + (buf.length - (c : Int)) ≤ (e.fileOffset.toNat : Int)
      · rw [if_pos c2]
        refine stop ?_
        intro hc0 hX0 x hx hxc
        have hle : e.fileOffset.toNat ≤ x.fileOffset.toNat := by
          rcases List.mem_cons.mp hx with rfl | hx
          · omega
          · have := hord x hx; omega
        have := hxc.1
        omega
      · rw [if_neg c2]
        -- finished state cannot get here
        have hnf : ¬ (off + L ≤ X + c) := by omega
        by_cases hemp : e.length.toNat = 0
        · rw [if_pos (by split <;> split <;> omega)]
          refine skip ?_
          intro p p1 p2 hcov
          have := hcov.1; have := hcov.2; omega
        · -- the extent starts where the data read so far ends (or before `off`)
          have hstart : e.fileOffset.toNat ≤ off + c := by
            have hq : X ≤ off + c := by rcases hst with h | h | h <;> omega
            rcases hgap (off + c) (by omega) hq (by omega) with ⟨x, hx, hxc⟩ | h
            · rcases List.mem_cons.mp hx with rfl | hx
              · exact hxc.1
              · have h1 := hord x hx
                have h2 := hxc.1
                omega
            · have := h e List.mem_cons_self; omega
          have hcpos : 0 < c → e.fileOffset.toNat = off + c := by
            intro hp
            rcases hst with h | h | h <;> omega
          -- positions
          obtain ⟨rs, hrs⟩ : ∃ rs : Nat, (if (off : Int) < (e.fileOffset.toNat : Int) then (e.fileOffset.toNat : Int) else (off : Int)) = (rs : Int) ∧ rs = off + c := by
            refine ⟨off + c, ?_, rfl⟩
            rcases Nat.eq_zero_or_pos c with h | h
            · rw [if_neg (by omega)]; omega
            · rw [if_pos (by have := hcpos h; omega)]; have := hcpos h; omega
          rw [hrs.1]
          obtain ⟨re, hre, hre1, hre2, hre3⟩ : ∃ re : Nat, (if (e.fileEnd : Int) < (off : Int) + (buf.length - (c : Int)) then (e.fileEnd : Int) else (off : Int) + (buf.length - (c : Int))) = (re : Int) ∧ re ≤ e.fileEnd ∧ re ≤ off + L - c ∧ (re = e.fileEnd ∨ re = off + L - c) := by
            by_cases h : (e.fileEnd : Int) < (off : Int) + (buf.length - (c : Int))
            · exact ⟨e.fileEnd, by rw [if_pos h], Nat.le_refl _, by omega, Or.inl rfl⟩
            · exact ⟨off + L - c, by rw [if_neg h]; omega, by omega, Nat.le_refl _, Or.inr rfl⟩
          rw [hre]
          have hrse : rs = off + c := hrs.2
          have hlt : rs < re := by
            rcases Nat.eq_zero_or_pos c with h | h
            · rcases hre3 with h3 | h3 <;> omega
            · have := hcpos h
              rcases hre3 with h3 | h3
              · omega
              · omega
          rw [if_neg (by omega)]
          rw [wrapInt64_id (x := (re : Int) - (rs : Int)) (by omega) (by omega),
            wrapInt64_id (x := (rs : Int) - (off : Int)) (by omega) (by omega),
            wrapInt64_id (x := (c : Int) + ((re : Int) - (rs : Int))) (by omega) (by omega)]
          rw [show (rs : Int) - (off : Int) = ((c : Nat) : Int) by omega,
            show (re : Int) - (rs : Int) = ((re - rs : Nat) : Int) by omega,
            show (rs : Int) - (e.fileOffset.toNat : Int) = ((rs - e.fileOffset.toNat : Nat) : Int) by omega]
          obtain ⟨w, hw, hwl, hwv⟩ := fillChunk_image (D := D) (e := e) (buf := buf) (dest := c) (chunk := re - rs)
            (skip := rs - e.fileOffset.toNat) (by omega) hok.device
            (fun hz => by have := hok.onDevice e List.mem_cons_self hz; omega)
          rw [hw]
          simp only [Go.ok_bind]
          rw [show (c : Int) + ((re - rs : Nat) : Int) = ((c + (re - rs) : Nat) : Int) by omega]
          have htl : (buf.take c).length = c := by rw [List.length_take]; omega
          obtain ⟨c', b', h1, h2, h3, h4, h5, -⟩ := ih (c + (re - rs)) e.fileEnd (buf.take c ++ (w ++ buf.drop (c + (re - rs)))) hrest
            (fun x hx => hord x hx)
            (by
              intro p p1 p2 p3
              rcases hgap p p1 (by omega) p3 with ⟨x, hx, hxc⟩ | h
              · rcases List.mem_cons.mp hx with rfl | hx
                · have := hxc.2; omega
                · exact Or.inl ⟨x, hx, hxc⟩
              · exact Or.inr fun x hx => h x (List.mem_cons_of_mem _ hx))
            (by simp only [List.length_append, htl, hwl, List.length_drop]; omega)
            (by omega)
            (by
              intro i hi v hv
              by_cases hic : i < c
              · rw [List.getElem?_append_left (by omega), List.getElem?_take_of_lt hic] at hv
                exact hg i hic v hv
              · rw [List.getElem?_append_right (by omega), htl, List.getElem?_append_left (by omega)] at hv
                have hb' := hwv (i - c) v hv
                have hcov : e.covers (off + i) := ⟨by omega, by omega⟩
                have := hP e List.mem_cons_self (off + i) v hcov (by omega)
                  (by
                    rcases hb' with h | ⟨h, h'⟩
                    · exact Or.inl h
                    · refine Or.inr ⟨h, ?_⟩
                      rw [← h']; congr 1; omega)
                rwa [show off + i - off = i by omega] at this)
            (fun x hx => hP x (List.mem_cons_of_mem _ hx))
            (by
              rcases hre3 with h | h
              · right; left; omega
              · right; right; omega)
          refine ⟨c', b', h1, h2, by omega, h4, h5, ?_⟩
          intro hc0 hX0 x hx hxc
          rcases List.mem_cons.mp hx with rfl | hx
          · have hk : c' ≥ re - rs := by omega
            clear ih h1 h2 h3 h4 h5 hgap hst skip stop
            rcases hre3 with h | h <;> omega
          · have a1 := hord x hx
            have a2 := hxc.1
            omega

instance {ε α : Type} [DecidableEq ε] [DecidableEq α] : DecidableEq (Except ε α) := fun a b =>
  match a, b with
  | .ok x, .ok y => if h : x = y then isTrue (by rw [h]) else isFalse (by simpa using h)
  | .error x, .error y => if h : x = y then isTrue (by rw [h]) else isFalse (by simpa using h)
  | .ok _, .error _ => isFalse (by simp)
  | .error _, .ok _ => isFalse (by simp)

/-- One iteration that reads something, in natural numbers. -/
theorem readLoop_step {dev : Option ReaderAt} {off c : Nat} {e : ExtentMapEntry} {rest : List ExtentMapEntry} {buf : Bytes}
    (hb : e.fileEnd < 2 ^ 63) (hL : off + buf.length < 2 ^ 63) (hc : c ≤ buf.length) {rs re : Nat}
    (hrs : rs = max off e.fileOffset.toNat) (hre : re = min e.fileEnd (off + buf.length - c)) (hlt : rs < re) :
    readLoop dev off (e :: rest) c buf = (fillChunk dev e buf ((rs - off : Nat) : Int) ((re - rs : Nat) : Int)
      ((rs - e.fileOffset.toNat : Nat) : Int)) >>= fun r => match r with
        | none => .ok none
        | some b => readLoop dev off rest ((c + (re - rs) : Nat) : Int) b := by
  have hf : e.fileEnd = e.fileOffset.toNat + e.length.toNat := rfl
  have e1 : int64OfU64 e.fileOffset = (e.fileOffset.toNat : Int) := int64_small (by omega)
  have e2 : int64OfU64 (e.fileOffset + e.length) = (e.fileEnd : Int) := by
    have : (e.fileOffset + e.length).toNat = e.fileEnd := by
      rw [UInt64.toNat_add, Nat.mod_eq_of_lt (by omega)]; rfl
    rw [int64_small (by omega), this]
  rw [readLoop]
  simp only [e1, e2]
  rw [wrapInt64_id (x := (off : Int) + (buf.length - (c : Int))) (by omega) (by omega), if_neg (by omega), if_neg (by omega)]
  have a1 : (if (off : Int) < (e.fileOffset.toNat : Int) then (e.fileOffset.toNat : Int) else (off : Int)) = (rs : Int) := by
    split <;> omega
  have a2 : (if (e.fileEnd : Int) < (off : Int) + (buf.length - (c : Int)) then (e.fileEnd : Int) else (off : Int) + (buf.length - (c : Int))) = (re : Int) := by
    split <;> omega
  rw [a1, a2, if_neg (by omega), wrapInt64_id (x := (re : Int) - (rs : Int)) (by omega) (by omega),
    wrapInt64_id (x := (rs : Int) - (off : Int)) (by omega) (by omega),
    wrapInt64_id (x := (c : Int) + ((re : Int) - (rs : Int))) (by omega) (by omega),
    show (rs : Int) - (off : Int) = ((rs - off : Nat) : Int) by omega,
    show (rs : Int) - (e.fileOffset.toNat : Int) = ((rs - e.fileOffset.toNat : Nat) : Int) by omega,
    show (re : Int) - (rs : Int) = ((re - rs : Nat) : Int) by omega,
    show (c : Int) + ((re - rs : Nat) : Int) = ((c + (re - rs) : Nat) : Int) by omega]
  rfl

/-- The iteration that leaves the loop. -/
theorem readLoop_break {dev : Option ReaderAt} {off c : Nat} {e : ExtentMapEntry} {rest : List ExtentMapEntry} {buf : Bytes}
    (hb : e.fileEnd < 2 ^ 63) (hL : off + buf.length < 2 ^ 63) (hc : c ≤ buf.length) (h1 : off < e.fileEnd)
    (h2 : off + buf.length - c ≤ e.fileOffset.toNat) :
    readLoop dev off (e :: rest) c buf = .ok (some ((c : Nat), buf)) := by
  have hf : e.fileEnd = e.fileOffset.toNat + e.length.toNat := rfl
  have e1 : int64OfU64 e.fileOffset = (e.fileOffset.toNat : Int) := int64_small (by omega)
  have e2 : int64OfU64 (e.fileOffset + e.length) = (e.fileEnd : Int) := by
    have : (e.fileOffset + e.length).toNat = e.fileEnd := by
      rw [UInt64.toNat_add, Nat.mod_eq_of_lt (by omega)]; rfl
    rw [int64_small (by omega), this]
  rw [readLoop]
  simp only [e1, e2]
  rw [wrapInt64_id (x := (off : Int) + (buf.length - (c : Int))) (by omega) (by omega), if_neg (by omega), if_pos (by omega)]

end Btrfscue
