import Verif.Proof.RecFile
import Verif.Proof.PwriteLast
import Verif.Props.Derived
/-!
# Writing only true bytes, whatever fails
-/

namespace Btrfscue

open Cmd

/-- What the device delivers are bytes of `D`; it may deliver fewer than wanted, and fail in
any way at any time. -/
def Truthful (env : Env) (D : Bytes) : Prop :=
  ∀ (n : Nat) (off : Int) (k : Nat), 0 ≤ off → (env.dev n off k).1 <+: D.drop off.toNat

theorem Honest.truthful {env : Env} {D : Bytes} (h : Honest env D) : Truthful env D := h.bytes

/-- Every byte is zero or as `P` says. -/
def TrueOrZero (P : Nat → UInt8 → Prop) (d : Bytes) : Prop := ∀ i v, d[i]? = some v → v = 0 ∨ P i v

theorem TrueOrZero.nil {P : Nat → UInt8 → Prop} : TrueOrZero P [] := fun i v h => by cases h

theorem TrueOrZero.write {P : Nat → UInt8 → Prop} {d b : Bytes} {off : Nat} (h : TrueOrZero P d)
    (hb : ∀ j v, b[j]? = some v → v = 0 ∨ P (off + j) v) : TrueOrZero P (pwrite d off b) := by
  by_cases hn : b = []
  · rw [hn, pwrite_nil]; exact h
  intro i v hv
  rw [pwrite_get hn] at hv
  by_cases h1 : i < off
  · rw [if_pos h1] at hv
    by_cases h2 : i < d.length
    · rw [if_pos h2] at hv; exact h i v hv
    · rw [if_neg h2] at hv; cases hv; exact Or.inl rfl
  · rw [if_neg h1] at hv
    by_cases h2 : i < off + b.length
    · rw [if_pos h2] at hv
      have := hb _ _ hv
      rwa [show off + (i - off) = i by omega] at this
    · rw [if_neg h2] at hv; exact h i v hv

theorem TrueOrZero.truncate {P : Nat → UInt8 → Prop} {d : Bytes} {n : Nat} (h : TrueOrZero P d) :
    TrueOrZero P (ptruncate d n) := by
  intro i v hv
  have hi : i < n := by
    have := (List.getElem?_eq_some_iff.mp hv).1
    rwa [ptruncate_length] at this
  rw [ptruncate_get _ hi] at hv
  by_cases h2 : i < d.length
  · rw [if_pos h2] at hv; exact h i v hv
  · rw [if_neg h2] at hv; cases hv; exact Or.inl rfl

/-- In this file system, file `fd` holds only true bytes and zeros, and what there was in `f0`
is still there. -/
def HoldsTrue (P : Nat → UInt8 → Prop) (fd : Nat) (f0 f : HostFS) : Prop :=
  Grown f0 f ∧ ∃ d, f.inodes[fd]? = some (.file d) ∧ TrueOrZero P d

/-- So it has been since `s0`. -/
def TrueSince (P : Nat → UInt8 → Prop) (fd : Nat) (f0 : HostFS) (p0 : List HostFS) (t : RecState) : Prop :=
  HoldsTrue P fd f0 t.fs ∧ ∀ f ∈ t.past, f ∈ p0 ∨ HoldsTrue P fd f0 f

variable {env : Env} {D : Bytes} {fd : Nat} {P : Nat → UInt8 → Prop} {f0 : HostFS} {p0 : List HostFS}
  {C : Option (List StripeMapEntry) → Prop}

theorem TrueSince.put {s : RecState} {d d' : Bytes} (h : TrueSince P fd f0 p0 s) (hf : s.fs.inodes[fd]? = some (.file d))
    (hd : TrueOrZero P d') (n : Nat) :
    TrueSince P fd f0 p0 { s with calls := n, fs := s.fs.put fd (.file d'), past := s.fs :: s.past } := by
  refine ⟨⟨h.1.1.trans (put_grown hf), d', put_get_self (List.getElem?_eq_some_iff.mp hf).1, hd⟩, ?_⟩
  intro f hm
  rcases List.mem_cons.mp hm with rfl | hm
  · exact Or.inr h.1
  · exact h.2 f hm

theorem true_write {s : RecState} {b : Bytes} {off : Int} (h : TrueSince P fd f0 p0 s)
    (hb : ∀ j v, b[j]? = some v → v = 0 ∨ P (off.toNat + j) v) :
    wp (sysWrite env fd b off) (fun _ t => TrueSince P fd f0 p0 t ∧ t.cache = s.cache) (fun _ => False) s := by
  obtain ⟨d, hd, ht⟩ := h.1.2
  have hb' : ∀ n j v, (b.take n)[j]? = some v → v = 0 ∨ P (off.toNat + j) v := by
    intro n j v hv
    rw [List.getElem?_take] at hv
    split at hv
    · exact hb j v hv
    · cases hv
  unfold wp sysWrite
  by_cases ho : off < 0
  · rw [if_pos ho, pure_run]; exact ⟨h, rfl⟩
  rw [if_neg ho]
  by_cases hn : b = []
  · rw [if_pos hn, pure_run]; exact ⟨h, rfl⟩
  rw [if_neg hn]
  simp only [bind_def, get_run, tick]
  by_cases hfl : env.fails .write s.calls = true
  · simp only [hfl, if_true, bind_def, get_run, HostFS.write, hd, applyFS, setFS, modify_run, pure_run]
    exact ⟨h.put hd (ht.write (hb' _)) _, by first | rfl | trivial⟩
  · simp only [hfl, Bool.false_eq_true, if_false, bind_def, get_run]
    by_cases hs : 2 ^ 63 ≤ off + b.length
    · rw [if_pos hs, pure_run]; exact ⟨h, rfl⟩
    · rw [if_neg hs]
      simp only [bind_def, get_run, HostFS.write, hd, applyFS, setFS, modify_run, pure_run]
      exact ⟨h.put hd (ht.write hb) _, by first | rfl | trivial⟩

theorem true_truncate {s : RecState} {n : Int} (h : TrueSince P fd f0 p0 s) :
    wp (sysTruncate env fd n) (fun _ t => TrueSince P fd f0 p0 t ∧ t.cache = s.cache) (fun _ => False) s := by
  obtain ⟨d, hd, ht⟩ := h.1.2
  unfold wp sysTruncate
  simp only [bind_def, tick]
  by_cases hfl : env.fails .truncate s.calls = true
  · simp only [hfl, if_true, pure_run]
    exact ⟨h, by first | rfl | trivial⟩
  · simp only [hfl, Bool.false_eq_true, if_false]
    by_cases hn : n < 0
    · rw [if_pos hn, pure_run]; exact ⟨h, rfl⟩
    · rw [if_neg hn]
      simp only [bind_def, get_run, HostFS.truncate, hd, applyFS, setFS, modify_run, pure_run]
      exact ⟨h.put hd ht.truncate _, by first | rfl | trivial⟩

theorem true_read (hh : Truthful env D) (n off k : Nat) :
    (osReadAt (env.dev n) (off : Int) k).1 <+: D.drop off ∧ (osReadAt (env.dev n) (off : Int) k).1.length ≤ k ∧
      ((osReadAt (env.dev n) (off : Int) k).2 = none → (osReadAt (env.dev n) (off : Int) k).1.length = k) := by
  have h1 := hh n off k (by omega)
  rw [Int.toNat_natCast] at h1
  unfold osReadAt
  generalize env.dev n (off : Int) k = r at h1 ⊢
  rw [if_neg (by omega)]
  by_cases hk : k ≤ r.1.length
  · rw [if_pos hk]
    exact ⟨(List.take_prefix _ _).trans h1, by rw [List.length_take]; omega, fun _ => by rw [List.length_take]; omega⟩
  · rw [if_neg hk]
    exact ⟨h1, by simp only; omega, fun h => by cases h⟩

/-- Copying an extent writes only bytes of it. -/
theorem true_copyLoop (hh : Truthful env D) {fo so nb : UInt64} (hfo : fo.toNat + nb.toNat < 2 ^ 63)
    (hso : so.toNat + nb.toNat < 2 ^ 63)
    (hP : ∀ j v, j < nb.toNat → D[so.toNat + j]? = some v → P (fo.toNat + j) v) :
    ∀ (fuel : Nat) (c : UInt64) (s : RecState), c.toNat ≤ nb.toNat → nb.toNat - c.toNat ≤ fuel * 1048576 →
      TrueSince P fd f0 p0 s → C s.cache →
      wp (copyLoop env fd fo so nb (fuel + 1) c) (fun _ t => TrueSince P fd f0 p0 t ∧ C t.cache) (fun _ => False) s := by
  intro fuel
  induction fuel with
  | zero =>
    intro c s hc hfu h hC
    have hcn : c = nb := UInt64.toNat_inj.mp (by omega)
    subst hcn
    rw [copyLoop, if_neg (by rw [UInt64.lt_iff_toNat_lt]; omega)]
    exact ⟨h, hC⟩
  | succ fuel ih =>
    intro c s hc hfu h hC
    rw [copyLoop]
    by_cases hlt : c < nb
    · rw [if_pos hlt]
      rw [UInt64.lt_iff_toNat_lt] at hlt
      have hsub : (nb - c).toNat = nb.toNat - c.toNat := by
        rw [UInt64.toNat_sub_of_le _ _ (UInt64.le_iff_toNat_le.mpr hc)]
      have htc : (toCopy nb c).toNat = min 1048576 (nb.toNat - c.toNat) := by
        unfold toCopy
        by_cases h : chunkSize < nb - c
        · rw [if_pos h]
          rw [UInt64.lt_iff_toNat_lt, hsub] at h
          have : chunkSize.toNat = 1048576 := rfl
          omega
        · rw [if_neg h, hsub]
          rw [UInt64.lt_iff_toNat_lt, hsub] at h
          have : chunkSize.toNat = 1048576 := rfl
          omega
      have hadd : (so + c).toNat = so.toNat + c.toNat := add_small (by omega)
      have haddf : (fo + c).toNat = fo.toNat + c.toNat := add_small (by omega)
      rw [wp_bind]
      unfold wp devRead
      simp only
      rw [int64_small (x := so + c) (by omega), hadd]
      obtain ⟨hj1, hj2, hj3⟩ := true_read hh s.calls (so.toNat + c.toNat) (toCopy nb c).toNat
      generalize osReadAt (env.dev s.calls) _ _ = r at hj1 hj2 hj3
      have hw : wp (writeRead env fd r.1 (int64OfU64 (fo + c))) (fun _ t => TrueSince P fd f0 p0 t ∧ t.cache = s.cache)
          (fun _ => False) { s with calls := s.calls + 1 } := by
        unfold writeRead
        by_cases hpos : 0 < r.1.length
        · rw [if_pos hpos, int64_small (x := fo + c) (by omega), haddf]
          refine true_write (s := { s with calls := s.calls + 1 }) h ?_
          intro j v hv
          right
          have hjl : j < r.1.length := (List.getElem?_eq_some_iff.mp hv).1
          obtain ⟨tl, htl⟩ := hj1
          have hD : D[so.toNat + (c.toNat + j)]? = some v := by
            have : (D.drop (so.toNat + c.toNat))[j]? = some v := by
              rw [← htl, List.getElem?_append_left hjl]; exact hv
            rw [List.getElem?_drop] at this
            rwa [← Nat.add_assoc]
          have := hP (c.toNat + j) v (by omega) hD
          rwa [Int.toNat_natCast, Nat.add_assoc]
        · rw [if_neg hpos]
          exact ⟨h, rfl⟩
      show wp _ _ _ _
      rw [wp_bind]
      refine wp_mono hw ?_ fun _ h => h
      rintro ok t ⟨h1, h2⟩
      cases ok with
      | false => exact ⟨h1, by rw [h2]; exact hC⟩
      | true =>
        simp only [if_true]
        have hCt : C t.cache := by rw [h2]; exact hC
        cases he : r.2 with
        | some x =>
          cases x with
          | eof =>
            simp only
            split <;> exact ⟨h1, hCt⟩
          | other => exact ⟨h1, hCt⟩
        | none =>
          simp only
          have hjl := hj3 he
          have hc' : (c + UInt64.ofNat r.1.length).toNat = c.toNat + r.1.length := by
            rw [UInt64.toNat_add, UInt64.toNat_ofNat']; omega
          exact ih _ t (by omega) (by omega) h1 hCt
    · rw [if_neg hlt]
      exact ⟨h, hC⟩

/-- Recovering an extent writes only bytes of it. -/
theorem true_extent (hh : Truthful env D) {rf : Nat} {ix : Ix} {size : Option UInt64} {r : Range} {off ino : UInt64}
    {f : FileExtentItemRec} {rest tail : Bytes} {phys : UInt64}
    (hk : r.rKey = .ok ⟨ino, 108, off⟩) (ht : f.typ ≠ 0) (hs : off.toNat + f.numBytes.toNat < 2 ^ 63)
    (hz : f.diskByteNr = 0 → f.numBytes.toNat ≤ 2 ^ 48)
    (ha : f.diskByteNr ≠ 0 → (phys + f.offset).toNat + f.numBytes.toNat < 2 ^ 63)
    (hp : f.diskByteNr ≠ 0 → ∀ c, C c → ∃ c' dev, ix.physical rf c f.diskByteNr = .ok (c', dev, phys) ∧ C c')
    (hP : f.diskByteNr ≠ 0 → ∀ j v, j < f.numBytes.toNat → D[(phys + f.offset).toNat + j]? = some v → P (off.toNat + j) v)
    {s : RecState} (h : TrueSince P fd f0 p0 s) (hC : C s.cache) :
    wp (recoverExtent env rf ix fd size r ⟨f.layout ++ rest, tail⟩) (fun _ t => TrueSince P fd f0 p0 t ∧ C t.cache)
      (fun _ => False) s := by
  obtain ⟨-, -, -, -, -, -, -, d7, -, d9, d10⟩ := C07_FileExtentItem_decodes f rest tail
  have hin : FileExtentItem.isInline ⟨f.layout ++ rest, tail⟩ = .ok false := by
    rw [C07_FileExtentItem_isInline]; simp [ht]
  unfold recoverExtent
  simp only [hk, hin, d10, d7, wp_bind, wp_lift_ok, Bool.false_eq_true, if_false]
  by_cases hd : f.diskByteNr = 0
  · rw [if_pos hd]
    unfold recoverHole
    have hmk : goMake f.numBytes = .ok (List.replicate f.numBytes.toNat 0) := by
      unfold goMake; rw [if_neg (by have := hz hd; omega)]
    rw [hmk, wp_bind, wp_lift_ok, wp_bind]
    refine wp_mono (true_write h ?_) ?_ fun _ h => h
    · intro j v hv
      left
      rw [List.getElem?_replicate] at hv
      split at hv
      · cases hv; rfl
      · cases hv
    · rintro ok t ⟨h1, h2⟩
      exact ⟨h1, by rw [h2]; exact hC⟩
  · rw [if_neg hd]
    unfold recoverData
    simp only [d7, d9, wp_bind, wp_lift_ok]
    obtain ⟨c', dev, hp1, hp2⟩ := hp hd s.cache hC
    unfold wp recPhysical
    rw [hp1]
    have := true_copyLoop (fd := fd) (f0 := f0) (p0 := p0) (C := C) hh (fo := off) (so := phys + f.offset) (nb := f.numBytes) hs (ha hd) (hP hd)
      (f.numBytes.toNat / 1048576 + 1) 0 { s with cache := c' } (Nat.zero_le _)
      (by have := Nat.div_add_mod f.numBytes.toNat 1048576
          have := Nat.mod_lt f.numBytes.toNat (show 0 < 1048576 by decide)
          show f.numBytes.toNat - 0 ≤ _
          omega) h hp2
    show wp _ _ _ _
    rw [show chunkSize.toNat = 1048576 from rfl]
    exact this

end Btrfscue
