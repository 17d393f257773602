import Verif.Proof.HostFS
import Verif.Proof.RecInv
import Verif.Proof.Pwrite
import Verif.Proof.RangeRun
import Verif.Proof.Recon
import Verif.Props.Layout
/-!
# Writing a recovered file
-/

namespace Btrfscue

open Cmd

/-- No system call fails for no reason, and the device is the image `D`. -/
structure Quiet (env : Env) (D : Bytes) : Prop where
  calls : ∀ k n, env.fails k n = false
  dev : ∀ n, env.dev n = imageReader D

/-- The device answers with bytes of `D`, though perhaps with fewer than there are; no other
error than EOF occurs. -/
structure Honest (env : Env) (D : Bytes) : Prop where
  bytes : ∀ (n : Nat) (off : Int) (k : Nat), 0 ≤ off → (env.dev n off k).1 <+: D.drop off.toNat
  errs : ∀ (n : Nat) (off : Int) (k : Nat), 0 ≤ off → (env.dev n off k).2 ≠ some .other

theorem Quiet.honest {env : Env} {D : Bytes} (h : Quiet env D) : Honest env D where
  bytes n off k ho := by
    rw [h.dev, imageReader, if_neg (by omega)]
    exact List.take_prefix _ _
  errs n off k ho := by
    rw [h.dev, imageReader, if_neg (by omega)]
    simp only
    split <;> simp

theorem put_grown {f : HostFS} {i : Nat} {x y : Bytes} (hf : f.inodes[i]? = some (.file x)) : Grown f (f.put i (.file y)) := by
  have hself := put_get_self (nd := INode.file y) (List.getElem?_eq_some_iff.mp hf).1
  refine ⟨rfl, by simp [HostFS.put], ?_, ?_, ?_⟩
  · intro j d hj
    by_cases hji : i = j
    · subst hji; exact ⟨y, hself⟩
    · rw [put_get hji]; exact ⟨d, hj⟩
  · intro j d hj
    have hji : i ≠ j := by rintro rfl; rw [hf] at hj; cases hj
    rw [put_get hji]; exact hj
  · intro j es p hj
    have hji : i ≠ j := by rintro rfl; rw [hf] at hj; cases hj
    rw [put_get hji]; exact ⟨es, hj, fun _ _ h => h⟩

/-- The state differs only in what file `fd` holds, and the record of what happened. -/
structure Wrote (fd : Nat) (s t : RecState) : Prop where
  grown : Grown s.fs t.fs
  others : ∀ j, j ≠ fd → t.fs.inodes[j]? = s.fs.inodes[j]?
  visited : t.visited = s.visited

theorem Wrote.refl (fd : Nat) (s : RecState) : Wrote fd s s := ⟨Grown.refl _, fun _ _ => rfl, rfl⟩

theorem Wrote.trans {fd : Nat} {s t u : RecState} (h : Wrote fd s t) (h' : Wrote fd t u) : Wrote fd s u :=
  ⟨h.grown.trans h'.grown, fun j hj => (h'.others j hj).trans (h.others j hj), h'.visited.trans h.visited⟩

section
variable {env : Env} {D : Bytes} {fd : Nat}

theorem put_wrote {s : RecState} {x y : Bytes} (hf : s.fs.inodes[fd]? = some (.file x)) (n : Nat) :
    Wrote fd s { s with calls := n, fs := s.fs.put fd (.file y), past := s.fs :: s.past } :=
  ⟨put_grown hf, fun _ hj => put_get (Ne.symm hj), rfl⟩

theorem wp_sysWrite {s : RecState} {d0 b : Bytes} {off : Int} (hf : s.fs.inodes[fd]? = some (.file d0)) (ho : 0 ≤ off)
    (hl : off + b.length < 2 ^ 63) :
    wp (sysWrite env fd b off) (fun ok t => Wrote fd s t ∧ t.cache = s.cache ∧
      (ok = true → t.fs.inodes[fd]? = some (.file (pwrite d0 off.toNat b))) ∧
      ((∀ k n, env.fails k n = false) → ok = true)) (fun _ => False) s := by
  have hlt := (List.getElem?_eq_some_iff.mp hf).1
  unfold wp sysWrite
  rw [if_neg (by omega)]
  by_cases hb : b = []
  · rw [if_pos hb, pure_run]
    exact ⟨Wrote.refl _ _, rfl, fun _ => by rw [hb, pwrite_nil]; exact hf, fun _ => rfl⟩
  · rw [if_neg hb]
    simp only [bind_def, get_run, tick]
    by_cases hfl : env.fails .write s.calls = true
    · simp only [hfl, if_true, bind_def, get_run, HostFS.write, hf, applyFS, setFS, modify_run, pure_run]
      exact ⟨put_wrote hf _, by first | rfl | trivial, fun h => (by cases h), fun h => by rw [h] at hfl; cases hfl⟩
    · simp only [hfl, Bool.false_eq_true, if_false, bind_def, get_run]
      rw [if_neg (by omega)]
      simp only [bind_def, get_run, HostFS.write, hf, applyFS, setFS, modify_run, pure_run]
      exact ⟨put_wrote hf _, by first | rfl | trivial, fun _ => put_get_self hlt, fun _ => by first | rfl | trivial⟩

theorem wp_sysTruncate {s : RecState} {d0 : Bytes} {n : Int} (hf : s.fs.inodes[fd]? = some (.file d0)) (hn : 0 ≤ n) :
    wp (sysTruncate env fd n) (fun ok t => Wrote fd s t ∧ t.cache = s.cache ∧
      (ok = true → t.fs.inodes[fd]? = some (.file (ptruncate d0 n.toNat))) ∧
      ((∀ n, env.fails .truncate n = false) → ok = true)) (fun _ => False) s := by
  have hlt := (List.getElem?_eq_some_iff.mp hf).1
  unfold wp sysTruncate
  simp only [bind_def, tick]
  by_cases hfl : env.fails .truncate s.calls = true
  · simp only [hfl, if_true, pure_run]
    exact ⟨⟨Grown.refl _, fun _ _ => rfl, rfl⟩, by first | rfl | trivial, fun h => (by cases h), fun h => by rw [h] at hfl; cases hfl⟩
  · simp only [hfl, Bool.false_eq_true, if_false]
    rw [if_neg (by omega)]
    simp only [bind_def, get_run, HostFS.truncate, hf, applyFS, setFS, modify_run, pure_run]
    exact ⟨put_wrote hf _, by first | rfl | trivial, fun _ => put_get_self hlt, fun _ => by first | rfl | trivial⟩

/-! ## Copying an extent -/

theorem osReadAt_spec {env : Env} {D : Bytes} (h : Honest env D) (n : Nat) {off : Nat} {k : Nat} :
    ∃ j, (osReadAt (env.dev n) (off : Int) k).1 = (D.drop off).take j ∧ j ≤ k ∧ j ≤ D.length - off ∧
      (((osReadAt (env.dev n) (off : Int) k).2 = none ∧ j = k) ∨
        ((osReadAt (env.dev n) (off : Int) k).2 = some .eof ∧ j < k)) := by
  have h1 := h.bytes n off k (by omega)
  have h2 := h.errs n off k (by omega)
  rw [Int.toNat_natCast] at h1
  unfold osReadAt
  generalize env.dev n (off : Int) k = r at h1 h2 ⊢
  rw [if_neg (by omega)]
  have hlen := h1.length_le
  rw [List.length_drop] at hlen
  have hpre : ∀ j, j ≤ r.1.length → r.1.take j = (D.drop off).take j := by
    intro j hj
    obtain ⟨t, ht⟩ := h1
    rw [← ht, List.take_append_of_le_length hj]
  by_cases hk : k ≤ r.1.length
  · rw [if_pos hk]
    exact ⟨k, hpre k hk, Nat.le_refl _, by omega, Or.inl ⟨rfl, rfl⟩⟩
  · rw [if_neg hk]
    refine ⟨r.1.length, ?_, by omega, hlen, Or.inr ⟨?_, by omega⟩⟩
    · have := hpre r.1.length (Nat.le_refl _)
      rwa [List.take_length] at this
    · cases hr : r.2 with
      | none => rfl
      | some e =>
        cases e with
        | eof => rfl
        | other => exact absurd hr h2

theorem osReadAt_quiet {env : Env} {D : Bytes} (h : Quiet env D) (n : Nat) {off k : Nat} (hk : off + k ≤ D.length) :
    (osReadAt (env.dev n) (off : Int) k).2 = none := by
  rw [h.dev]
  unfold osReadAt
  rw [if_neg (by omega), imageReader_full hk, if_pos (by rw [List.length_take, List.length_drop]; omega)]

theorem add_small {x y : UInt64} (h : x.toNat + y.toNat < 2 ^ 63) : (x + y).toNat = x.toNat + y.toNat := by
  rw [UInt64.toNat_add]; omega

theorem take_take_drop (D : Bytes) (src c j : Nat) :
    (D.drop src).take c ++ (D.drop (src + c)).take j = (D.drop src).take (c + j) := by
  rw [List.take_add, List.drop_drop]

/-- Copying: if no error is returned, the rest of the extent was read and written. -/
theorem wp_copyLoop (hh : Honest env D) {fo so nb : UInt64} (hfo : fo.toNat + nb.toNat < 2 ^ 63)
    (hso : so.toNat + nb.toNat < 2 ^ 63) {d0 : Bytes} :
    ∀ (fuel : Nat) (c : UInt64) (s : RecState), c.toNat ≤ nb.toNat → nb.toNat - c.toNat ≤ fuel * 1048576 →
      so.toNat + c.toNat ≤ D.length ∨ c = 0 →
      s.fs.inodes[fd]? = some (.file (pwrite d0 fo.toNat ((D.drop so.toNat).take c.toNat))) →
      wp (copyLoop env fd fo so nb (fuel + 1) c) (fun r t => Wrote fd s t ∧ t.cache = s.cache ∧
        (r = none → t.fs.inodes[fd]? = some (.file (pwrite d0 fo.toNat ((D.drop so.toNat).take nb.toNat))) ∧
          (c < nb → so.toNat + nb.toNat ≤ D.length)) ∧
        (Quiet env D → (c < nb → so.toNat + nb.toNat ≤ D.length) → r = none)) (fun _ => False) s := by
  intro fuel
  induction fuel with
  | zero =>
    intro c s hc hfu _ hf
    have hcn : c = nb := UInt64.toNat_inj.mp (by omega)
    subst hcn
    rw [copyLoop, if_neg (by rw [UInt64.lt_iff_toNat_lt]; omega)]
    exact ⟨Wrote.refl _ _, rfl, fun _ => ⟨hf, fun h => by rw [UInt64.lt_iff_toNat_lt] at h; omega⟩, fun _ _ => rfl⟩
  | succ fuel ih =>
    intro c s hc hfu hcd hf
    rw [copyLoop]
    by_cases hlt : c < nb
    · rw [if_pos hlt]
      have hlt0 := hlt
      rw [UInt64.lt_iff_toNat_lt] at hlt
      have hsub : (nb - c).toNat = nb.toNat - c.toNat := by
        rw [UInt64.toNat_sub_of_le _ _ (UInt64.le_iff_toNat_le.mpr hc)]
      have htc : (toCopy nb c).toNat = min 1048576 (nb.toNat - c.toNat) := by
        unfold toCopy
        by_cases h : chunkSize < nb - c
        · rw [if_pos h]
          rw [UInt64.lt_iff_toNat_lt, hsub] at h
          have : chunkSize.toNat = 1048576 := rfl
          omega
        · rw [if_neg h, hsub]
          rw [UInt64.lt_iff_toNat_lt, hsub] at h
          have : chunkSize.toNat = 1048576 := rfl
          omega
      have hadd : (so + c).toNat = so.toNat + c.toNat := add_small (by omega)
      have haddf : (fo + c).toNat = fo.toNat + c.toNat := add_small (by omega)
      rw [wp_bind]
      unfold wp devRead
      simp only
      rw [int64_small (x := so + c) (by omega), hadd]
      obtain ⟨j, hj1, hj2, hj3, hj4⟩ := osReadAt_spec hh s.calls (off := so.toNat + c.toNat) (k := (toCopy nb c).toNat)
      have hq := fun h : Quiet env D => osReadAt_quiet h s.calls (off := so.toNat + c.toNat) (k := (toCopy nb c).toNat)
      generalize osReadAt (env.dev s.calls) _ _ = r at hj1 hj4 hq
      have hjl : r.1.length = j := by rw [hj1, List.length_take, List.length_drop]; omega
      have hw : wp (writeRead env fd r.1 (int64OfU64 (fo + c))) (fun ok t => Wrote fd s t ∧ t.cache = s.cache ∧
          (ok = true → t.fs.inodes[fd]? = some (.file (pwrite d0 fo.toNat ((D.drop so.toNat).take (c.toNat + j))))) ∧
          ((∀ k n, env.fails k n = false) → ok = true)) (fun _ => False) { s with calls := s.calls + 1 } := by
        have hcat : (D.drop so.toNat).take c.toNat ++ r.1 = (D.drop so.toNat).take (c.toNat + j) := by
          rw [hj1, take_take_drop]
        unfold writeRead
        by_cases hpos : 0 < r.1.length
        · rw [if_pos hpos, int64_small (x := fo + c) (by omega), haddf]
          have hin : so.toNat + c.toNat ≤ D.length := by omega
          refine wp_mono (wp_sysWrite (s := { s with calls := s.calls + 1 }) hf (by omega) (by omega)) ?_ fun _ h => h
          rintro ok t ⟨h1, h2, h3, h4⟩
          refine ⟨⟨h1.grown, h1.others, h1.visited⟩, h2, fun hok => ?_, h4⟩
          rw [h3 hok, Int.toNat_natCast, ← hcat, ← pwrite_append]
          congr 3
          rw [List.length_take, List.length_drop]; omega
        · rw [if_neg hpos]
          have hr0 : r.1 = [] := List.length_eq_zero_iff.mp (by omega)
          rw [hr0, List.append_nil] at hcat
          exact ⟨⟨Grown.refl _, fun _ _ => rfl, rfl⟩, rfl, fun _ => by rw [← hcat]; exact hf, fun _ => rfl⟩
      show wp _ _ _ _
      rw [wp_bind]
      refine wp_mono hw ?_ fun _ h => h
      rintro ok t ⟨h1, h2, h3, h4⟩
      cases ok with
      | false =>
        simp only [Bool.false_eq_true, if_false]
        exact ⟨h1, h2, fun h => (by cases h), fun hqq => by have := h4 hqq.calls; cases this⟩
      | true =>
        simp only [if_true]
        have hf' := h3 rfl
        have hc' : (c + UInt64.ofNat r.1.length).toNat = c.toNat + j := by
          rw [UInt64.toNat_add, UInt64.toNat_ofNat', hjl]; omega
        rcases hj4 with ⟨hn, hjk⟩ | ⟨he, hjk⟩
        · simp only [hn]
          rw [← hc'] at hf'
          refine wp_mono (ih (c + UInt64.ofNat r.1.length) t (by omega) (by omega) (Or.inl (by omega)) hf') ?_ fun _ h => h
          rintro x u ⟨g1, g2, g3, g4⟩
          refine ⟨h1.trans g1, g2.trans h2, fun hx => ⟨(g3 hx).1, fun _ => ?_⟩, fun hqq hin => g4 hqq fun _ => hin hlt0⟩
          by_cases hd : c + UInt64.ofNat r.1.length < nb
          · exact (g3 hx).2 hd
          · rw [UInt64.lt_iff_toNat_lt] at hd
            omega
        · simp only [he]
          rw [if_pos (by rw [UInt64.lt_iff_toNat_lt]; omega)]
          refine ⟨h1, h2, fun h => (by cases h), fun hqq hin => ?_⟩
          have hin := hin hlt0
          have := hq hqq (by omega)
          rw [he] at this
          cases this
    · rw [if_neg hlt]
      have hcn : c = nb := by
        rw [UInt64.lt_iff_toNat_lt] at hlt
        exact UInt64.toNat_inj.mp (by omega)
      subst hcn
      exact ⟨Wrote.refl _ _, rfl, fun _ => ⟨hf, fun h => absurd h hlt⟩, fun _ _ => rfl⟩

end

end Btrfscue
