import Verif.Spec.FileCrash
import Verif.Props.PieceExact
import Verif.Proof.Recon
/-!
# When recovering a file crashes
-/

namespace Btrfscue

open Cmd

/-! ## Reading short payloads -/

theorem u64at_short {d : Bytes} {n : Nat} (h : d.length < n + 8) : u64at ⟨d, []⟩ n = .panic := by
  unfold u64at SliceUint64LE
  by_cases hn : n ≤ d.length
  · simp only [Slice.from, Slice.len, if_pos hn, Go.ok_bind]
    rw [to_eq, if_neg (by simp only [List.length_append, List.length_drop, List.length_nil]; omega)]
    rfl
  · simp only [Slice.from, Slice.len, if_neg hn]
    rfl

theorem le16_of (b : Bytes) (h : b.length = 2) : ∃ v : UInt16, b = le16 v := by
  refine ⟨UInt16.ofNat (leNat b), ?_⟩
  have h1 := leNat_lt b
  rw [h] at h1
  unfold le16
  rw [UInt16.toNat_ofNat', Nat.mod_eq_of_lt (by simpa using h1), ← h, leBytes_leNat]

theorem inline_of {d : Bytes} (h : 21 ≤ d.length) (h0 : d[20]? = some 0) : ∃ (f : InlineExtentRec) (rest : Bytes), d = f.layout ++ rest := by
  obtain ⟨a, d, rfl, h1, -⟩ := split_at 8 d (by omega)
  obtain ⟨b, d, rfl, h2, -⟩ := split_at 8 d (by simp only [List.length_append] at *; omega)
  obtain ⟨c, d, rfl, h3, -⟩ := split_at 1 d (by simp only [List.length_append] at *; omega)
  obtain ⟨e, d, rfl, h4, -⟩ := split_at 1 d (by simp only [List.length_append] at *; omega)
  obtain ⟨f, d, rfl, h5, -⟩ := split_at 2 d (by simp only [List.length_append] at *; omega)
  obtain ⟨t, d, rfl, h6, -⟩ := split_at 1 d (by simp only [List.length_append] at *; omega)
  obtain ⟨a, rfl⟩ := le64_of a h1
  obtain ⟨b, rfl⟩ := le64_of b h2
  obtain ⟨c, rfl⟩ := List.length_eq_one_iff.mp h3
  obtain ⟨e, rfl⟩ := List.length_eq_one_iff.mp h4
  obtain ⟨f, rfl⟩ := le16_of f h5
  obtain ⟨t, rfl⟩ := List.length_eq_one_iff.mp h6
  have : t = 0 := by
    simpa [List.getElem?_append_right] using h0
  subst this
  exact ⟨⟨a, b, c, e, f⟩, d, by simp [InlineExtentRec.layout, List.append_assoc]⟩

theorem extent_of {d : Bytes} (h : 53 ≤ d.length) : ∃ (f : FileExtentItemRec) (rest : Bytes), d = f.layout ++ rest := by
  obtain ⟨a, d, rfl, h1, -⟩ := split_at 8 d (by omega)
  obtain ⟨b, d, rfl, h2, -⟩ := split_at 8 d (by simp only [List.length_append] at *; omega)
  obtain ⟨c, d, rfl, h3, -⟩ := split_at 1 d (by simp only [List.length_append] at *; omega)
  obtain ⟨e, d, rfl, h4, -⟩ := split_at 1 d (by simp only [List.length_append] at *; omega)
  obtain ⟨f, d, rfl, h5, -⟩ := split_at 2 d (by simp only [List.length_append] at *; omega)
  obtain ⟨t, d, rfl, h6, -⟩ := split_at 1 d (by simp only [List.length_append] at *; omega)
  obtain ⟨k, d, rfl, h7, -⟩ := split_at 8 d (by simp only [List.length_append] at *; omega)
  obtain ⟨l, d, rfl, h8, -⟩ := split_at 8 d (by simp only [List.length_append] at *; omega)
  obtain ⟨m, d, rfl, h9, -⟩ := split_at 8 d (by simp only [List.length_append] at *; omega)
  obtain ⟨n, d, rfl, h10, -⟩ := split_at 8 d (by simp only [List.length_append] at *; omega)
  obtain ⟨a, rfl⟩ := le64_of a h1
  obtain ⟨b, rfl⟩ := le64_of b h2
  obtain ⟨c, rfl⟩ := List.length_eq_one_iff.mp h3
  obtain ⟨e, rfl⟩ := List.length_eq_one_iff.mp h4
  obtain ⟨f, rfl⟩ := le16_of f h5
  obtain ⟨t, rfl⟩ := List.length_eq_one_iff.mp h6
  obtain ⟨k, rfl⟩ := le64_of k h7
  obtain ⟨l, rfl⟩ := le64_of l h8
  obtain ⟨m, rfl⟩ := le64_of m h9
  obtain ⟨n, rfl⟩ := le64_of n h10
  exact ⟨⟨a, b, c, e, f, t, k, l, m, n⟩, d, by simp [FileExtentItemRec.layout, List.append_assoc]⟩

theorem isInline_eq {d : Bytes} : FileExtentItem.isInline ⟨d, []⟩ =
    (match (d[20]? : Option UInt8) with
    | some t => .ok (t == 0)
    | none => .panic) := by
  have : fileExtentItemType = 20 := by decide
  simp only [FileExtentItem.isInline, FileExtentItem.typ, Slice.get, this]
  cases (d[20]? : Option UInt8) <;> rfl

/-! ## One item -/

/-- An item that is not sound crashes the program, whatever the environment. -/
theorem crash_extent {b : Bucket} {d : Bytes} (h : ¬ b.soundExtent d) {rf : Nat} {map : List StripeMapEntry}
    (hnone : (∀ start s, ¬ b.chunkSeen start s) → ∀ c, (c = none ∨ c = some map) → ∀ a, (Ix.mk b (~~~0)).physical rf c a = .panic)
    {env : Env} {fd : Nat} {size : Option UInt64} {r : Range} {k : Key} (hk : r.rKey = .ok k) (s : RecState)
    (hc : s.cache = none ∨ s.cache = some map) :
    ∃ t, recoverExtent env rf ⟨b, ~~~0⟩ fd size r ⟨d, []⟩ s = .crash t := by
  unfold recoverExtent
  simp only [hk, bind_def, lift_ok]
  cases h20 : d[20]? with
  | none => rw [isInline_eq, h20]; exact ⟨_, rfl⟩
  | some t =>
    have hlen : 21 ≤ d.length := by have := (List.getElem?_eq_some_iff.mp h20).1; omega
    by_cases ht : t = 0
    · subst ht
      obtain ⟨f, rest, rfl⟩ := inline_of hlen h20
      rw [isInline_eq, h20]
      simp only [beq_self_eq_true, lift_ok, if_true, bind_def]
      have hd : FileExtentItem.data ⟨f.layout ++ rest, []⟩ = .panic := by
        have hram : FileExtentItem.ramBytes ⟨f.layout ++ rest, []⟩ = .ok f.ramBytes := by
          simp [InlineExtentRec.layout, FileExtentItem.ramBytes, fileExtentItemRAMBytes]
        have hl21 : f.layout.length = 21 := by simp [InlineExtentRec.layout]
        rw [fileExtent_data_eq, hram, Go.ok_bind]
        by_cases hneg : int64OfU64 f.ramBytes < 0
        · rw [if_pos hneg]
        · rw [if_neg hneg]
          have h63 : f.ramBytes.toNat < 2 ^ 63 := by
            rcases Nat.lt_or_ge f.ramBytes.toNat (2 ^ 63) with h | h
            · exact h
            · have := f.ramBytes.toNat_lt
              exact absurd (show int64OfU64 f.ramBytes < 0 by unfold int64OfU64; rw [if_neg (by omega)]; omega) hneg
          rw [int64_small h63, Int.toNat_natCast]
          have hshort : rest.length < min f.ramBytes.toNat 16384 := by
            rcases Nat.lt_or_ge rest.length (min f.ramBytes.toNat 16384) with h | h
            · exact h
            · exfalso
              apply ‹¬ b.soundExtent _›
              refine ⟨.inline (rest.take (min f.ramBytes.toNat 16384)), ⟨f, rest.drop (min f.ramBytes.toNat 16384), ?_, h63, ?_⟩,
                fun f' hf => by cases hf⟩
              · rw [List.take_append_drop]
              · rw [List.length_take]; omega
          have : Slice.sub ⟨f.layout ++ rest, []⟩ 21 (21 + min f.ramBytes.toNat 16384) = .panic := by
            unfold Slice.sub
            rw [if_neg]
            simp only [Slice.cap, List.length_append, List.length_nil]
            omega
          rw [this]
          rfl
      rw [hd]
      exact ⟨_, rfl⟩
    · rw [isInline_eq, h20]
      simp only [beq_eq_false_iff_ne.mpr ht, lift_ok, Bool.false_eq_true, if_false, bind_def]
      rcases Nat.lt_or_ge d.length 53 with hs | hs
      · have : FileExtentItem.numBytes ⟨d, []⟩ = .panic := u64at_short (by
          have : fileExtentItemNumBytes = 45 := by decide
          omega)
        rw [this]
        exact ⟨_, rfl⟩
      · obtain ⟨f, rest, rfl⟩ := extent_of hs
        obtain ⟨-, -, -, -, -, -, d6, d7, -, d9, d10⟩ := C07_FileExtentItem_decodes f rest []
        have hft : f.typ ≠ 0 := by
          have hi := C07_FileExtentItem_isInline f rest []
          rw [isInline_eq, h20] at hi
          simp only [beq_eq_false_iff_ne.mpr ht, Go.ok.injEq] at hi
          exact of_decide_eq_false hi.symm
        simp only [d10, d7, lift_ok, bind_def]
        by_cases hz : f.diskByteNr = 0
        · rw [if_pos hz]
          have hbig : 2 ^ 48 < f.numBytes.toNat := by
            rcases Nat.lt_or_ge (2 ^ 48) f.numBytes.toNat with h | h'
            · exact h
            · exact absurd ⟨.raw f, ⟨hft, rest, rfl⟩, fun f' hf => by
                injection hf with hf; subst hf; exact ⟨fun _ => h', fun hne => absurd hz hne⟩⟩ h
          unfold recoverHole goMake
          simp only [if_pos hbig, bind_def, lift_panic]
          exact ⟨_, rfl⟩
        · rw [if_neg hz]
          have hno : ∀ start s, ¬ b.chunkSeen start s := by
            intro start s hcs
            exact h ⟨.raw f, ⟨hft, rest, rfl⟩, fun f' hf => by
              injection hf with hf; subst hf; exact ⟨fun h0 => absurd h0 hz, fun _ => ⟨start, s, hcs⟩⟩⟩
          have hph : recPhysical rf ⟨b, ~~~0⟩ f.diskByteNr s = .crash s := by
            unfold recPhysical
            rw [hnone hno _ hc]
          unfold recoverData
          rw [d7]
          refine ⟨s, ?_⟩
          rw [bind_ok (lift_ok _ _)]
          exact bind_crash hph

/-! ## What always returns -/

/-- The command returns, whatever the state, and the stripe map stays as `C` says. -/
def Ends {α : Type} (C : Option (List StripeMapEntry) → Prop) (c : Rec α) : Prop :=
  ∀ s, C s.cache → wp c (fun _ t => C t.cache) (fun _ => False) s

section
variable {α β : Type} {C : Option (List StripeMapEntry) → Prop} {env : Env}

theorem Ends.pure {a : α} : Ends C (Pure.pure a : Rec α) := fun _ h => h
theorem Ends.bind {x : Rec α} {f : α → Rec β} (hx : Ends C x) (hf : ∀ a, Ends C (f a)) : Ends C (x >>= f) := by
  intro s h
  rw [wp_bind]
  exact wp_mono (hx s h) (fun a t ht => hf a t ht) fun _ h => h
theorem Ends.ite {p : Prop} [Decidable p] {x y : Rec α} (hx : p → Ends C x) (hy : ¬ p → Ends C y) : Ends C (if p then x else y) := by
  by_cases h : p
  · rw [if_pos h]; exact hx h
  · rw [if_neg h]; exact hy h
theorem Ends.lift {x : Go α} {a : α} (h : x = .ok a) : Ends C (Cmd.lift x : Rec α) := by
  subst h; exact fun _ h => h
theorem Ends.get : Ends C (Cmd.get : Rec RecState) := fun _ h => h
theorem Ends.note {e : Ev} : Ends C (note e) := fun _ h => h
theorem Ends.tick {k : Sys} : Ends C (tick env k) := fun _ h => h
theorem Ends.setFS {fs : HostFS} : Ends C (setFS fs) := fun _ h => h
theorem Ends.applyFS {r : Option HostFS} : Ends C (applyFS r) := by
  cases r with
  | none => exact Ends.pure
  | some f => exact Ends.bind Ends.setFS fun _ => Ends.pure
theorem Ends.applyOpen {r : Option (HostFS × Nat)} : Ends C (applyOpen r) := by
  cases r with
  | none => exact Ends.pure
  | some f => exact Ends.bind Ends.setFS fun _ => Ends.pure
theorem Ends.sysStat {p : Bytes} : Ends C (sysStat env p) :=
  Ends.bind Ends.tick fun _ => Ends.ite (fun _ => Ends.pure) fun _ => Ends.bind Ends.get fun _ => Ends.pure
theorem Ends.sysOpen {p : Bytes} : Ends C (sysOpen env p) :=
  Ends.bind Ends.note fun _ => Ends.bind Ends.tick fun _ => Ends.ite (fun _ => Ends.pure) fun _ => Ends.bind Ends.get fun _ => Ends.applyOpen
theorem Ends.sysWrite {fd : Nat} {b : Bytes} {off : Int} : Ends C (sysWrite env fd b off) := by
  unfold Btrfscue.sysWrite
  refine Ends.ite (fun _ => Ends.pure) fun _ => Ends.ite (fun _ => Ends.pure) fun _ => Ends.bind Ends.get fun _ =>
    Ends.bind Ends.tick fun _ => Ends.ite (fun _ => ?_) fun _ => Ends.ite (fun _ => Ends.pure) fun _ => ?_
  · exact Ends.bind Ends.get fun _ => Ends.bind Ends.applyFS fun _ => Ends.pure
  · exact Ends.bind Ends.get fun _ => Ends.applyFS
theorem Ends.sysTruncate {fd : Nat} {k : Int} : Ends C (sysTruncate env fd k) :=
  Ends.bind Ends.tick fun _ => Ends.ite (fun _ => Ends.pure) fun _ => Ends.ite (fun _ => Ends.pure) fun _ =>
    Ends.bind Ends.get fun _ => Ends.applyFS

theorem Ends.copyLoop {fd : Nat} {fo so nb : UInt64} : ∀ (fuel : Nat) (c : UInt64), c.toNat ≤ nb.toNat →
    (nb.toNat - c.toNat + 1048575) / 1048576 + 1 ≤ fuel → Ends C (copyLoop env fd fo so nb fuel c) := by
  intro fuel
  induction fuel with
  | zero => intro c _ h; omega
  | succ fuel ih =>
    intro c hc hf
    unfold Btrfscue.copyLoop
    by_cases hlt : c < nb
    · rw [if_pos hlt]
      have hlt' := UInt64.lt_iff_toNat_lt.mp hlt
      have hsub : (nb - c).toNat = nb.toNat - c.toNat := UInt64.toNat_sub_of_le _ _ (UInt64.le_iff_toNat_le.mpr hc)
      have htc : (toCopy nb c).toNat = min 1048576 (nb.toNat - c.toNat) := by
        unfold toCopy
        by_cases hcs : chunkSize < nb - c
        · rw [if_pos hcs]
          have := UInt64.lt_iff_toNat_lt.mp hcs
          rw [hsub] at this
          have h2 : chunkSize.toNat = 1048576 := rfl
          omega
        · rw [if_neg hcs, hsub]
          have : ¬ chunkSize.toNat < (nb - c).toNat := fun h => hcs (UInt64.lt_iff_toNat_lt.mpr h)
          rw [hsub] at this
          have h2 : chunkSize.toNat = 1048576 := rfl
          omega
      intro s hs
      rw [wp_bind]
      unfold devRead
      refine (show Ends C _ from ?_) { s with calls := s.calls + 1 } hs
      refine Ends.bind ?_ fun ok => Ends.ite (fun _ => ?_) fun _ => Ends.pure
      · unfold writeRead
        exact Ends.ite (fun _ => Ends.sysWrite) fun _ => Ends.pure
      · simp only
        have hr : ∀ r : Bytes × Option IOErr, r = osReadAt (env.dev s.calls) (int64OfU64 (so + c)) (toCopy nb c).toNat →
            r.2 = none → r.1.length = (toCopy nb c).toNat := by
          rintro r rfl
          unfold osReadAt
          by_cases h1 : int64OfU64 (so + c) < 0
          · rw [if_pos h1]; intro h; cases h
          · rw [if_neg h1]
            by_cases h2 : (toCopy nb c).toNat ≤ (env.dev s.calls (int64OfU64 (so + c)) (toCopy nb c).toNat).1.length
            · rw [if_pos h2]; intro _; simp [h2]
            · rw [if_neg h2]; intro h; cases h
        generalize hrr : osReadAt (env.dev s.calls) (int64OfU64 (so + c)) (toCopy nb c).toNat = r at *
        have hr := hr r rfl
        cases hr2 : r.2 with
        | none =>
          have hl := hr hr2
          have hnb := nb.toNat_lt
          have hadd : (c + UInt64.ofNat r.1.length).toNat = c.toNat + min 1048576 (nb.toNat - c.toNat) := by
            rw [hl, UInt64.toNat_add, UInt64.toNat_ofNat', htc]
            omega
          exact ih _ (by omega) (by rw [hadd]; omega)
        | some e =>
          cases e with
          | eof => exact Ends.ite (fun _ => Ends.pure) fun _ => Ends.pure
          | other => exact Ends.pure
    · rw [if_neg hlt]; exact Ends.pure

theorem inlineLimit_le {size : Option UInt64} {off : UInt64} {n : Nat} (hn : n ≤ 16384)
    (hlt : ∀ sz, size = some sz → sz.toNat < 2 ^ 63) : inlineLimit size off n ≤ n := by
  cases size with
  | none => exact Int.le_refl _
  | some sz =>
    have hsz := hlt sz rfl
    have ho := off.toNat_lt
    unfold inlineLimit
    simp only [int64_small hsz]
    have e1 : int64OfU64 (sz - off) = if (sz - off).toNat < 2 ^ 63 then ((sz - off).toNat : Int) else ((sz - off).toNat : Int) - 2 ^ 64 := rfl
    have e2 : int64OfU64 off = if off.toNat < 2 ^ 63 then (off.toNat : Int) else (off.toNat : Int) - 2 ^ 64 := rfl
    have e3 : (sz - off).toNat = (2 ^ 64 - off.toNat + sz.toNat) % 2 ^ 64 := UInt64.toNat_sub ..
    have e4 : ∀ x : Int, wrapInt64 x = if x % 2 ^ 64 < 2 ^ 63 then x % 2 ^ 64 else x % 2 ^ 64 - 2 ^ 64 := fun _ => rfl
    rw [e1, e2, e4]
    by_cases ho2 : off.toNat < 2 ^ 63
    · rw [if_pos ho2]
      by_cases h1 : (((off.toNat : Int) + n) % 2 ^ 64) < 2 ^ 63
      · rw [if_pos h1]
        by_cases h2 : (sz - off).toNat < 2 ^ 63
        · rw [if_pos h2]
          by_cases h3 : (sz.toNat : Int) < ((off.toNat : Int) + n) % 2 ^ 64
          · rw [if_pos h3]; omega
          · rw [if_neg h3]
        · rw [if_neg h2]
          by_cases h3 : (sz.toNat : Int) < ((off.toNat : Int) + n) % 2 ^ 64
          · rw [if_pos h3]; omega
          · rw [if_neg h3]
      · rw [if_neg h1, if_neg (by omega)]
    · rw [if_neg ho2]
      by_cases h1 : (((off.toNat : Int) - 2 ^ 64 + n) % 2 ^ 64) < 2 ^ 63
      · rw [if_pos h1]
        by_cases h2 : (sz - off).toNat < 2 ^ 63
        · rw [if_pos h2]
          by_cases h3 : (sz.toNat : Int) < ((off.toNat : Int) - 2 ^ 64 + n) % 2 ^ 64
          · rw [if_pos h3]; omega
          · rw [if_neg h3]
        · rw [if_neg h2]
          by_cases h3 : (sz.toNat : Int) < ((off.toNat : Int) - 2 ^ 64 + n) % 2 ^ 64
          · rw [if_pos h3]; omega
          · rw [if_neg h3]
      · rw [if_neg h1, if_neg (by omega)]

/-- Sound items are survived in every environment. -/
theorem Ends.extent {b : Bucket} {d tail : Bytes} (h : b.soundExtent d) {rf : Nat}
    (hphys : (∃ start s, b.chunkSeen start s) → ∀ c, C c → ∀ a, ∃ c' x, (Ix.mk b (~~~0)).physical rf c a = .ok (c', x) ∧ C c')
    {fd : Nat} {size : Option UInt64} (hlt : ∀ sz, size = some sz → sz.toNat < 2 ^ 63) {r : Range} {k : Key} (hk : r.rKey = .ok k) :
    Ends C (recoverExtent env rf ⟨b, ~~~0⟩ fd size r ⟨d, tail⟩) := by
  obtain ⟨p, hp, hf⟩ := h
  unfold recoverExtent
  rw [hk]
  refine Ends.bind (Ends.lift rfl) fun k => ?_
  cases p with
  | inline data =>
    obtain ⟨f, rest, rfl, h1, h2⟩ := hp
    obtain ⟨i1, i2⟩ := inline_data f data rest tail h1 h2
    rw [i2, i1]
    refine fun s hs => ?_
    rw [wp_bind, wp_lift_ok, if_pos rfl, wp_bind, wp_lift_ok]
    refine (show Ends C _ from ?_) s hs
    unfold recoverInline
    refine Ends.ite (fun hpos => ?_) fun _ => Ends.pure
    have hle := inlineLimit_le (size := size) (off := k.offset) (n := data.length) (by omega) hlt
    have hto : (Slice.mk data (List.replicate (env.slack data.length) 0)).to (inlineLimit size k.offset data.length).toNat =
        .ok ⟨data.take (inlineLimit size k.offset data.length).toNat,
          data.drop (inlineLimit size k.offset data.length).toNat ++ List.replicate (env.slack data.length) 0⟩ := by
      rw [to_eq, if_pos (by omega), List.take_append_of_le_length (by omega), List.drop_append_of_le_length (by omega)]
    exact Ends.bind (Ends.lift hto) fun _ => Ends.bind Ends.sysWrite fun _ => Ends.pure
  | raw f =>
    obtain ⟨ht, rest, rfl⟩ := hp
    obtain ⟨hz, hch⟩ := hf f rfl
    obtain ⟨-, -, -, -, -, -, -, d7, -, d9, d10⟩ := C07_FileExtentItem_decodes f rest tail
    have hin : FileExtentItem.isInline ⟨f.layout ++ rest, tail⟩ = .ok false := by
      rw [C07_FileExtentItem_isInline]; simp [ht]
    rw [hin, d10, d7]
    refine fun s hs => ?_
    rw [wp_bind, wp_lift_ok, if_neg (by decide), wp_bind, wp_lift_ok, wp_bind, wp_lift_ok]
    refine (show Ends C _ from ?_) s hs
    refine Ends.ite (fun h0 => ?_) fun h0 => ?_
    · unfold recoverHole
      refine Ends.bind (Ends.lift (show goMake f.numBytes = .ok (List.replicate f.numBytes.toNat 0) from ?_)) fun _ =>
        Ends.bind Ends.sysWrite fun _ => Ends.pure
      unfold goMake
      rw [if_neg (by have := hz h0; omega)]
    · unfold recoverData
      refine Ends.bind (Ends.lift d7) fun a => Ends.bind (fun s hs => ?_) fun ph => Ends.bind (Ends.lift d9) fun o => Ends.copyLoop _ _ ?_ ?_
      · obtain ⟨c', x, h1, h2⟩ := hphys (hch h0) s.cache hs a
        unfold wp recPhysical
        rw [h1]
        exact h2
      · exact Nat.zero_le _
      · show (_ - 0 + 1048575) / 1048576 + 1 ≤ _ / 1048576 + 2
        omega

theorem Ends.foldRec {body : Range → Slice → Rec (Option RecErr)} : ∀ (its : List (Range × Slice)),
    (∀ e ∈ its, Ends C (body e.1 e.2)) → Ends C (foldRec body its) := by
  intro its
  induction its with
  | nil => intro _; exact Ends.pure
  | cons e its ih =>
    intro h
    unfold Btrfscue.foldRec
    refine Ends.bind (h e List.mem_cons_self) fun r => ?_
    cases r with
    | some x => exact Ends.pure
    | none => exact ih fun x hx => h x (List.mem_cons_of_mem _ hx)

end

end Btrfscue
