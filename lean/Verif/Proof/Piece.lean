import Verif.Spec.Pieces
import Verif.Props.RecoverInline
import Verif.Props.MountContent
import Verif.Props.OpenExact
/-!
# Pieces of files
-/

namespace Btrfscue

open Cmd

theorem inline_data (f : InlineExtentRec) (data rest tail : Bytes) (hr : f.ramBytes.toNat < 2 ^ 63)
    (h : data.length = min f.ramBytes.toNat 16384) :
    FileExtentItem.data ⟨f.layout ++ (data ++ rest), tail⟩ = .ok data ∧
    FileExtentItem.isInline ⟨f.layout ++ (data ++ rest), tail⟩ = .ok true := by
  have hram : FileExtentItem.ramBytes ⟨f.layout ++ (data ++ rest), tail⟩ = .ok f.ramBytes := by
    simp [InlineExtentRec.layout, FileExtentItem.ramBytes, fileExtentItemRAMBytes]
  constructor
  · have hi : int64OfU64 f.ramBytes = (f.ramBytes.toNat : Int) := int64_small hr
    simp only [fileExtent_data_eq, hram, Go.ok_bind, hi]
    rw [if_neg (by omega), Int.toNat_natCast, ← h, sub_mid f.layout data rest tail]
    · rfl
    · simp [InlineExtentRec.layout]
    · simp [InlineExtentRec.layout]
  · simp [InlineExtentRec.layout, FileExtentItem.isInline, FileExtentItem.typ, fileExtentItemType,
      fileExtentItemOtherEncoding, fileExtentItemEncryption, fileExtentItemCompression,
      fileExtentItemRAMBytes]

theorem fileExtent_layout_inj {f f' : FileExtentItemRec} {r r' : Bytes} (h : f.layout ++ r = f'.layout ++ r') : f = f' := by
  have h1 := C07_FileExtentItem_decodes f r []
  have h2 := C07_FileExtentItem_decodes f' r' []
  rw [h] at h1
  obtain ⟨-, a1, a2, a3, a4, a5, a6, a7, a8, a9, a10⟩ := h1
  obtain ⟨-, b1, b2, b3, b4, b5, b6, b7, b8, b9, b10⟩ := h2
  rw [b1] at a1; rw [b2] at a2; rw [b3] at a3; rw [b4] at a4; rw [b5] at a5
  rw [b6] at a6; rw [b7] at a7; rw [b8] at a8; rw [b9] at a9; rw [b10] at a10
  cases f; cases f'
  simp only [Go.ok.injEq] at a1 a2 a3 a4 a5 a6 a7 a8 a9 a10
  subst a1 a2 a3 a4 a5 a6 a7 a8 a9 a10
  rfl

theorem Piece.heldBy_unique {p p' : Piece} {d : Bytes} (h : p.heldBy d) (h' : p'.heldBy d) : p = p' := by
  cases p with
  | raw f =>
    obtain ⟨h1, r, rfl⟩ := h
    cases p' with
    | raw f' =>
      obtain ⟨h1', r', h2⟩ := h'
      rw [fileExtent_layout_inj h2]
    | inline data =>
      obtain ⟨f', r', h2, h3, h4⟩ := h'
      have k1 := C07_FileExtentItem_isInline f r []
      rw [h2, (inline_data f' data r' [] h3 h4).2] at k1
      exact absurd (of_decide_eq_true (Go.ok.inj k1).symm) h1
  | inline data =>
    obtain ⟨f, r, rfl, h3, h4⟩ := h
    cases p' with
    | raw f' =>
      obtain ⟨h1', r', h2⟩ := h'
      have k1 := C07_FileExtentItem_isInline f' r' []
      rw [← h2, (inline_data f data r [] h3 h4).2] at k1
      exact absurd (of_decide_eq_true (Go.ok.inj k1).symm) h1'
    | inline data' =>
      obtain ⟨f', r', h2, h3', h4'⟩ := h'
      have k1 := (inline_data f data r [] h3 h4).1
      rw [h2, (inline_data f' data' r' [] h3' h4').1] at k1
      rw [Go.ok.inj k1]

theorem pieceSeen_unique {l : AStore} (hl : l.Sorted) {o ino off : UInt64} {p p' : Piece} (h : l.enc.pieceSeen o ino off p)
    (h' : l.enc.pieceSeen o ino off p') : p = p' := by
  obtain ⟨g, x, d, h1, h2, h3, h4⟩ := h
  obtain ⟨g', x', d', k1, k2, k3, k4⟩ := h'
  obtain rfl := runVersion_gen h1 k1
  obtain rfl := hl.unique (enc_stores.mp h2) (enc_stores.mp k2)
  obtain rfl := h3.unique k3
  exact Piece.heldBy_unique h4 k4

/-- What is written of the data in an item. -/
def cutData (size : Option UInt64) (off : UInt64) (data : Bytes) : Bytes :=
  match size with
  | none => data
  | some sz => data.take (sz.toNat - off.toNat)

theorem cutData_length (size : Option UInt64) (off : UInt64) (data : Bytes) : (cutData size off data).length ≤ data.length := by
  cases size with
  | none => exact Nat.le_refl _
  | some sz => simp only [cutData, List.length_take]; omega

theorem inlineLimit_eq {size : Option UInt64} {off : UInt64} {data : Bytes} (hlt : ∀ sz, size = some sz → sz.toNat < 2 ^ 63)
    (hs : off.toNat + data.length < 2 ^ 63) :
    (inlineLimit size off data.length ≤ 0 ∧ cutData size off data = []) ∨
    ∃ n : Nat, inlineLimit size off data.length = n ∧ 0 < n ∧ n ≤ data.length ∧ cutData size off data = data.take n := by
  cases size with
  | none =>
    by_cases h : data = []
    · left; subst h; exact ⟨Int.le_refl _, rfl⟩
    · right
      exact ⟨data.length, rfl, List.length_pos_iff.mpr h, Nat.le_refl _, by rw [List.take_length]; rfl⟩
  | some size =>
    have hlt' := hlt size rfl
    have h0 : int64OfU64 off = off.toNat := int64_small (by omega)
    have hwr : wrapInt64 ((off.toNat : Int) + data.length) = (off.toNat : Int) + data.length := wrapInt64_id (by omega) (by omega)
    have hsub : int64OfU64 (size - off) = (size.toNat : Int) - off.toNat := by
      have h1 := size.toNat_lt
      have h2 := off.toNat_lt
      unfold int64OfU64
      by_cases h : off.toNat ≤ size.toNat
      · rw [UInt64.toNat_sub_of_le _ _ (UInt64.le_iff_toNat_le.mpr h), if_pos (by omega)]
        omega
      · rw [UInt64.toNat_sub]
        have h3 : (2 ^ 64 - off.toNat + size.toNat) % 2 ^ 64 = 2 ^ 64 - off.toNat + size.toNat := Nat.mod_eq_of_lt (by omega)
        rw [h3, if_neg (by omega)]
        omega
    have hlim : inlineLimit (some size) off data.length =
        if (size.toNat : Int) < off.toNat + data.length then (size.toNat : Int) - off.toNat else data.length := by
      unfold inlineLimit
      simp only [h0, hsub, hwr, int64_small hlt']
    rw [hlim]
    unfold cutData
    simp only
    by_cases h : (size.toNat : Int) < off.toNat + data.length
    · rw [if_pos h]
      by_cases hp : off.toNat < size.toNat
      · right
        exact ⟨size.toNat - off.toNat, by omega, by omega, by omega, rfl⟩
      · left
        refine ⟨by omega, ?_⟩
        rw [show size.toNat - off.toNat = 0 by omega, List.take_zero]
    · rw [if_neg h]
      by_cases hd : data = []
      · left
        subst hd
        exact ⟨Int.le_refl _, by simp⟩
      · right
        refine ⟨data.length, rfl, List.length_pos_iff.mpr hd, Nat.le_refl _, ?_⟩
        rw [List.take_length, List.take_of_length_le (by omega)]

/-- Writing the data in an item. -/
theorem fills_inline {env : Env} {D : Bytes} {C : Option (List StripeMapEntry) → Prop} {fd : Nat} {rf : Nat} {ix : Ix}
    {size : Option UInt64} {r : Range} {off ino : UInt64} {f : InlineExtentRec} {data rest tail : Bytes}
    (hk : r.rKey = .ok ⟨ino, 108, off⟩) (hr : f.ramBytes.toNat < 2 ^ 63) (hl : data.length = min f.ramBytes.toNat 16384)
    (hlt : ∀ sz, size = some sz → sz.toNat < 2 ^ 63) (hs : off.toNat + data.length < 2 ^ 63) :
    Fills env D C fd (off.toNat, cutData size off data) True
      (recoverExtent env rf ix fd size r ⟨f.layout ++ (data ++ rest), tail⟩) := by
  intro s d0 hf hC
  obtain ⟨i1, i2⟩ := inline_data f data rest tail hr hl
  unfold recoverExtent
  simp only [hk, i2, i1, wp_bind, wp_lift_ok, if_true]
  unfold recoverInline
  rcases inlineLimit_eq hlt hs with ⟨h1, h2⟩ | ⟨n, h1, h2, h3, h4⟩
  · simp only
    rw [if_neg (by omega), h2]
    exact wp_pure' ⟨Wrote.refl _ _, hC, fun _ => ⟨by rw [pwrite_nil]; exact hf, trivial⟩, fun _ _ => rfl⟩
  · simp only [h1]
    rw [if_pos (by omega), h4]
    have hto : (Slice.mk data (List.replicate (env.slack data.length) 0)).to (n : Int).toNat =
        .ok ⟨data.take n, data.drop n ++ List.replicate (env.slack data.length) 0⟩ := by
      rw [Int.toNat_natCast, to_eq, if_pos (by omega), List.take_append_of_le_length h3,
        List.drop_append_of_le_length h3]
    rw [wp_bind, hto, wp_lift_ok, wp_bind, int64_small (x := off) (by omega)]
    refine wp_mono (wp_sysWrite hf (by omega) (by simp only [List.length_take]; omega)) ?_ fun _ h => h
    rintro ok t ⟨g1, g2, g3, g4⟩
    cases ok with
    | false => exact ⟨g1, g2 ▸ hC, fun h => (by cases h), fun hq _ => by have := g4 hq.calls; cases this⟩
    | true =>
      refine ⟨g1, g2 ▸ hC, fun _ => ⟨?_, trivial⟩, fun _ _ => rfl⟩
      have := g3 rfl
      rwa [Int.toNat_natCast] at this

end Btrfscue
