import Verif.Spec.Raid
import Verif.Props.RecoverContent
/-!
# C95, C96: where the bytes of a chunk are
-/

namespace Btrfscue

/-! ## C95 -/

theorem shifted_toNat {a b o : UInt64} (h : a ≤ b) (ho : o.toNat + (b.toNat - a.toNat) < 2 ^ 64) :
    (o + (b - a)).toNat = o.toNat + (b.toNat - a.toNat) := by
  rw [UInt64.toNat_add, UInt64.toNat_sub_of_le _ _ h, Nat.mod_eq_of_lt ho]

/-- C95 (the part that holds): for chunks with profile SINGLE, DUP or RAID1 the device and
address that `Physical` gives are those of a place where the byte is stored. Missing: the
striped profiles, where this is so in the first piece of a chunk only
(`C95_striped_exact`). -/
theorem C95_linear_partial (b : Bucket) (hb : b.WF) (m : Bytes)
    (hm : b.stores metadataVersionKey m) (gc : UInt64) (ha : b.AddrOK gc) :
    ∃ N map, ∀ fuel, N ≤ fuel → ∀ cache, cache = none ∨ cache = some map →
      ∀ start c s ss (logical : UInt64), b.chunkAt gc start c (s :: ss) → c.profile = .linear →
        start ≤ logical → logical.toNat < start.toNat + c.length.toNat →
        s.offset.toNat + c.length.toNat ≤ 2 ^ 64 →
        ∃ dev phys, (Ix.mk b (~~~0)).physical fuel cache logical = .ok (some map, dev, phys) ∧
          (dev, phys.toNat) ∈ c.places (s :: ss) (logical.toNat - start.toNat) := by
  obtain ⟨N, map, h⟩ := mapOK hb hm ha.range ha.chunks ha.disjoint
  refine ⟨N, map, fun fuel hf cache hc start c s ss logical hat hp hle hlt hof => ?_⟩
  refine ⟨_, _, h.phys fuel hf cache hc start c s ss logical hat hle hlt, ?_⟩
  have hle' := UInt64.le_iff_toNat_le.mp hle
  rw [shifted_toNat hle (by omega), ChunkRec.places, hp]
  exact List.mem_cons_self

theorem mem_inStripe {ss : List StripeRec} {i p : Nat} {q : UInt64 × Nat} :
    q ∈ inStripe ss i p ↔ ∃ s, ss[i]? = some s ∧ q = (s.devID, s.offset.toNat + p) := by
  unfold inStripe
  cases h : ss[i]? with
  | none => simp
  | some s => simp

/-- With different devices, a place on the device of the first stripe is in that stripe. -/
theorem first_place {s : StripeRec} {ss : List StripeRec} (hd : ((s :: ss).map StripeRec.devID).Nodup) {i p q : Nat} :
    (s.devID, s.offset.toNat + q) ∈ inStripe (s :: ss) i p ↔ i = 0 ∧ p = q := by
  rw [mem_inStripe]
  constructor
  · rintro ⟨t, ht, he⟩
    rw [Prod.mk.injEq] at he
    have hi : i = 0 := by
      cases i with
      | zero => rfl
      | succ i =>
        rw [List.getElem?_cons_succ] at ht
        rw [List.map_cons, List.nodup_cons] at hd
        exact absurd (List.mem_map.mpr ⟨t, List.mem_of_getElem? ht, he.1.symm⟩) hd.1
    subst hi
    rw [List.getElem?_cons_zero, Option.some.injEq] at ht
    subst ht
    exact ⟨rfl, by omega⟩
  · rintro ⟨rfl, rfl⟩
    exact ⟨s, rfl, rfl⟩

/-- A piece other than the first does not lie at its own offset. -/
theorem piece_moved {off L cols : Nat} (hL : 0 < L) (hc : 2 ≤ cols) :
    off / L / cols * L + off % L = off ↔ off < L := by
  constructor
  · intro h
    rcases Nat.lt_or_ge off L with h' | h'
    · exact h'
    · exfalso
      have h1 : 0 < off / L := Nat.div_pos h' hL
      have h2 : off / L / cols < off / L := Nat.div_lt_self h1 hc
      have h3 : off / L / cols * L < off / L * L := Nat.mul_lt_mul_of_pos_right h2 hL
      have h4 := Nat.div_add_mod off L
      rw [Nat.mul_comm] at h4
      omega
  · intro h
    rw [Nat.div_eq_of_lt h, Nat.zero_div, Nat.zero_mul, Nat.mod_eq_of_lt h, Nat.zero_add]

theorem places_first {c : ChunkRec} {s : StripeRec} {ss : List StripeRec} {off : Nat} (hp : c.profile ≠ .linear)
    (hL : 0 < c.stripeLen.toNat) (hc : 2 ≤ c.columns (s :: ss).length)
    (hd : ((s :: ss).map StripeRec.devID).Nodup) :
    (s.devID, s.offset.toNat + off) ∈ c.places (s :: ss) off ↔ off < c.stripeLen.toNat := by
  have hpm := piece_moved (off := off) hL hc
  have hzero : off < c.stripeLen.toNat → off / c.stripeLen.toNat = 0 := Nat.div_eq_of_lt
  unfold ChunkRec.places
  cases h : c.profile with
  | linear => exact absurd h hp
  | raid0 =>
    simp only
    rw [first_place hd, hpm]
    constructor
    · exact fun h => h.2
    · intro h; rw [hzero h, Nat.zero_mod]; exact ⟨rfl, h⟩
  | raid10 =>
    simp only [List.mem_flatMap, List.mem_range]
    constructor
    · rintro ⟨j, -, h⟩
      exact hpm.mp ((first_place hd).mp h).2
    · intro h'
      have hs : 0 < c.subStripes.toNat := by
        rcases Nat.eq_zero_or_pos c.subStripes.toNat with h0 | h0
        · rw [ChunkRec.columns, h] at hc
          simp only [h0, Nat.div_zero] at hc
          omega
        · exact h0
      refine ⟨0, hs, (first_place hd).mpr ⟨?_, hpm.mpr h'⟩⟩
      rw [hzero h', Nat.zero_mod, Nat.zero_mul]
  | raid5 =>
    simp only
    rw [first_place hd, hpm]
    constructor
    · exact fun h => h.2
    · intro h; rw [hzero h, Nat.zero_mod, Nat.zero_div, Nat.add_zero, Nat.zero_mod]; exact ⟨rfl, h⟩
  | raid6 =>
    simp only
    rw [first_place hd, hpm]
    constructor
    · exact fun h => h.2
    · intro h; rw [hzero h, Nat.zero_mod, Nat.zero_div, Nat.add_zero, Nat.zero_mod]; exact ⟨rfl, h⟩

/-- C95: in a chunk striped over different devices, what `Physical` gives is a place where
the byte is stored for the first piece (of the stripe length, usually 64 KiB) of the chunk
and for no other byte of it. -/
theorem C95_striped_exact (b : Bucket) (hb : b.WF) (m : Bytes)
    (hm : b.stores metadataVersionKey m) (gc : UInt64) (ha : b.AddrOK gc) :
    ∃ N map, ∀ fuel, N ≤ fuel → ∀ cache, cache = none ∨ cache = some map →
      ∀ start c s ss (logical : UInt64), b.chunkAt gc start c (s :: ss) → c.profile ≠ .linear →
        0 < c.stripeLen.toNat → 2 ≤ c.columns (s :: ss).length → ((s :: ss).map StripeRec.devID).Nodup →
        start ≤ logical → logical.toNat < start.toNat + c.length.toNat →
        s.offset.toNat + c.length.toNat ≤ 2 ^ 64 →
        ∃ dev phys, (Ix.mk b (~~~0)).physical fuel cache logical = .ok (some map, dev, phys) ∧
          ((dev, phys.toNat) ∈ c.places (s :: ss) (logical.toNat - start.toNat) ↔
            logical.toNat - start.toNat < c.stripeLen.toNat) := by
  obtain ⟨N, map, h⟩ := mapOK hb hm ha.range ha.chunks ha.disjoint
  refine ⟨N, map, fun fuel hf cache hc start c s ss logical hat hp hL h2 hd hle hlt hof => ?_⟩
  refine ⟨_, _, h.phys fuel hf cache hc start c s ss logical hat hle hlt, ?_⟩
  have hle' := UInt64.le_iff_toNat_le.mp hle
  rw [shifted_toNat hle (by omega), places_first hp hL h2 hd]

/-! ## C96 -/

/-- The data of the extents of a file lie in chunks with profile SINGLE, DUP or RAID1,
whose first stripe is on device `dev`. -/
def Bucket.OnOneDevice (b : Bucket) (o ino g gc dev : UInt64) : Prop :=
  ∀ off f, b.extentAt o ino g off f → f.diskByteNr ≠ 0 → ∃ start c s ss, b.chunkAt gc start c (s :: ss) ∧
    start ≤ f.diskByteNr ∧ f.diskByteNr.toNat + f.offset.toNat + f.numBytes.toNat ≤ start.toNat + c.length.toNat ∧
    s.offset.toNat + c.length.toNat ≤ 2 ^ 64 ∧ c.profile = .linear ∧ s.devID = dev

theorem fileByte_true {b : Bucket} (hb : b.WF) {m : Bytes} (hm : b.stores metadataVersionKey m) {o ino g gc dev : UInt64}
    (ha : b.AddrOK gc) (h1 : b.OnOneDevice o ino g gc dev) {devs : UInt64 → Bytes} {i : Nat} {v : UInt8}
    (h : b.fileByte o ino g gc (devs dev) i v) : b.fileByteOn o ino g gc devs i v := by
  rcases h with ⟨off, f, hx, hat, h⟩ | h
  · refine Or.inl ⟨off, f, hx, hat, ?_⟩
    rcases h with h | ⟨hnz, hpl, d, phys, htr, hby⟩
    · exact Or.inl h
    · refine Or.inr ⟨hnz, hpl, ?_⟩
      obtain ⟨start, c, s, ss, hch, hle, hend, hof, hlin, hdev⟩ := h1 off f hx hnz
      have hle' := UInt64.le_iff_toNat_le.mp hle
      have hi : i < off.toNat + f.numBytes.toNat := hat.2
      have hi' : off.toNat ≤ i := hat.1
      have htr' : b.translated gc f.diskByteNr s.devID (s.offset + (f.diskByteNr - start)) :=
        Or.inr ⟨hnz, start, c, s, ss, hch, hle, by omega, rfl, rfl⟩
      obtain ⟨-, rfl⟩ := translated_unique hb hm ha htr htr'
      refine ⟨start, c, s :: ss, hch, by omega, by omega, (s.devID, s.offset.toNat +
        (f.diskByteNr.toNat + f.offset.toNat + (i - off.toNat) - start.toNat)), ?_, ?_⟩
      · rw [ChunkRec.places, hlin]
        exact List.mem_cons_self
      · simp only
        rw [hdev, ← hby]
        congr 1
        have : (s.offset + (f.diskByteNr - start) + f.offset).toNat =
            s.offset.toNat + (f.diskByteNr.toNat - start.toNat) + f.offset.toNat := by
          rw [UInt64.toNat_add, shifted_toNat hle (by omega), Nat.mod_eq_of_lt (by omega)]
        omega
  · exact Or.inr h

/-- C96 (the part that holds): a file whose data lie in chunks with profile SINGLE, DUP or
RAID1, with the first stripe on the device given to recover, is recovered with the bytes
the file system has for it. Missing: data on other devices (`C96_other_device_silent`) and
striped data (`C96_striped_wrong`). -/
theorem C96_one_device_partial (b : Bucket) (hb : b.WF) (m : Bytes) (hm : b.stores metadataVersionKey m)
    (owner ino g gc dev : UInt64) (ho : owner ≠ ~~~0) (ha : b.AddrOK gc) (hf : b.FileOK owner ino g gc)
    (hp : b.ExtentsPlain owner ino g gc) (h1 : b.OnOneDevice owner ino g gc dev)
    (size : UInt64) (hsz : b.inodeSizeIs owner ino size) (hlt : size.toNat < 2 ^ 63) :
    ∃ N, ∀ (devs : UInt64 → Bytes) (rf : Nat), N ≤ rf → ∀ env, Quiet env (devs dev) →
      b.OnDevice owner ino g gc (devs dev) →
      ∀ (clobber : Bool) (target : Bytes) (s : RecState), s.cache = none → s.fs.openTrunc target ≠ none →
      clobber = true ∨ s.fs.stat true target = none →
      ∃ s', recoverFile env rf ⟨b, ~~~0⟩ clobber owner ino target s = .ok none s' ∧
        ∃ d, s'.fs.readFile target = some d ∧ d.length = size.toNat ∧
        ∀ i v, d[i]? = some v → b.fileByteOn owner ino g gc devs i v := by
  obtain ⟨N, h⟩ := C58_recovered b hb m hm owner ino g gc ho ha hf hp size hsz hlt
  refine ⟨N, fun devs rf hrf env hq hon clobber target s hc hop hcl => ?_⟩
  obtain ⟨s', hr, d, hd, hl, hby⟩ := h (devs dev) rf hrf env hq hon clobber target s hc hop hcl
  exact ⟨s', hr, d, hd, hl, fun i v hv => fileByte_true hb hm ha h1 (hby i v hv)⟩

end Btrfscue
