import Verif.Proof.Path
/-! # Looking up the newest version of an item -/

namespace Btrfscue

theorem ordinary_lookup {o : UInt64} (ho : o ≠ ~~~0) (k : Key) (G : UInt64) :
    ¬ metadataVersionKey.before ⟨o, k, G⟩ := by
  have h1 := VKey.num_lt_iff.mpr (C20_ordinary_owner o k ho)
  have h2 : (VKey.mk o k G).num ≤ (VKey.mk o k (~~~0)).num := num_same.mpr (le_max64 _)
  rw [← VKey.num_lt_iff]
  omega

theorem findItem_newest {b : Bucket} (hb : b.WF) {m : Bytes} (hm : b.stores metadataVersionKey m) {o : UInt64}
    (ho : o ≠ ~~~0) {k : Key} {g : UInt64} {x : Bytes} (hn : b.newest o k g) (hs : b.stores ⟨o, k, g⟩ x) :
    (Ix.mk b (~~~0)).findItem o k = .ok (some ⟨x, []⟩) := by
  obtain ⟨l, hl, rfl⟩ := hb.exists_abs
  rcases C22_lookup_safe_partial l.enc (AStore.enc_wf hl) (~~~0) o k m hm (ordinary_lookup ho k _) with
    ⟨-, hno⟩ | ⟨g', x', hf, -⟩
  · exact absurd hn.1 (hno g)
  · obtain ⟨g2, hc, hst, -⟩ := C21_lookup_at_generation_partial l.enc (AStore.enc_wf hl) _ _ _ _ hf
    obtain rfl := actualChoice_max hc hn
    obtain rfl := hl.unique (enc_stores.mp hst) (enc_stores.mp hs)
    exact hf

theorem findData_newest {b : Bucket} (hb : b.WF) {m : Bytes} (hm : b.stores metadataVersionKey m) {o : UInt64}
    (ho : o ≠ ~~~0) {k : Key} {g : UInt64} {x d : Bytes} (hn : b.newest o k g) (hs : b.stores ⟨o, k, g⟩ x)
    (hd : holdsItem x d) : ∃ t, (Ix.mk b (~~~0)).findData o k = .ok (some ⟨d, t⟩) := by
  obtain ⟨⟨sd, st⟩, h1, h2⟩ := hd.data
  simp only at h2
  subst h2
  refine ⟨st, ?_⟩
  unfold Ix.findData
  rw [findItem_newest hb hm ho hn hs]
  simp only [Go.ok_bind, h1]
  rfl

theorem findItem_none {b : Bucket} (hb : b.WF) {m : Bytes} (hm : b.stores metadataVersionKey m) {o : UInt64}
    (ho : o ≠ ~~~0) {k : Key} (G : UInt64) (hn : ¬ b.hasKey o k) : (Ix.mk b G).findItem o k = .ok none := by
  rcases C22_lookup_safe_partial b hb G o k m hm (ordinary_lookup ho k _) with ⟨h, -⟩ | ⟨g', x', -, h⟩
  · exact h
  · exact absurd ⟨g', x', h⟩ hn

theorem findData_none {b : Bucket} (hb : b.WF) {m : Bytes} (hm : b.stores metadataVersionKey m) {o : UInt64}
    (ho : o ≠ ~~~0) {k : Key} (G : UInt64) (hn : ¬ b.hasKey o k) : (Ix.mk b G).findData o k = .ok none := by
  unfold Ix.findData
  rw [findItem_none hb hm ho G hn]
  rfl

/-- Seconds and nanoseconds of a timestamp whose nanoseconds are in range. -/
theorem isTime_small {t : Time} {d : DiskTime} (h : IsTime t d) (hn : d.nsec.toNat < 1000000000) :
    u64OfInt t.unix = d.sec ∧ UInt32.ofNat t.nanosecond = d.nsec := by
  obtain ⟨h1, h2, h3, q, hq⟩ := h
  have hs := d.sec.toNat_lt
  have h4 : t.nanosecond = d.nsec.toNat ∧ (t.unix - d.sec.toNat : Int) = 2 ^ 64 * q := by
    constructor <;> omega
  constructor
  · rw [← UInt64.toNat_inj, u64OfInt, UInt64.toNat_ofNat']
    have : t.unix % 2 ^ 64 = d.sec.toNat := by omega
    rw [this, Int.toNat_natCast]
    omega
  · rw [h4.1]; exact UInt32.ofNat_toNat

end Btrfscue
