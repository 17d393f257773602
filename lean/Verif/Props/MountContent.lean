import Verif.Props.Mount
import Verif.Props.RecoverFile
/-!
# C86: what is read from a file of the mount is what recover writes
-/

namespace Btrfscue

/-- A regular extent item is not an inline one. -/
theorem regular_not_inline {f : FileExtentItemRec} {f' : InlineExtentRec} {rest data rest' : Bytes} (ht : f.typ ≠ 0)
    (hr : f'.ramBytes.toNat = data.length) (hl : data.length ≤ 16384) (h : f.layout ++ rest = f'.layout ++ (data ++ rest')) : False := by
  have h1 := C07_FileExtentItem_isInline f rest []
  have h2 := (C12_inline_data f' data rest' [] hr hl).2
  rw [h, h2] at h1
  have := Go.ok.inj h1
  exact ht (of_decide_eq_true this.symm)

/-- A file with extents is regular or inline, not both. -/
theorem Bucket.FileOK.not_inline {b : Bucket} (hb : b.WF) {gc o i g g' start : UInt64} {data : Bytes} (hf : b.FileOK o i g gc)
    (hi : b.InlineFile o i g' start data) : False := by
  obtain ⟨x', f', rest', k1, k2, -, -, -, k3⟩ := hi.intact
  obtain ⟨f, ⟨x, d, rest, h1, h2, rfl⟩, h3, -⟩ := hf.intact start ⟨g', x', k1⟩
  have hg := newest_unique (hf.newest start ⟨g', x', k1⟩) hi.newest
  subst hg
  obtain ⟨l, hl, rfl⟩ := hb.exists_abs
  have := hl.unique (enc_stores.mp h1) (enc_stores.mp k1)
  subst this
  exact regular_not_inline h3 k3 hi.short (h2.unique k2)

/-- The byte of a file in an extent. -/
theorem fileByte_in_extent {b : Bucket} (hb : b.WF) {o i g gc off : UInt64} {f : FileExtentItemRec} {D : Bytes} {k : Nat} {v : UInt8}
    (hp : b.ExtentsPlain o i g gc) (hat : b.extentAt o i g off f) (hin : f.at off k) (h : b.fileByte o i g gc D k v) :
    (f.diskByteNr = 0 ∧ v = 0) ∨ (f.diskByteNr ≠ 0 ∧ ∃ dev phys, b.translated gc f.diskByteNr dev phys ∧
        D[(phys + f.offset).toNat + (k - off.toNat)]? = some v) := by
  rcases h with ⟨off', f', h1, h2, h3⟩ | ⟨h1, -⟩
  · have hoff : off' = off := by
      rcases Nat.lt_trichotomy off'.toNat off.toNat with h | h | h
      · have := hp.disjoint _ f' _ f h1 hat (UInt64.lt_iff_toNat_lt.mpr h)
        have := hin.1
        have := h2.2
        omega
      · exact UInt64.toNat_inj.mp h
      · have := hp.disjoint _ f _ f' hat h1 (UInt64.lt_iff_toNat_lt.mpr h)
        have := hin.2
        have := h2.1
        omega
    subst hoff
    obtain ⟨l, hl, rfl⟩ := hb.exists_abs
    obtain rfl := extentAt_unique hl hat h1
    rcases h3 with ⟨h3 | h3, h4⟩ | ⟨h3, -, h4⟩
    · exact Or.inl ⟨h3, h4⟩
    · have := (hp.plain _ _ hat).1
      rw [h3] at this
      exact absurd this (by decide)
    · exact Or.inr ⟨h3, h4⟩
  · exact absurd hin (h1 _ _ hat)

theorem inlineFile_unique {b : Bucket} (hb : b.WF) {o i g g' start : UInt64} {data data' : Bytes} (hi : b.InlineFile o i g start data)
    (hi' : b.InlineFile o i g' start data') : data' = data := by
  obtain ⟨y, f, rest, k1, k2, -, -, -, k3⟩ := hi.intact
  obtain ⟨y', f', rest', k1', k2', -, -, -, k3'⟩ := hi'.intact
  have hg := newest_unique hi.newest hi'.newest
  subst hg
  obtain ⟨l, hl', rfl⟩ := hb.exists_abs
  have := hl'.unique (enc_stores.mp k1) (enc_stores.mp k1')
  subst this
  have h1 := k2.unique k2'
  have e1 := (C12_inline_data f data rest [] k3 hi.short).1
  have e2 := (C12_inline_data f' data' rest' [] k3' hi'.short).1
  rw [h1, e2] at e1
  exact Go.ok.inj e1

/-- What opening the file gives, and what can be read from it. -/
theorem open_shows {b : Bucket} (hb : b.WF) {m : Bytes} (hm : b.stores metadataVersionKey m) {gc : UInt64}
    (hu : b.Undamaged gc) {D : Bytes} (hD : D.length < 2 ^ 63) {o i : UInt64}
    (hr : b.recoverable gc o i) (hdev : ∀ g, b.FileOK o i g gc → b.OnDevice o i g gc D)
    (hne : ∃ off, b.hasKey o ⟨i, 108, off⟩) (hzero : ∀ g start data, b.InlineFile o i g start data → start = 0)
    {x : Bytes} (hx : b.contentIs gc D o i x) :
    ∃ N h, (∀ fuel, N ≤ fuel → ∃ r, (newRescueNode o i).open fuel ⟨b, ~~~0⟩ none = .ok (r, .ok h)) ∧
      ((∃ data g, b.InlineFile o i g 0 data ∧ h = .data data ∧ ∀ k, k < x.length → x[k]? = some ((data[k]?).getD 0)) ∨
       ∃ ext g, b.FileOK o i g gc ∧ h = .extents ext ∧ ∀ off g f, b.newest o ⟨i, 108, off⟩ g → b.extentAt o i g off f → ∀ (buf : Bytes) (p : Nat),
        buf ≠ [] → off.toNat ≤ p → p + buf.length ≤ off.toNat + f.numBytes.toNat → p + buf.length ≤ x.length →
        extentFileRead (some (imageReader D)) ext buf p = .ok (.ok ((x.drop p).take buf.length))) := by
  obtain ⟨ho, size, hsz, hsm, ⟨g, hf, hp⟩ | ⟨g, start, data, hi⟩⟩ := hr
  · obtain ⟨N', ext, h1, h2⟩ := C71_mounted_read_partial b hb m hm o i g gc hu.addr hf hne D hD hp.disjoint hp.small (hdev g hf)
    refine ⟨N', .extents ext, h1, Or.inr ⟨ext, g, hf, rfl, fun off g0 f hnew hat buf p hbuf hp1 hp2 hp3 => ?_⟩⟩
    · have hkey : b.hasKey o ⟨i, 108, off⟩ := ⟨g0, hnew.1⟩
      obtain rfl := newest_unique hnew (hf.newest off hkey)
      obtain ⟨d, k1, k2, k3⟩ := h2 off f hat buf p hbuf hp1 hp2
      rw [k1]
      congr 2
      obtain ⟨size', hsz', hlen, ⟨g', hf', hbytes⟩ | ⟨g', start, data, hi, -⟩⟩ := hx
      · obtain rfl := newest_unique hnew (hf'.newest off hkey)
        apply List.ext_getElem?
        intro j
        by_cases hj : j < buf.length
        · rw [List.getElem?_take, if_pos hj, List.getElem?_drop]
          obtain ⟨v, hv⟩ : ∃ v, d[j]? = some v := ⟨_, List.getElem?_eq_getElem (by omega)⟩
          obtain ⟨w, hw⟩ : ∃ w, x[p + j]? = some w := ⟨_, List.getElem?_eq_getElem (by omega)⟩
          rw [hv, hw]
          congr 1
          have hin : f.at off (p + j) := ⟨by omega, by omega⟩
          have := fileByte_in_extent hb hp hat hin (hbytes _ _ hw)
          rcases k3 j v hv with ⟨z, rfl⟩ | ⟨nz, dev, phys, t1, t2⟩
          · rcases this with ⟨-, rfl⟩ | ⟨nz, -⟩
            · rfl
            · exact absurd z nz
          · rcases this with ⟨z, -⟩ | ⟨-, dev', phys', t3, t4⟩
            · exact absurd z nz
            · obtain ⟨rfl, rfl⟩ := translated_unique hb hm hu.addr t1 t3
              rw [t2] at t4
              exact Option.some.inj t4
        · rw [List.getElem?_take, if_neg hj, List.getElem?_eq_none (by omega)]
      · exact (hf.not_inline hb hi).elim
  · obtain rfl := hzero _ _ _ hi
    obtain ⟨y, f, rest, k1, k2, -, -, -, k3⟩ := hi.intact
    refine ⟨0, .data data, fun fuel _ => ⟨none, ?_⟩, Or.inl ⟨data, g, hi, rfl, ?_⟩⟩
    · exact C55_open_inline_partial b hb m hm o i g hi.range hi.newest hi.only y k1 f data rest k2 k3 hi.short fuel none
    · obtain ⟨size', hsz', hlen, ⟨g', hf', -⟩ | ⟨g', start', data', hi', hbytes⟩⟩ := hx
      · exact (hf'.not_inline hb hi).elim
      · obtain rfl := hzero _ _ _ hi'
        obtain rfl := inlineFile_unique hb hi hi'
        intro k hk
        have := hbytes k (by omega)
        rw [this]
        simp

/-- C86: a file opened in the mount shows the contents `x` that recover writes for it (C83):
an inline file as data, any other as a file from which each read inside one of its extents
and inside the file returns these bytes. Missing: files without extents (which cannot be
opened, C55), reads that cross extents or touch places without extents (which go wrong, C50),
and what `recoverable` excludes. -/
theorem C86_same_content_partial (b : Bucket) (hb : b.WF) (m : Bytes) (hm : b.stores metadataVersionKey m) (gc : UInt64)
    (hu : b.Undamaged gc) (hM : b.Mountable) (D : Bytes) (hD : D.length < 2 ^ 63) (names : List Bytes) (o i : UInt64)
    (hl : b.LeadsTo 5 256 names o i) (hr : b.recoverable gc o i) (hdev : ∀ g, b.FileOK o i g gc → b.OnDevice o i g gc D)
    (hne : ∃ off, b.hasKey o ⟨i, 108, off⟩) (hzero : ∀ g start data, b.InlineFile o i g start data → start = 0)
    (x : Bytes) (hx : b.contentIs gc D o i x) :
    ∃ N h, (∀ fuel, N ≤ fuel → ∃ c r, mountWalk fuel ⟨b, ~~~0⟩ (ascii "rescue" :: names) = .ok (some c) ∧
        c.open fuel ⟨b, ~~~0⟩ none = .ok (r, .ok h)) ∧
      ((∃ data, h = .data data ∧ ∀ k, k < x.length → x[k]? = some ((data[k]?).getD 0)) ∨
       ∃ ext, h = .extents ext ∧ ∀ off g f, b.newest o ⟨i, 108, off⟩ g → b.extentAt o i g off f → ∀ (buf : Bytes) (p : Nat),
        buf ≠ [] → off.toNat ≤ p → p + buf.length ≤ off.toNat + f.numBytes.toNat → p + buf.length ≤ x.length →
        extentFileRead (some (imageReader D)) ext buf p = .ok (.ok ((x.drop p).take buf.length))) := by
  obtain ⟨N, hN⟩ := (hu.recoverOK.loopsEnd hb hm (~~~0)).bound
  have hwalk : ∀ fuel, N ≤ fuel → ∃ c, mountWalk fuel ⟨b, ~~~0⟩ (ascii "rescue" :: names) = .ok (some c) ∧ c.owner = o ∧ c.ixInode = i := by
    intro fuel hf
    simp only [mountWalk, mountTop_rescue]
    rcases hu.walk hb hm hM hN hf names (by decide) (nodeOK_fresh fuel ⟨b, ~~~0⟩ 5 256) with ⟨o', i', c, k1, k2, k3, k4⟩ | ⟨k1, k2⟩
    · obtain ⟨rfl, rfl⟩ := Bucket.LeadsTo.unique hb hu k1 hl
      exact ⟨c, k4, k3.owner, k3.inode⟩
    · exact absurd hl (k1 o i)
  have hopen : ∀ (c : RescueNode) fuel, c.owner = o → c.ixInode = i →
      c.open fuel ⟨b, ~~~0⟩ none = (newRescueNode o i).open fuel ⟨b, ~~~0⟩ none := by
    intro c fuel h1 h2
    unfold RescueNode.open newRescueNode
    rw [h1, h2]
  obtain ⟨N', h, h1, h2⟩ := open_shows hb hm hu hD hr hdev hne hzero hx
  refine ⟨N + N', h, fun fuel hfu => ?_, ?_⟩
  · obtain ⟨c, k1, k2, k3⟩ := hwalk fuel (by omega)
    obtain ⟨c', k4⟩ := h1 fuel (by omega)
    exact ⟨c, c', k1, by rw [hopen c fuel k2 k3]; exact k4⟩
  · rcases h2 with ⟨data, g, -, rfl, h2⟩ | ⟨ext, g, -, rfl, h2⟩
    · exact Or.inl ⟨data, rfl, h2⟩
    · exact Or.inr ⟨ext, rfl, h2⟩

end Btrfscue
