import Verif.Spec.RecoverAll
import Verif.Proof.Undamaged
/-!
# Only the payloads of stored items matter

Two indexes with the same versions and the same payloads (but perhaps other item headers)
say the same about directories, files and chunks.
-/

namespace Btrfscue

/-- Same versions, same payloads, apart from the metadata entry. -/
structure Bucket.SameItems (a b : Bucket) : Prop where
  wfa : a.WF
  wfb : b.WF
  versions : ∀ v, (∃ x, a.stores v x) ↔ ∃ x, b.stores v x
  items : ∀ v d, v ≠ metadataVersionKey → ((∃ x, a.stores v x ∧ holdsItem x d) ↔ ∃ x, b.stores v x ∧ holdsItem x d)

namespace Bucket.SameItems

variable {a b : Bucket}

theorem symm (h : a.SameItems b) : b.SameItems a :=
  ⟨h.wfb, h.wfa, fun v => (h.versions v).symm, fun v d hv => (h.items v d hv).symm⟩

theorem hasVersion (h : a.SameItems b) {o : UInt64} {k : Key} {g : UInt64} : a.hasVersion o k g ↔ b.hasVersion o k g :=
  h.versions _

theorem hasKey (h : a.SameItems b) {o : UInt64} {k : Key} : a.hasKey o k ↔ b.hasKey o k := by
  simp only [Bucket.hasKey, h.hasVersion]

theorem newest (h : a.SameItems b) {o : UInt64} {k : Key} {g : UInt64} : a.newest o k g ↔ b.newest o k g := by
  simp only [Bucket.newest, h.hasVersion]

theorem firstAfter (h : a.SameItems b) {o : UInt64} {f : VKey} (hf : a.firstAfter o f) : b.firstAfter o f :=
  ⟨(h.versions f).mp hf.1, hf.2.1, fun w x hw ho => by
    obtain ⟨y, hy⟩ := (h.versions w).mpr ⟨x, hw⟩
    exact hf.2.2 w y hy ho⟩

theorem ne_meta {o : UInt64} {k : Key} {g : UInt64} (hk : k.typ ≠ 255) : (⟨o, k, g⟩ : VKey) ≠ metadataVersionKey := by
  intro h
  exact hk (congrArg (fun v : VKey => v.key.typ) h)

/-- The form the definitions use. -/
theorem get (h : a.SameItems b) {o : UInt64} {k : Key} {g : UInt64} (hk : k.typ ≠ 255) {x d : Bytes} (h1 : a.stores ⟨o, k, g⟩ x)
    (h2 : holdsItem x d) : ∃ y, b.stores ⟨o, k, g⟩ y ∧ holdsItem y d :=
  (h.items _ d (ne_meta hk)).mp ⟨x, h1, h2⟩

theorem rangeOK (h : a.SameItems b) {o : UInt64} {last : Key} (hr : a.RangeOK o last) : b.RangeOK o last where
  ordinary := hr.ordinary
  intact v x hx ho := by
    have hv : v ≠ metadataVersionKey := by
      rintro rfl
      exact hr.ordinary ho.symm
    obtain ⟨y, hy⟩ := (h.versions v).mpr ⟨x, hx⟩
    obtain ⟨d, hd⟩ := hr.intact v y hy ho
    obtain ⟨z, hz, hzd⟩ := (h.items v d hv).mp ⟨y, hy, hd⟩
    obtain ⟨l, hl, rfl⟩ := h.wfb.exists_abs
    rw [hl.unique (enc_stores.mp hx) (enc_stores.mp hz)]
    exact ⟨d, hzd⟩
  noMaxGen k hk := hr.noMaxGen k (h.hasVersion.mpr hk)
  noKL hk := hr.noKL (h.hasKey.mpr hk)
  closed := by
    rcases hr.closed with ⟨k, h1, h2⟩ | h1
    · exact Or.inl ⟨k, h.hasKey.mp h1, h2⟩
    · exact Or.inr fun f hf hk => h1 f (h.symm.firstAfter hf) (h.hasKey.mpr hk)

theorem chunkAt (h : a.SameItems b) {g start : UInt64} {c : ChunkRec} {ss : List StripeRec} (hc : a.chunkAt g start c ss) :
    b.chunkAt g start c ss := by
  obtain ⟨x, d, rest, h1, h2, h3⟩ := hc
  obtain ⟨y, hy, hd⟩ := h.get (by show ¬ (228 : UInt8) = 255; decide) h1 h2
  exact ⟨y, d, rest, hy, hd, h3⟩

theorem addrOK (h : a.SameItems b) {gc : UInt64} (ha : a.AddrOK gc) : b.AddrOK gc where
  range := h.rangeOK ha.range
  chunks start hk := by
    obtain ⟨h1, c, ss, h2⟩ := ha.chunks start (h.hasKey.mpr hk)
    exact ⟨h.newest.mp h1, c, ss, h.chunkAt h2⟩
  disjoint p c ss p' c' ss' h1 h2 := ha.disjoint p c ss p' c' ss' (h.symm.chunkAt h1) (h.symm.chunkAt h2)

theorem extentAt (h : a.SameItems b) {o i g off : UInt64} {f : FileExtentItemRec} (hc : a.extentAt o i g off f) :
    b.extentAt o i g off f := by
  obtain ⟨x, d, rest, h1, h2, h3⟩ := hc
  obtain ⟨y, hy, hd⟩ := h.get (by show ¬ (108 : UInt8) = 255; decide) h1 h2
  exact ⟨y, d, rest, hy, hd, h3⟩

theorem translated (h : a.SameItems b) {gc dbn dev phys : UInt64} (ht : a.translated gc dbn dev phys) : b.translated gc dbn dev phys := by
  rcases ht with ht | ⟨h0, start, c, s, ss, h1, h2⟩
  · exact Or.inl ht
  · exact Or.inr ⟨h0, start, c, s, ss, h.chunkAt h1, h2⟩

theorem fileOK (h : a.SameItems b) {o i g gc : UInt64} (hf : a.FileOK o i g gc) : b.FileOK o i g gc where
  range := h.rangeOK hf.range
  newest off hk := h.newest.mp (hf.newest off (h.hasKey.mpr hk))
  intact off hk := by
    obtain ⟨f, h1, h2, dev, phys, h3⟩ := hf.intact off (h.hasKey.mpr hk)
    exact ⟨f, h.extentAt h1, h2, dev, phys, h.translated h3⟩

theorem fileByte (h : a.SameItems b) {o i g gc : UInt64} {D : Bytes} {k : Nat} {v : UInt8} (hf : a.fileByte o i g gc D k v) :
    b.fileByte o i g gc D k v := by
  rcases hf with ⟨off, f, h1, h2, h3⟩ | ⟨h1, h2⟩
  · refine Or.inl ⟨off, f, h.extentAt h1, h2, ?_⟩
    rcases h3 with h3 | ⟨h3, h4, dev, phys, h5, h6⟩
    · exact Or.inl h3
    · exact Or.inr ⟨h3, h4, dev, phys, h.translated h5, h6⟩
  · exact Or.inr ⟨fun off f hx => h1 off f (h.symm.extentAt hx), h2⟩

theorem extentsPlain (h : a.SameItems b) {o i g gc : UInt64} (hf : a.ExtentsPlain o i g gc) : b.ExtentsPlain o i g gc where
  disjoint off f off' f' h1 h2 := hf.disjoint off f off' f' (h.symm.extentAt h1) (h.symm.extentAt h2)
  plain off f h1 := hf.plain off f (h.symm.extentAt h1)
  small off f h1 := hf.small off f (h.symm.extentAt h1)
  holes off f h1 := hf.holes off f (h.symm.extentAt h1)
  addr off f dev phys h1 h2 h3 := hf.addr off f dev phys (h.symm.extentAt h1) h2 (h.symm.translated h3)

theorem onDevice (h : a.SameItems b) {o i g gc : UInt64} {D : Bytes} (hf : a.OnDevice o i g gc D) : b.OnDevice o i g gc D :=
  fun off f dev phys h1 h2 h3 => hf off f dev phys (h.symm.extentAt h1) h2 (h.symm.translated h3)

theorem inodeSizeIs (h : a.SameItems b) {o i size : UInt64} (hf : a.inodeSizeIs o i size) : b.inodeSizeIs o i size := by
  obtain ⟨g, x, f, rest, h1, h2, h3, h4⟩ := hf
  obtain ⟨y, hy, hd⟩ := h.get (by show ¬ (1 : UInt8) = 255; decide) h2 h3
  exact ⟨g, y, f, rest, h.newest.mp h1, hy, hd, h4⟩

theorem inlineFile (h : a.SameItems b) {o i g start : UInt64} {data : Bytes} (hf : a.InlineFile o i g start data) :
    b.InlineFile o i g start data where
  range := h.rangeOK hf.range
  newest := h.newest.mp hf.newest
  only off hk := hf.only off (h.hasKey.mpr hk)
  intact := by
    obtain ⟨x, f, rest, h1, h2, h3⟩ := hf.intact
    obtain ⟨y, hy, hd⟩ := h.get (by show ¬ (108 : UInt8) = 255; decide) h1 h2
    exact ⟨y, f, rest, hy, hd, h3⟩
  short := hf.short
  small := hf.small

theorem recoverable (h : a.SameItems b) {gc o i : UInt64} (hf : a.recoverable gc o i) : b.recoverable gc o i := by
  obtain ⟨h0, size, h1, h2, h3⟩ := hf
  refine ⟨h0, size, h.inodeSizeIs h1, h2, ?_⟩
  rcases h3 with ⟨g, h3, h4⟩ | ⟨g, start, data, h3⟩
  · exact Or.inl ⟨g, h.fileOK h3, h.extentsPlain h4⟩
  · exact Or.inr ⟨g, start, data, h.inlineFile h3⟩

theorem contentIs (h : a.SameItems b) {gc o i : UInt64} {D x : Bytes} (hf : a.contentIs gc D o i x) : b.contentIs gc D o i x := by
  obtain ⟨size, h1, h2, h3⟩ := hf
  refine ⟨size, h.inodeSizeIs h1, h2, ?_⟩
  rcases h3 with ⟨g, h3, h4⟩ | ⟨g, start, data, h3, h4⟩
  · exact Or.inl ⟨g, h.fileOK h3, fun k v hv => h.fileByte (h4 k v hv)⟩
  · exact Or.inr ⟨g, start, data, h.inlineFile h3, h4⟩

theorem targetIs (h : a.SameItems b) {o i : UInt64} {t : Bytes} (hf : a.targetIs o i t) : b.targetIs o i t := by
  obtain ⟨h0, g, x, f, rest, h1, h2, h3, h4⟩ := hf
  obtain ⟨y, hy, hd⟩ := h.get (by show ¬ (108 : UInt8) = 255; decide) h2 h3
  exact ⟨h0, g, y, f, rest, h.newest.mp h1, hy, hd, h4⟩

theorem entryNow (h : a.SameItems b) {o d : UInt64} {name : Bytes} {e : DirItemRec} (he : a.entryNow o d name e) :
    b.entryNow o d name e := by
  obtain ⟨off, g, x, p, es, h1, h2, h3, h4⟩ := he
  obtain ⟨y, hy, hd⟩ := h.get (by show ¬ (84 : UInt8) = 255; decide) h2 h3
  exact ⟨off, g, y, p, es, h.newest.mp h1, hy, hd, h4⟩

theorem subvolume (h : a.SameItems b) {o : UInt64} (hs : a.subvolume o) : b.subvolume o := by
  obtain ⟨h1, h2, off, h3⟩ := hs
  exact ⟨h1, h2, off, h.hasKey.mp h3⟩

theorem belongsAt (h : a.SameItems b) {dest : Bytes} {o d : UInt64} {p : Bytes} (hp : a.BelongsAt dest o d p) :
    b.BelongsAt dest o d p := by
  induction hp with
  | main => exact .main
  | subvolume hs => exact .subvolume (h.subvolume hs)
  | dir _ he ht hl ih => exact .dir ih (h.entryNow he) ht hl
  | tree _ he ht ih => exact .tree ih (h.entryNow he) ht

theorem undamaged (h : a.SameItems b) {gc : UInt64} (hu : a.Undamaged gc) : b.Undamaged gc where
  addr := h.addrOK hu.addr
  noKL o ho hk := hu.noKL o ho (h.hasKey.mpr hk)
  dirRange o d off hk := h.rangeOK (hu.dirRange o d off (h.hasKey.mpr hk))
  dirs o d := by
    obtain ⟨g, hg⟩ := hu.dirs o d
    refine ⟨g, fun off hk => ?_⟩
    obtain ⟨h1, x, e, name, data, h2, h3, h4⟩ := hg off (h.hasKey.mpr hk)
    obtain ⟨y, hy, hd⟩ := h.get (by show ¬ (84 : UInt8) = 255; decide) h2 h3
    exact ⟨h.newest.mp h1, y, e, name, data, hy, hd, h4⟩
  extents o i off hk := h.rangeOK (hu.extents o i off (h.hasKey.mpr hk))
  rootRange := h.rangeOK hu.rootRange
  roots := by
    obtain ⟨g, hg⟩ := hu.roots
    refine ⟨g, fun o off h1 h2 hk => ?_⟩
    obtain ⟨h3, off', h4⟩ := hg o off h1 h2 (h.hasKey.mpr hk)
    exact ⟨h.newest.mp h3, off', h.hasKey.mp h4⟩

theorem recoverableAll (h : a.SameItems b) {gc : UInt64} {D dest : Bytes} (hr : a.Recoverable gc D dest) : b.Recoverable gc D dest where
  names o d p name e hp he := hr.names o d p name e (h.symm.belongsAt hp) (h.symm.entryNow he)
  destName := hr.destName
  paths o d p name e hp he := hr.paths o d p name e (h.symm.belongsAt hp) (h.symm.entryNow he)
  subvols o hs := by
    obtain ⟨h1, h2⟩ := hr.subvols o (h.symm.subvolume hs)
    exact ⟨h1, fun e he => h2 e (h.symm.entryNow he)⟩
  trees o d p name e hp he := hr.trees o d p name e (h.symm.belongsAt hp) (h.symm.entryNow he)
  files o d p name e hp he ht hl := by
    obtain ⟨h1, h2⟩ := hr.files o d p name e (h.symm.belongsAt hp) (h.symm.entryNow he) ht hl
    exact ⟨h.recoverable h1, fun g hg => h.onDevice (h2 g (h.symm.fileOK hg))⟩
  links o d p name e hp he ht hl := by
    obtain ⟨x, h1, h2⟩ := hr.links o d p name e (h.symm.belongsAt hp) (h.symm.entryNow he) ht hl
    exact ⟨x, h.targetIs h1, h2⟩

end Bucket.SameItems

end Btrfscue
