import Verif.Proof.SameItems
import Verif.Spec.RecoverSeen
/-!
# Only the payloads of stored items matter: what iterating gets to
-/

namespace Btrfscue

namespace Bucket.SameItems

variable {a b : Bucket}

theorem runVersion (h : a.SameItems b) {o : UInt64} {t : UInt8} {id off g : UInt64} : a.runVersion o t id off g ↔ b.runVersion o t id off g := by
  simp only [Bucket.runVersion, h.newest, h.hasKey, h.hasVersion]

theorem entrySeen (h : a.SameItems b) {o d : UInt64} {name : Bytes} {e : DirItemRec} (he : a.entrySeen o d name e) :
    b.entrySeen o d name e := by
  obtain ⟨off, g, x, p, h1, h2, h3, h4⟩ := he
  obtain ⟨y, hy, hd⟩ := h.get (by show ¬ (84 : UInt8) = 255; decide) h2 h3
  exact ⟨off, g, y, p, h.runVersion.mp h1, hy, hd, h4⟩

theorem subvolumeSeen (h : a.SameItems b) {o : UInt64} : a.subvolumeSeen o ↔ b.subvolumeSeen o := by
  simp only [Bucket.subvolumeSeen, h.newest, h.hasKey, h.hasVersion]

theorem seenAt (h : a.SameItems b) {dest : Bytes} {o d : UInt64} {p : Bytes} (hp : a.SeenAt dest o d p) : b.SeenAt dest o d p := by
  induction hp with
  | main => exact .main
  | subvolume hs => exact .subvolume (h.subvolumeSeen.mp hs)
  | dir _ he ht hl h1 h2 ih => exact .dir ih (h.entrySeen he) ht hl h1 h2
  | tree _ he ht h1 h2 ih => exact .tree ih (h.entrySeen he) ht h1 h2

theorem objectAt (h : a.SameItems b) {dest : Bytes} {t : UInt8} {o i : UInt64} {q : Bytes} (hp : a.ObjectAt dest t o i q) :
    b.ObjectAt dest t o i q := by
  obtain ⟨d, p, name, e, h1, h2, h3⟩ := hp
  exact ⟨d, p, name, e, h.seenAt h1, h.entrySeen h2, h3⟩

theorem chunkSeen (h : a.SameItems b) {start : UInt64} {s : StripeRec} (hc : a.chunkSeen start s) : b.chunkSeen start s := by
  obtain ⟨g, c, ss, h1, h2⟩ := hc
  exact ⟨g, c, ss, h.runVersion.mp h1, h.chunkAt h2⟩

theorem placed (h : a.SameItems b) {dbn dev phys : UInt64} (hp : a.placed dbn dev phys) : b.placed dbn dev phys := by
  rcases hp with hp | ⟨h0, start, s, h1, h2, h3, h4⟩
  · exact Or.inl hp
  · refine Or.inr ⟨h0, start, s, h.chunkSeen h1, h2, h3, ?_⟩
    rcases h4 with ⟨h4, h5⟩ | ⟨h4, h5⟩
    · exact Or.inl ⟨h4, fun st s' hs => h5 st s' (h.symm.chunkSeen hs)⟩
    · exact Or.inr ⟨h4, fun st s' hs => h5 st s' (h.symm.chunkSeen hs)⟩

theorem pieceSeen (h : a.SameItems b) {o ino off : UInt64} {p : Piece} (hp : a.pieceSeen o ino off p) : b.pieceSeen o ino off p := by
  obtain ⟨g, x, d, h1, h2, h3, h4⟩ := hp
  obtain ⟨y, hy, hd⟩ := h.get (by show ¬ (108 : UInt8) = 255; decide) h2 h3
  exact ⟨g, y, d, h.runVersion.mp h1, hy, hd, h4⟩

theorem pieceByte (h : a.SameItems b) {off : UInt64} {p : Piece} {D : Bytes} {i : Nat} {v : UInt8} (hp : a.pieceByte off p D i v) :
    b.pieceByte off p D i v := by
  cases p with
  | raw f =>
    rcases hp with hp | ⟨h1, dev, phys, h2, h3⟩
    · exact Or.inl hp
    · exact Or.inr ⟨h1, dev, phys, h.placed h2, h3⟩
  | inline data => exact hp

theorem fileSeen (h : a.SameItems b) {o ino : UInt64} {size : Option UInt64} {D d : Bytes} (hf : a.fileSeen o ino size D d) :
    b.fileSeen o ino size D d := by
  obtain ⟨h1, h2, h3⟩ := hf
  refine ⟨h1, fun hs => ?_, fun i v hv => ?_⟩
  · obtain ⟨k1, k2⟩ := h2 hs
    refine ⟨fun off p hp => k1 off p (h.symm.pieceSeen hp), k2.imp id ?_⟩
    rintro ⟨off, p, k3, k4⟩
    exact ⟨off, p, h.pieceSeen k3, k4⟩
  · rcases h3 i v hv with ⟨off, p, k1, k2, k3, k4⟩ | ⟨k1, k2⟩
    · exact Or.inl ⟨off, p, h.pieceSeen k1, k2, fun off' p' hp => k3 off' p' (h.symm.pieceSeen hp), h.pieceByte k4⟩
    · exact Or.inr ⟨fun off p hp => k1 off p (h.symm.pieceSeen hp), k2⟩

theorem targetSeen (h : a.SameItems b) {o i : UInt64} {t : Bytes} (ht : a.targetSeen o i t) : b.targetSeen o i t := by
  obtain ⟨h0, g, x, d, h1, h2, h3, h4⟩ := ht
  obtain ⟨y, hy, hd⟩ := h.get (by show ¬ (108 : UInt8) = 255; decide) h2 h3
  exact ⟨h0, g, y, d, h.newest.mp h1, hy, hd, h4⟩

theorem knownSize (h : a.SameItems b) {o i : UInt64} {size : Option UInt64} (hs : a.knownSize o i size) : b.knownSize o i size := by
  cases size with
  | none => exact fun hk => hs (h.hasKey.mpr hk)
  | some sz => exact ⟨h.inodeSizeIs hs.1, hs.2⟩

theorem seenIntact (h : a.SameItems b) (hs : a.SeenIntact) : b.SeenIntact := fun start g h1 h2 => by
  obtain ⟨c, ss, h3⟩ := hs start g (h.runVersion.mpr h1) (h.hasVersion.mpr h2)
  exact ⟨c, ss, h.chunkAt h3⟩

theorem recoverOK (h : a.SameItems b) (hr : a.RecoverOK) : b.RecoverOK where
  dirs o i off hk := h.rangeOK (hr.dirs o i off (h.hasKey.mpr hk))
  extents o i off hk := h.rangeOK (hr.extents o i off (h.hasKey.mpr hk))
  chunks off hk := h.rangeOK (hr.chunks off (h.hasKey.mpr hk))
  subvolumes off hk := h.rangeOK (hr.subvolumes off (h.hasKey.mpr hk))

theorem treeReadable (h : a.SameItems b) {dest : Bytes} (ht : a.TreeReadable dest) : b.TreeReadable dest where
  ends := h.recoverOK ht.ends
  noKL o ho hk := ht.noKL o ho (h.hasKey.mpr hk)
  chunkRange := h.rangeOK ht.chunkRange
  chunks := h.seenIntact ht.chunks
  dirs o d p off g x hp hr hx := by
    obtain ⟨y, hy⟩ := (h.versions _).mpr ⟨x, hx⟩
    obtain ⟨z, h1, h2⟩ := ht.dirs o d p off g y (h.symm.seenAt hp) (h.runVersion.mpr hr) hy
    obtain ⟨w, hw, hd⟩ := h.get (by show ¬ (84 : UInt8) = 255; decide) hy h1
    obtain ⟨l, hl, rfl⟩ := h.wfb.exists_abs
    rw [hl.unique (enc_stores.mp hx) (enc_stores.mp hw)]
    exact ⟨z, hd, h2⟩
  trees o d p name e hp he := ht.trees o d p name e (h.symm.seenAt hp) (h.symm.entrySeen he)
  nonempty o d p e hp he := ht.nonempty o d p e (h.symm.seenAt hp) (h.symm.entrySeen he)
  once o d p name e e' hp he he' := ht.once o d p name e e' (h.symm.seenAt hp) (h.symm.entrySeen he) (h.symm.entrySeen he')
  reserved o e hs he := ht.reserved o e (h.subvolumeSeen.mpr hs) (h.symm.entrySeen he)

theorem fileReadable (h : a.SameItems b) {o i : UInt64} {size : Option UInt64} (hf : a.FileReadable o i size) : b.FileReadable o i size where
  range := h.rangeOK hf.range
  intact off g h1 h2 := by
    obtain ⟨p, h3, h4⟩ := hf.intact off g (h.runVersion.mpr h1) (h.hasVersion.mpr h2)
    refine ⟨p, h.pieceSeen h3, fun f k1 k2 => ?_⟩
    obtain ⟨start, s, k3⟩ := h4 f k1 k2
    exact ⟨start, s, h.chunkSeen k3⟩
  fit := {
    small := fun off p hp => hf.fit.small off p (h.symm.pieceSeen hp)
    holes := fun off f hp => hf.fit.holes off f (h.symm.pieceSeen hp)
    addr := fun off f dev phys hp hz hl => hf.fit.addr off f dev phys (h.symm.pieceSeen hp) hz (h.symm.placed hl) }
  size := h.knownSize hf.size

theorem seenRecoverable (h : a.SameItems b) {D dest : Bytes} (hr : a.SeenRecoverable D dest) : b.SeenRecoverable D dest where
  destName := hr.destName
  dirs o d p hp := hr.dirs o d p (h.symm.seenAt hp)
  files o i q hq := by
    obtain ⟨h1, h2, size, h3⟩ := hr.files o i q (h.symm.objectAt hq)
    exact ⟨h1, fun off f dev phys k1 k2 k3 k4 => h2 off f dev phys (h.symm.pieceSeen k1) k2 k3 (h.symm.placed k4), size, h.fileReadable h3⟩
  links o i q hq := by
    obtain ⟨h1, x, h2, h3⟩ := hr.links o i q (h.symm.objectAt hq)
    exact ⟨h1, x, h.targetSeen h2, h3⟩

end Bucket.SameItems

end Btrfscue
