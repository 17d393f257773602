import Verif.Spec.More
import Verif.Props.RecoverSeen
/-!
# What is seen in an index is seen in one that has more objects
-/

namespace Btrfscue

/-- The size known is only one. -/
theorem knownSize_unique {b : Bucket} (hb : b.WF) {m : Bytes} (hm : b.stores metadataVersionKey m) {o i : UInt64} (ho : o ≠ ~~~0)
    {size size' : Option UInt64} (h : b.knownSize o i size) (h' : b.knownSize o i size') : size = size' := by
  cases size with
  | none =>
    cases size' with
    | none => rfl
    | some z =>
      obtain ⟨⟨g, x, f, r, k, -⟩, -⟩ := h'
      exact absurd ⟨g, k.1⟩ h
  | some y =>
    cases size' with
    | none =>
      obtain ⟨⟨g, x, f, r, k, -⟩, -⟩ := h
      exact absurd ⟨g, k.1⟩ h'
    | some z =>
      obtain ⟨l, hl, rfl⟩ := hb.exists_abs
      have e1 := inodeSize_known (AStore.enc_wf hl) hm ho h
      have e2 := inodeSize_known (AStore.enc_wf hl) hm ho h'
      rw [e1] at e2
      cases e2
      rfl

namespace Bucket.MoreObjects

variable {b b' : Bucket}

theorem stores_iff (h : b.MoreObjects b') {o id : UInt64} (hk : b.hasObject o id) {t : UInt8} {off g : UInt64} {x : Bytes} :
    b'.stores ⟨o, ⟨id, t, off⟩, g⟩ x ↔ b.stores ⟨o, ⟨id, t, off⟩, g⟩ x :=
  ⟨h.objects _ _ _ _ _ _ hk, h.within _ _⟩

theorem hasVersion_iff (h : b.MoreObjects b') {o id : UInt64} (hk : b.hasObject o id) {t : UInt8} {off g : UInt64} :
    b'.hasVersion o ⟨id, t, off⟩ g ↔ b.hasVersion o ⟨id, t, off⟩ g :=
  exists_congr fun _ => h.stores_iff hk

theorem hasKey_iff (h : b.MoreObjects b') {o id : UInt64} (hk : b.hasObject o id) {t : UInt8} {off : UInt64} :
    b'.hasKey o ⟨id, t, off⟩ ↔ b.hasKey o ⟨id, t, off⟩ :=
  exists_congr fun _ => h.hasVersion_iff hk

theorem newest_iff (h : b.MoreObjects b') {o id : UInt64} (hk : b.hasObject o id) {t : UInt8} {off g : UInt64} :
    b'.newest o ⟨id, t, off⟩ g ↔ b.newest o ⟨id, t, off⟩ g := by
  unfold Bucket.newest
  rw [h.hasVersion_iff hk]
  exact and_congr Iff.rfl (forall_congr' fun g' => by rw [h.hasVersion_iff hk])

theorem runVersion_iff (h : b.MoreObjects b') {o id : UInt64} (hk : b.hasObject o id) {t : UInt8} {off g : UInt64} :
    b'.runVersion o t id off g ↔ b.runVersion o t id off g := by
  unfold Bucket.runVersion
  simp only [h.newest_iff hk, h.hasKey_iff hk, h.hasVersion_iff hk]

theorem root_iff (h : b.MoreObjects b') {id off g : UInt64} : b'.hasVersion 1 ⟨id, 132, off⟩ g ↔ b.hasVersion 1 ⟨id, 132, off⟩ g :=
  exists_congr fun _ => ⟨h.roots _ _ _ _, h.within _ _⟩

theorem entrySeen (h : b.MoreObjects b') {o d : UInt64} {name : Bytes} {e : DirItemRec} (he : b.entrySeen o d name e) : b'.entrySeen o d name e := by
  obtain ⟨off, g, x, p, h1, h2, h3⟩ := he
  exact ⟨off, g, x, p, (h.runVersion_iff ⟨_, _, _, _, h2⟩).mpr h1, h.within _ _ h2, h3⟩

theorem subvolumeSeen (h : b.MoreObjects b') {o : UInt64} (hs : b.subvolumeSeen o) : b'.subvolumeSeen o := by
  obtain ⟨h1, h2, g, off, off0, h3, h4, h5, h6⟩ := hs
  refine ⟨h1, h2, g, off, off0, ⟨h.root_iff.mpr h3.1, fun g' hg => h3.2 g' (h.root_iff.mp hg)⟩, fun off' ⟨g', hg⟩ => h4 off' ⟨g', h.root_iff.mp hg⟩,
    h.root_iff.mpr h5, fun o' off' ⟨g', hg⟩ k1 k2 => h.root_iff.mpr (h6 o' off' ⟨g', h.root_iff.mp hg⟩ k1 k2)⟩

theorem seenAt (h : b.MoreObjects b') {dest : Bytes} {o d : UInt64} {p : Bytes} (hp : b.SeenAt dest o d p) : b'.SeenAt dest o d p := by
  induction hp with
  | main => exact .main
  | subvolume hs => exact .subvolume (h.subvolumeSeen hs)
  | dir _ h1 h2 h3 h4 h5 ih => exact .dir ih (h.entrySeen h1) h2 h3 h4 h5
  | tree _ h1 h2 h3 h4 ih => exact .tree ih (h.entrySeen h1) h2 h3 h4

theorem pieceSeen_iff (h : b.MoreObjects b') {o ino : UInt64} (hk : b.hasObject o ino) {off : UInt64} {p : Piece} :
    b'.pieceSeen o ino off p ↔ b.pieceSeen o ino off p := by
  unfold Bucket.pieceSeen
  simp only [h.runVersion_iff hk, h.stores_iff hk]

theorem chunkSeen_iff (h : b.MoreObjects b') (hk : b.hasObject 3 256) {start : UInt64} {s : StripeRec} :
    b'.chunkSeen start s ↔ b.chunkSeen start s := by
  unfold Bucket.chunkSeen Bucket.chunkAt
  simp only [h.runVersion_iff hk, h.stores_iff hk]

theorem placed (h : b.MoreObjects b') {dbn dev phys : UInt64} (hp : b.placed dbn dev phys) : b'.placed dbn dev phys := by
  rcases hp with hp | ⟨h1, start, s, h2, h3⟩
  · exact Or.inl hp
  · have hk : b.hasObject 3 256 := by
      obtain ⟨g, c, ss, -, x, d, rest, k, -⟩ := h2
      exact ⟨_, _, _, _, k⟩
    refine Or.inr ⟨h1, start, s, (h.chunkSeen_iff hk).mpr h2, ?_⟩
    simp only [h.chunkSeen_iff hk]
    exact h3

theorem pieceByte (h : b.MoreObjects b') {off : UInt64} {p : Piece} {D : Bytes} {i : Nat} {v : UInt8} (hp : b.pieceByte off p D i v) :
    b'.pieceByte off p D i v := by
  cases p with
  | inline data => exact hp
  | raw f =>
    rcases hp with hp | ⟨h1, dev, phys, h2, h3⟩
    · exact Or.inl hp
    · exact Or.inr ⟨h1, dev, phys, h.placed h2, h3⟩

theorem knownSize_iff (h : b.MoreObjects b') {o ino : UInt64} (hk : b.hasObject o ino) {size : Option UInt64} :
    b'.knownSize o ino size ↔ b.knownSize o ino size := by
  cases size with
  | none => exact not_congr (h.hasKey_iff hk)
  | some z =>
    unfold Bucket.knownSize Bucket.inodeSizeIs
    simp only [h.newest_iff hk, h.stores_iff hk]

theorem fileSeen (h : b.MoreObjects b') {o ino : UInt64} (hk : b.hasObject o ino) {size : Option UInt64} {D d : Bytes}
    (hf : b.fileSeen o ino size D d) : b'.fileSeen o ino size D d := by
  refine ⟨hf.1, fun hs => ?_, fun i v hv => ?_⟩
  · have := hf.2.1 hs
    unfold Bucket.piecesEnd at this ⊢
    simp only [h.pieceSeen_iff hk]
    exact this
  · have := hf.2.2 i v hv
    unfold Bucket.fileSeenByte at this ⊢
    simp only [h.pieceSeen_iff hk]
    exact this.imp (fun ⟨off, p, k1, k2, k3, k4⟩ => ⟨off, p, k1, k2, k3, h.pieceByte k4⟩) id

theorem targetSeen (h : b.MoreObjects b') {o i : UInt64} {t : Bytes} (ht : b.targetSeen o i t) : b'.targetSeen o i t := by
  obtain ⟨ho, g, x, d, h1, h2, h3⟩ := ht
  exact ⟨ho, g, x, d, (h.newest_iff ⟨_, _, _, _, h2⟩).mpr h1, h.within _ _ h2, h3⟩

/-- What can be read in the index with more can be read in the one with less, if iterating over that ends. -/
theorem readable (h : b.MoreObjects b') {dest : Bytes} (hu : b'.TreeReadable dest) (hok : b.RecoverOK) (hcr : b.RangeOK 3 (KL2 228 256)) :
    b.TreeReadable dest where
  ends := hok
  noKL o ho hk := by
    obtain ⟨g, x, hx⟩ := hk
    exact hu.noKL o ho ⟨g, x, h.within _ _ hx⟩
  chunkRange := hcr
  chunks start g h1 h2 := by
    have hk : b.hasObject 3 256 := ⟨_, _, _, h2⟩
    obtain ⟨c, ss, x, d, r, k1, k2⟩ := hu.chunks start g ((h.runVersion_iff hk).mpr h1) ((h.hasVersion_iff hk).mpr h2)
    exact ⟨c, ss, x, d, r, (h.stores_iff hk).mp k1, k2⟩
  dirs o d p off g x h1 h2 h3 := hu.dirs o d p off g x (h.seenAt h1) ((h.runVersion_iff ⟨_, _, _, _, h3⟩).mpr h2) (h.within _ _ h3)
  trees o d p name e h1 h2 := hu.trees o d p name e (h.seenAt h1) (h.entrySeen h2)
  nonempty o d p e h1 h2 := hu.nonempty o d p e (h.seenAt h1) (h.entrySeen h2)
  once o d p name e e' h1 h2 h3 := hu.once o d p name e e' (h.seenAt h1) (h.entrySeen h2) (h.entrySeen h3)
  reserved o e h1 h2 := hu.reserved o e (h.subvolumeSeen h1) (h.entrySeen h2)

end Bucket.MoreObjects

/-- A file of which nothing is stored is empty. -/
theorem object_of_fileSeen {b : Bucket} {o ino : UInt64} {size : Option UInt64} {D d : Bytes} (hs : b.knownSize o ino size)
    (hf : b.fileSeen o ino size D d) (hd : d ≠ []) : b.hasObject o ino := by
  cases size with
  | some z =>
    obtain ⟨⟨g, x, f, r, -, h, -⟩, -⟩ := hs
    exact ⟨_, _, _, _, h⟩
  | none =>
    rcases (hf.2.1 rfl).2 with h | ⟨off, p, ⟨g, x, y, -, h, -⟩, -⟩
    · exact absurd (List.length_eq_zero_iff.mp h) hd
    · exact ⟨_, _, _, _, h⟩

end Btrfscue
