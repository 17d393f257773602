import Verif.Spec.SameTree
import Verif.Props.PathExact
import Verif.Props.RecoverSeen
/-!
# Mount and recover see the same tree
-/

namespace Btrfscue

variable {b : Bucket} {dest : Bytes}

theorem seenItems_length (hb : b.WF) {o id : UInt64} {t : UInt8} {vs : List (UInt64 × Slice)} (h : b.seenItems o t id vs) :
    vs.length ≤ b.length := by
  obtain ⟨l, hl, rfl⟩ := hb.exists_abs
  have hn : (vs.map (·.1)).Nodup := by
    rw [List.Nodup, List.pairwise_map]
    exact h.1.imp fun hlt hc => by rw [hc] at hlt; exact absurd hlt (UInt64.lt_irrefl _)
  have hs : vs.map (·.1) ⊆ l.map (·.1.key.offset) := fun x hx => by
    obtain ⟨⟨off, d⟩, he, rfl⟩ := List.mem_map.mp hx
    obtain ⟨g, y, -, h2, -⟩ := (h.2 off d).mp he
    exact List.mem_map.mpr ⟨_, enc_stores.mp h2, rfl⟩
  have := (List.subperm_of_subset hn hs).length_le
  rw [List.length_map, List.length_map] at this
  unfold AStore.enc
  rw [List.length_map]
  exact this

/-- What a lookup in a directory seen by recover finds. -/
theorem seen_lookup (hb : b.WF) {m : Bytes} (hm : b.stores metadataVersionKey m) (hok : b.DirsOK)
    (hfull : ∀ o dir d, o ≠ ~~~0 → b.dirItem o dir d → wholeEntry (Slice.data d))
    (hin : ∀ o, o ≠ ~~~0 → b.TreeInodesOK o) {o d : UInt64} (ho : o ≠ ~~~0)
    {fuel : Nat} (hf : b.length < fuel) {nd : RescueNode} (hn : NodeOK fuel ⟨b, ~~~0⟩ o d nd) (name : Bytes) :
    ((∀ e, ¬ b.entrySeen o d name e) ∧ ∃ n, nd.lookup fuel ⟨b, ~~~0⟩ name = .ok (n, .error .ENOENT)) ∨
    ∃ e n c a, b.entrySeen o d name e ∧ nd.lookup fuel ⟨b, ~~~0⟩ name = .ok (n, .ok (c, e.typ == 2, a)) ∧
      NodeOK fuel ⟨b, ~~~0⟩ (target o e.location).1 (target o e.location).2 c ∧
      b.attrAnswer (target o e.location).1 (target o e.location).2 a := by
  obtain ⟨rd, its, vs, k1, k2, k3, k4⟩ := seen_dirs hb hm hok d ho
  have hw : ∀ off g x s, b.stores ⟨o, ⟨d, 84, off⟩, g⟩ x → Item.data ⟨x, []⟩ = .ok s → wholeEntry (Slice.data s) :=
    fun off g x s h1 h2 => hfull o d s ho ⟨off, g, x, h1, h2⟩
  have hsub : ∀ off g x s name e, b.stores ⟨o, ⟨d, 84, off⟩, g⟩ x → Item.data ⟨x, []⟩ = .ok s →
      startsEntry (Slice.data s) name e → e.location.typ = 132 → e.location.objectID ≠ ~~~0 := by
    intro off g x s name e h1 h2 h3
    obtain ⟨nm, e', w1, -, -, w2⟩ := (hw off g x s h1 h2).named
    obtain ⟨-, rfl⟩ := startsEntry_unique h3 w1
    exact hok.noMetaTree o d s _ ho ⟨off, g, x, h1, h2⟩ w2
  have hlen : its.length < fuel := by
    have h1 := congrArg List.length k4
    rw [List.length_map, List.length_map] at h1
    have h2 := seenItems_length hb k3
    omega
  have hholds : ∀ off g x, b.stores ⟨o, ⟨d, 84, off⟩, g⟩ x → ∃ y, holdsItem x y := fun off g x hx =>
    (hok.ranges o _ ho ⟨g, x, hx⟩ rfl).intact _ _ hx rfl
  have hseen : ∀ off s e, (off, s) ∈ vs → startsEntry (Slice.data s) name e → b.entrySeen o d name e := by
    intro off s e hs he
    obtain ⟨g, x, h1, h2, h3⟩ := (k3.2 off s).mp hs
    obtain ⟨y, hy⟩ := hholds off g x h2
    obtain ⟨s', h4, rfl⟩ := hy.data
    rw [h3] at h4
    cases h4
    exact ⟨off, g, x, _, h1, h2, hy, he⟩
  obtain ⟨-, c2⟩ := dir_core hb hm ho k1 k2 k3 k4 hw hin hsub hlen hn
  rcases c2 name with ⟨h, h'⟩ | ⟨e, n, c, a, ⟨off, s, q1, q1', -⟩, q2, -, q3, q4⟩
  · refine Or.inl ⟨fun e ⟨off, g, x, y, h1, h2, h3, h4⟩ => ?_, h'⟩
    obtain ⟨s, h5, rfl⟩ := h3.data
    exact h off s e ((k3.2 off s).mpr ⟨g, x, h1, h2, h5⟩) h4
  · exact Or.inr ⟨e, n, c, a, hseen off s e q1 q1', q2, q3, q4⟩

theorem Bucket.inSubvolume.snoc {A : List Bytes} (h : b.inSubvolume A) (n : Bytes) : b.inSubvolume (A ++ [n]) := by
  obtain ⟨o, h1, h2⟩ := h
  refine ⟨o, h1, ?_⟩
  cases A with
  | nil => cases h2
  | cons x r => exact h2

/-- Looking up an entry that is seen. -/
theorem SameOK.found (hs : SameOK b dest) (hb : b.WF) {m : Bytes} (hm : b.stores metadataVersionKey m) {o d : UInt64} {p : Bytes}
    (hp : b.SeenAt dest o d p) {fuel : Nat} (hf : b.length < fuel) {nd : RescueNode} (hn : NodeOK fuel ⟨b, ~~~0⟩ o d nd) {name : Bytes}
    {e : DirItemRec} (he : b.entrySeen o d name e) :
    ∃ n c a, nd.lookup fuel ⟨b, ~~~0⟩ name = .ok (n, .ok (c, e.typ == 2, .ok a)) ∧
      NodeOK fuel ⟨b, ~~~0⟩ (target o e.location).1 (target o e.location).2 c := by
  rcases seen_lookup hb hm hs.dirs hs.full hs.inodes (hp.ordinary hs.readable) hf hn name with ⟨h, -⟩ | ⟨e', n, c, a, h1, h2, h3, h4⟩
  · exact absurd he (h e)
  · rcases h4 with ⟨-, a, rfl⟩ | ⟨h4, -⟩
    swap
    · exact absurd (hs.present _ _ _ _ h1) h4
    obtain ⟨h4, h5⟩ := hs.readable.once _ _ _ _ _ _ hp h1 he
    rw [h4] at h2
    rw [h5] at h3
    exact ⟨n, c, a, h2, h3⟩

/-- Every place of a directory is shown. -/
theorem SameOK.place (hs : SameOK b dest) (hb : b.WF) {m : Bytes} (hm : b.stores metadataVersionKey m) (hd : goClean dest = dest)
    (hne : dest ≠ []) {fuel : Nat} (hf : b.length < fuel) {o d : UInt64} {p : Bytes} (hp : b.SeenAt dest o d p) :
    ∃ A, Named dest A p ∧ (b.inSubvolume A ∨ ∃ c, MountDir fuel ⟨b, ~~~0⟩ A c ∧ NodeOK fuel ⟨b, ~~~0⟩ o d c) ∧
      (A ≠ [] → b.inSubvolume A ∨ ∃ c, MountShows fuel ⟨b, ~~~0⟩ A true c ∧ c.owner = o ∧ c.ixInode = d) := by
  have step : ∀ {o d p name e}, b.SeenAt dest o d p → b.entrySeen o d name e → e.typ = 2 → usable name →
      (∃ A, Named dest A p ∧ (b.inSubvolume A ∨ ∃ c, MountDir fuel ⟨b, ~~~0⟩ A c ∧ NodeOK fuel ⟨b, ~~~0⟩ o d c)) →
      ∃ A, Named dest A (goJoin p name) ∧ (b.inSubvolume A ∨ ∃ c, MountDir fuel ⟨b, ~~~0⟩ A c ∧
        NodeOK fuel ⟨b, ~~~0⟩ (target o e.location).1 (target o e.location).2 c) ∧
      (A ≠ [] → b.inSubvolume A ∨ ∃ c, MountShows fuel ⟨b, ~~~0⟩ A true c ∧ c.owner = (target o e.location).1 ∧
        c.ixInode = (target o e.location).2) := by
    rintro o d p name e hp he ht hu ⟨A, hA, h⟩
    have hpl : Plain name := usable_plain hu (by
      rintro rfl
      exact hs.readable.nonempty _ _ _ _ hp he)
    refine ⟨A ++ [name], hA.join hpl, ?_⟩
    rcases h with h | ⟨c, h1, h2⟩
    · exact ⟨Or.inl (h.snoc _), fun _ => Or.inl (h.snoc _)⟩
    · obtain ⟨n, c', a, h3, h4⟩ := hs.found hb hm hp hf h2 he
      rw [ht] at h3
      exact ⟨Or.inr ⟨c', .down h1 h3, h4⟩, fun _ => Or.inr ⟨c', ⟨A, name, c, n, a, rfl, h1, h3⟩, h4.owner, h4.inode⟩⟩
  induction hp with
  | main => exact ⟨[], .refl hd hne, Or.inr ⟨_, .top mountTop_rescue, nodeOK_fresh _ _ _ _⟩, fun h => absurd rfl h⟩
  | @subvolume o h =>
    have hx : b.inSubvolume [ascii "subvol_" ++ decimal o.toNat] := ⟨o, h, rfl⟩
    exact ⟨_, (Named.refl hd hne).join (subvol_plain o.toNat), Or.inl hx, fun _ => Or.inl hx⟩
  | @dir o d p name e hp he h1 h2 h3 h4 ih =>
    obtain ⟨A, g1, g2, -⟩ := ih
    have := step hp he h1 h3 ⟨A, g1, g2⟩
    unfold target at this
    rwa [if_neg h2] at this
  | @tree o d p name e hp he h2 h3 h4 ih =>
    obtain ⟨A, g1, g2, -⟩ := ih
    have := step hp he (hs.trees _ _ _ _ he h2) h3 ⟨A, g1, g2⟩
    unfold target at this
    rwa [if_pos h2] at this

/-- Every file and link that has a place is shown there. -/
theorem SameOK.object (hs : SameOK b dest) (hb : b.WF) {m : Bytes} (hm : b.stores metadataVersionKey m) (hd : goClean dest = dest)
    (hne : dest ≠ []) {fuel : Nat} (hf : b.length < fuel) {t : UInt8} {o i : UInt64} {q : Bytes} (hq : b.ObjectAt dest t o i q) :
    ∃ A, Named dest A q ∧ (b.inSubvolume A ∨ ∃ c, MountShows fuel ⟨b, ~~~0⟩ A (t == 2) c ∧ c.owner = o ∧ c.ixInode = i) := by
  obtain ⟨d, p, name, e, h1, h2, rfl, h4, rfl, h6, h7, rfl⟩ := hq
  obtain ⟨A, g1, g2, -⟩ := hs.place hb hm hd hne hf h1
  have hpl : Plain name := usable_plain h6 (by
    rintro rfl
    exact hs.readable.nonempty _ _ _ _ h1 h2)
  refine ⟨A ++ [name], g1.join hpl, ?_⟩
  rcases g2 with h | ⟨c, k1, k2⟩
  · exact Or.inl (h.snoc _)
  · obtain ⟨n, c', a, h8, h9⟩ := hs.found hb hm h1 hf k2 h2
    have ho := h9.owner
    have hi := h9.inode
    unfold target at ho hi
    rw [if_neg h4] at ho hi
    exact Or.inr ⟨c', ⟨A, name, c, n, a, rfl, k1, h8⟩, ho, hi⟩

/-- Every directory shown has a place. -/
theorem SameOK.shown (hs : SameOK b dest) (hb : b.WF) {m : Bytes} (hm : b.stores metadataVersionKey m) {fuel : Nat} (hf : b.length < fuel)
    {X : List Bytes} {n : RescueNode} (h : MountDir fuel ⟨b, ~~~0⟩ X n) : (∀ x ∈ X, usable x ∧ 92 ∉ x) →
    ∃ o d p, NodeOK fuel ⟨b, ~~~0⟩ o d n ∧ b.SeenAt dest o d p := by
  induction h with
  | top h =>
    intro _
    rw [mountTop_rescue] at h
    cases h
    exact ⟨5, 256, dest, nodeOK_fresh _ _ _ _, .main⟩
  | @down X n n' c name a _ hl ih =>
    intro hX
    obtain ⟨o, d, p, h1, h2⟩ := ih fun x hx => hX x (List.mem_append.mpr (Or.inl hx))
    obtain ⟨hu, hb'⟩ := hX name (by simp)
    rcases seen_lookup hb hm hs.dirs hs.full hs.inodes (h2.ordinary hs.readable) hf h1 name with ⟨-, k, h⟩ | ⟨e, k, c', a', g1, g2, g3, -⟩
    · rw [h] at hl; cases hl
    · rw [g2] at hl
      simp only [Go.ok.injEq, Prod.mk.injEq, Except.ok.injEq] at hl
      obtain ⟨rfl, rfl, h3, rfl⟩ := hl
      have h4 : e.typ = 2 := by simpa using h3
      refine ⟨_, _, goJoin p name, g3, ?_⟩
      unfold target
      by_cases ht : e.location.typ = 132
      · rw [if_pos ht]; exact .tree h2 g1 ht hu hb'
      · rw [if_neg ht]; exact .dir h2 g1 h4 ht hu hb'

end Btrfscue
