import Verif.Spec.RecoverSeen
import Verif.Proof.Seen
import Verif.Proof.Undamaged
import Verif.Props.MountExact
/-!
# The tree that recover sees: what is listed is what is seen
-/

namespace Btrfscue

section
variable {b : Bucket} {dest : Bytes}

/-- What listing a directory delivers. -/
theorem Bucket.TreeReadable.listing (hb : b.WF) {m : Bytes} (hm : b.stores metadataVersionKey m) (hu : b.TreeReadable dest)
    {o d : UInt64} {p : Bytes} (hp : b.SeenAt dest o d p) (ho : o ≠ ~~~0) :
    ∃ rd items, (Ix.mk b (~~~0)).dirItems o d = .ok rd ∧ Range.Yields rd items ∧
      (∀ x ∈ items, ∃ name e, DirItem.says x.2 name e.typ e.location ∧ b.entrySeen o d name e) ∧
      ∀ name e, b.entrySeen o d name e → ∃ x ∈ items, DirItem.says x.2 name e.typ e.location := by
  have he : (Ix.mk b (~~~0)).dirItems o d = (Ix.mk b (~~~0)).rangeAll o 84 d := rfl
  by_cases hk : ∃ off, b.hasKey o ⟨d, 84, off⟩
  · obtain ⟨off0, hk⟩ := hk
    obtain ⟨rd, its, vs, h1, h2, h3, h4⟩ := seen_yields hb hm (hu.ends.dirs o d off0 hk)
    have hmem : ∀ {s : Slice}, s ∈ its.map (·.2) ↔ ∃ off, (off, s) ∈ vs := by
      intro s
      rw [h4, List.mem_map]
      exact ⟨fun ⟨⟨off, s'⟩, k1, k2⟩ => ⟨off, k2 ▸ k1⟩, fun ⟨off, k⟩ => ⟨_, k, rfl⟩⟩
    have hsay : ∀ {off : UInt64} {s : Slice}, (off, s) ∈ vs → ∃ name e g x y, DirItem.says s name e.typ e.location ∧
        b.runVersion o 84 d off g ∧ b.stores ⟨o, ⟨d, 84, off⟩, g⟩ x ∧ holdsItem x y ∧ startsEntry y name e := by
      intro off s hs
      obtain ⟨g, x, k1, k2, k3⟩ := (h3.2 off s).mp hs
      obtain ⟨y, k4, k5⟩ := hu.dirs o d p off g x hp k1 k2
      obtain ⟨s', k6, rfl⟩ := k4.data
      rw [k3] at k6
      cases k6
      obtain ⟨name, e, k7, k8⟩ := k5.named
      exact ⟨name, e, g, x, s.data, k8, k1, k2, k4, k7⟩
    refine ⟨rd, its, he.trans h1, h2, fun x hx => ?_, fun name e h => ?_⟩
    · obtain ⟨off, hx'⟩ := hmem.mp (List.mem_map.mpr ⟨x, hx, rfl⟩)
      obtain ⟨name, e, g, y, z, k1, k2, k3, k4, k5⟩ := hsay hx'
      exact ⟨name, e, k1, off, g, y, z, k2, k3, k4, k5⟩
    · obtain ⟨off, g, x, y, k1, k2, k3, k4⟩ := h
      obtain ⟨s, k5, rfl⟩ := k3.data
      have hin := (h3.2 off s).mpr ⟨g, x, k1, k2, k5⟩
      obtain ⟨name', e', g', x', y', q1, q2, q3, q4, q5⟩ := hsay hin
      obtain ⟨z, hz, hzs⟩ := List.mem_map.mp (hmem.mpr ⟨off, hin⟩)
      obtain ⟨l, hl, rfl⟩ := hb.exists_abs
      obtain rfl := runVersion_gen k1 q2
      obtain rfl := hl.unique (enc_stores.mp k2) (enc_stores.mp q3)
      obtain rfl := k3.unique q4
      obtain ⟨rfl, rfl⟩ := startsEntry_unique k4 q5
      exact ⟨z, hz, by rw [hzs]; exact q1⟩
  · have hno : ∀ name e, ¬ b.entrySeen o d name e := fun name e ⟨off, g, x, _, _, k, _⟩ => hk ⟨off, g, x, k⟩
    have hkl := hu.noKL o ho
    obtain ⟨l, hl, rfl⟩ := hb.exists_abs
    have hr' := range_none hl (first := KF 84 d) (last := KL2 84 d) (o := o) (~~~0)
      ⟨_, enc_stores.mp hm, Nat.le_of_lt (num_lt_of_owner (ne_max_lt ho))⟩
      (fun g x hx => hkl (enc_hasKey.mpr ⟨g, x, hx⟩))
      (fun k g x hx hc => hk ⟨k.offset, enc_hasKey.mpr ⟨g, x, by
        obtain ⟨k1, k2, k3⟩ := k
        obtain ⟨hc1, hc2⟩ := hc
        simp only [KF] at hc1 hc2
        subst hc1; subst hc2
        exact hx⟩⟩)
    exact ⟨_, [], he.trans hr', .done rfl, fun x hx => (by cases hx), fun name e h => absurd h (hno name e)⟩

theorem Bucket.TreeReadable.lists (hb : b.WF) {m : Bytes} (hm : b.stores metadataVersionKey m) (hu : b.TreeReadable dest)
    {o d : UInt64} {p : Bytes} (hp : b.SeenAt dest o d p) (ho : o ≠ ~~~0) :
    (∀ di, (Ix.mk b (~~~0)).lists o d di → ∃ name e, DirItem.says di name e.typ e.location ∧ b.entrySeen o d name e) ∧
    (∀ name e, b.entrySeen o d name e → ∃ di, (Ix.mk b (~~~0)).lists o d di ∧ DirItem.says di name e.typ e.location) := by
  obtain ⟨rd, items, h1, h2, h3, h4⟩ := hu.listing hb hm hp ho
  constructor
  · rintro di ⟨rd', r, k1, k2⟩
    rw [h1] at k1
    cases k1
    exact h3 _ ((h2.visits _).mp k2)
  · intro name e h
    obtain ⟨⟨r, di⟩, k1, k2⟩ := h4 name e h
    exact ⟨di, ⟨rd, r, h1, (h2.visits _).mpr k1⟩, k2⟩

/-- What listing the subvolumes delivers. -/
theorem Bucket.TreeReadable.subvolumes (hb : b.WF) {m : Bytes} (hm : b.stores metadataVersionKey m) (hu : b.TreeReadable dest) :
    ∃ rd items, (Ix.mk b (~~~0)).subvolumes = .ok rd ∧ Range.Yields rd items ∧
      (∀ x ∈ items, ∃ k, x.1.rKey = .ok k ∧ b.subvolumeSeen k.objectID) ∧
      ∀ o, b.subvolumeSeen o → ∃ x ∈ items, ∃ k, x.1.rKey = .ok k ∧ k.objectID = o := by
  by_cases hk : ∃ off, b.hasKey 1 ⟨256, 132, off⟩
  · obtain ⟨off0, hk⟩ := hk
    have hok := hu.ends.subvolumes off0 hk
    obtain ⟨l, hl, rfl⟩ := hb.exists_abs
    obtain ⟨rd, items, h1, h2, -, h3⟩ := range_yields hl (first := KF 132 256) ⟨m, hm⟩ hok (~~~0)
    refine ⟨rd, _, h1, h2, ?_⟩
    rcases h3 with ⟨h4, rfl⟩ | ⟨k0, g0, h4, h5, h6⟩
    · exact absurd ⟨rfl, rfl⟩ (h4 _ hk)
    · obtain ⟨ko, kt, kf⟩ := k0
      obtain ⟨h7, h8, h9, h10⟩ := h4
      simp only [KF] at h8 h9 h10
      subst h8; subst h9
      have hkb : ∀ (id : UInt64) (t : UInt8) (off id' : UInt64) (t' : UInt8) (off' : UInt64),
          (Key.mk id t off).before ⟨id', t', off'⟩ ↔ t.toNat < t'.toNat ∨ (t.toNat = t'.toNat ∧
            (id.toNat < id'.toNat ∨ (id.toNat = id'.toNat ∧ off.toNat < off'.toNat))) := by
        intros; simp [Key.before, Key.fields, lexLt]
      have hvb : ∀ (k k' : Key) (g g' : UInt64), (VKey.mk 1 k g).before ⟨1, k', g'⟩ ↔
          k.before k' ∨ (k = k' ∧ g.toNat < g'.toNat) := by
        intro k k' g g'
        rw [← VKey.num_lt_iff, key_before_iff (o := 1) (g := g) (g' := g'), VKey.num_eq, VKey.num_eq]
        have := g.toNat_lt
        have := g'.toNat_lt
        have hk : k = k' ↔ (VKey.mk 1 k g).p25 = (VKey.mk 1 k' g').p25 := by
          rw [VKey.p25_inj]; simp
        rw [hk]
        simp only
        omega
      have h256' : (256 : UInt64).toNat = 256 := rfl
      have hlf : LastFreeObjectID.toNat < 2 ^ 64 := LastFreeObjectID.toNat_lt
      have h132 : (132 : UInt8).toNat = 132 := rfl
      have hoff0 : ∀ off', l.enc.hasKey 1 ⟨256, 132, off'⟩ → kf ≤ off' := by
        intro off' h
        have := h10 _ h rfl rfl
        rw [hkb] at this
        rw [UInt64.le_iff_toNat_le]
        omega
      have hnew : l.enc.newest 1 ⟨256, 132, kf⟩ g0 := by
        obtain ⟨ha1, ha2⟩ := h5
        refine ⟨ha1, ?_⟩
        rcases ha2 with ⟨h15, h16⟩ | ⟨h15, h16⟩
        · intro g' _
          have h17 := le_max64 g'
          rw [UInt64.le_iff_toNat_le] at h15 h17 ⊢
          omega
        · exact h16
      have hrange : ∀ k : Key, ¬ k.before ⟨256, 132, kf⟩ →
          ¬ (VKey.mk 1 (KL2 132 LastFreeObjectID) (~~~0)).before ⟨1, k, g0⟩ →
          k.typ = 132 ∧ 256 ≤ k.objectID ∧ k.objectID ≤ LastFreeObjectID := by
        rintro ⟨id, t, off⟩ ha hc
        rw [hkb] at ha
        rw [hvb, KL2, hkb] at hc
        simp only [UInt64.le_iff_toNat_le, ← UInt8.toNat_inj, h256', h132] at *
        omega
      have hkey : ∀ e : VKey × Bytes, (Range.at l.enc (VKey.mk 1 (KL2 132 LastFreeObjectID) (~~~0)).encode e).rKey = .ok e.1.key := fun _ => key_encode _
      constructor
      · intro x hx
        obtain ⟨⟨⟨w, y⟩, s⟩, hx', rfl⟩ := List.mem_map.mp hx
        obtain ⟨⟨id, t, off⟩, rfl, h7', h8, ha, hc, hd⟩ := (h6 w y s).mp hx'
        obtain ⟨rfl, h11, h12⟩ := hrange _ ha hc
        refine ⟨_, hkey _, h11, h12, g0, off, kf, hnew, hoff0, ⟨y, h7'⟩, fun o' off' hk' ho' hle => ?_⟩
        refine hd ⟨o', 132, off'⟩ hk' ?_ ?_
        · intro hlt
          rw [hkb] at hlt
          rw [UInt64.le_iff_toNat_le] at ho'
          by_cases he : o' = 256
          · subst he
            exact h10 _ hk' rfl rfl ((hkb _ _ _ _ _ _).mpr hlt)
          · rw [← UInt64.toNat_inj] at he
            simp only [h256'] at *
            omega
        · rw [hkb]
          rw [UInt64.lt_iff_toNat_lt, UInt64.le_iff_toNat_le, ← UInt64.toNat_inj] at hle
          simp only at hle
          simp only [h132]
          omega
      · rintro id ⟨hid, hid', g, off, off0', hn, hle0, ⟨x, hx⟩, hrun⟩
        have e1 : off0' = kf := by
          have a := hle0 kf h7
          have c := hoff0 off0' ⟨g, hn.1⟩
          rw [UInt64.le_iff_toNat_le] at a c
          rw [← UInt64.toNat_inj]; omega
        subst e1
        obtain rfl := newest_unique hnew hn
        obtain ⟨d, hd⟩ := hok.intact _ _ hx rfl
        obtain ⟨s, hs, -⟩ := hd.data
        refine ⟨_, List.mem_map.mpr ⟨((_, x), s), (h6 _ _ _).mpr ⟨⟨id, 132, off⟩, rfl, hx, hs, ?_, ?_, ?_⟩, rfl⟩, _, hkey _, rfl⟩
        · intro hlt
          rw [hkb] at hlt
          rw [UInt64.le_iff_toNat_le] at hid
          by_cases he : id = 256
          · subst he
            exact h10 _ ⟨g0, x, hx⟩ rfl rfl ((hkb _ _ _ _ _ _).mpr hlt)
          · rw [← UInt64.toNat_inj] at he
            simp only [h256'] at *
            omega
        · rw [hvb, KL2, hkb]
          rw [UInt64.le_iff_toNat_le] at hid'
          have := off.toNat_lt
          have := g0.toNat_lt
          simp only [max64_toNat]
          omega
        · rintro ⟨id', t', off'⟩ hk' ha hc
          rw [hkb] at ha hc
          rw [UInt64.le_iff_toNat_le] at hid'
          have : t' = 132 := by rw [← UInt8.toNat_inj]; simp only [h132] at *; omega
          subst this
          refine hrun id' off' hk' ?_ ?_
          · rw [UInt64.le_iff_toNat_le]
            simp only [h256', h132, Nat.lt_irrefl, false_or, true_and] at ha ⊢; omega
          · rw [UInt64.lt_iff_toNat_lt, UInt64.le_iff_toNat_le, ← UInt64.toNat_inj]
            simp only [h132, Nat.lt_irrefl, false_or, true_and] at hc ⊢; omega
  · have hkl := hu.noKL 1 (by decide)
    have hno : ∀ o, ¬ b.subvolumeSeen o := fun o ⟨_, _, g, _, off0, h, _⟩ => hk ⟨off0, g, h.1⟩
    obtain ⟨l, hl, rfl⟩ := hb.exists_abs
    have hr' := range_none hl (first := KF 132 256) (last := KL2 132 LastFreeObjectID) (o := 1) (~~~0)
      ⟨_, enc_stores.mp hm, Nat.le_of_lt (num_lt_of_owner (ne_max_lt (by decide)))⟩
      (fun g x hx => hkl (enc_hasKey.mpr ⟨g, x, hx⟩))
      (fun k g x hx hc => hk ⟨k.offset, enc_hasKey.mpr ⟨g, x, by
        obtain ⟨k1, k2, k3⟩ := k
        obtain ⟨hc1, hc2⟩ := hc
        simp only [KF] at hc1 hc2
        subst hc1; subst hc2
        exact hx⟩⟩)
    exact ⟨_, [], hr', .done rfl, fun x hx => (by cases hx), fun o h => absurd h (hno o)⟩

theorem Bucket.TreeReadable.listsSubvolume (hb : b.WF) {m : Bytes} (hm : b.stores metadataVersionKey m)
    (hu : b.TreeReadable dest) {o : UInt64} : (Ix.mk b (~~~0)).listsSubvolume o ↔ b.subvolumeSeen o := by
  obtain ⟨rd, items, h1, h2, h3, h4⟩ := hu.subvolumes hb hm
  constructor
  · rintro ⟨rd', x, k, k1, k2, k3, rfl⟩
    rw [h1] at k1
    cases k1
    obtain ⟨k', g1, g2⟩ := h3 x ((h2.visits x).mp k2)
    rw [k3] at g1
    cases g1
    exact g2
  · intro h
    obtain ⟨x, k1, k, k2, k3⟩ := h4 o h
    exact ⟨rd, x, k, h1, (h2.visits x).mpr k1, k2, k3⟩

theorem Bucket.SeenAt.ordinary (hu : b.TreeReadable dest) {o d : UInt64} {p : Bytes} (h : b.SeenAt dest o d p) : o ≠ ~~~0 := by
  induction h with
  | main => decide
  | subvolume h =>
    intro hc
    subst hc
    exact absurd h.2.1 (by decide)
  | dir _ _ _ _ _ _ ih => exact ih
  | tree hp he ht _ _ ih => exact hu.trees _ _ _ _ _ hp he ht

theorem Bucket.TreeReadable.placed (hb : b.WF) {m : Bytes} (hm : b.stores metadataVersionKey m)
    (hu : b.TreeReadable dest) {o d : UInt64} {p : Bytes} : (Ix.mk b (~~~0)).Placed dest o d p ↔ b.SeenAt dest o d p := by
  constructor
  · intro h
    induction h with
    | main => exact .main
    | subvolume h => exact .subvolume ((hu.listsSubvolume hb hm).mp h)
    | dir hp hl hs ht hn hs' ih =>
      obtain ⟨name, e, h1, h2⟩ := (hu.lists hb hm ih (ih.ordinary hu)).1 _ hl
      obtain ⟨rfl, h4, rfl⟩ := says_unique hs h1
      exact .dir ih h2 h4.symm ht hn hs'
    | tree hp hl hs ht hn hs' ih =>
      obtain ⟨name, e, h1, h2⟩ := (hu.lists hb hm ih (ih.ordinary hu)).1 _ hl
      obtain ⟨rfl, h4, rfl⟩ := says_unique hs h1
      exact .tree ih h2 ht hn hs'
  · intro h
    induction h with
    | main => exact .main
    | subvolume h => exact .subvolume ((hu.listsSubvolume hb hm).mpr h)
    | @dir o d p name e hp he h1 h2 h3 h4 ih =>
      obtain ⟨di, k1, k2⟩ := (hu.lists hb hm hp (hp.ordinary hu)).2 _ _ he
      rw [h1] at k2
      exact .dir ih k1 k2 h2 h3 h4
    | @tree o d p name e hp he h2 h3 h4 ih =>
      obtain ⟨di, k1, k2⟩ := (hu.lists hb hm hp (hp.ordinary hu)).2 _ _ he
      exact .tree ih k1 k2 h2 h3 h4

theorem Bucket.TreeReadable.distinct (hb : b.WF) {m : Bytes} (hm : b.stores metadataVersionKey m)
    (hu : b.TreeReadable dest) : (Ix.mk b (~~~0)).Distinct dest where
  nonempty o d p di n t loc hp hl hs := by
    have hp' := (hu.placed hb hm).mp hp
    obtain ⟨name, e, h1, h2⟩ := (hu.lists hb hm hp' (hp'.ordinary hu)).1 _ hl
    obtain ⟨rfl, rfl, rfl⟩ := says_unique hs h1
    rintro rfl
    exact hu.nonempty _ _ _ _ hp' h2
  once o d p di di' n t t' loc loc' hp hl hl' hs hs' := by
    have hp' := (hu.placed hb hm).mp hp
    obtain ⟨name, e, h1, h2⟩ := (hu.lists hb hm hp' (hp'.ordinary hu)).1 _ hl
    obtain ⟨rfl, rfl, rfl⟩ := says_unique hs h1
    obtain ⟨name', e', h1', h2'⟩ := (hu.lists hb hm hp' (hp'.ordinary hu)).1 _ hl'
    obtain ⟨rfl, rfl, rfl⟩ := says_unique hs' h1'
    exact hu.once _ _ _ _ _ _ hp' h2 h2'
  reserved o ho di n t loc hl hs := by
    obtain ⟨name, e, h1, h2⟩ := (hu.lists hb hm .main (show (5 : UInt64) ≠ ~~~0 by decide)).1 _ hl
    obtain ⟨rfl, rfl, rfl⟩ := says_unique hs h1
    intro hc
    subst hc
    exact hu.reserved o e ((hu.listsSubvolume hb hm).mp ho) h2

/-- Nothing crashes. -/
theorem Bucket.TreeReadable.noCrash (hb : b.WF) {m : Bytes} (hm : b.stores metadataVersionKey m)
    (hu : b.TreeReadable dest) (rf : Nat) : NoCrash rf ⟨b, ~~~0⟩ dest where
  «says» o d p di hp hl := by
    have hp' := (hu.placed hb hm).mp hp
    obtain ⟨name, e, h1, h2⟩ := (hu.lists hb hm hp' (hp'.ordinary hu)).1 _ hl
    exact ⟨_, _, _, h1⟩
  lists o d p hp := by
    have hp' := (hu.placed hb hm).mp hp
    obtain ⟨rd, items, h1, h2, -⟩ := hu.listing hb hm hp' (hp'.ordinary hu)
    unfold readDirItems
    rw [h1, Go.ok_bind]
    intro h
    have h3 := collect_total h2 rf []
    cases hl : rangeLoop collectBody rf [] rd with
    | panic => exact h3 hl
    | ok x => rw [hl] at h; cases h
    | hang => rw [hl] at h; cases h
  subs := by
    obtain ⟨rd, items, h1, -⟩ := hu.subvolumes hb hm
    rw [h1]
    intro h; cases h
  visits rd x h hv := by
    obtain ⟨rd', items, h1, h2, h3, -⟩ := hu.subvolumes hb hm
    rw [h1] at h
    cases h
    have hx := (h2.visits x).mp hv
    obtain ⟨k, h4, -⟩ := h3 x hx
    obtain ⟨y, h5⟩ := h2.next hx
    rw [h4, h5]
    exact ⟨fun h => (by cases h), fun h => (by cases h)⟩

theorem Bucket.TreeReadable.hasEntry (hb : b.WF) {m : Bytes} (hm : b.stores metadataVersionKey m)
    (hu : b.TreeReadable dest) {t : UInt8} {o i : UInt64} {q : Bytes} :
    (Ix.mk b (~~~0)).HasEntry dest t o i q ↔ b.ObjectAt dest t o i q := by
  constructor
  · rintro ⟨d, p, di, n, loc, h1, h2, h3, h4, h5, h6, h7, h8⟩
    have hp := (hu.placed hb hm).mp h1
    obtain ⟨name, e, k1, k2⟩ := (hu.lists hb hm hp (hp.ordinary hu)).1 _ h2
    obtain ⟨rfl, rfl, rfl⟩ := says_unique h3 k1
    exact ⟨d, p, _, e, hp, k2, rfl, h4, h5, h6, h7, h8⟩
  · rintro ⟨d, p, n, e, h1, h2, rfl, h4, rfl, h6, h7, h8⟩
    obtain ⟨di, k1, k2⟩ := (hu.lists hb hm h1 (h1.ordinary hu)).2 _ _ h2
    exact ⟨d, p, di, n, _, (hu.placed hb hm).mpr h1, k1, k2, h4, rfl, h6, h7, h8⟩

end

end Btrfscue
