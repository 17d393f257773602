import Verif.Spec.RecoverAll
import Verif.Props.RecoverWhole
/-!
# Undamaged indexes: what is listed is what is stored
-/

namespace Btrfscue

/-! ## Bytes of paths -/

theorem splitSlash_bytes (p : Bytes) : ∀ n ∈ splitSlash p, ∀ c ∈ n, c ∈ p := by
  induction p with
  | nil => simp [splitSlash]
  | cons a r ih =>
    intro n hn c hc
    unfold splitSlash at hn
    by_cases ha : a = 47
    · rw [if_pos ha] at hn
      rcases List.mem_cons.mp hn with rfl | hn
      · cases hc
      · exact List.mem_cons_of_mem _ (ih n hn c hc)
    · rw [if_neg ha] at hn
      cases hs : splitSlash r with
      | nil => exact absurd hs (splitSlash_ne_nil r)
      | cons h t =>
        rw [hs] at hn ih
        rcases List.mem_cons.mp hn with rfl | hn
        · rcases List.mem_cons.mp hc with rfl | hc
          · exact List.mem_cons_self
          · exact List.mem_cons_of_mem _ (ih h List.mem_cons_self c hc)
        · exact List.mem_cons_of_mem _ (ih n (List.mem_cons_of_mem _ hn) c hc)

theorem cleanComps_mem (rooted : Bool) : ∀ (l acc : List Bytes), ∀ n ∈ cleanComps rooted l acc, n ∈ l ∨ n ∈ acc ∨ n = dotdot := by
  intro l
  induction l with
  | nil => intro acc n hn; unfold cleanComps at hn; exact Or.inr (Or.inl (List.mem_reverse.mp hn))
  | cons c r ih =>
    intro acc n hn
    have hup : ∀ acc', n ∈ cleanComps rooted r acc' → (∀ m ∈ acc', m = c ∨ m ∈ acc ∨ m = dotdot) → n ∈ c :: r ∨ n ∈ acc ∨ n = dotdot := by
      intro acc' h h2
      rcases ih acc' n h with h | h | h
      · exact Or.inl (List.mem_cons_of_mem _ h)
      · rcases h2 n h with rfl | h | h
        · exact Or.inl List.mem_cons_self
        · exact Or.inr (Or.inl h)
        · exact Or.inr (Or.inr h)
      · exact Or.inr (Or.inr h)
    unfold cleanComps at hn
    by_cases h1 : c = [] ∨ c = dot
    · rw [if_pos h1] at hn
      exact hup acc hn fun m hm => Or.inr (Or.inl hm)
    · rw [if_neg h1] at hn
      by_cases h2 : c = dotdot
      · rw [if_pos h2] at hn
        cases acc with
        | nil =>
          simp only at hn
          by_cases h3 : rooted = true
          · rw [if_pos h3] at hn
            exact hup [] hn fun m hm => by cases hm
          · rw [if_neg h3] at hn
            exact hup _ hn fun m hm => Or.inr (Or.inr (List.mem_singleton.mp hm))
        | cons h t =>
          simp only at hn
          by_cases h3 : h = dotdot
          · rw [if_pos h3] at hn
            refine hup _ hn fun m hm => ?_
            rcases List.mem_cons.mp hm with h | h
            · exact Or.inr (Or.inr h)
            · exact Or.inr (Or.inl h)
          · rw [if_neg h3] at hn
            exact hup _ hn fun m hm => Or.inr (Or.inl (List.mem_cons_of_mem _ hm))
      · rw [if_neg h2] at hn
        refine hup _ hn fun m hm => ?_
        rcases List.mem_cons.mp hm with h | h
        · exact Or.inl h
        · exact Or.inr (Or.inl h)

theorem joinSlash_mem : ∀ (l : List Bytes), ∀ c ∈ joinSlash l, c = 47 ∨ ∃ n ∈ l, c ∈ n := by
  intro l
  induction l with
  | nil => intro c hc; cases hc
  | cons n r ih =>
    intro c hc
    by_cases hr : r = []
    · subst hr
      exact Or.inr ⟨n, List.mem_cons_self, hc⟩
    · rw [joinSlash_cons n hr, List.mem_append, List.mem_cons] at hc
      rcases hc with h | h | h
      · exact Or.inr ⟨n, List.mem_cons_self, h⟩
      · exact Or.inl h
      · rcases ih c h with h | ⟨m, h1, h2⟩
        · exact Or.inl h
        · exact Or.inr ⟨m, List.mem_cons_of_mem _ h1, h2⟩

theorem goClean_bytes (p : Bytes) {c : UInt8} (h : c ∈ goClean p) : c ∈ p ∨ c = 46 ∨ c = 47 := by
  have key : c ∈ joinSlash (cleanComps (isRooted p) (splitSlash p) []) → c ∈ p ∨ c = 46 ∨ c = 47 := by
    intro h
    rcases joinSlash_mem _ c h with h | ⟨n, h1, h2⟩
    · exact Or.inr (Or.inr h)
    · rcases cleanComps_mem _ _ _ n h1 with h | h | h
      · exact Or.inl (splitSlash_bytes p n h c h2)
      · cases h
      · subst h
        refine Or.inr (Or.inl ?_)
        simpa using h2
  unfold goClean at h
  by_cases hr : isRooted p = true
  · simp only [hr, if_true] at h key
    rcases List.mem_cons.mp h with h | h
    · exact Or.inr (Or.inr h)
    · exact key h
  · simp only [hr, if_false, Bool.false_eq_true] at h key
    by_cases hs : joinSlash (cleanComps false (splitSlash p) []) = []
    · simp only [hs, if_true] at h
      exact Or.inr (Or.inl (List.mem_singleton.mp h))
    · simp only [hs, if_false] at h
      exact key h

theorem goJoin_nul {p n : Bytes} (hp : 0 ∉ p) (hn : 0 ∉ n) : 0 ∉ goJoin p n := by
  intro h
  unfold goJoin at h
  by_cases h1 : p ≠ []
  · rw [if_pos h1] at h
    rcases goClean_bytes _ h with h | h | h
    · rw [List.mem_append, List.mem_cons] at h
      rcases h with h | h | h
      · exact hp h
      · exact absurd h (by decide)
      · exact hn h
    · exact absurd h (by decide)
    · exact absurd h (by decide)
  · rw [if_neg h1] at h
    by_cases h2 : n ≠ []
    · rw [if_pos h2] at h
      rcases goClean_bytes _ h with h | h | h
      · exact hn h
      · exact absurd h (by decide)
      · exact absurd h (by decide)
    · rw [if_neg h2] at h
      cases h

/-! ## Ranges -/

theorem Range.Yields.visits {rd : Range × Slice} {items : List (Range × Slice)} (h : Range.Yields rd items) (x : Range × Slice) :
    Range.Visits rd x ↔ x ∈ items := by
  induction h with
  | done hd =>
    constructor
    · intro h
      cases h with
      | here h => rw [hd] at h; cases h
      | step h _ _ => rw [hd] at h; cases h
    · intro h; cases h
  | step h1 h2 h3 ih =>
    rw [List.mem_cons]
    constructor
    · intro h
      cases h with
      | here _ => exact Or.inl rfl
      | step _ h4 h5 =>
        rw [h2] at h4; cases h4
        exact Or.inr (ih.mp h5)
    · rintro (rfl | h)
      · exact .here h1
      · exact .step h1 h2 (ih.mpr h)

theorem Range.Yields.next {rd : Range × Slice} {items : List (Range × Slice)} (h : Range.Yields rd items) {x : Range × Slice}
    (hx : x ∈ items) : ∃ y, x.1.next = .ok y := by
  induction h with
  | done hd => cases hx
  | step h1 h2 h3 ih =>
    rcases List.mem_cons.mp hx with rfl | hx
    · exact ⟨_, h2⟩
    · exact ih hx

/-! ## Entries -/

theorem dirItem_layout_inj {e e' : DirItemRec} {r r' : Bytes} (h : e.layout ++ r = e'.layout ++ r') : e = e' ∧ r = r' := by
  have h1 := C07_DirItem_decodes e r []
  have h2 := C07_DirItem_decodes e' r' []
  rw [h] at h1
  have hr : r = r' := (List.append_inj h (by rw [h1.1, h2.1])).2
  obtain ⟨-, a1, a2, a3, a4, a5⟩ := h1
  obtain ⟨-, b1, b2, b3, b4, b5⟩ := h2
  rw [b1] at a1; rw [b2] at a2; rw [b3] at a3; rw [b4] at a4; rw [b5] at a5
  cases e; cases e'
  simp only [Go.ok.injEq] at a1 a2 a3 a4 a5
  subst a1 a2 a3 a4 a5
  exact ⟨rfl, hr⟩

theorem packed_single {e : DirItemRec} {name data : Bytes} (h1 : e.nameLen.toNat = name.length) (h2 : e.dataLen.toNat = data.length) :
    PackedEntries (e.layout ++ (name ++ data)) [(e, name)] := by
  have := PackedEntries.cons h1 h2 .nil
  rwa [List.append_nil] at this

theorem packed_only {e : DirItemRec} {name data : Bytes} (h1 : e.nameLen.toNat = name.length) (h2 : e.dataLen.toNat = data.length)
    {es : List (DirItemRec × Bytes)} (h : PackedEntries (e.layout ++ (name ++ data)) es) : es = [(e, name)] := by
  generalize hp : e.layout ++ (name ++ data) = p at h
  cases h with
  | nil =>
    have := congrArg List.length hp
    rw [List.length_append, (C07_DirItem_decodes e [] []).1] at this
    simp at this
  | @cons e' name' data' rest es' g1 g2 g3 =>
    obtain ⟨rfl, hr⟩ := dirItem_layout_inj hp
    obtain ⟨rfl, hr2⟩ := List.append_inj hr (by omega)
    have hl := congrArg List.length hr2
    rw [@List.length_append _ data' rest] at hl
    have : rest = [] := List.length_eq_zero_iff.mp (by omega)
    subst this
    cases g3 with
    | nil => rfl

theorem newest_unique {b : Bucket} {o : UInt64} {k : Key} {g g' : UInt64} (h : b.newest o k g) (h' : b.newest o k g') : g = g' := by
  have h1 := h.2 g' h'.1
  have h2 := h'.2 g h.1
  exact UInt64.le_antisymm h2 h1

/-- An entry is alone in its item. -/
theorem Bucket.Undamaged.entry {b : Bucket} (hb : b.WF) {gc : UInt64} (hu : b.Undamaged gc) {o d : UInt64} {name : Bytes} {e : DirItemRec} :
    b.entryNow o d name e ↔ ∃ g x data, b.newest o ⟨d, 84, (NameHash name).toUInt64⟩ g ∧
      b.stores ⟨o, ⟨d, 84, (NameHash name).toUInt64⟩, g⟩ x ∧ holdsItem x (e.layout ++ (name ++ data)) ∧
      e.nameLen.toNat = name.length ∧ e.dataLen.toNat = data.length ∧ name.length ≤ 255 := by
  obtain ⟨l, hl, rfl⟩ := hb.exists_abs
  constructor
  · rintro ⟨off, g, x, p, es, h1, h2, h3, h4, h5⟩
    obtain ⟨g', hd⟩ := hu.dirs o d
    obtain ⟨k1, x', e', name', data', k2, k3, k4, k5, k6, k7⟩ := hd off ⟨g, h1.1⟩
    have := newest_unique h1 k1
    subst this
    have := hl.unique (enc_stores.mp h2) (enc_stores.mp k2)
    subst this
    have := h3.unique k3
    subst this
    have := packed_only k4 k5 h4
    subst this
    rw [List.mem_singleton, Prod.mk.injEq] at h5
    obtain ⟨rfl, rfl⟩ := h5
    subst k7
    exact ⟨g, x, data', h1, h2, h3, k4, k5, k6⟩
  · rintro ⟨g, x, data, h1, h2, h3, h4, h5, h6⟩
    exact ⟨_, g, x, _, _, h1, h2, h3, packed_single h4 h5, List.mem_singleton.mpr rfl⟩

theorem Bucket.Undamaged.once {b : Bucket} (hb : b.WF) {gc : UInt64} (hu : b.Undamaged gc) {o d : UInt64} {name : Bytes} {e e' : DirItemRec}
    (h : b.entryNow o d name e) (h' : b.entryNow o d name e') : e = e' := by
  rw [hu.entry hb] at h h'
  obtain ⟨g, x, data, h1, h2, h3, -⟩ := h
  obtain ⟨g', x', data', k1, k2, k3, -⟩ := h'
  obtain ⟨l, hl, rfl⟩ := hb.exists_abs
  have := newest_unique h1 k1
  subst this
  have := hl.unique (enc_stores.mp h2) (enc_stores.mp k2)
  subst this
  exact (dirItem_layout_inj (h3.unique k3)).1

theorem entry_says {e : DirItemRec} {name data : Bytes} (h1 : e.nameLen.toNat = name.length) (h3 : name.length ≤ 255) (s : Slice)
    (hs : s.data = e.layout ++ (name ++ data)) : DirItem.says s name e.typ e.location := by
  obtain ⟨sd, st⟩ := s
  simp only at hs
  subst hs
  obtain ⟨-, a1, -, -, -, a5⟩ := C07_DirItem_decodes e (name ++ data) st
  exact ⟨C09_dir_item_name e name data st h1 h3, a5, a1⟩

theorem says_unique {s : DirItem} {n n' : Bytes} {t t' : UInt8} {l l' : Key} (h : DirItem.says s n t l) (h' : DirItem.says s n' t' l') :
    n = n' ∧ t = t' ∧ l = l' := by
  obtain ⟨a, b, c⟩ := h
  obtain ⟨a', b', c'⟩ := h'
  rw [a] at a'; rw [b] at b'; rw [c] at c'
  cases a'; cases b'; cases c'
  exact ⟨rfl, rfl, rfl⟩

/-- What listing a directory delivers. -/
theorem Bucket.Undamaged.listing {b : Bucket} (hb : b.WF) {m : Bytes} (hm : b.stores metadataVersionKey m) {gc : UInt64} (hu : b.Undamaged gc)
    {o : UInt64} (d : UInt64) (ho : o ≠ ~~~0) :
    ∃ rd items, (Ix.mk b (~~~0)).dirItems o d = .ok rd ∧ Range.Yields rd items ∧
      (∀ x ∈ items, ∃ name e, DirItem.says x.2 name e.typ e.location ∧ b.entryNow o d name e) ∧
      ∀ name e, b.entryNow o d name e → ∃ x ∈ items, DirItem.says x.2 name e.typ e.location := by
  have hen := fun name e => hu.entry hb (o := o) (d := d) (name := name) (e := e)
  obtain ⟨l, hl, rfl⟩ := hb.exists_abs
  have he : (Ix.mk l.enc (~~~0)).dirItems o d = (Ix.mk l.enc (~~~0)).range o (KF 84 d) (KL2 84 d) := rfl
  by_cases hk : ∃ off, l.enc.hasKey o ⟨d, 84, off⟩
  · obtain ⟨off0, hk⟩ := hk
    obtain ⟨g, hd⟩ := hu.dirs o d
    obtain ⟨rd, items, h1, h2, -, h4⟩ := rangeAll_single hl ⟨m, hm⟩ (hu.dirRange o d off0 hk) (t := 84) (id := d) (g := g) fun off h => (hd off h).1
    refine ⟨rd, _, h1, h2, fun x hx => ?_, fun name e h => ?_⟩
    · simp only [List.mem_map] at hx
      obtain ⟨⟨⟨w, y⟩, s⟩, hx, rfl⟩ := hx
      obtain ⟨off, rfl, h5, h6⟩ := (h4 w y s).mp hx
      have hkey : l.enc.hasKey o ⟨d, 84, off⟩ := ⟨g, y, h5⟩
      obtain ⟨k1, x', e', name', data', k2, k3, k4, k5, k6, k7⟩ := hd off hkey
      have := hl.unique (enc_stores.mp h5) (enc_stores.mp k2)
      subst this
      obtain ⟨s', g1, g2⟩ := k3.data
      rw [h6] at g1
      cases g1
      subst k7
      exact ⟨name', e', entry_says k4 k6 s g2, (hen name' e').mpr ⟨g, y, data', k1, k2, k3, k4, k5, k6⟩⟩
    · obtain ⟨g', x, data, k1, k2, k3, k4, k5, k6⟩ := (hen name e).mp h
      have := newest_unique k1 (hd _ ⟨g', k1.1⟩).1
      subst this
      obtain ⟨s, g1, g2⟩ := k3.data
      exact ⟨_, List.mem_map.mpr ⟨((_, x), s), (h4 _ x s).mpr ⟨_, rfl, k2, g1⟩, rfl⟩, entry_says k4 k6 s g2⟩
  · have hr' := range_none hl (first := KF 84 d) (last := KL2 84 d) (o := o) (~~~0)
      ⟨_, enc_stores.mp hm, Nat.le_of_lt (num_lt_of_owner (ne_max_lt ho))⟩
      (fun g x hx => hu.noKL o ho (enc_hasKey.mpr ⟨g, x, hx⟩))
      (fun k g x hx hc => hk ⟨k.offset, enc_hasKey.mpr ⟨g, x, by
        obtain ⟨k1, k2, k3⟩ := k
        obtain ⟨hc1, hc2⟩ := hc
        simp only [KF] at hc1 hc2
        subst hc1; subst hc2
        exact hx⟩⟩)
    refine ⟨_, [], he.trans hr', .done rfl, fun x hx => (by cases hx), fun name e h => ?_⟩
    obtain ⟨g', x, data, k1, -⟩ := (hen name e).mp h
    exact absurd ⟨_, ⟨g', k1.1⟩⟩ hk

/-- What is listed is what is stored. -/
theorem Bucket.Undamaged.lists {b : Bucket} (hb : b.WF) {m : Bytes} (hm : b.stores metadataVersionKey m) {gc : UInt64} (hu : b.Undamaged gc)
    {o d : UInt64} (ho : o ≠ ~~~0) :
    (∀ di, (Ix.mk b (~~~0)).lists o d di → ∃ name e, DirItem.says di name e.typ e.location ∧ b.entryNow o d name e) ∧
    (∀ name e, b.entryNow o d name e → ∃ di, (Ix.mk b (~~~0)).lists o d di ∧ DirItem.says di name e.typ e.location) := by
  obtain ⟨rd, items, h1, h2, h3, h4⟩ := hu.listing hb hm d ho
  constructor
  · rintro di ⟨rd', r, k1, k2⟩
    rw [h1] at k1
    cases k1
    exact h3 _ ((h2.visits _).mp k2)
  · intro name e h
    obtain ⟨⟨r, di⟩, k1, k2⟩ := h4 name e h
    exact ⟨di, ⟨rd, r, h1, (h2.visits _).mpr k1⟩, k2⟩

/-! ## Subvolumes -/

/-- What listing the subvolumes delivers. -/
theorem Bucket.Undamaged.subvolumes {b : Bucket} (hb : b.WF) {m : Bytes} (hm : b.stores metadataVersionKey m) {gc : UInt64} (hu : b.Undamaged gc) :
    ∃ rd items, (Ix.mk b (~~~0)).subvolumes = .ok rd ∧ Range.Yields rd items ∧
      (∀ x ∈ items, ∃ k, x.1.rKey = .ok k ∧ b.subvolume k.objectID) ∧
      ∀ o, b.subvolume o → ∃ x ∈ items, ∃ k, x.1.rKey = .ok k ∧ k.objectID = o := by
  have hok := hu.rootRange
  obtain ⟨g, hroots⟩ := hu.roots
  obtain ⟨l, hl, rfl⟩ := hb.exists_abs
  obtain ⟨rd, items, h1, h2, -, h3⟩ := range_yields hl (first := KF 132 256) ⟨m, hm⟩ hok (~~~0)
  refine ⟨rd, _, h1, h2, ?_⟩
  rcases h3 with ⟨h4, rfl⟩ | ⟨k0, g0, h4, h5, h6⟩
  · refine ⟨fun x hx => (by cases hx), ?_⟩
    rintro o ⟨ho1, ho2, off, hk⟩
    obtain ⟨-, off', hk'⟩ := hroots o off ho1 ho2 hk
    exact absurd ⟨rfl, rfl⟩ (h4 _ hk')
  · obtain ⟨ko, kt, kf⟩ := k0
    obtain ⟨h7, h8, h9, h10⟩ := h4
    simp only [KF] at h8 h9 h10
    subst h8; subst h9
    have hg := fun id off h1 h2 h3 => (hroots id off h1 h2 h3).1
    have hkb : ∀ (id : UInt64) (t : UInt8) (off id' : UInt64) (t' : UInt8) (off' : UInt64),
        (Key.mk id t off).before ⟨id', t', off'⟩ ↔ t.toNat < t'.toNat ∨ (t.toNat = t'.toNat ∧
          (id.toNat < id'.toNat ∨ (id.toNat = id'.toNat ∧ off.toNat < off'.toNat))) := by
      intros; simp [Key.before, Key.fields, lexLt]
    have hvb : ∀ (k k' : Key) (g g' : UInt64), (VKey.mk 1 k g).before ⟨1, k', g'⟩ ↔
        k.before k' ∨ (k = k' ∧ g.toNat < g'.toNat) := by
      intro k k' g g'
      rw [← VKey.num_lt_iff, key_before_iff (o := 1) (g := g) (g' := g'), VKey.num_eq, VKey.num_eq]
      have := g.toNat_lt
      have := g'.toNat_lt
      have hk : k = k' ↔ (VKey.mk 1 k g).p25 = (VKey.mk 1 k' g').p25 := by
        rw [VKey.p25_inj]; simp
      rw [hk]
      simp only
      omega
    have h256' : (256 : UInt64).toNat = 256 := rfl
    have hlf : LastFreeObjectID.toNat < 2 ^ 64 := LastFreeObjectID.toNat_lt
    have h132 : (132 : UInt8).toNat = 132 := rfl
    have hg0 : g0 = g := by
      obtain ⟨hn1, hn2⟩ := hg 256 kf (by decide) (by decide) h7
      obtain ⟨ha1, ha2⟩ := h5
      have h13 := hn2 g0 ha1
      have h14 := le_max64 g
      rw [UInt64.le_iff_toNat_le] at h13 h14
      rw [← UInt64.toNat_inj]
      rcases ha2 with ⟨h15, -⟩ | ⟨-, h15⟩
      · rw [UInt64.le_iff_toNat_le] at h15; omega
      · have := h15 g hn1
        rw [UInt64.le_iff_toNat_le] at this; omega
    subst hg0
    have hrange : ∀ k : Key, ¬ k.before ⟨256, 132, kf⟩ →
        ¬ (VKey.mk 1 (KL2 132 LastFreeObjectID) (~~~0)).before ⟨1, k, g0⟩ →
        k.typ = 132 ∧ 256 ≤ k.objectID ∧ k.objectID ≤ LastFreeObjectID := by
      rintro ⟨id, t, off⟩ ha hc
      rw [hkb] at ha
      rw [hvb, KL2, hkb] at hc
      simp only [UInt64.le_iff_toNat_le, ← UInt8.toNat_inj, h256', h132] at *
      omega
    have hkey : ∀ e : VKey × Bytes, (Range.at l.enc (VKey.mk 1 (KL2 132 LastFreeObjectID) (~~~0)).encode e).rKey = .ok e.1.key := fun _ => key_encode _
    constructor
    · intro x hx
      obtain ⟨⟨⟨w, y⟩, s⟩, hx', rfl⟩ := List.mem_map.mp hx
      obtain ⟨⟨id, t, off⟩, rfl, h7, h8, ha, hc, -⟩ := (h6 w y s).mp hx'
      obtain ⟨rfl, h11, h12⟩ := hrange _ ha hc
      exact ⟨_, hkey _, h11, h12, off, ⟨g0, y, h7⟩⟩
    · rintro id ⟨hid, hid', off, hk⟩
      obtain ⟨⟨x, hx⟩, -⟩ := hg id off hid hid' hk
      obtain ⟨d, hd⟩ := hok.intact _ _ hx rfl
      obtain ⟨s, hs, -⟩ := hd.data
      refine ⟨_, List.mem_map.mpr ⟨((_, x), s), (h6 _ _ _).mpr ⟨⟨id, 132, off⟩, rfl, hx, hs, ?_, ?_, ?_⟩, rfl⟩, _, hkey _, rfl⟩
      · intro hlt
        rw [hkb] at hlt
        rw [UInt64.le_iff_toNat_le] at hid
        by_cases he : id = 256
        · subst he
          exact h10 _ hk rfl rfl ((hkb _ _ _ _ _ _).mpr hlt)
        · rw [← UInt64.toNat_inj] at he
          simp only [h256'] at *
          omega
      · rw [hvb, KL2, hkb]
        rw [UInt64.le_iff_toNat_le] at hid'
        have := off.toNat_lt
        have := g0.toNat_lt
        simp only [max64_toNat]
        omega
      · rintro ⟨id', t', off'⟩ hk' ha hc
        rw [hkb] at ha hc
        rw [UInt64.le_iff_toNat_le] at hid'
        have : t' = 132 := by rw [← UInt8.toNat_inj]; simp only [h132] at *; omega
        subst this
        refine (hg id' off' ?_ ?_ hk').1 <;> rw [UInt64.le_iff_toNat_le] <;>
          simp only [h256', h132, Nat.lt_irrefl, false_or, true_and] at ha hc ⊢ <;> omega

theorem Bucket.Undamaged.listsSubvolume {b : Bucket} (hb : b.WF) {m : Bytes} (hm : b.stores metadataVersionKey m) {gc : UInt64}
    (hu : b.Undamaged gc) {o : UInt64} : (Ix.mk b (~~~0)).listsSubvolume o ↔ b.subvolume o := by
  obtain ⟨rd, items, h1, h2, h3, h4⟩ := hu.subvolumes hb hm
  constructor
  · rintro ⟨rd', x, k, k1, k2, k3, rfl⟩
    rw [h1] at k1
    cases k1
    obtain ⟨k', g1, g2⟩ := h3 x ((h2.visits x).mp k2)
    rw [k3] at g1
    cases g1
    exact g2
  · intro h
    obtain ⟨x, k1, k, k2, k3⟩ := h4 o h
    exact ⟨rd, x, k, h1, (h2.visits x).mpr k1, k2, k3⟩

/-! ## Places -/

theorem Bucket.BelongsAt.ordinary {b : Bucket} {gc : UInt64} {D dest : Bytes} (hr : b.Recoverable gc D dest) {o d : UInt64} {p : Bytes}
    (h : b.BelongsAt dest o d p) : o ≠ ~~~0 := by
  induction h with
  | main => decide
  | subvolume h =>
    intro hc
    subst hc
    exact absurd h.2.1 (by decide)
  | dir _ _ _ _ ih => exact ih
  | tree hp he ht ih => exact hr.trees _ _ _ _ _ hp he ht

theorem Bucket.Undamaged.placed {b : Bucket} (hb : b.WF) {m : Bytes} (hm : b.stores metadataVersionKey m) {gc : UInt64} {D dest : Bytes}
    (hu : b.Undamaged gc) (hr : b.Recoverable gc D dest) {o d : UInt64} {p : Bytes} :
    (Ix.mk b (~~~0)).Placed dest o d p ↔ b.BelongsAt dest o d p := by
  constructor
  · intro h
    induction h with
    | main => exact .main
    | subvolume h => exact .subvolume ((hu.listsSubvolume hb hm).mp h)
    | dir hp hl hs ht _ _ ih =>
      obtain ⟨name, e, h1, h2⟩ := (hu.lists hb hm (ih.ordinary hr)).1 _ hl
      obtain ⟨rfl, h4, rfl⟩ := says_unique hs h1
      exact .dir ih h2 h4.symm ht
    | tree hp hl hs ht _ _ ih =>
      obtain ⟨name, e, h1, h2⟩ := (hu.lists hb hm (ih.ordinary hr)).1 _ hl
      obtain ⟨rfl, h4, rfl⟩ := says_unique hs h1
      exact .tree ih h2 ht
  · intro h
    induction h with
    | main => exact .main
    | subvolume h => exact .subvolume ((hu.listsSubvolume hb hm).mpr h)
    | @dir o d p name e hp he h1 h2 ih =>
      obtain ⟨di, k1, k2⟩ := (hu.lists hb hm (hp.ordinary hr)).2 _ _ he
      obtain ⟨k3, k4, -⟩ := hr.names _ _ _ _ _ hp he
      rw [h1] at k2
      exact .dir ih k1 k2 h2 ⟨k3.2.1, k3.2.2.1, k3.2.2.2⟩ k4
    | @tree o d p name e hp he h2 ih =>
      obtain ⟨di, k1, k2⟩ := (hu.lists hb hm (hp.ordinary hr)).2 _ _ he
      obtain ⟨k3, k4, -⟩ := hr.names _ _ _ _ _ hp he
      exact .tree ih k1 k2 h2 ⟨k3.2.1, k3.2.2.1, k3.2.2.2⟩ k4

/-- Different things have different places. -/
theorem Bucket.Undamaged.distinct {b : Bucket} (hb : b.WF) {m : Bytes} (hm : b.stores metadataVersionKey m) {gc : UInt64} {D dest : Bytes}
    (hu : b.Undamaged gc) (hr : b.Recoverable gc D dest) : (Ix.mk b (~~~0)).Distinct dest where
  nonempty o d p di n t loc hp hl hs := by
    have hp' := (hu.placed hb hm hr).mp hp
    obtain ⟨name, e, h1, h2⟩ := (hu.lists hb hm (hp'.ordinary hr)).1 _ hl
    obtain ⟨rfl, rfl, rfl⟩ := says_unique hs h1
    exact (hr.names _ _ _ _ _ hp' h2).1.1
  once o d p di di' n t t' loc loc' hp hl hl' hs hs' := by
    have hp' := (hu.placed hb hm hr).mp hp
    obtain ⟨name, e, h1, h2⟩ := (hu.lists hb hm (hp'.ordinary hr)).1 _ hl
    obtain ⟨rfl, rfl, rfl⟩ := says_unique hs h1
    obtain ⟨name', e', h1', h2'⟩ := (hu.lists hb hm (hp'.ordinary hr)).1 _ hl'
    obtain ⟨rfl, rfl, rfl⟩ := says_unique hs' h1'
    have := hu.once hb h2 h2'
    subst this
    exact ⟨rfl, rfl⟩
  reserved o ho di n t loc hl hs := by
    obtain ⟨name, e, h1, h2⟩ := (hu.lists hb hm (show (5 : UInt64) ≠ ~~~0 by decide)).1 _ hl
    obtain ⟨rfl, rfl, rfl⟩ := says_unique hs h1
    intro hc
    subst hc
    exact (hr.subvols o ((hu.listsSubvolume hb hm).mp ho)).2 e h2

theorem collect_total {rd : Range × Slice} {items : List (Range × Slice)} (h : Range.Yields rd items) :
    ∀ (rf : Nat) (acc : List DirItem), rangeLoop collectBody rf acc rd ≠ .panic := by
  induction h with
  | done hd =>
    intro rf acc
    cases rf with
    | zero => intro h; cases h
    | succ n =>
      unfold rangeLoop
      simp only [hd, Bool.false_eq_true, if_false]
      intro h; cases h
  | step h1 h2 h3 ih =>
    intro rf acc
    cases rf with
    | zero => intro h; cases h
    | succ n =>
      unfold rangeLoop
      simp only [h1, if_true, collectBody, Go.ok_bind, Bool.false_eq_true, if_false, h2]
      exact ih n _

/-- Nothing crashes. -/
theorem Bucket.Undamaged.noCrash {b : Bucket} (hb : b.WF) {m : Bytes} (hm : b.stores metadataVersionKey m) {gc : UInt64} {D dest : Bytes}
    (hu : b.Undamaged gc) (hr : b.Recoverable gc D dest) (rf : Nat) : NoCrash rf ⟨b, ~~~0⟩ dest where
  «says» o d p di hp hl := by
    have hp' := (hu.placed hb hm hr).mp hp
    obtain ⟨name, e, h1, h2⟩ := (hu.lists hb hm (hp'.ordinary hr)).1 _ hl
    exact ⟨_, _, _, h1⟩
  lists o d p hp := by
    have hp' := (hu.placed hb hm hr).mp hp
    obtain ⟨rd, items, h1, h2, -⟩ := hu.listing hb hm d (hp'.ordinary hr)
    unfold readDirItems
    rw [h1, Go.ok_bind]
    intro h
    have h3 := collect_total h2 rf []
    cases hl : rangeLoop collectBody rf [] rd with
    | panic => exact h3 hl
    | ok x => rw [hl] at h; cases h
    | hang => rw [hl] at h; cases h
  subs := by
    obtain ⟨rd, items, h1, -⟩ := hu.subvolumes hb hm
    rw [h1]
    intro h; cases h
  visits rd x h hv := by
    obtain ⟨rd', items, h1, h2, h3, -⟩ := hu.subvolumes hb hm
    rw [h1] at h
    cases h
    have hx := (h2.visits x).mp hv
    obtain ⟨k, h4, -⟩ := h3 x hx
    obtain ⟨y, h5⟩ := h2.next hx
    rw [h4, h5]
    exact ⟨fun h => (by cases h), fun h => (by cases h)⟩

theorem Bucket.Undamaged.recoverOK {b : Bucket} {gc : UInt64} (hu : b.Undamaged gc) : b.RecoverOK where
  dirs := hu.dirRange
  extents := hu.extents
  chunks _ _ := hu.addr.range
  subvolumes _ _ := hu.rootRange

end Btrfscue
