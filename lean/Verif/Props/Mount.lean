import Verif.Spec.Mount
import Verif.Proof.Undamaged
import Verif.Props.RescueOpen
import Verif.Props.RecoverAll
import Verif.Props.Ls
/-!
# C85: what the mounted file system shows
-/

namespace Btrfscue

/-- A run ends within the bound of its loop. -/
theorem Range.Yields.length_lt {rd : Range × Slice} {items : List (Range × Slice)} (h : Range.Yields rd items) :
    ∀ {n : Nat}, Range.EndsIn n rd → items.length < n := by
  induction h with
  | done hd =>
    intro n hn
    cases hn <;> simp only [List.length_nil] <;> omega
  | step h1 h2 h3 ih =>
    intro n hn
    cases hn with
    | done h => simp only at h; rw [h1] at h; cases h
    | crash h => simp only at h; rw [h2] at h; cases h
    | step h h' =>
      simp only at h
      rw [h2] at h
      cases h
      have := ih h'
      simp only [List.length_cons]
      omega

variable {b : Bucket} {gc : UInt64}

/-- The map of a directory holds its entries. -/
theorem Bucket.Undamaged.dirMap (hb : b.WF) {m : Bytes} (hm : b.stores metadataVersionKey m) (hu : b.Undamaged gc) {N : Nat}
    (hN : (Ix.mk b (~~~0)).LoopsIn N) {fuel : Nat} (hf : N ≤ fuel) {o : UInt64} (d : UInt64) (ho : o ≠ ~~~0) :
    ∃ n, (newRescueNode o d).ensureDirItems fuel ⟨b, ~~~0⟩ = .ok n ∧ n.owner = o ∧ n.ixInode = d ∧
      (∀ name di, (name, di) ∈ n.dirItems → ∃ e, b.entryNow o d name e ∧ DirItem.says di name e.typ e.location) ∧
      ∀ name e, b.entryNow o d name e → ∃ di, n.dirItems.find name = some di := by
  obtain ⟨rd, items, h1, h2, h3, h4⟩ := hu.listing hb hm d ho
  have hlen := h2.length_lt (hN.dirs _ _ _ h1)
  have hfold : ∀ (its : List (Range × Slice)) (m0 : DirMap), (∀ x ∈ its, x ∈ items) →
      ∃ m', foldRange dirMapBody m0 its = .ok (m', false) := by
    intro its
    induction its with
    | nil => intro m0 _; exact ⟨m0, rfl⟩
    | cons x r ih =>
      intro m0 hw
      obtain ⟨rg, di⟩ := x
      obtain ⟨name, e, k1, -⟩ := h3 _ (hw _ List.mem_cons_self)
      obtain ⟨m', hm'⟩ := ih (m0.put name di) fun e he => hw e (List.mem_cons_of_mem _ he)
      refine ⟨m', ?_⟩
      have k2 : DirItem.name di = .ok name := k1.1
      simp only [foldRange, dirMapBody, k2, Go.ok_bind, Go.pure_eq, Bool.false_eq_true, if_false]
      exact hm'
  obtain ⟨dm, hdm⟩ := hfold items [] fun _ h => h
  obtain ⟨a1, -, a3, a4⟩ := foldDirMap items [] (P := fun _ => True) ⟨by simp, by simp⟩ (by simp) hdm
  simp only at a1 a3 a4
  refine ⟨{ newRescueNode o d with dirItems := dm }, ?_, rfl, rfl, fun name di hmem => ?_, fun name e he => ?_⟩
  · unfold RescueNode.ensureDirItems newRescueNode
    rw [if_neg (by simp)]
    simp only [h1, Go.ok_bind, rangeLoop_eq _ h2 fuel _ (by omega), hdm]
    rfl
  · obtain ⟨k1, -⟩ := a1.names _ hmem
    rcases a4 _ hmem with h | ⟨x, hx, hxe⟩
    · cases h
    · obtain ⟨name', e, k2, k3⟩ := h3 x hx
      simp only at hxe k1
      rw [hxe] at k2
      have := k2.1
      rw [k1] at this
      cases this
      exact ⟨e, k3, k2⟩
  · obtain ⟨x, hx, k1⟩ := h4 name e he
    obtain ⟨k, k2, k3⟩ := a3 x hx
    rw [k1.1] at k2
    cases k2
    cases hfd : DirMap.find dm name with
    | some di => exact ⟨di, rfl⟩
    | none => exact absurd k3 (DirMap.find_none.mp hfd)

theorem attrOf_total (i : UInt64) (f : InodeItemRec) (rest t : Bytes) : ∃ a, attrOf i ⟨f.layout ++ rest, t⟩ = .ok a := by
  obtain ⟨-, -, -, d3, -, d5, d6, d7, d8, d9, -, -, ⟨ta, da, ia⟩, ⟨tc, dc, ic⟩, ⟨tm, dm, im⟩, -⟩ :=
    C07_InodeItem_decodes f rest t
  unfold attrOf
  simp only [d3, d5, d6, d7, d8, d9, da, dc, dm, Go.ok_bind]
  exact ⟨_, rfl⟩

/-- The attributes of a node can be read. -/
theorem Bucket.Mountable.getAttr (hb : b.WF) {m : Bytes} (hm : b.stores metadataVersionKey m) (hM : b.Mountable) {o : UInt64}
    (i : UInt64) (ho : o ≠ ~~~0) (hk : b.hasKey o ⟨i, 1, 0⟩) :
    ∃ n a, (newRescueNode o i).getAttr ⟨b, ~~~0⟩ = .ok (n, .ok a) ∧ n.owner = o ∧ n.ixInode = i := by
  obtain ⟨f, g, x, rest, h1, h2, h3⟩ := hM.inodes o ho i hk
  obtain ⟨t, ht⟩ := findData_newest hb hm ho h1 h2 h3
  have hi : (Ix.mk b (~~~0)).findInodeItem o i = .ok (some ⟨f.layout ++ rest, t⟩) := ht
  obtain ⟨a, ha⟩ := attrOf_total i f rest t
  unfold RescueNode.getAttr newRescueNode
  simp only [hi, Go.ok_bind, ha]
  exact ⟨_, _, rfl, rfl, rfl⟩

/-- What looking up a name in a directory does. -/
theorem Bucket.Undamaged.lookup (hb : b.WF) {m : Bytes} (hm : b.stores metadataVersionKey m) (hu : b.Undamaged gc) (hM : b.Mountable)
    {N : Nat} (hN : (Ix.mk b (~~~0)).LoopsIn N) {fuel : Nat} (hf : N ≤ fuel) {o d : UInt64} (ho : o ≠ ~~~0) {n : RescueNode}
    (hn : NodeOK fuel ⟨b, ~~~0⟩ o d n) (name : Bytes) :
    (∃ e n' c a, b.entryNow o d name e ∧ n.lookup fuel ⟨b, ~~~0⟩ name = .ok (n', .ok (c, e.typ == 2, .ok a)) ∧
      (target o e.location).1 ≠ ~~~0 ∧ NodeOK fuel ⟨b, ~~~0⟩ (target o e.location).1 (target o e.location).2 c) ∨
    (∃ n', (∀ e, ¬ b.entryNow o d name e) ∧ n.lookup fuel ⟨b, ~~~0⟩ name = .ok (n', .error .ENOENT)) := by
  obtain ⟨p, h1, h2, h3, h4, h5⟩ := hu.dirMap hb hm hN hf d ho
  obtain ⟨k1, -⟩ := ensure_cached hn
  rw [h1, Go.ok_bind] at k1
  rw [lookup_eq, k1]
  simp only [Go.ok_bind, hn.owner]
  cases hfd : p.dirItems.find name with
  | none =>
    right
    refine ⟨{ n with dirItems := p.dirItems }, fun e he => ?_, ?_⟩
    · obtain ⟨di, hdi⟩ := h5 name e he
      rw [hfd] at hdi
      cases hdi
    · simp only [lookupIn, hfd, Go.ok_bind]
      obtain ⟨no, ni, na, nd⟩ := n
      have := hn.owner
      simp only at this
      subst this
      rfl
  | some di =>
    left
    obtain ⟨e, h6, h7, h8, h9⟩ := h4 name di (DirMap.find_mem hfd)
    have hisd : DirItem.isDir di = .ok (e.typ == 2) := isDir_eq.mpr ⟨_, h8, rfl⟩
    have hsub : DirItem.isSubvolume di = .ok (decide (e.location.typ = 132)) := by
      unfold DirItem.isSubvolume
      rw [h9]
      simp only [Go.ok_bind, Go.pure_eq, Go.ok.injEq]
      by_cases h : e.location.typ = 132
      · rw [h]; rfl
      · rw [decide_eq_false h]
        exact beq_false_of_ne h
    have hto : (target o e.location).1 ≠ ~~~0 := by
      unfold target
      by_cases h : e.location.typ = 132
      · rw [if_pos h]; exact hM.trees _ _ _ _ h6 h
      · rw [if_neg h]; exact ho
    obtain ⟨c, r, g1, g2, g3⟩ := hM.getAttr hb hm (target o e.location).2 hto (hM.present _ _ _ _ h6)
    have hc := (getAttr_cached (nodeOK_fresh fuel ⟨b, ~~~0⟩ (target o e.location).1 (target o e.location).2)).2 _ g1
    have hnode : (if !(decide (e.location.typ = 132)) then newRescueNode o e.location.objectID
        else newRescueNode e.location.objectID FirstFreeObjectID) = newRescueNode (target o e.location).1 (target o e.location).2 := by
      unfold target
      by_cases h : e.location.typ = 132
      · rw [if_pos h, decide_eq_true h]; rfl
      · rw [if_neg h, decide_eq_false h]; rfl
    refine ⟨e, ⟨o, n.ixInode, n.attr, p.dirItems⟩, c, r, h6, ?_, hto, hc⟩
    · simp only [lookupIn, hfd, h9, Go.ok_bind, hsub, hisd, hnode, g1]

/-- Walking down from a node. -/
theorem Bucket.Undamaged.walk (hb : b.WF) {m : Bytes} (hm : b.stores metadataVersionKey m) (hu : b.Undamaged gc) (hM : b.Mountable)
    {N : Nat} (hN : (Ix.mk b (~~~0)).LoopsIn N) {fuel : Nat} (hf : N ≤ fuel) (names : List Bytes) :
    ∀ {o d : UInt64}, o ≠ ~~~0 → ∀ {n : RescueNode}, NodeOK fuel ⟨b, ~~~0⟩ o d n →
      (∃ o' i c, b.LeadsTo o d names o' i ∧ o' ≠ ~~~0 ∧ NodeOK fuel ⟨b, ~~~0⟩ o' i c ∧
        Btrfscue.walk fuel ⟨b, ~~~0⟩ n names = .ok (some c)) ∨
      ((∀ o' i, ¬ b.LeadsTo o d names o' i) ∧ Btrfscue.walk fuel ⟨b, ~~~0⟩ n names = .ok none) := by
  induction names with
  | nil =>
    intro o d ho n hn
    exact Or.inl ⟨o, d, n, .here, ho, hn, rfl⟩
  | cons name rest ih =>
    intro o d ho n hn
    rcases hu.lookup hb hm hM hN hf ho hn name with ⟨e, n', c, a, h1, h2, h3, h4⟩ | ⟨n', h1, h2⟩
    · simp only [Btrfscue.walk, h2, Go.ok_bind]
      rcases ih h3 h4 with ⟨o', i, c', k1, k2, k3, k4⟩ | ⟨k1, k2⟩
      · exact Or.inl ⟨o', i, c', .step h1 k1, k2, k3, k4⟩
      · refine Or.inr ⟨fun o' i hl => ?_, k2⟩
        cases hl with
        | step g1 g2 =>
          rw [hu.once hb g1 h1] at g2
          exact k1 _ _ g2
    · simp only [Btrfscue.walk, h2, Go.ok_bind]
      refine Or.inr ⟨fun o' i hl => ?_, rfl⟩
      cases hl with
      | step g1 g2 => exact h1 _ g1

theorem Bucket.LeadsTo.unique (hb : b.WF) (hu : b.Undamaged gc) {o d : UInt64} {names : List Bytes} {o1 i1 o2 i2 : UInt64}
    (h1 : b.LeadsTo o d names o1 i1) (h2 : b.LeadsTo o d names o2 i2) : o1 = o2 ∧ i1 = i2 := by
  induction h1 with
  | here => cases h2; exact ⟨rfl, rfl⟩
  | step g1 g2 ih =>
    cases h2 with
    | step k1 k2 =>
      rw [hu.once hb k1 g1] at k2
      exact ih k2

theorem mountTop_rescue : mountTop (ascii "rescue") = some (.rescue (newRescueNode 5 256)) := rfl

/-- C85: paths. In the mounted index of an undamaged file system every path below `rescue`
can be looked up; it leads where the entries of these names lead, and to nothing if there
are none. -/
theorem C85_paths_partial (b : Bucket) (hb : b.WF) (m : Bytes) (hm : b.stores metadataVersionKey m) (gc : UInt64)
    (hu : b.Undamaged gc) (hM : b.Mountable) :
    ∃ N, ∀ fuel, N ≤ fuel → ∀ names, ∃ r, mountWalk fuel ⟨b, ~~~0⟩ (ascii "rescue" :: names) = .ok r ∧
      ∀ o i, (∃ c, r = some c ∧ c.owner = o ∧ c.ixInode = i) ↔ b.LeadsTo 5 256 names o i := by
  obtain ⟨N, hN⟩ := (hu.recoverOK.loopsEnd hb hm (~~~0)).bound
  refine ⟨N, fun fuel hf names => ?_⟩
  simp only [mountWalk, mountTop_rescue]
  rcases hu.walk hb hm hM hN hf names (by decide) (nodeOK_fresh fuel ⟨b, ~~~0⟩ 5 256) with ⟨o', i', c, k1, -, k3, k4⟩ | ⟨k1, k2⟩
  · refine ⟨_, k4, fun o i => ⟨?_, fun h => ?_⟩⟩
    · rintro ⟨c', h1, rfl, rfl⟩
      cases h1
      rw [k3.owner, k3.inode]
      exact k1
    · obtain ⟨rfl, rfl⟩ := Bucket.LeadsTo.unique hb hu k1 h
      exact ⟨c, rfl, k3.owner, k3.inode⟩
  · refine ⟨_, k2, fun o i => ⟨?_, fun h => absurd h (k1 o i)⟩⟩
    rintro ⟨c', h1, -⟩
    cases h1

/-- C85: directories. Listing a directory of the mounted index — at any path that leads to
it, in any order in which Go's maps come out — shows each entry of it once, by name, as a
directory exactly if its type says so. -/
theorem C85_listing_partial (b : Bucket) (hb : b.WF) (m : Bytes) (hm : b.stores metadataVersionKey m) (gc : UInt64)
    (hu : b.Undamaged gc) (hM : b.Mountable) :
    ∃ N, ∀ fuel, N ≤ fuel → ∀ names o i, b.LeadsTo 5 256 names o i → ∀ ord, MapOrder ord →
      ∃ c n es, mountWalk fuel ⟨b, ~~~0⟩ (ascii "rescue" :: names) = .ok (some c) ∧
        c.openDir fuel ord ⟨b, ~~~0⟩ = .ok (n, es) ∧ (es.map (·.1)).Nodup ∧
        ∀ name isDir, (name, isDir) ∈ es ↔ ∃ e, b.entryNow o i name e ∧ isDir = (e.typ == 2) := by
  obtain ⟨N, hN⟩ := (hu.recoverOK.loopsEnd hb hm (~~~0)).bound
  refine ⟨N, fun fuel hf names o i hl ord hord => ?_⟩
  simp only [mountWalk, mountTop_rescue]
  rcases hu.walk hb hm hM hN hf names (by decide) (nodeOK_fresh fuel ⟨b, ~~~0⟩ 5 256) with ⟨o', i', c, k1, k2, k3, k4⟩ | ⟨k1, k2⟩
  · obtain ⟨rfl, rfl⟩ := Bucket.LeadsTo.unique hb hu k1 hl
    obtain ⟨p, h1, h2, h3, h4, h5⟩ := hu.dirMap hb hm hN hf i' k2
    obtain ⟨g1, -⟩ := ensure_cached k3
    rw [h1, Go.ok_bind] at g1
    have hok := ensure_fresh_ok h1
    have hp := hord p.dirItems
    have hloop : ∀ (q : List (Bytes × DirItem)), (∀ e ∈ q, e ∈ p.dirItems) → ∃ es, openDirLoop q = .ok es ∧
        ∀ name isDir, (name, isDir) ∈ es ↔ ∃ di e, (name, di) ∈ q ∧ b.entryNow o' i' name e ∧ isDir = (e.typ == 2) := by
      intro q
      induction q with
      | nil => intro _; exact ⟨[], rfl, by simp⟩
      | cons x r ih =>
        intro hq
        obtain ⟨es, g2, g3⟩ := ih fun e he => hq e (List.mem_cons_of_mem _ he)
        obtain ⟨xn, xd⟩ := x
        obtain ⟨e, h6, h7, h8, h9⟩ := h4 xn xd (hq _ List.mem_cons_self)
        have hisd : DirItem.isDir xd = .ok (e.typ == 2) := isDir_eq.mpr ⟨_, h8, rfl⟩
        refine ⟨(xn, e.typ == 2) :: es, ?_, fun name isDir => ?_⟩
        · simp only [openDirLoop, h7, Go.ok_bind, hisd, g2, Go.pure_eq]
        · rw [List.mem_cons, g3]
          constructor
          · rintro (h | ⟨di, e', q1, q2, q3⟩)
            · obtain ⟨rfl, rfl⟩ := Prod.mk.inj h
              exact ⟨xd, e, List.mem_cons_self, h6, rfl⟩
            · exact ⟨di, e', List.mem_cons_of_mem _ q1, q2, q3⟩
          · rintro ⟨di, e', q1, q2, q3⟩
            rcases List.mem_cons.mp q1 with q1 | q1
            · obtain ⟨rfl, rfl⟩ := Prod.mk.inj q1
              rw [hu.once hb q2 h6] at q3
              exact Or.inl (by rw [q3])
            · exact Or.inr ⟨di, e', q1, q2, q3⟩
    obtain ⟨es, g2, g3⟩ := hloop (ord p.dirItems) fun e he => hp.mem_iff.mp he
    refine ⟨c, { c with dirItems := p.dirItems }, es, k4, ?_, ?_, fun name isDir => ?_⟩
    · unfold RescueNode.openDir
      rw [g1]
      simp only [Go.ok_bind, g2]
      rfl
    · have := (openDirLoop_spec _ g2 fun e he => (hok.names e (hp.mem_iff.mp he)).1).1
      rw [this]
      exact (hp.map _).nodup_iff.mpr hok.nodup
    · rw [g3]
      constructor
      · rintro ⟨di, e, q1, q2, q3⟩
        exact ⟨e, q2, q3⟩
      · rintro ⟨e, q2, q3⟩
        obtain ⟨di, hdi⟩ := h5 name e q2
        exact ⟨di, e, hp.mem_iff.mpr (DirMap.find_mem hdi), q2, q3⟩
  · exact absurd hl (k1 o i)

/-- C85: attributes. What is at a path has the attributes its inode item gives. -/
theorem C85_attributes_partial (b : Bucket) (hb : b.WF) (m : Bytes) (hm : b.stores metadataVersionKey m) (gc : UInt64)
    (hu : b.Undamaged gc) (hM : b.Mountable) :
    ∃ N, ∀ fuel, N ≤ fuel → ∀ names o i, b.LeadsTo 5 256 names o i → ∀ f, b.inodeNow o i f → f.timesOK →
      ∃ c n a, mountWalk fuel ⟨b, ~~~0⟩ (ascii "rescue" :: names) = .ok (some c) ∧
        c.getAttr ⟨b, ~~~0⟩ = .ok (n, .ok a) ∧ attrSays i f a := by
  obtain ⟨N, hN⟩ := (hu.recoverOK.loopsEnd hb hm (~~~0)).bound
  refine ⟨N, fun fuel hf names o i hl f hi ht => ?_⟩
  simp only [mountWalk, mountTop_rescue]
  rcases hu.walk hb hm hM hN hf names (by decide) (nodeOK_fresh fuel ⟨b, ~~~0⟩ 5 256) with ⟨o', i', c, k1, k2, k3, k4⟩ | ⟨k1, k2⟩
  · obtain ⟨rfl, rfl⟩ := Bucket.LeadsTo.unique hb hu k1 hl
    obtain ⟨g, x, rest, h1, h2, h3⟩ := hi
    obtain ⟨n, hn⟩ := C68_attr_of_newest_inode b hb m hm o' i' k2 g x f rest h1 h2 h3 ht.1 ht.2.1 ht.2.2
    have hc := (getAttr_cached k3).1
    rw [hn, Go.ok_bind] at hc
    cases hg : c.getAttr ⟨b, ~~~0⟩ with
    | panic => rw [hg] at hc; cases hc
    | hang => rw [hg] at hc; cases hc
    | ok y =>
      rw [hg, Go.ok_bind] at hc
      obtain ⟨y1, y2⟩ := y
      simp only [Go.ok.injEq] at hc
      subst hc
      refine ⟨c, y1, _, k4, hg, rfl, rfl, rfl, rfl, rfl, rfl, ?_, rfl, rfl, rfl, rfl, rfl, rfl⟩
      simp
  · exact absurd hl (k1 o i)

/-- C85: links. `Readlink` gives the stored target. -/
theorem C85_links_partial (b : Bucket) (hb : b.WF) (m : Bytes) (hm : b.stores metadataVersionKey m) (gc : UInt64)
    (hu : b.Undamaged gc) (hM : b.Mountable) :
    ∃ N, ∀ fuel, N ≤ fuel → ∀ names o i, b.LeadsTo 5 256 names o i → ∀ x, b.targetIs o i x →
      ∃ c, mountWalk fuel ⟨b, ~~~0⟩ (ascii "rescue" :: names) = .ok (some c) ∧ c.readlink ⟨b, ~~~0⟩ = .ok (.ok x) := by
  obtain ⟨N, hN⟩ := (hu.recoverOK.loopsEnd hb hm (~~~0)).bound
  refine ⟨N, fun fuel hf names o i hl x hx => ?_⟩
  simp only [mountWalk, mountTop_rescue]
  rcases hu.walk hb hm hM hN hf names (by decide) (nodeOK_fresh fuel ⟨b, ~~~0⟩ 5 256) with ⟨o', i', c, k1, k2, k3, k4⟩ | ⟨k1, k2⟩
  · obtain ⟨rfl, rfl⟩ := Bucket.LeadsTo.unique hb hu k1 hl
    obtain ⟨-, g, y, f, rest, h1, h2, h3, h4, h5⟩ := hx
    have := C69_readlink b hb m hm o' i' k2 g y f x rest h1 h2 h3 h4 h5
    refine ⟨c, k4, ?_⟩
    rw [← this]
    unfold RescueNode.readlink newRescueNode
    rw [k3.owner, k3.inode]
  · exact absurd hl (k1 o i)

end Btrfscue
