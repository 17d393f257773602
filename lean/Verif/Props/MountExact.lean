import Verif.Proof.Seen
import Verif.Props.LsExact
import Verif.Props.Mount
/-!
# C52, C53: what a mounted directory shows, exactly
-/

namespace Btrfscue

theorem wholeEntry.named {d : Slice} (h : wholeEntry (Slice.data d)) :
    ∃ name e, startsEntry (Slice.data d) name e ∧ DirItem.says d name e.typ e.location := by
  obtain ⟨dd, dt⟩ := d
  obtain ⟨e, name, rest, h1, h2, h3⟩ := h
  simp only at h1
  subst h1
  obtain ⟨-, h4, -, -, -, h5⟩ := C07_DirItem_decodes e (name ++ rest) dt
  exact ⟨name, e, ⟨rest, rfl, h2⟩, C09_dir_item_name e name rest dt h2 h3, h5, h4⟩

theorem startsEntry_unique {p name name' : Bytes} {e e' : DirItemRec} (h : startsEntry p name e) (h' : startsEntry p name' e') :
    name = name' ∧ e = e' := by
  obtain ⟨r, rfl, h2⟩ := h
  obtain ⟨r', h3, h4⟩ := h'
  obtain ⟨rfl, h5⟩ := dirItem_layout_inj h3
  exact ⟨(List.append_inj h5 (by omega)).1, rfl⟩

/-- The last of some items with a name. -/
def lastNamed (name : Bytes) : List Slice → Option Slice
  | [] => none
  | d :: r => match lastNamed name r with
    | some x => some x
    | none => if DirItem.name d = .ok name then some d else none

theorem foldDirMap_find : ∀ (its : List (Range × Slice)) (m0 : DirMap),
    (∀ e ∈ its, ∃ n, DirItem.name e.2 = .ok n) →
    ∃ m', foldRange dirMapBody m0 its = .ok (m', false) ∧
      ∀ name, m'.find name = match lastNamed name (its.map (·.2)) with
        | some d => some d
        | none => m0.find name := by
  intro its
  induction its with
  | nil => intro m0 _; exact ⟨m0, rfl, fun name => rfl⟩
  | cons x r ih =>
    intro m0 hw
    obtain ⟨rg, d⟩ := x
    obtain ⟨nm, h1⟩ := hw _ List.mem_cons_self
    obtain ⟨m', hm', hf⟩ := ih (m0.put nm d) fun e he => hw e (List.mem_cons_of_mem _ he)
    simp only at h1
    refine ⟨m', ?_, fun name => ?_⟩
    · simp only [foldRange, dirMapBody, h1, Go.ok_bind, Go.pure_eq, Bool.false_eq_true, if_false]
      exact hm'
    · rw [hf name]
      simp only [List.map_cons, lastNamed]
      cases lastNamed name (r.map (·.2)) with
      | some y => rfl
      | none =>
        simp only [DirMap.find_put, h1, Go.ok.injEq]
        by_cases h : nm = name
        · rw [if_pos h, if_pos h]
        · rw [if_neg h, if_neg h]

theorem lastNamed_spec {vs : List (UInt64 × Slice)} (hp : vs.Pairwise (fun x y => x.1 < y.1))
    (hw : ∀ v ∈ vs, wholeEntry (Slice.data v.2)) (name : Bytes) :
    (∀ d, lastNamed name (vs.map (·.2)) = some d → ∃ off e, (off, d) ∈ vs ∧ startsEntry (Slice.data d) name e ∧
      DirItem.says d name e.typ e.location ∧
      ∀ off' d' e', (off', d') ∈ vs → startsEntry (Slice.data d') name e' → off' ≤ off) ∧
    (lastNamed name (vs.map (·.2)) = none → noEntry vs name) := by
  induction vs with
  | nil => exact ⟨(fun d h => by cases h), (fun _ off d e h => by cases h)⟩
  | cons v r ih =>
    obtain ⟨off0, d0⟩ := v
    rw [List.pairwise_cons] at hp
    obtain ⟨i1, i2⟩ := ih hp.2 fun v hv => hw v (List.mem_cons_of_mem _ hv)
    obtain ⟨n0, e0, w1, w2⟩ := (hw _ List.mem_cons_self).named
    simp only at w1 w2
    simp only [List.map_cons, lastNamed]
    cases hl : lastNamed name (r.map (·.2)) with
    | some x =>
      refine ⟨fun d hd => ?_, fun h => by cases h⟩
      cases hd
      obtain ⟨off, e, h1, h2, h3, h4⟩ := i1 _ hl
      refine ⟨off, e, List.mem_cons_of_mem _ h1, h2, h3, fun off' d' e' hm' hn' => ?_⟩
      rcases List.mem_cons.mp hm' with h | h
      · cases h
        exact UInt64.le_of_lt (hp.1 _ h1)
      · exact h4 _ _ _ h hn'
    | none =>
      have hno := i2 hl
      simp only [w2.1, Go.ok.injEq]
      by_cases h : n0 = name
      · subst h
        rw [if_pos rfl]
        refine ⟨fun d hd => ?_, fun h => by cases h⟩
        cases hd
        refine ⟨off0, e0, List.mem_cons_self, w1, w2, fun off' d' e' hm' hn' => ?_⟩
        rcases List.mem_cons.mp hm' with h | h
        · cases h; exact UInt64.le_refl _
        · exact absurd hn' (hno _ _ _ h)
      · rw [if_neg h]
        refine ⟨(fun d hd => by cases hd), fun _ off d e hm' hn' => ?_⟩
        rcases List.mem_cons.mp hm' with h' | h'
        · cases h'
          exact h (startsEntry_unique w1 hn').1
        · exact hno _ _ _ h' hn'

theorem TreeInodesOK.getAttr {b : Bucket} (hb : b.WF) {m : Bytes} (hm : b.stores metadataVersionKey m) {o : UInt64} (ho : o ≠ ~~~0)
    (hi : b.TreeInodesOK o) (i : UInt64) :
    ∃ n r, (newRescueNode o i).getAttr ⟨b, ~~~0⟩ = .ok (n, r) ∧ n.owner = o ∧ n.ixInode = i ∧ b.attrAnswer o i r := by
  by_cases hk : b.hasKey o ⟨i, 1, 0⟩
  · obtain ⟨g, x, f, rest, h1, h2, h3⟩ := hi i hk
    obtain ⟨t, ht⟩ := findData_newest hb hm ho h1 h2 h3
    have hi : (Ix.mk b (~~~0)).findInodeItem o i = .ok (some ⟨f.layout ++ rest, t⟩) := ht
    obtain ⟨a, ha⟩ := attrOf_total i f rest t
    unfold RescueNode.getAttr newRescueNode
    simp only [hi, Go.ok_bind, ha]
    exact ⟨_, _, rfl, rfl, rfl, Or.inl ⟨hk, _, rfl⟩⟩
  · have hi : (Ix.mk b (~~~0)).findInodeItem o i = .ok none := findData_none hb hm ho _ hk
    unfold RescueNode.getAttr newRescueNode
    simp only [hi, Go.ok_bind]
    exact ⟨_, _, rfl, rfl, rfl, Or.inr ⟨hk, rfl⟩⟩

theorem lastEntry_unique {b : Bucket} {o dir : UInt64} {t : UInt8} {vs vs' : List (UInt64 × Slice)} (hseen : b.seenItems o t dir vs)
    (hseen' : b.seenItems o t dir vs') {name : Bytes} {e e' : DirItemRec} (h : lastEntry vs name e) (h' : lastEntry vs' name e') :
    e = e' := by
  obtain ⟨off, d, k1, k2, k3⟩ := h
  obtain ⟨off', d', q1, q2, q3⟩ := h'
  have q1' : (off', d') ∈ vs := (hseen.2 _ _).mpr ((hseen'.2 _ _).mp q1)
  have k1' : (off, d) ∈ vs' := (hseen'.2 _ _).mpr ((hseen.2 _ _).mp k1)
  have l1 := k3 _ _ _ q1' q2
  have l2 := q3 _ _ _ k1' k2
  have : off = off' := by
    rw [UInt64.le_iff_toNat_le] at l1 l2
    rw [← UInt64.toNat_inj]; omega
  subst this
  have hnd : (vs.map (·.1)).Nodup := by
    rw [List.Nodup, List.pairwise_map]
    exact hseen.1.imp fun hlt hc => by rw [hc] at hlt; exact absurd hlt (UInt64.lt_irrefl _)
  have hd : d = d' := (Prod.mk.inj (List.inj_on_of_nodup_map hnd k1 q1' rfl)).2
  subst hd
  exact (startsEntry_unique k2 q2).2

/-- What a node for a directory shows, given what iterating over the directory gets to. -/
theorem dir_core {b : Bucket} (hb : b.WF) {m : Bytes} (hm : b.stores metadataVersionKey m) {owner dir : UInt64} (howner : owner ≠ ~~~0)
    {rd : Range × Slice} {its : List (Range × Slice)} {vs : List (UInt64 × Slice)}
    (h1 : (Ix.mk b (~~~0)).dirItems owner dir = .ok rd) (hy : Range.Yields rd its) (hseen : b.seenItems owner 84 dir vs)
    (hits : its.map (·.2) = vs.map (·.2))
    (hwhole : ∀ off g x d, b.stores ⟨owner, ⟨dir, 84, off⟩, g⟩ x → Item.data ⟨x, []⟩ = .ok d → wholeEntry (Slice.data d))
    (hin : ∀ o, o ≠ ~~~0 → b.TreeInodesOK o)
    (hsub : ∀ off g x d name e, b.stores ⟨owner, ⟨dir, 84, off⟩, g⟩ x → Item.data ⟨x, []⟩ = .ok d →
      startsEntry (Slice.data d) name e → e.location.typ = 132 → e.location.objectID ≠ ~~~0) {fuel : Nat} (hf : its.length < fuel)
    {nd : RescueNode} (hnd : NodeOK fuel ⟨b, ~~~0⟩ owner dir nd) :
    (∀ ord, MapOrder ord → ∃ n es, nd.openDir fuel ord ⟨b, ~~~0⟩ = .ok (n, es) ∧ (es.map (·.1)).Nodup ∧
        ∀ name isDir, (name, isDir) ∈ es ↔ ∃ e, lastEntry vs name e ∧ isDir = (e.typ == 2)) ∧
      ∀ name,
        (noEntry vs name ∧ ∃ n, nd.lookup fuel ⟨b, ~~~0⟩ name = .ok (n, .error .ENOENT)) ∨
        ∃ e n c a, lastEntry vs name e ∧ nd.lookup fuel ⟨b, ~~~0⟩ name = .ok (n, .ok (c, e.typ == 2, a)) ∧
          (target owner e.location).1 ≠ ~~~0 ∧ NodeOK fuel ⟨b, ~~~0⟩ (target owner e.location).1 (target owner e.location).2 c ∧
          b.attrAnswer (target owner e.location).1 (target owner e.location).2 a := by
  have hwv : ∀ v ∈ vs, wholeEntry (Slice.data v.2) := by
    rintro ⟨off, d⟩ hv
    obtain ⟨g, x, -, h2, h3⟩ := (hseen.2 off d).mp hv
    exact hwhole off g x d h2 h3
  have hnames : ∀ e ∈ its, ∃ n, DirItem.name e.2 = .ok n := by
    intro e he
    have : e.2 ∈ vs.map (·.2) := by rw [← hits]; exact List.mem_map_of_mem he
    obtain ⟨v, hv, hve⟩ := List.mem_map.mp this
    obtain ⟨nm, _, -, k⟩ := (hwv v hv).named
    rw [hve] at k
    exact ⟨nm, k.1⟩
  obtain ⟨dm, hdm, hfind⟩ := foldDirMap_find its [] hnames
  rw [hits] at hfind
  have hfind' : ∀ name, dm.find name = lastNamed name (vs.map (·.2)) := by
    intro name
    rw [hfind name]
    cases lastNamed name (vs.map (·.2)) <;> rfl
  obtain ⟨a1, -, -, -⟩ := foldDirMap its [] (P := fun _ => True) ⟨by simp, by simp⟩ (by simp) hdm
  simp only at a1
  have hens0 : (newRescueNode owner dir).ensureDirItems fuel ⟨b, ~~~0⟩ = .ok { newRescueNode owner dir with dirItems := dm } := by
    unfold RescueNode.ensureDirItems newRescueNode
    rw [if_neg (by simp)]
    simp only [h1, Go.ok_bind, rangeLoop_eq _ hy fuel _ hf, hdm]
    rfl
  have hens : nd.ensureDirItems fuel ⟨b, ~~~0⟩ = .ok ⟨owner, nd.ixInode, nd.attr, dm⟩ := by
    have := (ensure_cached hnd).1
    rw [hens0, Go.ok_bind] at this
    rw [this, ← hnd.owner]
  -- what an entry of the map is
  have hent : ∀ name d, dm.find name = some d → ∃ e, lastEntry vs name e ∧ DirItem.says d name e.typ e.location ∧
      (e.location.typ = 132 → e.location.objectID ≠ ~~~0) := by
    intro name d hd
    rw [hfind'] at hd
    obtain ⟨off, e, k1, k2, k3, k4⟩ := (lastNamed_spec hseen.1 hwv name).1 d hd
    obtain ⟨g, x, -, q1, q2⟩ := (hseen.2 off d).mp k1
    exact ⟨e, ⟨off, d, k1, k2, k4⟩, k3, hsub off g x d name e q1 q2 k2⟩
  have hlastU := fun name e e' => lastEntry_unique (name := name) (e := e) (e' := e') hseen hseen
  constructor
  · intro ord ho
    have hp := ho dm
    have hsome : ∀ x ∈ dm, ∃ e, lastEntry vs x.1 e ∧ DirItem.says x.2 x.1 e.typ e.location := by
      intro x hx
      cases hfd : dm.find x.1 with
      | none => exact absurd (List.mem_map_of_mem hx) (DirMap.find_none.mp hfd)
      | some d =>
        have : (x.1, d) = x := List.inj_on_of_nodup_map a1.nodup (DirMap.find_mem hfd) hx rfl
        obtain ⟨e, k1, k2, -⟩ := hent _ _ hfd
        have hd : d = x.2 := by rw [← this]
        subst hd
        exact ⟨e, k1, k2⟩
    have hloop : ∀ (q : List (Bytes × DirItem)), (∀ e ∈ q, e ∈ dm) → ∃ es, openDirLoop q = .ok es := by
      intro q
      induction q with
      | nil => intro _; exact ⟨[], rfl⟩
      | cons x r ih =>
        intro hw
        obtain ⟨e, -, k1, k2, -⟩ := hsome x (hw x List.mem_cons_self)
        have h3 : DirItem.isDir x.2 = .ok (e.typ == 2) := isDir_eq.mpr ⟨_, k2, rfl⟩
        obtain ⟨es, hes⟩ := ih fun e he => hw e (List.mem_cons_of_mem _ he)
        simp only [openDirLoop, k1, Go.ok_bind, h3, hes, Go.pure_eq]
        exact ⟨_, rfl⟩
    obtain ⟨es, hes⟩ := hloop (ord dm) fun e he => hp.mem_iff.mp he
    obtain ⟨b1, b2⟩ := openDirLoop_spec _ hes fun e he => (a1.names e (hp.mem_iff.mp he)).1
    have hkeys : (es.map (·.1)).Perm (dm.map (·.1)) := by rw [b1]; exact hp.map _
    have hshow : ∀ x ∈ es, ∃ e, lastEntry vs x.1 e ∧ x.2 = (e.typ == 2) := by
      intro x hx
      obtain ⟨y, hy1, hy2, hy3⟩ := b2 x hx
      obtain ⟨e, k1, k2⟩ := hsome y (hp.mem_iff.mp hy1)
      rw [hy2] at k1
      have h3 : DirItem.isDir y.2 = .ok (e.typ == 2) := isDir_eq.mpr ⟨_, k2.2.1, rfl⟩
      rw [hy3] at h3
      exact ⟨e, k1, Go.ok.inj h3⟩
    refine ⟨⟨owner, nd.ixInode, nd.attr, dm⟩, es, ?_, hkeys.nodup_iff.mpr a1.nodup, fun name isDir => ⟨fun h => hshow _ h, ?_⟩⟩
    · unfold RescueNode.openDir
      rw [hens]
      simp only [Go.ok_bind, hes]
      rfl
    · rintro ⟨e, k1, rfl⟩
      have hin : name ∈ es.map (·.1) := by
        rw [hkeys.mem_iff]
        cases hfd : dm.find name with
        | some d => exact List.mem_map_of_mem (DirMap.find_mem hfd)
        | none =>
          rw [hfind'] at hfd
          obtain ⟨off, d, q1, q2, -⟩ := k1
          exact absurd q2 ((lastNamed_spec hseen.1 hwv name).2 hfd _ _ _ q1)
      obtain ⟨x, hx, rfl⟩ := List.mem_map.mp hin
      obtain ⟨e', k2, k3⟩ := hshow x hx
      rw [hlastU _ _ _ k1 k2, ← k3]
      exact hx
  · intro name
    rw [lookup_eq, hens]
    simp only [Go.ok_bind]
    cases hfd : dm.find name with
    | none =>
      left
      refine ⟨(lastNamed_spec hseen.1 hwv name).2 (by rw [← hfind']; exact hfd), ⟨owner, nd.ixInode, nd.attr, dm⟩, ?_⟩
      simp only [lookupIn, hfd, Go.ok_bind]
    | some di =>
      right
      obtain ⟨e, h6, ⟨h7, h8, h9⟩, h10⟩ := hent name di hfd
      have hisd : DirItem.isDir di = .ok (e.typ == 2) := isDir_eq.mpr ⟨_, h8, rfl⟩
      have hsub : DirItem.isSubvolume di = .ok (decide (e.location.typ = 132)) := by
        unfold DirItem.isSubvolume
        rw [h9]
        simp only [Go.ok_bind, Go.pure_eq, Go.ok.injEq]
        by_cases h : e.location.typ = 132
        · rw [h]; rfl
        · rw [decide_eq_false h]
          exact beq_false_of_ne h
      have hto : (target owner e.location).1 ≠ ~~~0 := by
        unfold target
        by_cases h : e.location.typ = 132
        · rw [if_pos h]; exact h10 h
        · rw [if_neg h]; exact howner
      obtain ⟨c, r, g1, g2, g3, g4⟩ := TreeInodesOK.getAttr hb hm hto (hin _ hto) (target owner e.location).2
      have hnode : (if !(decide (e.location.typ = 132)) then newRescueNode owner e.location.objectID
          else newRescueNode e.location.objectID FirstFreeObjectID) = newRescueNode (target owner e.location).1 (target owner e.location).2 := by
        unfold target
        by_cases h : e.location.typ = 132
        · rw [if_pos h, decide_eq_true h]; rfl
        · rw [if_neg h, decide_eq_false h]; rfl
      have hc := (getAttr_cached (nodeOK_fresh fuel ⟨b, ~~~0⟩ (target owner e.location).1 (target owner e.location).2)).2 _ g1
      refine ⟨e, ⟨owner, nd.ixInode, nd.attr, dm⟩, c, r, h6, ?_, hto, hc, g4⟩
      simp only [lookupIn, hfd, h9, Go.ok_bind, hsub, hisd, hnode, g1]

/-- C52, for any directory with whole entries, of whatever generations: the listing names, each
once, exactly the entries that iterating over the directory gets to — up to the first that lacks
the generation of the first entry —, as a directory if its type says so, and `Lookup` finds exactly
these names, each leading where the entry says (into a subvolume, if its location is a root item);
of several entries with one name the last counts. The attributes that `Lookup` answers with are there
exactly if there is an inode item; else its status is ENOATTR. -/
theorem C52_directory_exact (b : Bucket) (hb : b.WF) (m : Bytes) (hm : b.stores metadataVersionKey m)
    (owner dir : UInt64) (hr : b.RangeOK owner (KL2 84 dir))
    (hwhole : ∀ off g x d, b.stores ⟨owner, ⟨dir, 84, off⟩, g⟩ x → Item.data ⟨x, []⟩ = .ok d → wholeEntry (Slice.data d))
    (hin : ∀ o, o ≠ ~~~0 → b.TreeInodesOK o)
    (hsub : ∀ off g x d name e, b.stores ⟨owner, ⟨dir, 84, off⟩, g⟩ x → Item.data ⟨x, []⟩ = .ok d →
      startsEntry (Slice.data d) name e → e.location.typ = 132 → e.location.objectID ≠ ~~~0)
    (ord : DirMap → DirMap) (ho : MapOrder ord) :
    ∃ N vs, b.seenItems owner 84 dir vs ∧ ∀ fuel, N ≤ fuel →
      (∃ n es, (newRescueNode owner dir).openDir fuel ord ⟨b, ~~~0⟩ = .ok (n, es) ∧ (es.map (·.1)).Nodup ∧
        ∀ name isDir, (name, isDir) ∈ es ↔ ∃ e, lastEntry vs name e ∧ isDir = (e.typ == 2)) ∧
      ∀ name,
        (noEntry vs name ∧ ∃ n, (newRescueNode owner dir).lookup fuel ⟨b, ~~~0⟩ name = .ok (n, .error .ENOENT)) ∨
        ∃ e n c a, lastEntry vs name e ∧ (newRescueNode owner dir).lookup fuel ⟨b, ~~~0⟩ name = .ok (n, .ok (c, e.typ == 2, a)) ∧
          (c.owner, c.ixInode) = target owner e.location ∧ b.attrAnswer c.owner c.ixInode a := by
  obtain ⟨rd, its, vs, h1, hy, hseen, hits⟩ := seen_yields hb hm hr
  refine ⟨its.length + 1, vs, hseen, fun fuel hf => ?_⟩
  obtain ⟨k1, k2⟩ := dir_core hb hm hr.ordinary h1 hy hseen hits hwhole hin hsub hf (nodeOK_fresh fuel ⟨b, ~~~0⟩ owner dir)
  refine ⟨k1 ord ho, fun name => ?_⟩
  rcases k2 name with h | ⟨e, n, c, a, q1, q2, -, q3, q4⟩
  · exact Or.inl h
  · exact Or.inr ⟨e, n, c, a, q1, q2, by rw [q3.owner, q3.inode], by rw [q3.owner, q3.inode]; exact q4⟩

/-- The hypotheses are met by a directory with entries of two generations: `a` is shown, `b` is
not. -/
example : exMixedList.enc.WF ∧ exMixedList.enc.stores metadataVersionKey [] ∧ exMixedList.enc.RangeOK 5 (KL2 84 256) ∧
    (∀ off g x d, exMixedList.enc.stores ⟨5, ⟨256, 84, off⟩, g⟩ x → Item.data ⟨x, []⟩ = .ok d → wholeEntry (Slice.data d)) ∧
    (∀ o, o ≠ ~~~0 → exMixedList.enc.TreeInodesOK o) ∧
    (∀ off g x d name e, exMixedList.enc.stores ⟨5, ⟨256, 84, off⟩, g⟩ x → Item.data ⟨x, []⟩ = .ok d →
      startsEntry (Slice.data d) name e → e.location.typ = 132 → e.location.objectID ≠ ~~~0) ∧
    exMixedList.enc.hasKey 5 ⟨256, 84, 2⟩ ∧
    ((newRescueNode 5 256).openDir 5 id ⟨exMixedList.enc, ~~~0⟩ >>= fun r => pure r.2) = .ok [([97], false)] := by
  have hd : ∀ off g x d, exMixedList.enc.stores ⟨5, ⟨256, 84, off⟩, g⟩ x → Item.data ⟨x, []⟩ = .ok d →
      d = ⟨exEntry ⟨257, 1, 0⟩ 1 [97], []⟩ ∨ d = ⟨exEntry ⟨258, 1, 0⟩ 1 [98], []⟩ := by
    intro off g x d hs hd
    have hm := enc_stores.mp hs
    simp only [exMixedList, List.mem_cons, List.not_mem_nil, or_false, Prod.mk.injEq, VKey.mk.injEq, Key.mk.injEq] at hm
    rcases hm with ⟨-, rfl⟩ | ⟨-, rfl⟩ | ⟨⟨-, ⟨-, h, -⟩, -⟩, -⟩ | ⟨h, -⟩
    · rw [item_data_mk _ _ (by decide)] at hd; cases hd; exact Or.inl rfl
    · rw [item_data_mk _ _ (by decide)] at hd; cases hd; exact Or.inr rfl
    · exact absurd h (by decide)
    · exact absurd (congrArg VKey.owner h) (by show ¬ (5 : UInt64) = ~~~0; decide)
  refine ⟨AStore.enc_wf (sorted_of_before (by decide +kernel)), enc_stores.mpr (by simp [exMixedList]), ?_, ?_, ?_, ?_, ?_, ?_⟩
  · refine rangeOK_of (by decide) (fun e he ho => ?_) (by decide +kernel) (by decide +kernel)
    simp only [exMixedList, List.mem_cons, List.not_mem_nil, or_false] at he
    rcases he with rfl | rfl | rfl | rfl
    · exact ⟨_, mkItem_holds _ _ (by decide)⟩
    · exact ⟨_, mkItem_holds _ _ (by decide)⟩
    · exact ⟨_, mkItem_holds _ _ (by decide)⟩
    · exact absurd ho (by decide)
  · intro off g x d h1 h2
    rcases hd off g x d h1 h2 with rfl | rfl <;> exact entry_whole _ _ _ (by decide)
  · intro o ho ino hk
    obtain ⟨g', x, hx⟩ := enc_hasKey.mp hk
    have : ∀ e ∈ exMixedList, e.1.owner ≠ ~~~0 → e.1.key.typ ≠ 1 := by decide +kernel
    exact absurd rfl (this _ hx ho)
  · intro off g x d name e h1 h2 h3 h4
    rcases hd off g x d h1 h2 with rfl | rfl
    all_goals
      obtain ⟨rest, h5, -⟩ := h3
      unfold exEntry at h5
      obtain ⟨rfl, -⟩ := dirItem_layout_inj h5
      exact absurd h4 (by decide)
  · exact enc_hasKey.mpr ⟨11, mkItem ⟨256, 84, 2⟩ (exEntry ⟨258, 1, 0⟩ 1 [98]), by simp [exMixedList]⟩
  · decide +kernel

/-! ## C53 -/

theorem C53_aux (attr : Bytes) : ∀ (its : List (Range × Slice)),
    (∀ x ∈ its, wholeAttr (Slice.data x.2)) →
    (∃ ns, (∀ s, foldRange listXAttrBody s its = .ok (s ++ ns, false)) ∧
      List.Forall₂ (fun d n => ∃ e, startsEntry (Slice.data d) n e) (its.map (·.2)) ns) ∧
    (((∀ d ∈ its.map (·.2), ∀ e, ¬ startsEntry (Slice.data d) attr e) ∧
        foldRange (getXAttrBody attr) none its = .ok (none, false)) ∨
     ∃ l1 d l2 value, its.map (·.2) = l1 ++ d :: l2 ∧ (∀ d' ∈ l1, ∀ e, ¬ startsEntry (Slice.data d') attr e) ∧
        holdsAttr (Slice.data d) attr value ∧ foldRange (getXAttrBody attr) none its = .ok (some value, true)) := by
  intro its
  induction its with
  | nil => intro _; exact ⟨⟨[], fun s => by simp [foldRange], .nil⟩, Or.inl ⟨by simp, rfl⟩⟩
  | cons x r ih =>
    intro hw
    obtain ⟨⟨ns, i1, i2⟩, i3⟩ := ih fun y hy => hw y (List.mem_cons_of_mem _ hy)
    obtain ⟨rg, ⟨dd, dt⟩⟩ := x
    obtain ⟨e, name, value, rest, w1, w2, w3, w4, w5⟩ := hw _ List.mem_cons_self
    simp only at w1
    subst w1
    have hn : DirItem.name ⟨e.layout ++ (name ++ (value ++ rest)), dt⟩ = .ok name := C09_dir_item_name e name _ dt w2 w4
    have hv : DirItem.data ⟨e.layout ++ (name ++ (value ++ rest)), dt⟩ = .ok value :=
      C10_dir_item_data_partial e name value rest dt w2 w3 w5
    have hs : startsEntry (e.layout ++ (name ++ (value ++ rest))) name e := ⟨_, rfl, w2⟩
    refine ⟨⟨name :: ns, fun s => ?_, .cons ⟨e, hs⟩ i2⟩, ?_⟩
    · simp only [foldRange, listXAttrBody, hn, Go.ok_bind, Go.pure_eq, Bool.false_eq_true, if_false, i1]
      simp
    · by_cases h : name = attr
      · subst h
        right
        refine ⟨[], _, r.map (·.2), value, rfl, by simp, ⟨e, rest, rfl, w2, w3⟩, ?_⟩
        simp only [foldRange, getXAttrBody, hn, hv, Go.ok_bind, if_true, Go.pure_eq]
      · have hno : ∀ e', ¬ startsEntry (e.layout ++ (name ++ (value ++ rest))) attr e' :=
          fun e' h' => h (startsEntry_unique hs h').1
        have hstep : foldRange (getXAttrBody attr) none ((rg, ⟨e.layout ++ (name ++ (value ++ rest)), dt⟩) :: r) =
            foldRange (getXAttrBody attr) none r := by
          simp only [foldRange, getXAttrBody, hn, Go.ok_bind, if_neg h, Go.pure_eq, Bool.false_eq_true, if_false]
        rw [hstep]
        rcases i3 with ⟨k1, k2⟩ | ⟨l1, d, l2, v, k1, k2, k3, k4⟩
        · left
          refine ⟨fun d hd => ?_, k2⟩
          rcases List.mem_cons.mp hd with rfl | hd
          · exact hno
          · exact k1 d hd
        · right
          refine ⟨_ :: l1, d, l2, v, by rw [List.map_cons, k1]; rfl, fun d' hd => ?_, k3, k4⟩
          rcases List.mem_cons.mp hd with rfl | hd
          · exact hno
          · exact k2 d' hd

/-- C53, for any object with whole attributes, of whatever generations: `ListXAttr` gives the names
of the attributes that iterating over the items of the object gets to, in the order of their keys,
and `GetXAttr` the stored value of the first of these with the given name, or ENOATTR if there is
none. -/
theorem C53_attributes_exact (b : Bucket) (hb : b.WF) (m : Bytes) (hm : b.stores metadataVersionKey m)
    (owner inode : UInt64) (hr : b.RangeOK owner (KL2 24 inode))
    (hwhole : ∀ off g x d, b.stores ⟨owner, ⟨inode, 24, off⟩, g⟩ x → Item.data ⟨x, []⟩ = .ok d → wholeAttr (Slice.data d)) :
    ∃ N vs, b.seenItems owner 24 inode vs ∧ ∀ fuel, N ≤ fuel →
      (∃ names, (newRescueNode owner inode).listXAttr fuel ⟨b, ~~~0⟩ = .ok names ∧
        List.Forall₂ (fun v n => ∃ e, startsEntry (Slice.data v.2) n e) vs names) ∧
      ∀ attr,
        (noEntry vs attr ∧ (newRescueNode owner inode).getXAttr fuel ⟨b, ~~~0⟩ attr = .ok (.error .ENOATTR)) ∨
        ∃ value, firstAttr vs attr value ∧ (newRescueNode owner inode).getXAttr fuel ⟨b, ~~~0⟩ attr = .ok (.ok value) := by
  obtain ⟨rd, its, vs, h1, hy, hseen, hits⟩ := seen_yields hb hm hr
  have hr' : (Ix.mk b (~~~0)).xattrItems owner inode = .ok rd := h1
  have hw : ∀ x ∈ its, wholeAttr (Slice.data x.2) := by
    intro x hx
    have : x.2 ∈ vs.map (·.2) := by rw [← hits]; exact List.mem_map_of_mem hx
    obtain ⟨⟨off, d⟩, hv, hve⟩ := List.mem_map.mp this
    obtain ⟨g, y, -, h2, h3⟩ := (hseen.2 off d).mp hv
    rw [← hve]
    exact hwhole off g y d h2 h3
  refine ⟨its.length + 1, vs, hseen, fun fuel hf => ⟨?_, fun attr => ?_⟩⟩
  · obtain ⟨⟨ns, k1, k2⟩, -⟩ := C53_aux [] its hw
    refine ⟨ns, ?_, ?_⟩
    · unfold RescueNode.listXAttr newRescueNode
      simp only [hr', Go.ok_bind, rangeLoop_eq _ hy fuel _ (by omega), k1, List.nil_append, Go.pure_eq]
    · rw [hits, List.forall₂_map_left_iff] at k2
      exact k2
  · obtain ⟨-, k⟩ := C53_aux attr its hw
    rcases k with ⟨k1, k2⟩ | ⟨l1, d, l2, value, k1, k2, k3, k4⟩
    · left
      refine ⟨fun off d e hv hs => ?_, ?_⟩
      · exact k1 d (by rw [hits]; exact List.mem_map.mpr ⟨_, hv, rfl⟩) e hs
      · unfold RescueNode.getXAttr newRescueNode
        simp only [hr', Go.ok_bind, rangeLoop_eq _ hy fuel _ (by omega), k2, Go.pure_eq]
    · right
      refine ⟨value, ?_, ?_⟩
      · rw [hits] at k1
        obtain ⟨v1, v2, rfl, e1, e2⟩ := List.map_eq_append_iff.mp k1
        obtain ⟨⟨off, d0⟩, v3, rfl, e3, e4⟩ := List.map_eq_cons_iff.mp e2
        simp only at e3
        subst e3
        refine ⟨off, d0, by simp, k3, fun off' d' e' hv hs => ?_⟩
        rcases List.mem_append.mp hv with hv | hv
        · exact absurd hs (k2 d' (by rw [← e1]; exact List.mem_map.mpr ⟨_, hv, rfl⟩) e')
        · rcases List.mem_cons.mp hv with hv | hv
          · cases hv; exact UInt64.le_refl _
          · have := (List.pairwise_append.mp hseen.1).2.1
            rw [List.pairwise_cons] at this
            exact UInt64.le_of_lt (this.1 _ hv)
      · unfold RescueNode.getXAttr newRescueNode
        simp only [hr', Go.ok_bind, rangeLoop_eq _ hy fuel _ (by omega), k4, Go.pure_eq]

/-- The hypotheses are met by the object with two attributes of `exXAttrStore`. -/
example : exXAttrStore.enc.WF ∧ exXAttrStore.enc.stores metadataVersionKey [] ∧ exXAttrStore.enc.RangeOK 5 (KL2 24 257) ∧
    (∀ off g x d, exXAttrStore.enc.stores ⟨5, ⟨257, 24, off⟩, g⟩ x → Item.data ⟨x, []⟩ = .ok d → wholeAttr (Slice.data d)) ∧
    exXAttrStore.enc.hasKey 5 ⟨257, 24, 9⟩ := by
  refine ⟨AStore.enc_wf (sorted_of_before (by decide +kernel)), enc_stores.mpr (by simp [exXAttrStore]), ?_, ?_, ?_⟩
  · refine rangeOK_of (by decide) (fun e he ho => ?_) (by decide +kernel) (by decide +kernel)
    simp only [exXAttrStore, List.mem_cons, List.not_mem_nil, or_false] at he
    rcases he with rfl | rfl | rfl | rfl
    · exact ⟨_, mkItem_holds _ _ (by decide)⟩
    · exact ⟨_, mkItem_holds _ _ (by decide)⟩
    · exact ⟨_, mkItem_holds _ _ (by decide)⟩
    · exact absurd ho (by decide)
  · intro off g x d hs hd
    have hm := enc_stores.mp hs
    simp only [exXAttrStore, List.mem_cons, List.not_mem_nil, or_false, Prod.mk.injEq, VKey.mk.injEq, Key.mk.injEq] at hm
    rcases hm with ⟨-, rfl⟩ | ⟨-, rfl⟩ | ⟨⟨-, ⟨-, h, -⟩, -⟩, -⟩ | ⟨h, -⟩
    · rw [item_data_mk _ _ (by decide)] at hd; cases hd
      exact ⟨⟨⟨0, 0, 0⟩, 7, 2, 1, 8⟩, [117], [7, 8], [], rfl, rfl, rfl, by decide, by decide⟩
    · rw [item_data_mk _ _ (by decide)] at hd; cases hd
      exact ⟨⟨⟨0, 0, 0⟩, 7, 0, 1, 8⟩, [118], [], [], rfl, rfl, rfl, by decide, by decide⟩
    · exact absurd h (by decide)
    · exact absurd (congrArg VKey.owner h) (by show ¬ (5 : UInt64) = ~~~0; decide)
  · exact enc_hasKey.mpr ⟨10, mkItem ⟨257, 24, 9⟩ ((DirItemRec.mk ⟨0, 0, 0⟩ 7 0 1 8).layout ++ [118]), by simp [exXAttrStore]⟩

end Btrfscue
