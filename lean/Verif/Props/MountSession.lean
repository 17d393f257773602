import Verif.Spec.MountSession
import Verif.Props.Refuted
/-!
# C107: what a mount answers does not depend on what it was asked before
-/

namespace Btrfscue

/-- Two computations end in the same way, with related results. -/
def Go.Rel {α β : Type} (R : α → β → Prop) : Go α → Go β → Prop
  | .ok a, .ok b => R a b
  | .panic, .panic => True
  | .hang, .hang => True
  | _, _ => False

theorem Go.Rel.bind {α β γ δ : Type} {R : α → β → Prop} {S : γ → δ → Prop} {x : Go α} {y : Go β} {f : α → Go γ} {g : β → Go δ}
    (h : Go.Rel R x y) (hf : ∀ a b, R a b → Go.Rel S (f a) (g b)) : Go.Rel S (x >>= f) (y >>= g) := by
  cases x <;> cases y <;> first | exact h.elim | exact hf _ _ h | trivial

theorem Go.Rel.refl {α : Type} {R : α → α → Prop} (hr : ∀ a, R a a) (x : Go α) : Go.Rel R x x := by
  cases x
  · exact hr _
  · trivial
  · trivial

theorem rangeLoop_rel {σ τ : Type} {R : σ → τ → Prop} {body : σ → Range → Slice → Go (σ × Bool)} {body' : τ → Range → Slice → Go (τ × Bool)}
    (hb : ∀ s t, R s t → ∀ r d, Go.Rel (fun x y => R x.1 y.1 ∧ x.2 = y.2) (body s r d) (body' t r d)) (fuel : Nat) :
    ∀ s t, R s t → ∀ rd, Go.Rel (fun x y => R x.1 y.1 ∧ x.2 = y.2) (rangeLoop body fuel s rd) (rangeLoop body' fuel t rd) := by
  induction fuel with
  | zero => intro s t _ rd; trivial
  | succ fuel ih =>
    rintro s t h ⟨r, d⟩
    simp only [rangeLoop]
    cases r.hasNext with
    | false => exact ⟨h, rfl⟩
    | true =>
      simp only [if_true]
      refine (hb s t h r d).bind ?_
      rintro ⟨s', b⟩ ⟨t', b'⟩ ⟨h1, h2⟩
      simp only at h1 h2
      subst h2
      cases b with
      | true => exact ⟨h1, rfl⟩
      | false =>
        simp only [Bool.false_eq_true, if_false]
        exact (Go.Rel.refl (fun _ => rfl) r.next).bind fun a b hab => by subst hab; exact ih _ _ h1 _

/-- The cache of the stripe map is empty, or what it is filled with. -/
def StripesKept (fuel : Nat) (ix : Ix) (c : Option (List StripeMapEntry)) : Prop :=
  ∀ m, c = some m → ix.buildStripeMap fuel = .ok m

theorem physical_rel {fuel : Nat} {ix : Ix} {c c' : Option (List StripeMapEntry)} (h : StripesKept fuel ix c) (h' : StripesKept fuel ix c') (a : UInt64) :
    Go.Rel (fun x y => (StripesKept fuel ix x.1 ∧ StripesKept fuel ix y.1) ∧ x.2 = y.2) (ix.physical fuel c a) (ix.physical fuel c' a) := by
  have key : ∀ {c}, StripesKept fuel ix c → ix.physical fuel c a = (ix.buildStripeMap fuel >>= fun m => lookupStripe m a >>= fun r => .ok (some m, r)) := by
    intro c h
    cases c with
    | none => rfl
    | some m => rw [h m rfl]; rfl
  rw [key h, key h']
  cases hb : ix.buildStripeMap fuel with
  | panic => trivial
  | hang => trivial
  | ok m =>
    simp only [Go.ok_bind]
    cases lookupStripe m a with
    | panic => trivial
    | hang => trivial
    | ok r =>
      have : StripesKept fuel ix (some m) := by rintro m' hm'; cases hm'; exact hb
      exact ⟨⟨this, this⟩, rfl⟩

theorem extentMapBody_rel {fuel : Nat} {ix : Ix} (s t : List ExtentMapEntry × Option (List StripeMapEntry))
    (h : s.1 = t.1 ∧ StripesKept fuel ix s.2 ∧ StripesKept fuel ix t.2) (r : Range) (d : Slice) :
    Go.Rel (fun x y => (x.1.1 = y.1.1 ∧ StripesKept fuel ix x.1.2 ∧ StripesKept fuel ix y.1.2) ∧ x.2 = y.2)
      (extentMapBody fuel ix s r d) (extentMapBody fuel ix t r d) := by
  obtain ⟨h1, h2, h3⟩ := h
  unfold extentMapBody
  refine (Go.Rel.refl (fun _ => rfl) (FileExtentItem.diskByteNr d)).bind ?_
  rintro a _ rfl
  have tail : ∀ c1 c2 (p : UInt64 × UInt64), StripesKept fuel ix c1 → StripesKept fuel ix c2 →
      Go.Rel (fun x y => (x.1.1 = y.1.1 ∧ StripesKept fuel ix x.1.2 ∧ StripesKept fuel ix y.1.2) ∧ x.2 = y.2)
        (do let k ← r.rKey
            let n ← FileExtentItem.numBytes d
            let o ← FileExtentItem.offset d
            return ((s.1 ++ [(⟨k.offset, n, p.2 + o, a, p.1⟩ : ExtentMapEntry)], c1), false))
        (do let k ← r.rKey
            let n ← FileExtentItem.numBytes d
            let o ← FileExtentItem.offset d
            return ((t.1 ++ [(⟨k.offset, n, p.2 + o, a, p.1⟩ : ExtentMapEntry)], c2), false)) := by
    intro c1 c2 p k1 k2
    refine (Go.Rel.refl (fun _ => rfl) r.rKey).bind ?_
    rintro k _ rfl
    refine (Go.Rel.refl (fun _ => rfl) (FileExtentItem.numBytes d)).bind ?_
    rintro n _ rfl
    refine (Go.Rel.refl (fun _ => rfl) (FileExtentItem.offset d)).bind ?_
    rintro o _ rfl
    exact ⟨⟨by rw [h1], k1, k2⟩, rfl⟩
  by_cases ha : 0 < a
  · simp only [if_pos ha]
    refine (physical_rel h2 h3 a).bind ?_
    rintro ⟨c1, p⟩ ⟨c2, _⟩ ⟨⟨k1, k2⟩, rfl⟩
    exact tail c1 c2 p k1 k2
  · simp only [if_neg ha]
    exact tail s.2 t.2 (0, 0) h2 h3

theorem open_rel {fuel : Nat} {ix : Ix} {c c' : Option (List StripeMapEntry)} (h : StripesKept fuel ix c) (h' : StripesKept fuel ix c')
    {n n' : RescueNode} (ho : n.owner = n'.owner) (hi : n.ixInode = n'.ixInode) :
    Go.Rel (fun x y => (StripesKept fuel ix x.1 ∧ StripesKept fuel ix y.1) ∧ x.2 = y.2) (n.open fuel ix c) (n'.open fuel ix c') := by
  unfold RescueNode.open
  rw [ho, hi]
  refine (Go.Rel.refl (fun _ => rfl) _).bind ?_
  rintro ⟨r, e⟩ _ rfl
  simp only
  cases hn : r.hasNext with
  | false => exact ⟨⟨h, h'⟩, rfl⟩
  | true =>
    simp only [Bool.not_true, Bool.false_eq_true, if_false]
    refine (Go.Rel.refl (fun _ => rfl) _).bind ?_
    rintro b _ rfl
    cases b with
    | true =>
      simp only [if_true]
      refine (Go.Rel.refl (fun _ => rfl) _).bind ?_
      rintro d _ rfl
      exact ⟨⟨h, h'⟩, rfl⟩
    | false =>
      simp only [Bool.false_eq_true, if_false]
      have hx : Go.Rel (fun x y => (StripesKept fuel ix x.2 ∧ StripesKept fuel ix y.2) ∧ x.1 = y.1)
          (newExtentFile fuel ix c n'.owner n'.ixInode) (newExtentFile fuel ix c' n'.owner n'.ixInode) := by
        unfold newExtentFile
        refine (Go.Rel.refl (fun _ => rfl) _).bind ?_
        rintro rd _ rfl
        cases rd.1.hasNext with
        | false => exact ⟨⟨h, h'⟩, rfl⟩
        | true =>
          simp only [Bool.not_true, Bool.false_eq_true, if_false]
          refine (rangeLoop_rel (R := fun s t => s.1 = t.1 ∧ StripesKept fuel ix s.2 ∧ StripesKept fuel ix t.2)
            (fun s t hst r d => extentMapBody_rel s t hst r d) fuel ([], c) ([], c') ⟨rfl, h, h'⟩ rd).bind ?_
          rintro ⟨s, b⟩ ⟨t, b'⟩ ⟨⟨k1, k2, k3⟩, -⟩
          exact ⟨⟨k2, k3⟩, by simp only at k1 ⊢; rw [k1]⟩
      refine hx.bind ?_
      rintro ⟨m, c1⟩ ⟨m', c2⟩ ⟨⟨k1, k2⟩, k3⟩
      simp only at k1 k2 k3
      subst k3
      cases m with
      | none => exact ⟨⟨k1, k2⟩, rfl⟩
      | some m => exact ⟨⟨k1, k2⟩, rfl⟩

/-- The caches of a node are empty, or what they are filled with. -/
def NodeKept (fuel : Nat) (ix : Ix) (n : RescueNode) : Prop :=
  (∀ a, n.attr = some a → (newRescueNode n.owner n.ixInode).getAttr ix =
    .ok ({ newRescueNode n.owner n.ixInode with attr := some a }, .ok a)) ∧
  (n.dirItems ≠ [] → (newRescueNode n.owner n.ixInode).ensureDirItems fuel ix =
    .ok { newRescueNode n.owner n.ixInode with dirItems := n.dirItems })

theorem NodeKept.new (fuel : Nat) (ix : Ix) (o i : UInt64) : NodeKept fuel ix (newRescueNode o i) :=
  ⟨(fun a h => by cases h), (fun h => absurd rfl h)⟩

theorem getAttr_rel {fuel : Nat} {ix : Ix} {n : RescueNode} (h : NodeKept fuel ix n) :
    Go.Rel (fun x y => (NodeKept fuel ix x.1 ∧ x.1.owner = n.owner ∧ x.1.ixInode = n.ixInode) ∧ x.2 = y.2) (n.getAttr ix) ((newRescueNode n.owner n.ixInode).getAttr ix) := by
  cases ha : n.attr with
  | some a =>
    rw [h.1 a ha]
    unfold RescueNode.getAttr
    rw [ha]
    exact ⟨⟨h, rfl, rfl⟩, rfl⟩
  | none =>
    have h0 : ∀ m : RescueNode, m.attr = none → m.getAttr ix = (do
        match ← ix.findInodeItem m.owner m.ixInode with
        | none => return (m, .error .ENOATTR)
        | some ii =>
          let a ← attrOf m.ixInode ii
          return ({ m with attr := some a }, .ok a)) := by
      intro m hm
      unfold RescueNode.getAttr
      rw [hm]
      rfl
    have h1 := h0 n ha
    have h2 := h0 (newRescueNode n.owner n.ixInode) rfl
    rw [h1, h2]
    simp only [newRescueNode] at h2 ⊢
    cases hf : ix.findInodeItem n.owner n.ixInode with
    | panic => trivial
    | hang => trivial
    | ok r =>
      rw [hf] at h2
      cases r with
      | none => exact ⟨⟨h, rfl, rfl⟩, rfl⟩
      | some ii =>
        simp only [Go.ok_bind] at h2 ⊢
        cases hat : attrOf n.ixInode ii with
        | panic => trivial
        | hang => trivial
        | ok a =>
          rw [hat] at h2
          refine ⟨⟨⟨?_, h.2⟩, rfl, rfl⟩, rfl⟩
          rintro a' ha'
          cases ha'
          exact h2

theorem ensure_rel {fuel : Nat} {ix : Ix} {n : RescueNode} (h : NodeKept fuel ix n) :
    Go.Rel (fun x y => (NodeKept fuel ix x ∧ x.owner = n.owner ∧ x.ixInode = n.ixInode ∧ y.owner = n.owner) ∧ x.dirItems = y.dirItems)
      (n.ensureDirItems fuel ix) ((newRescueNode n.owner n.ixInode).ensureDirItems fuel ix) := by
  by_cases hd : n.dirItems = []
  · have h0 : ∀ m : RescueNode, m.dirItems = [] → m.ensureDirItems fuel ix = (do
        let (d, _) ← rangeLoop dirMapBody fuel [] (← ix.dirItems m.owner m.ixInode)
        return { m with dirItems := d }) := by
      intro m hm
      unfold RescueNode.ensureDirItems
      rw [hm, if_neg (by simp)]
    have h1 := h0 n hd
    have h2 := h0 (newRescueNode n.owner n.ixInode) rfl
    rw [h1, h2]
    simp only [newRescueNode] at h2 ⊢
    cases hr : ix.dirItems n.owner n.ixInode with
    | panic => trivial
    | hang => trivial
    | ok rd =>
      rw [hr] at h2
      simp only [Go.ok_bind] at h2 ⊢
      cases hl : rangeLoop dirMapBody fuel [] rd with
      | panic => trivial
      | hang => trivial
      | ok x =>
        rw [hl] at h2
        exact ⟨⟨⟨h.1, fun _ => h2⟩, rfl, rfl, rfl⟩, rfl⟩
  · rw [h.2 hd]
    unfold RescueNode.ensureDirItems
    rw [if_pos (List.length_pos_iff.mpr hd)]
    exact ⟨⟨h, rfl, rfl, rfl⟩, rfl⟩

theorem lookup_rel {fuel : Nat} {ix : Ix} {n : RescueNode} (h : NodeKept fuel ix n) (name : Bytes) :
    Go.Rel (fun x y => (NodeKept fuel ix x.1 ∧ x.1.owner = n.owner ∧ x.1.ixInode = n.ixInode ∧ ∀ c r, x.2 = .ok (c, r) → NodeKept fuel ix c) ∧ x.2 = y.2)
      (n.lookup fuel ix name) ((newRescueNode n.owner n.ixInode).lookup fuel ix name) := by
  unfold RescueNode.lookup
  refine (ensure_rel h).bind ?_
  rintro x y ⟨⟨h1, h2, h3, h4⟩, h5⟩
  rw [h5]
  cases y.dirItems.find name with
  | none => exact ⟨⟨h1, h2, h3, by rintro c r hc; cases hc⟩, rfl⟩
  | some d =>
    simp only
    refine (Go.Rel.refl (fun _ => rfl) _).bind ?_
    rintro loc _ rfl
    rw [h2, h4]
    refine (Go.Rel.refl (R := fun a b => a = b) (fun _ => rfl) _).bind ?_
    rintro isSub _ rfl
    have hchild : ∃ o i, (if (!isSub) = true then (.ok (newRescueNode n.owner loc.objectID) : Go RescueNode)
        else .ok (newRescueNode loc.objectID FirstFreeObjectID)) = .ok (newRescueNode o i) := by
      cases isSub
      · exact ⟨_, _, rfl⟩
      · exact ⟨_, _, rfl⟩
    obtain ⟨o, i, hchild⟩ := hchild
    rw [hchild]
    simp only [Go.ok_bind]
    refine (Go.Rel.refl (fun _ => rfl) _).bind ?_
    rintro isDir _ rfl
    have hg := getAttr_rel (NodeKept.new fuel ix o i)
    cases hx : (newRescueNode o i).getAttr ix with
    | panic => trivial
    | hang => trivial
    | ok r =>
      change Go.Rel _ ((newRescueNode o i).getAttr ix) ((newRescueNode o i).getAttr ix) at hg
      rw [hx] at hg
      refine ⟨⟨h1, h2, h3, ?_⟩, rfl⟩
      rintro c r' hc
      simp only [Except.ok.injEq, Prod.mk.injEq] at hc
      rw [← hc.1]
      exact hg.1.1

theorem openDir_rel {fuel : Nat} {ix : Ix} {n : RescueNode} (h : NodeKept fuel ix n) (ord : DirMap → DirMap) :
    Go.Rel (fun x y => (NodeKept fuel ix x.1 ∧ x.1.owner = n.owner ∧ x.1.ixInode = n.ixInode) ∧ x.2 = y.2)
      (n.openDir fuel ord ix) ((newRescueNode n.owner n.ixInode).openDir fuel ord ix) := by
  unfold RescueNode.openDir
  refine (ensure_rel h).bind ?_
  rintro x y ⟨⟨h1, h2, h3, h4⟩, h5⟩
  rw [h5]
  refine (Go.Rel.refl (fun _ => rfl) _).bind ?_
  rintro l _ rfl
  exact ⟨⟨h1, h2, h3⟩, rfl⟩

/-- Everything remembered is what would be found out again. -/
structure MountKept (fuel : Nat) (ix : Ix) (s : MountState) : Prop where
  cache : StripesKept fuel ix s.cache
  nodes : ∀ n ∈ s.nodes, NodeKept fuel ix n
  files : ∀ o i f, (o, i, f) ∈ s.files → ∃ c, (newRescueNode o i).open fuel ix none = .ok (c, .ok f)

/-- A request to a node, compared to the same on a fresh process. -/
theorem nodeStep_rel {fuel : Nat} {ix : Ix} {s : MountState} (hs : MountKept fuel ix s) {h : Nat} {n : RescueNode} (hn : NodeKept fuel ix n)
    (q : MountReq) :
    Go.Rel (fun x y => MountKept fuel ix x.1 ∧ x.2 = y.2) (nodeStep fuel ix s h n q)
      (nodeStep fuel ix (.only n.owner n.ixInode) 0 (newRescueNode n.owner n.ixInode) (q.to 0)) := by
  have hset : ∀ n', NodeKept fuel ix n' → ∀ m ∈ s.nodes.set h n', NodeKept fuel ix m := by
    intro n' hn' m hm
    rcases List.mem_or_eq_of_mem_set hm with hm | rfl
    · exact hs.nodes m hm
    · exact hn'
  cases q with
  | getAttr h' =>
    refine (getAttr_rel hn).bind ?_
    rintro ⟨x, a⟩ ⟨y, _⟩ ⟨⟨h1, -, -⟩, rfl⟩
    exact ⟨⟨hs.cache, hset x h1, hs.files⟩, rfl⟩
  | lookup h' name =>
    refine (lookup_rel hn name).bind ?_
    rintro ⟨x, a⟩ ⟨y, _⟩ ⟨⟨h1, -, -, h4⟩, rfl⟩
    cases a with
    | error e => exact ⟨⟨hs.cache, hset x h1, hs.files⟩, rfl⟩
    | ok c =>
      obtain ⟨c, isDir, a⟩ := c
      refine ⟨⟨hs.cache, ?_, hs.files⟩, rfl⟩
      intro m hm
      rcases List.mem_append.mp hm with hm | hm
      · exact hset x h1 m hm
      · rw [List.mem_singleton.mp hm]
        exact h4 _ _ rfl
  | openDir h' ord =>
    refine (openDir_rel hn ord).bind ?_
    rintro ⟨x, a⟩ ⟨y, _⟩ ⟨⟨h1, -, -⟩, rfl⟩
    exact ⟨⟨hs.cache, hset x h1, hs.files⟩, rfl⟩
  | «open» h' =>
    have hr := open_rel hs.cache (c' := none) (by intro m hm; cases hm) (n := n) (n' := newRescueNode n.owner n.ixInode) rfl rfl
    simp only [nodeStep, MountReq.to]
    have hc : (MountState.only n.owner n.ixInode).cache = none := rfl
    rw [hc]
    cases hx : n.open fuel ix s.cache with
    | panic => cases hy : (newRescueNode n.owner n.ixInode).open fuel ix none <;> rw [hx, hy] at hr <;> first | exact hr.elim | trivial
    | hang => cases hy : (newRescueNode n.owner n.ixInode).open fuel ix none <;> rw [hx, hy] at hr <;> first | exact hr.elim | trivial
    | ok r =>
      cases hy : (newRescueNode n.owner n.ixInode).open fuel ix none with
      | panic => rw [hx, hy] at hr; exact hr.elim
      | hang => rw [hx, hy] at hr; exact hr.elim
      | ok r' =>
        rw [hx, hy] at hr
        obtain ⟨c, f⟩ := r
        obtain ⟨c', f'⟩ := r'
        obtain ⟨⟨k1, k2⟩, k3⟩ := hr
        simp only at k1 k2 k3
        subst k3
        cases f with
        | error e => exact ⟨⟨k1, hs.nodes, hs.files⟩, rfl⟩
        | ok f =>
          refine ⟨⟨k1, hs.nodes, ?_⟩, rfl⟩
          intro o i f2 hf
          rcases List.mem_append.mp hf with hf | hf
          · exact hs.files o i f2 hf
          · rw [List.mem_singleton] at hf
            simp only [Prod.mk.injEq] at hf
            obtain ⟨rfl, rfl, rfl⟩ := hf
            exact ⟨c', hy⟩
  | getXAttr h' a =>
    refine (Go.Rel.refl (R := fun a b => a = b) (fun _ => rfl) (n.getXAttr fuel ix a)).bind ?_
    rintro r _ rfl
    exact ⟨hs, rfl⟩
  | listXAttr h' =>
    refine (Go.Rel.refl (R := fun a b => a = b) (fun _ => rfl) (n.listXAttr fuel ix)).bind ?_
    rintro r _ rfl
    exact ⟨hs, rfl⟩
  | readlink h' =>
    refine (Go.Rel.refl (R := fun a b => a = b) (fun _ => rfl) (n.readlink ix)).bind ?_
    rintro r _ rfl
    exact ⟨hs, rfl⟩
  | fileAttr f => exact ⟨hs, rfl⟩
  | read f buf off => exact ⟨hs, rfl⟩

theorem fileStep_keeps {ix : Ix} {dev : Option ReaderAt} {s s' : MountState} {f : UInt64 × UInt64 × OpenFile} {q : MountReq} {a : MountAns}
    (h : fileStep ix dev s f q = .ok (s', a)) : s' = s := by
  obtain ⟨o, i, f⟩ := f
  cases q <;> cases f <;> simp only [fileStep, Go.bind_eq_ok, Go.pure_eq, Go.ok.injEq, Prod.mk.injEq] at h <;>
    first | exact h.1.symm | (obtain ⟨_, _, h⟩ := h; exact h.1.symm)

theorem MountKept.step {fuel : Nat} {ix : Ix} {dev : Option ReaderAt} {s s' : MountState} {q : MountReq} {a : MountAns}
    (hs : MountKept fuel ix s) (h : mountStep fuel ix dev s q = .ok (s', a)) : MountKept fuel ix s' := by
  unfold mountStep at h
  cases ht : q.target with
  | inl k =>
    rw [ht] at h
    simp only at h
    cases hk : s.nodes[k]? with
    | none => rw [hk] at h; cases h; exact hs
    | some n =>
      rw [hk] at h
      simp only at h
      have hr := nodeStep_rel hs (h := k) (hs.nodes n (List.mem_of_getElem? hk)) q
      rw [h] at hr
      cases hy : nodeStep fuel ix (.only n.owner n.ixInode) 0 (newRescueNode n.owner n.ixInode) (q.to 0) with
      | ok y => rw [hy] at hr; exact hr.1
      | panic => rw [hy] at hr; exact hr.elim
      | hang => rw [hy] at hr; exact hr.elim
  | inr k =>
    rw [ht] at h
    simp only at h
    cases hk : s.files[k]? with
    | none => rw [hk] at h; cases h; exact hs
    | some f =>
      rw [hk] at h
      rw [fileStep_keeps h]
      exact hs

theorem MountKept.run {fuel : Nat} {ix : Ix} {dev : Option ReaderAt} (qs : List MountReq) :
    ∀ {s s' : MountState} {as : List MountAns}, MountKept fuel ix s → mountRunAll fuel ix dev s qs = .ok (s', as) → MountKept fuel ix s' := by
  induction qs with
  | nil => intro s s' as hs h; cases h; exact hs
  | cons q r ih =>
    intro s s' as hs h
    simp only [mountRunAll, Go.bind_eq_ok] at h
    obtain ⟨⟨s1, a⟩, h1, ⟨s2, as'⟩, h2, h3⟩ := h
    simp only [Go.pure_eq, Go.ok.injEq, Prod.mk.injEq] at h3
    obtain ⟨rfl, -⟩ := h3
    exact ih (hs.step h1) h2

theorem MountKept.start (fuel : Nat) (ix : Ix) : MountKept fuel ix {} where
  cache := by intro m hm; cases hm
  nodes := by
    intro n hn
    rw [List.mem_singleton.mp hn]
    exact NodeKept.new ..
  files := by intro o i f hf; cases hf

/-- C107: however long a mount has been in use, and whatever it was asked, a request about
an inode is answered as by a process that was just started, and a request crashes or does
not end if and only if it does for such a process. This holds for every index, damaged or
not, and every node made for the inode; requests are made one after the other (see C76
and C77). -/
theorem C107_node_requests (fuel : Nat) (ix : Ix) (dev : Option ReaderAt) (qs : List MountReq) (s : MountState) (as : List MountAns)
    (hs : mountRunAll fuel ix dev {} qs = .ok (s, as)) (q : MountReq) (h : Nat) (hq : q.target = .inl h)
    (n : RescueNode) (hn : s.nodes[h]? = some n) :
    answer (mountStep fuel ix dev s q) = answer (mountStep fuel ix dev (.only n.owner n.ixInode) (q.to 0)) := by
  have hok := (MountKept.start fuel ix).run qs hs
  have hr := nodeStep_rel hok (h := h) (hok.nodes n (List.mem_of_getElem? hn)) q
  have hq' : (q.to 0).target = .inl 0 := by
    cases q <;> simp only [MountReq.target, MountReq.to] at hq ⊢ <;> cases hq
  unfold mountStep
  rw [hq, hq']
  simp only [hn, MountState.only, List.getElem?_cons_zero]
  change Go.Rel _ _ (nodeStep fuel ix ⟨none, [newRescueNode n.owner n.ixInode], []⟩ 0 _ _) at hr
  generalize nodeStep fuel ix s h n q = x at hr
  generalize nodeStep fuel ix ⟨none, [newRescueNode n.owner n.ixInode], []⟩ 0 (newRescueNode n.owner n.ixInode) (q.to 0) = y at hr
  cases x <;> cases y <;> first | exact hr.elim | rfl | (simp only [answer]; rw [hr.2])

/-- C107: a file that was opened is what opening it in a process that was just started
gives; so what it answers (`fileStep` does not look at anything else) does not depend on
what was asked before either, except for what the buffers of reads contain
(`C107_old_bytes_refuted`). -/
theorem C107_open_files_partial (fuel : Nat) (ix : Ix) (dev : Option ReaderAt) (qs : List MountReq) (s : MountState) (as : List MountAns)
    (hs : mountRunAll fuel ix dev {} qs = .ok (s, as)) (k : Nat) (o i : UInt64) (f : OpenFile) (hf : s.files[k]? = some (o, i, f)) :
    (∃ c, (newRescueNode o i).open fuel ix none = .ok (c, .ok f)) ∧
    ∀ q, q.target = .inr k → answer (mountStep fuel ix dev s q) = answer (mountStep fuel ix dev ⟨none, [], [(o, i, f)]⟩ (q.to 0)) := by
  refine ⟨((MountKept.start fuel ix).run qs hs).files o i f (List.mem_of_getElem? hf), ?_⟩
  intro q hq
  have hq' : (q.to 0).target = .inr 0 := by
    cases q <;> simp only [MountReq.target, MountReq.to] at hq ⊢ <;> cases hq
  unfold mountStep
  rw [hq, hq']
  simp only [hf, List.getElem?_cons_zero]
  cases q <;> cases f <;> simp only [fileStep, MountReq.to, answer]
  · cases extentFileGetAttr ix o i _ <;> rfl
  · cases extentFileRead dev _ _ _ <;> rfl

theorem getAttr_ids {ix : Ix} {n n' : RescueNode} {a : Except FuseErr FuseAttr} (h : n.getAttr ix = .ok (n', a)) :
    n'.owner = n.owner ∧ n'.ixInode = n.ixInode := by
  unfold RescueNode.getAttr at h
  cases ha : n.attr with
  | some x =>
    rw [ha] at h
    simp only [Go.ok.injEq, Prod.mk.injEq] at h
    rw [← h.1]
    exact ⟨rfl, rfl⟩
  | none =>
    rw [ha] at h
    simp only [Go.bind_eq_ok] at h
    obtain ⟨r, -, h⟩ := h
    cases r with
    | none =>
      simp only [Go.pure_eq, Go.ok.injEq, Prod.mk.injEq] at h
      rw [← h.1]
      exact ⟨rfl, rfl⟩
    | some ii =>
      simp only [Go.bind_eq_ok, Go.pure_eq, Go.ok.injEq, Prod.mk.injEq] at h
      obtain ⟨_, _, h, _⟩ := h
      rw [← h]
      exact ⟨rfl, rfl⟩

theorem ensure_ids {fuel : Nat} {ix : Ix} {n n' : RescueNode} (h : n.ensureDirItems fuel ix = .ok n') :
    n'.owner = n.owner ∧ n'.ixInode = n.ixInode := by
  unfold RescueNode.ensureDirItems at h
  by_cases hl : 0 < n.dirItems.length
  · rw [if_pos hl] at h
    cases h
    exact ⟨rfl, rfl⟩
  · rw [if_neg hl] at h
    simp only [Go.bind_eq_ok, Go.pure_eq, Go.ok.injEq] at h
    obtain ⟨_, _, _, _, h⟩ := h
    rw [← h]
    exact ⟨rfl, rfl⟩

theorem lookup_ids {fuel : Nat} {ix : Ix} {n n' : RescueNode} {name : Bytes} {r : Except FuseErr (RescueNode × Bool × Except FuseErr FuseAttr)}
    (h : n.lookup fuel ix name = .ok (n', r)) : n'.owner = n.owner ∧ n'.ixInode = n.ixInode := by
  unfold RescueNode.lookup at h
  simp only [Go.bind_eq_ok] at h
  obtain ⟨m, hm, h⟩ := h
  have hi := ensure_ids hm
  cases hf : m.dirItems.find name with
  | none =>
    rw [hf] at h
    simp only [Go.pure_eq, Go.ok.injEq, Prod.mk.injEq] at h
    rw [← h.1]
    exact hi
  | some d =>
    rw [hf] at h
    simp only [Go.bind_eq_ok, Go.pure_eq, Go.ok.injEq, Prod.mk.injEq] at h
    obtain ⟨_, _, _, _, _, _, _, _, _, _, h, _⟩ := h
    rw [← h]
    exact hi

/-- C107: nodes and open files keep their meaning: after any request every node is still
that of the same inode, every open file the same, and a node for a name that was found is
added behind them. -/
theorem C107_nodes_stay (fuel : Nat) (ix : Ix) (dev : Option ReaderAt) (s s' : MountState) (q : MountReq) (a : MountAns)
    (h : mountStep fuel ix dev s q = .ok (s', a)) :
    (∀ (k : Nat) n, s.nodes[k]? = some n → ∃ n', s'.nodes[k]? = some n' ∧ n'.owner = n.owner ∧ n'.ixInode = n.ixInode) ∧
    (∀ (k : Nat) f, s.files[k]? = some f → s'.files[k]? = some f) ∧
    (∀ o i d r, a = .found o i d r → ∃ n', s'.nodes[s.nodes.length]? = some n' ∧ n'.owner = o ∧ n'.ixInode = i) ∧
    (∀ f, a = .opened f → ∃ k n, q = .open k ∧ s.nodes[k]? = some n ∧ s'.files[s.files.length]? = some (n.owner, n.ixInode, f)) := by
  have same : (∀ o i d r, a ≠ .found o i d r) → (∀ f, a ≠ .opened f) → s' = s → 
      (∀ (k : Nat) n, s.nodes[k]? = some n → ∃ n', s'.nodes[k]? = some n' ∧ n'.owner = n.owner ∧ n'.ixInode = n.ixInode) ∧
      (∀ (k : Nat) f, s.files[k]? = some f → s'.files[k]? = some f) ∧
      (∀ o i d r, a = .found o i d r → ∃ n', s'.nodes[s.nodes.length]? = some n' ∧ n'.owner = o ∧ n'.ixInode = i) ∧
      (∀ f, a = .opened f → ∃ k n, q = .open k ∧ s.nodes[k]? = some n ∧ s'.files[s.files.length]? = some (n.owner, n.ixInode, f)) := by
    rintro h1 h2 rfl
    exact ⟨fun k n hk => ⟨n, hk, rfl, rfl⟩, fun k f hk => hk, fun o i d r ha => absurd ha (h1 o i d r), fun f ha => absurd ha (h2 f)⟩
  unfold mountStep at h
  cases ht : q.target with
  | inr k =>
    rw [ht] at h
    simp only at h
    cases hk : s.files[k]? with
    | none =>
      rw [hk] at h
      simp only [Go.ok.injEq, Prod.mk.injEq] at h
      obtain ⟨rfl, rfl⟩ := h
      exact same (by intros; simp) (by intros; simp) rfl
    | some f =>
      rw [hk] at h
      simp only at h
      refine same ?_ ?_ (fileStep_keeps h)
      · rintro o i d r rfl
        obtain ⟨fo, fi, f⟩ := f
        cases q <;> cases f <;> simp [fileStep, Go.bind_eq_ok] at h
      · rintro g rfl
        obtain ⟨fo, fi, f⟩ := f
        cases q <;> cases f <;> simp [fileStep, Go.bind_eq_ok] at h
  | inl k =>
    rw [ht] at h
    simp only at h
    cases hk : s.nodes[k]? with
    | none =>
      rw [hk] at h
      simp only [Go.ok.injEq, Prod.mk.injEq] at h
      obtain ⟨rfl, rfl⟩ := h
      exact same (by intros; simp) (by intros; simp) rfl
    | some n =>
      rw [hk] at h
      simp only at h
      have hlt : k < s.nodes.length := (List.getElem?_eq_some_iff.mp hk).1
      -- replacing the node by one for the same inode
      have hset : ∀ (n' : RescueNode), n'.owner = n.owner → n'.ixInode = n.ixInode → ∀ (tl : List RescueNode) (j : Nat) m,
          s.nodes[j]? = some m → ∃ m', (s.nodes.set k n' ++ tl)[j]? = some m' ∧ m'.owner = m.owner ∧ m'.ixInode = m.ixInode := by
        intro n' e1 e2 tl j m hj
        have hj' : j < (s.nodes.set k n').length := by
          rw [List.length_set]; exact (List.getElem?_eq_some_iff.mp hj).1
        rw [List.getElem?_append_left hj', List.getElem?_set]
        by_cases hkj : k = j
        · subst hkj
          rw [if_pos rfl, if_pos hlt]
          rw [hk] at hj
          cases hj
          exact ⟨n', rfl, e1, e2⟩
        · rw [if_neg hkj]
          exact ⟨m, hj, rfl, rfl⟩
      have hset0 : ∀ (n' : RescueNode), n'.owner = n.owner → n'.ixInode = n.ixInode → ∀ (j : Nat) m,
          s.nodes[j]? = some m → ∃ m', (s.nodes.set k n')[j]? = some m' ∧ m'.owner = m.owner ∧ m'.ixInode = m.ixInode := by
        intro n' e1 e2 j m hj
        have := hset n' e1 e2 [] j m hj
        rwa [List.append_nil] at this
      cases q with
      | getAttr k' =>
        simp only [nodeStep, Go.bind_eq_ok] at h
        obtain ⟨⟨n', r⟩, h1, h2⟩ := h
        simp only [Go.pure_eq, Go.ok.injEq, Prod.mk.injEq] at h2
        obtain ⟨rfl, rfl⟩ := h2
        obtain ⟨e1, e2⟩ := getAttr_ids h1
        exact ⟨hset0 n' e1 e2, fun _ _ hf => hf, by intros; simp_all, by intros; simp_all⟩
      | lookup k' name =>
        simp only [nodeStep, Go.bind_eq_ok] at h
        obtain ⟨⟨n', r⟩, h1, h2⟩ := h
        obtain ⟨e1, e2⟩ := lookup_ids h1
        cases r with
        | error e =>
          simp only [Go.pure_eq, Go.ok.injEq, Prod.mk.injEq] at h2
          obtain ⟨rfl, rfl⟩ := h2
          exact ⟨hset0 n' e1 e2, fun _ _ hf => hf, by intros; simp_all, by intros; simp_all⟩
        | ok c =>
          obtain ⟨c, isDir, r⟩ := c
          simp only [Go.pure_eq, Go.ok.injEq, Prod.mk.injEq] at h2
          obtain ⟨rfl, rfl⟩ := h2
          refine ⟨hset n' e1 e2 [c], fun _ _ hf => hf, ?_, by intros; simp_all⟩
          intro o i d r' ha
          simp only [MountAns.found.injEq] at ha
          obtain ⟨rfl, rfl, -, -⟩ := ha
          refine ⟨c, ?_, rfl, rfl⟩
          have hl : (s.nodes.set k n').length = s.nodes.length := List.length_set ..
          rw [← hl]
          exact List.getElem?_concat_length ..
      | openDir k' ord =>
        simp only [nodeStep, Go.bind_eq_ok] at h
        obtain ⟨⟨n', r⟩, h1, h2⟩ := h
        simp only [Go.pure_eq, Go.ok.injEq, Prod.mk.injEq] at h2
        obtain ⟨rfl, rfl⟩ := h2
        unfold RescueNode.openDir at h1
        simp only [Go.bind_eq_ok, Go.pure_eq, Go.ok.injEq, Prod.mk.injEq] at h1
        obtain ⟨m, hm, _, _, rfl, _⟩ := h1
        obtain ⟨e1, e2⟩ := ensure_ids hm
        exact ⟨hset0 m e1 e2, fun _ _ hf => hf, by intros; simp_all, by intros; simp_all⟩
      | «open» k' =>
        simp only [nodeStep, Go.bind_eq_ok] at h
        obtain ⟨⟨c, r⟩, h1, h2⟩ := h
        cases r with
        | error e =>
          simp only [Go.pure_eq, Go.ok.injEq, Prod.mk.injEq] at h2
          obtain ⟨rfl, rfl⟩ := h2
          exact ⟨fun j m hj => ⟨m, hj, rfl, rfl⟩, fun _ _ hf => hf, by intros; simp_all, by intros; simp_all⟩
        | ok f =>
          simp only [Go.pure_eq, Go.ok.injEq, Prod.mk.injEq] at h2
          obtain ⟨rfl, rfl⟩ := h2
          refine ⟨fun j m hj => ⟨m, hj, rfl, rfl⟩, ?_, by intros; simp_all, ?_⟩
          · intro j g hj
            rw [List.getElem?_append_left (List.getElem?_eq_some_iff.mp hj).1]
            exact hj
          · intro g hg
            simp only [MountAns.opened.injEq] at hg
            subst hg
            simp only [MountReq.target, Sum.inl.injEq] at ht
            subst ht
            exact ⟨k', n, rfl, hk, List.getElem?_concat_length ..⟩
      | getXAttr k' x =>
        simp only [nodeStep, Go.bind_eq_ok, Go.pure_eq, Go.ok.injEq, Prod.mk.injEq] at h
        obtain ⟨_, _, rfl, rfl⟩ := h
        exact same (by intros; simp) (by intros; simp) rfl
      | listXAttr k' =>
        simp only [nodeStep, Go.bind_eq_ok, Go.pure_eq, Go.ok.injEq, Prod.mk.injEq] at h
        obtain ⟨_, _, rfl, rfl⟩ := h
        exact same (by intros; simp) (by intros; simp) rfl
      | readlink k' =>
        simp only [nodeStep, Go.bind_eq_ok, Go.pure_eq, Go.ok.injEq, Prod.mk.injEq] at h
        obtain ⟨_, _, rfl, rfl⟩ := h
        exact same (by intros; simp) (by intros; simp) rfl
      | fileAttr f => simp [MountReq.target] at ht
      | read f buf off => simp [MountReq.target] at ht

/-- The bytes in an answer. -/
def MountAns.data : Go MountAns → Option Bytes
  | .ok (.bytes (.ok b)) => some b
  | _ => none

/-- Looking up the file `a` in the index `exOneExtent` and opening it, with a device of two
bytes, where the file has four. -/
def exSession : Go (MountState × List MountAns) :=
  mountRunAll 9 ⟨(exOneExtent 4 ⟨9, 4, 0, 0, 0, 1, 16, 4, 0, 4⟩).enc, ~~~0⟩ (some (imageReader [5, 6])) {} [.lookup 0 [97], .open 1]

/-- C107 is false of the code for reads: on a device that ends early (or where a file has
a gap, `C50_gap_returns_old_bytes`) the answer contains what the buffer held before, which
is what an earlier request left there. -/
theorem C107_old_bytes_refuted (v w : UInt8) : ∃ s as, exSession = .ok (s, as) ∧
    MountAns.data (answer (mountStep 9 ⟨(exOneExtent 4 ⟨9, 4, 0, 0, 0, 1, 16, 4, 0, 4⟩).enc, ~~~0⟩ (some (imageReader [5, 6])) s
      (.read 0 [v, w, v, w] 0))) = some [5, 6, v, w] := by
  have h : ∃ n as, exSession = .ok (⟨some [⟨16, 1, 0⟩], n, [(5, 257, .extents [⟨0, 4, 0, 16, 1⟩])]⟩, as) := by
    have h1 : (match exSession with
        | .ok (s, _) => decide (s.cache = some [⟨16, 1, 0⟩] ∧ s.files = [(5, 257, .extents [⟨0, 4, 0, 16, 1⟩])])
        | _ => false) = true := by decide +kernel
    cases hx : exSession with
    | panic => rw [hx] at h1; cases h1
    | hang => rw [hx] at h1; cases h1
    | ok r =>
      obtain ⟨⟨c, n, f⟩, as⟩ := r
      rw [hx] at h1
      obtain ⟨h2, h3⟩ := of_decide_eq_true h1
      simp only at h2 h3
      subst h2; subst h3
      exact ⟨n, as, rfl⟩
  obtain ⟨n, as, h⟩ := h
  refine ⟨_, as, h, ?_⟩
  have hr : extentFileRead (some (imageReader [5, 6])) [⟨0, 4, 0, 16, 1⟩] [v, w, v, w] 0 = .ok (.ok [5, 6, v, w]) := by
    have step := readLoop_step (dev := some (imageReader [5, 6])) (off := 0) (c := 0) (e := ⟨0, 4, 0, 16, 1⟩) (rest := [])
      (buf := [v, w, v, w]) (by decide) (show 0 + 4 < 2 ^ 63 by decide) (Nat.zero_le _) (rs := 0) (re := 4) (by decide) rfl (by decide)
    exact read_eq (c := 4) (buf' := [5, 6, v, w]) _ _ _ 0 (step.trans rfl) (show 4 ≤ 4 by decide)
  simp only [mountStep, MountReq.target, List.getElem?_cons_zero, fileStep, hr]
  rfl

/-- The hypotheses of `C107_node_requests` are met: after this session, looking the file up
again, by the same node, which has filled its caches. -/
example : ∃ s as n, exSession = .ok (s, as) ∧ s.nodes[0]? = some n ∧ n.dirItems.length = 1 ∧ n.owner = 5 ∧ n.ixInode = 256 := by
  have h1 : (match exSession with
      | .ok (s, _) => (match s.nodes[0]? with
        | some n => decide (n.dirItems.length = 1 ∧ n.owner = 5 ∧ n.ixInode = 256)
        | none => false)
      | _ => false) = true := by decide +kernel
  cases hx : exSession with
  | panic => rw [hx] at h1; cases h1
  | hang => rw [hx] at h1; cases h1
  | ok r =>
    obtain ⟨s, as⟩ := r
    rw [hx] at h1
    simp only at h1
    cases hn : s.nodes[0]? with
    | none => rw [hn] at h1; cases h1
    | some n => rw [hn] at h1; exact ⟨s, as, n, rfl, hn, of_decide_eq_true h1⟩

end Btrfscue
