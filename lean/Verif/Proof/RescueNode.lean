import Verif.Spec.RescueNode
import Verif.Proof.Path
import Mathlib.Tactic.Tauto
/-!
# Lemmas about mounted nodes
-/

namespace Btrfscue

/-- A loop that never breaks and returns has seen a complete run of the range. -/
theorem rangeLoop_yields {σ : Type} (body : σ → Range → Slice → Go (σ × Bool))
    (hb : ∀ s r d s' b, body s r d = .ok (s', b) → b = false) :
    ∀ {fuel : Nat} {s : σ} {rd : Range × Slice} {res : σ × Bool}, rangeLoop body fuel s rd = .ok res →
      ∃ items, Range.Yields rd items ∧ items.length < fuel ∧ foldRange body s items = .ok res := by
  intro fuel
  induction fuel with
  | zero => intro _ _ _ h; cases h
  | succ n ih =>
    intro s rd res h
    obtain ⟨r, d⟩ := rd
    simp only [rangeLoop] at h
    by_cases hn : r.hasNext = true
    · rw [if_pos hn] at h
      simp only [Go.bind_eq_ok] at h
      obtain ⟨⟨s', b⟩, h1, h2⟩ := h
      have := hb _ _ _ _ _ h1
      subst this
      simp only [Bool.false_eq_true, if_false, Go.bind_eq_ok] at h2
      obtain ⟨⟨r', d'⟩, h3, h4⟩ := h2
      obtain ⟨items, hy, hl, hf⟩ := ih h4
      refine ⟨(r, d) :: items, .step hn h3 hy, by simp only [List.length_cons]; omega, ?_⟩
      simp only [foldRange, h1, Go.ok_bind, Bool.false_eq_true, if_false]
      exact hf
    · rw [if_neg hn] at h
      cases h
      exact ⟨[], .done (by simpa using hn), by simp, rfl⟩

/-! ## The map of directory items -/

theorem DirMap.find_put (m : DirMap) (name : Bytes) (d : DirItem) (n' : Bytes) :
    (m.put name d).find n' = if name = n' then some d else m.find n' := by
  induction m with
  | nil =>
    simp only [DirMap.put, DirMap.find]
  | cons e r ih =>
    simp only [DirMap.put]
    by_cases h : e.1 = name
    · rw [if_pos h]
      simp only [DirMap.find]
      by_cases h2 : name = n'
      · rw [if_pos h2, if_pos h2]
      · rw [if_neg h2, if_neg h2, if_neg (by rw [h]; exact h2)]
    · rw [if_neg h]
      simp only [DirMap.find]
      by_cases h2 : e.1 = n'
      · rw [if_pos h2, if_pos h2, if_neg (by rintro rfl; exact h h2)]
      · rw [if_neg h2, if_neg h2, ih]

theorem DirMap.keys_put (m : DirMap) (name : Bytes) (d : DirItem) :
    ∀ k, k ∈ (m.put name d).map (·.1) ↔ k = name ∨ k ∈ m.map (·.1) := by
  intro k
  induction m with
  | nil => simp [DirMap.put]
  | cons e r ih =>
    simp only [DirMap.put]
    by_cases h : e.1 = name
    · rw [if_pos h]
      simp only [List.map_cons, List.mem_cons, h]
      tauto
    · rw [if_neg h]
      simp only [List.map_cons, List.mem_cons, ih]
      tauto

theorem DirMap.nodup_put {m : DirMap} (h : (m.map (·.1)).Nodup) (name : Bytes) (d : DirItem) :
    ((m.put name d).map (·.1)).Nodup := by
  induction m with
  | nil => simp [DirMap.put]
  | cons e r ih =>
    simp only [DirMap.put]
    simp only [List.map_cons, List.nodup_cons] at h
    by_cases he : e.1 = name
    · rw [if_pos he]
      simp only [List.map_cons, List.nodup_cons]
      rw [← he]; exact h
    · rw [if_neg he]
      simp only [List.map_cons, List.nodup_cons]
      refine ⟨?_, ih h.2⟩
      rw [DirMap.keys_put]
      rintro (hc | hc)
      · exact he hc
      · exact h.1 hc

theorem DirMap.mem_put {m : DirMap} {name : Bytes} {d : DirItem} {e : Bytes × DirItem}
    (h : e ∈ m.put name d) : e = (name, d) ∨ e ∈ m := by
  induction m with
  | nil => simp only [DirMap.put, List.mem_singleton] at h; exact Or.inl h
  | cons x r ih =>
    simp only [DirMap.put] at h
    split at h
    · rcases List.mem_cons.mp h with h | h
      · exact Or.inl h
      · exact Or.inr (List.mem_cons_of_mem _ h)
    · rcases List.mem_cons.mp h with h | h
      · exact Or.inr (by rw [h]; exact List.mem_cons_self)
      · rcases ih h with h | h
        · exact Or.inl h
        · exact Or.inr (List.mem_cons_of_mem _ h)

theorem DirMap.find_mem {m : DirMap} {name : Bytes} {d : DirItem} (h : m.find name = some d) : (name, d) ∈ m := by
  induction m with
  | nil => cases h
  | cons e r ih =>
    simp only [DirMap.find] at h
    split at h
    · rename_i he
      cases h
      rw [← he]
      exact List.mem_cons_self
    · exact List.mem_cons_of_mem _ (ih h)

theorem DirMap.find_none {m : DirMap} {name : Bytes} : m.find name = none ↔ name ∉ m.map (·.1) := by
  induction m with
  | nil => simp [DirMap.find]
  | cons e r ih =>
    simp only [DirMap.find, List.map_cons, List.mem_cons, not_or]
    by_cases h : e.1 = name
    · rw [if_pos h]; simp [h]
    · rw [if_neg h, ih]; exact ⟨fun hx => ⟨fun hc => h hc.symm, hx⟩, fun hx => hx.2⟩

/-- What the loop over the directory items leaves in the map. -/
structure DirMapOK (P : DirItem → Prop) (m : DirMap) : Prop where
  names : ∀ e ∈ m, DirItem.name e.2 = .ok e.1 ∧ P e.2
  nodup : (m.map (·.1)).Nodup

theorem foldDirMap {P : DirItem → Prop} :
    ∀ (items : List (Range × Slice)) (m : DirMap) {res : DirMap × Bool}, DirMapOK P m → (∀ e ∈ items, P e.2) →
      foldRange dirMapBody m items = .ok res →
      DirMapOK P res.1 ∧ (∀ k ∈ m.map (·.1), k ∈ res.1.map (·.1)) ∧
      (∀ e ∈ items, ∃ k, DirItem.name e.2 = .ok k ∧ k ∈ res.1.map (·.1)) ∧
      (∀ e ∈ res.1, e ∈ m ∨ ∃ x ∈ items, x.2 = e.2) := by
  intro items
  induction items with
  | nil =>
    intro m res hm _ h
    cases h
    exact ⟨hm, fun _ h => h, by simp, fun e he => Or.inl he⟩
  | cons x r ih =>
    intro m res hm hP h
    obtain ⟨rg, d⟩ := x
    simp only [foldRange, dirMapBody, Go.bind_eq_ok] at h
    obtain ⟨⟨m', b⟩, ⟨nm, h1, h2⟩, h3⟩ := h
    cases h2
    simp only [Bool.false_eq_true, if_false] at h3
    have hPd := hP _ List.mem_cons_self
    have hm' : DirMapOK P (m.put nm d) := ⟨by
        intro e he
        rcases DirMap.mem_put he with rfl | he
        · exact ⟨h1, hPd⟩
        · exact hm.names e he, DirMap.nodup_put hm.nodup _ _⟩
    obtain ⟨a1, a2, a3, a4⟩ := ih (m.put nm d) hm' (fun e he => hP e (List.mem_cons_of_mem _ he)) h3
    refine ⟨a1, fun k hk => a2 k ((DirMap.keys_put _ _ _ _).mpr (Or.inr hk)), ?_, ?_⟩
    · intro e he
      rcases List.mem_cons.mp he with rfl | he
      · exact ⟨nm, h1, a2 nm ((DirMap.keys_put _ _ _ _).mpr (Or.inl rfl))⟩
      · exact a3 e he
    · intro e he
      rcases a4 e he with h | ⟨x, hx, hxe⟩
      · rcases DirMap.mem_put h with rfl | h
        · exact Or.inr ⟨_, List.mem_cons_self, rfl⟩
        · exact Or.inl h
      · exact Or.inr ⟨x, List.mem_cons_of_mem _ hx, hxe⟩

theorem dirMapBody_nobreak (s : DirMap) (r : Range) (d : Slice) (s' : DirMap) (b : Bool)
    (h : dirMapBody s r d = .ok (s', b)) : b = false := by
  simp only [dirMapBody, Go.bind_eq_ok] at h
  obtain ⟨_, _, h⟩ := h
  cases h; rfl

/-- The map of a fresh node. -/
theorem ensure_fresh {fuel : Nat} {ix : Ix} {o i : UInt64} {n : RescueNode}
    (h : (newRescueNode o i).ensureDirItems fuel ix = .ok n) :
    n.owner = o ∧ n.ixInode = i ∧ n.attr = none ∧ ∃ rd items, ix.dirItems o i = .ok rd ∧ Range.Yields rd items ∧
      foldRange dirMapBody [] items = .ok (n.dirItems, false) := by
  unfold RescueNode.ensureDirItems newRescueNode at h
  rw [if_neg (by simp)] at h
  simp only [Go.bind_eq_ok] at h
  obtain ⟨rd, h1, ⟨m, b⟩, h2, h3⟩ := h
  cases h3
  obtain ⟨items, hy, -, hf⟩ := rangeLoop_yields _ dirMapBody_nobreak h2
  refine ⟨rfl, rfl, rfl, rd, items, h1, hy, ?_⟩
  have : b = false := by
    clear h1 h2 hy
    generalize ([] : DirMap) = m0 at hf
    induction items generalizing m0 with
    | nil => cases hf; rfl
    | cons x r ih =>
      obtain ⟨rg, d⟩ := x
      simp only [foldRange, Go.bind_eq_ok] at hf
      obtain ⟨⟨m', b'⟩, a1, a2⟩ := hf
      have := dirMapBody_nobreak _ _ _ _ _ a1
      subst this
      simp only [Bool.false_eq_true, if_false] at a2
      exact ih _ a2
  subst this
  exact hf

theorem ensure_fresh_ok {fuel : Nat} {ix : Ix} {o i : UInt64} {n : RescueNode}
    (h : (newRescueNode o i).ensureDirItems fuel ix = .ok n) : DirMapOK (fun _ => True) n.dirItems := by
  obtain ⟨-, -, -, rd, items, -, -, h2⟩ := ensure_fresh h
  exact (foldDirMap items [] ⟨by simp, by simp⟩ (by simp) h2).1

theorem openDirLoop_spec : ∀ (l : List (Bytes × DirItem)) {es : List (Bytes × Bool)}, openDirLoop l = .ok es →
    (∀ e ∈ l, DirItem.name e.2 = .ok e.1) →
    es.map (·.1) = l.map (·.1) ∧ (∀ x ∈ es, ∃ e ∈ l, e.1 = x.1 ∧ DirItem.isDir e.2 = .ok x.2) := by
  intro l
  induction l with
  | nil => intro es h _; cases h; exact ⟨rfl, by simp⟩
  | cons e r ih =>
    intro es h hn
    simp only [openDirLoop, Go.bind_eq_ok] at h
    obtain ⟨nm, h1, isd, h2, es', h3, h4⟩ := h
    cases h4
    have h5 := hn e List.mem_cons_self
    rw [h1] at h5
    cases h5
    obtain ⟨a1, a2⟩ := ih h3 fun x hx => hn x (List.mem_cons_of_mem _ hx)
    refine ⟨by simp only [List.map_cons, a1], ?_⟩
    intro x hx
    rcases List.mem_cons.mp hx with rfl | hx
    · exact ⟨e, List.mem_cons_self, rfl, h2⟩
    · obtain ⟨e', he', h6⟩ := a2 x hx
      exact ⟨e', List.mem_cons_of_mem _ he', h6⟩

/-! ## Caches -/

/-- A node reached from a fresh one by operations: its caches hold what a fresh node
would compute. -/
structure NodeOK (fuel : Nat) (ix : Ix) (o i : UInt64) (n : RescueNode) : Prop where
  owner : n.owner = o
  inode : n.ixInode = i
  attr : ∀ a, n.attr = some a → ∃ n', (newRescueNode o i).getAttr ix = .ok (n', .ok a)
  dirs : n.dirItems ≠ [] → ∃ n', (newRescueNode o i).ensureDirItems fuel ix = .ok n' ∧ n'.dirItems = n.dirItems

theorem nodeOK_fresh (fuel : Nat) (ix : Ix) (o i : UInt64) : NodeOK fuel ix o i (newRescueNode o i) where
  owner := rfl
  inode := rfl
  attr := fun a h => by cases h
  dirs := fun h => absurd rfl h

theorem getAttr_cached {fuel : Nat} {ix : Ix} {o i : UInt64} {n : RescueNode} (h : NodeOK fuel ix o i n) :
    (n.getAttr ix >>= fun x => Go.ok x.2) = ((newRescueNode o i).getAttr ix >>= fun x => Go.ok x.2) ∧
    ∀ x, n.getAttr ix = .ok x → NodeOK fuel ix o i x.1 := by
  obtain ⟨ho, hi, ha, hd⟩ := h
  cases hna : n.attr with
  | some a =>
    obtain ⟨n', hn'⟩ := ha a hna
    have e : n.getAttr ix = .ok (n, .ok a) := by unfold RescueNode.getAttr; rw [hna]
    rw [e, hn']
    refine ⟨rfl, ?_⟩
    intro x hx
    cases hx
    exact ⟨ho, hi, ha, hd⟩
  | none =>
    have e1 : (newRescueNode o i).getAttr ix = (ix.findInodeItem o i >>= fun r => match r with
        | none => Go.ok (newRescueNode o i, .error .ENOATTR)
        | some ii => attrOf i ii >>= fun a => Go.ok ({ newRescueNode o i with attr := some a }, .ok a)) := rfl
    have e2 : n.getAttr ix = (ix.findInodeItem o i >>= fun r => match r with
        | none => Go.ok (n, .error .ENOATTR)
        | some ii => attrOf i ii >>= fun a => Go.ok ({ n with attr := some a }, .ok a)) := by
      unfold RescueNode.getAttr; rw [hna, ho, hi]; rfl
    cases hf : ix.findInodeItem o i with
    | panic => rw [hf] at e1 e2; rw [e1, e2]; exact ⟨rfl, by intro x hx; cases hx⟩
    | hang => rw [hf] at e1 e2; rw [e1, e2]; exact ⟨rfl, by intro x hx; cases hx⟩
    | ok r =>
      rw [hf, Go.ok_bind] at e1 e2
      cases r with
      | none =>
        rw [e1, e2]
        exact ⟨rfl, by intro x hx; cases hx; exact ⟨ho, hi, ha, hd⟩⟩
      | some ii =>
        simp only at e1 e2
        cases hat : attrOf i ii with
        | panic => rw [hat] at e1 e2; rw [e1, e2]; exact ⟨rfl, by intro x hx; cases hx⟩
        | hang => rw [hat] at e1 e2; rw [e1, e2]; exact ⟨rfl, by intro x hx; cases hx⟩
        | ok a =>
          rw [hat, Go.ok_bind] at e1 e2
          refine ⟨by rw [e1, e2]; rfl, ?_⟩
          intro x hx
          rw [e2] at hx
          cases hx
          refine ⟨ho, hi, ?_, hd⟩
          intro a' ha'
          cases ha'
          exact ⟨_, e1⟩

theorem ensure_cached {fuel : Nat} {ix : Ix} {o i : UInt64} {n : RescueNode} (h : NodeOK fuel ix o i n) :
    n.ensureDirItems fuel ix = ((newRescueNode o i).ensureDirItems fuel ix >>= fun x =>
      Go.ok { n with dirItems := x.dirItems }) ∧
    ∀ x, n.ensureDirItems fuel ix = .ok x → NodeOK fuel ix o i x := by
  obtain ⟨ho, hi, ha, hd⟩ := h
  by_cases hne : n.dirItems = []
  · have e1 : (newRescueNode o i).ensureDirItems fuel ix = (ix.dirItems o i >>= fun rd =>
        rangeLoop dirMapBody fuel [] rd >>= fun m => Go.ok { newRescueNode o i with dirItems := m.1 }) := rfl
    have e2 : n.ensureDirItems fuel ix = (ix.dirItems o i >>= fun rd =>
        rangeLoop dirMapBody fuel [] rd >>= fun m => Go.ok { n with dirItems := m.1 }) := by
      unfold RescueNode.ensureDirItems
      rw [if_neg (by rw [hne]; simp), ho, hi, hne]; rfl
    cases h1 : ix.dirItems o i with
    | panic => rw [h1] at e1 e2; rw [e1, e2]; exact ⟨rfl, by intro x hx; cases hx⟩
    | hang => rw [h1] at e1 e2; rw [e1, e2]; exact ⟨rfl, by intro x hx; cases hx⟩
    | ok rd =>
      rw [h1, Go.ok_bind] at e1 e2
      cases h2 : rangeLoop dirMapBody fuel [] rd with
      | panic => rw [h2] at e1 e2; rw [e1, e2]; exact ⟨rfl, by intro x hx; cases hx⟩
      | hang => rw [h2] at e1 e2; rw [e1, e2]; exact ⟨rfl, by intro x hx; cases hx⟩
      | ok m =>
        rw [h2, Go.ok_bind] at e1 e2
        refine ⟨by rw [e1, e2]; rfl, ?_⟩
        intro x hx
        rw [e2] at hx
        cases hx
        exact ⟨ho, hi, ha, fun _ => ⟨_, e1, rfl⟩⟩
  · obtain ⟨n', h1, h2⟩ := hd hne
    have e : n.ensureDirItems fuel ix = .ok n := by
      unfold RescueNode.ensureDirItems
      rw [if_pos (List.length_pos_iff.mpr hne)]
    rw [e, h1, Go.ok_bind, h2]
    exact ⟨rfl, by intro x hx; cases hx; exact ⟨ho, hi, ha, hd⟩⟩

/-- What `Lookup` does once the map is there. -/
def lookupIn (ix : Ix) (o : UInt64) (m : DirMap) (name : Bytes) :
    Go (Except FuseErr (RescueNode × Bool × Except FuseErr FuseAttr)) :=
  match m.find name with
  | none => .ok (.error .ENOENT)
  | some d =>
    DirItem.location d >>= fun loc =>
    DirItem.isSubvolume d >>= fun sv =>
    DirItem.isDir d >>= fun isDir =>
    (if !sv then newRescueNode o loc.objectID else newRescueNode loc.objectID FirstFreeObjectID).getAttr ix >>= fun ca =>
    .ok (.ok (ca.1, isDir, ca.2))

theorem lookup_eq {fuel : Nat} {ix : Ix} {n : RescueNode} {name : Bytes} :
    n.lookup fuel ix name = (n.ensureDirItems fuel ix >>= fun n' =>
      lookupIn ix n'.owner n'.dirItems name >>= fun r => Go.ok (n', r)) := by
  unfold RescueNode.lookup lookupIn
  congr 1
  funext n'
  cases n'.dirItems.find name with
  | none => rfl
  | some d =>
    simp only
    cases DirItem.location d with
    | panic => rfl
    | hang => rfl
    | ok loc =>
      simp only [Go.ok_bind]
      cases DirItem.isSubvolume d with
      | panic => rfl
      | hang => rfl
      | ok sv =>
        simp only [Go.ok_bind]
        cases DirItem.isDir d with
        | panic => cases sv <;> rfl
        | hang => cases sv <;> rfl
        | ok isd =>
          cases sv <;> simp only [Go.ok_bind, Bool.not_true, Bool.not_false, if_true, if_false, Bool.false_eq_true]
          · cases (newRescueNode n'.owner loc.objectID).getAttr ix with
            | panic => rfl
            | hang => rfl
            | ok x => rfl
          · cases (newRescueNode loc.objectID FirstFreeObjectID).getAttr ix with
            | panic => rfl
            | hang => rfl
            | ok x => rfl

theorem run_cached {fuel : Nat} {ix : Ix} {o i : UInt64} {n : RescueNode} (h : NodeOK fuel ix o i n) (op : NodeOp) :
    (op.run fuel ix n >>= fun x => Go.ok x.2) = (op.run fuel ix (newRescueNode o i) >>= fun x => Go.ok x.2) ∧
    ∀ x, op.run fuel ix n = .ok x → NodeOK fuel ix o i x.1 := by
  cases op with
  | getAttr =>
    obtain ⟨h1, h2⟩ := getAttr_cached h
    simp only [NodeOp.run]
    cases e1 : n.getAttr ix with
    | panic =>
      rw [e1] at h1
      cases e2 : (newRescueNode o i).getAttr ix with
      | panic => exact ⟨rfl, by intro x hx; cases hx⟩
      | hang => rw [e2] at h1; cases h1
      | ok y => rw [e2] at h1; cases h1
    | hang =>
      rw [e1] at h1
      cases e2 : (newRescueNode o i).getAttr ix with
      | hang => exact ⟨rfl, by intro x hx; cases hx⟩
      | panic => rw [e2] at h1; cases h1
      | ok y => rw [e2] at h1; cases h1
    | ok x =>
      rw [e1] at h1
      cases e2 : (newRescueNode o i).getAttr ix with
      | hang => rw [e2] at h1; cases h1
      | panic => rw [e2] at h1; cases h1
      | ok y =>
        rw [e2] at h1
        simp only [Go.ok_bind, Go.ok.injEq] at h1
        refine ⟨by simp only [Go.ok_bind]; rw [← h1]; rfl, ?_⟩
        intro z hz
        cases hz
        exact h2 x e1
  | lookup name =>
    obtain ⟨h1, h2⟩ := ensure_cached h
    simp only [NodeOp.run, lookup_eq]
    cases e2 : (newRescueNode o i).ensureDirItems fuel ix with
    | panic => rw [e2] at h1; rw [h1]; exact ⟨rfl, by intro x hx; cases hx⟩
    | hang => rw [e2] at h1; rw [h1]; exact ⟨rfl, by intro x hx; cases hx⟩
    | ok f =>
      rw [e2, Go.ok_bind] at h1
      have hf := (ensure_fresh e2).1
      rw [h1]
      simp only [Go.ok_bind, h.owner, hf]
      cases lookupIn ix o f.dirItems name with
      | panic => exact ⟨rfl, by intro x hx; cases hx⟩
      | hang => exact ⟨rfl, by intro x hx; cases hx⟩
      | ok r => exact ⟨rfl, by intro x hx; cases hx; exact h2 _ (by rw [h1, h.owner])⟩
  | openDir ord =>
    obtain ⟨h1, h2⟩ := ensure_cached h
    simp only [NodeOp.run, RescueNode.openDir]
    cases e2 : (newRescueNode o i).ensureDirItems fuel ix with
    | panic => rw [e2] at h1; rw [h1]; exact ⟨rfl, by intro x hx; cases hx⟩
    | hang => rw [e2] at h1; rw [h1]; exact ⟨rfl, by intro x hx; cases hx⟩
    | ok f =>
      rw [e2, Go.ok_bind] at h1
      rw [h1]
      simp only [Go.ok_bind]
      cases openDirLoop (ord f.dirItems) with
      | panic => exact ⟨rfl, by intro x hx; cases hx⟩
      | hang => exact ⟨rfl, by intro x hx; cases hx⟩
      | ok r => exact ⟨rfl, by intro x hx; cases hx; exact h2 _ h1⟩

theorem runOps_eq {fuel : Nat} {ix : Ix} {o i : UInt64} (ops : List NodeOp) :
    ∀ {n : RescueNode}, NodeOK fuel ix o i n → runOps fuel ix n ops = runFresh fuel ix o i ops := by
  induction ops with
  | nil => intros; rfl
  | cons op rest ih =>
    intro n h
    obtain ⟨h1, h2⟩ := run_cached h op
    simp only [runOps, runFresh]
    cases e1 : op.run fuel ix n with
    | panic =>
      rw [e1] at h1
      cases e2 : op.run fuel ix (newRescueNode o i) with
      | panic => rfl
      | hang => rw [e2] at h1; cases h1
      | ok y => rw [e2] at h1; cases h1
    | hang =>
      rw [e1] at h1
      cases e2 : op.run fuel ix (newRescueNode o i) with
      | hang => rfl
      | panic => rw [e2] at h1; cases h1
      | ok y => rw [e2] at h1; cases h1
    | ok x =>
      rw [e1] at h1
      cases e2 : op.run fuel ix (newRescueNode o i) with
      | hang => rw [e2] at h1; cases h1
      | panic => rw [e2] at h1; cases h1
      | ok y =>
        rw [e2] at h1
        simp only [Go.ok_bind, Go.ok.injEq] at h1
        simp only [Go.ok_bind, ih (h2 x e1), h1]

end Btrfscue
