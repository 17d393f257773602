import Verif.Proof.MountCrash
import Verif.Props.PhysicalExact
import Verif.Props.MountSession
/-!
# C116: which damage a mounted file system survives
-/

namespace Btrfscue

/-- The computation panics if `P` holds and returns otherwise. -/
def Go.CrashIff {α : Type} (x : Go α) (P : Prop) : Prop := (P ∧ x = .panic) ∨ (¬ P ∧ ∃ a, x = .ok a)

theorem Go.CrashIff.bind {α β : Type} {x : Go α} {f : α → Go β} {P Q : Prop} (h : x.CrashIff P)
    (hf : ∀ a, x = .ok a → (f a).CrashIff Q) : (x >>= f).CrashIff (P ∨ Q) := by
  rcases h with ⟨h1, rfl⟩ | ⟨h1, a, rfl⟩
  · exact Or.inl ⟨Or.inl h1, rfl⟩
  · rcases hf a rfl with ⟨h2, h3⟩ | ⟨h2, h3⟩
    · exact Or.inl ⟨Or.inr h2, h3⟩
    · exact Or.inr ⟨fun h => h.elim h1 h2, h3⟩

theorem Go.CrashIff.then {α β : Type} {x : Go α} {f : α → Go β} {P : Prop} (h : x.CrashIff P)
    (hf : ∀ a, x = .ok a → ∃ y, f a = .ok y) : (x >>= f).CrashIff P := by
  rcases h with ⟨h1, rfl⟩ | ⟨h1, a, rfl⟩
  · exact Or.inl ⟨h1, rfl⟩
  · exact Or.inr ⟨h1, hf a rfl⟩

theorem Go.CrashIff.of {α : Type} {x : Go α} {P Q : Prop} (h : x.CrashIff P) (hpq : P ↔ Q) : x.CrashIff Q := by
  unfold Go.CrashIff at *
  rw [← hpq]; exact h

section
variable {b : Bucket} {o i : UInt64} {m : Bytes}

theorem getAttr_crash (hb : b.WF) (hm : b.stores metadataVersionKey m) (ho : o ≠ ~~~0)
    (hex : ∀ v x, b.stores v x → v.owner ≠ ~~~0 → ∃ d, holdsExactly x d) :
    ((newRescueNode o i).getAttr ⟨b, ~~~0⟩).CrashIff (b.inodeTorn o i) := by
  unfold RescueNode.getAttr newRescueNode Ix.findInodeItem
  simp only
  rcases findData_now hb hm ho ⟨i, 1, 0⟩ (fun g x h => hex _ x h ho) with ⟨d, h1, h2, h3⟩ | ⟨h1, h2⟩
  · rw [show (Ix.mk b (~~~0)).findData o (KF InodeItemKey i) = _ from h3]
    simp only [Go.ok_bind]
    rcases Nat.lt_or_ge d.length 148 with hl | hl
    · rw [attrOf_short hl]
      exact Or.inl ⟨⟨d, h1, hl⟩, rfl⟩
    · obtain ⟨a, ha⟩ := attrOf_ok (i := i) hl
      rw [ha]
      refine Or.inr ⟨fun ⟨d', k1, k2⟩ => ?_, _, rfl⟩
      rw [h2 d' k1] at k2
      omega
  · rw [show (Ix.mk b (~~~0)).findData o (KF InodeItemKey i) = _ from h2]
    exact Or.inr ⟨fun ⟨d', k1, _⟩ => h1 d' k1, _, rfl⟩

theorem readlink_crash (hb : b.WF) (hm : b.stores metadataVersionKey m) (ho : o ≠ ~~~0)
    (hex : ∀ v x, b.stores v x → v.owner ≠ ~~~0 → ∃ d, holdsExactly x d) :
    ((newRescueNode o i).readlink ⟨b, ~~~0⟩).CrashIff (∃ d, b.nowData o ⟨i, 108, 0⟩ d ∧ ¬ firstThere d) := by
  unfold RescueNode.readlink newRescueNode Ix.findFileExtentItem
  simp only
  rcases findData_now hb hm ho ⟨i, 108, 0⟩ (fun g x h => hex _ x h ho) with ⟨d, h1, h2, h3⟩ | ⟨h1, h2⟩
  · rw [show (Ix.mk b (~~~0)).findData o (KF ExtentDataKey i) = _ from h3]
    simp only [Go.ok_bind]
    by_cases hf : firstThere d
    · refine Or.inr ⟨fun ⟨d', k1, k2⟩ => k2 (h2 d' k1 ▸ hf), ?_⟩
      rcases first_ok hf with ⟨-, k1, data, k2⟩ | ⟨-, k1⟩
      · rw [k1, k2]; exact ⟨_, rfl⟩
      · rw [k1]; exact ⟨_, rfl⟩
    · refine Or.inl ⟨⟨d, h1, hf⟩, ?_⟩
      rcases first_bad hf with k1 | ⟨k1, k2⟩
      · rw [k1]; rfl
      · rw [k1, k2]; rfl
  · rw [show (Ix.mk b (~~~0)).findData o (KF ExtentDataKey i) = _ from h2]
    exact Or.inr ⟨fun ⟨d', k1, _⟩ => h1 d' k1, _, rfl⟩

/-- What is found under a name is the entry with the greatest offset. -/
theorem fold_find : ∀ (its : List (UInt64 × Range × Bytes)), its.Pairwise (fun x y => x.1 < y.1) → ∀ (m0 r : DirMap) (brk : Bool),
    foldRange dirMapBody m0 (its.map fun e => (e.2.1, ⟨e.2.2, []⟩)) = .ok (r, brk) → ∀ name,
    (∃ e ∈ its, ∃ en, namedBy e.2.2 en name ∧ r.find name = some ⟨e.2.2, []⟩ ∧
      ∀ e' ∈ its, ∀ en', namedBy e'.2.2 en' name → e'.1 ≤ e.1) ∨
    ((∀ e ∈ its, ∀ en, ¬ namedBy e.2.2 en name) ∧ r.find name = m0.find name) := by
  intro its
  induction its with
  | nil => intro _ m0 r brk h name; cases h; exact Or.inr ⟨by simp, rfl⟩
  | cons e its ih =>
    intro hp m0 r brk h name
    rw [List.pairwise_cons] at hp
    simp only [List.map_cons, foldRange, dirMapBody] at h
    by_cases hn : named e.2.2
    · obtain ⟨en, n, hen⟩ := hn
      simp only [hen.name, Go.ok_bind, Go.pure_eq, Bool.false_eq_true, if_false] at h
      rcases ih hp.2 _ r brk h name with ⟨e1, h1, en1, h2, h3, h4⟩ | ⟨h1, h2⟩
      · refine Or.inl ⟨e1, List.mem_cons_of_mem _ h1, en1, h2, h3, fun e' he' en' hen' => ?_⟩
        rcases List.mem_cons.mp he' with rfl | he'
        · exact UInt64.le_of_lt (hp.1 e1 h1)
        · exact h4 e' he' en' hen'
      · rw [DirMap.find_put] at h2
        by_cases hnn : n = name
        · subst hnn
          rw [if_pos rfl] at h2
          refine Or.inl ⟨e, List.mem_cons_self, en, hen, h2, fun e' he' en' hen' => ?_⟩
          rcases List.mem_cons.mp he' with rfl | he'
          · exact UInt64.le_refl _
          · exact absurd hen' (h1 e' he' en')
        · rw [if_neg hnn] at h2
          refine Or.inr ⟨fun e' he' en' hen' => ?_, h2⟩
          rcases List.mem_cons.mp he' with rfl | he'
          · exact hnn (hen.unique hen').1
          · exact h1 e' he' en' hen'
    · rw [not_named hn] at h
      cases h

theorem openDirLoop_total : ∀ l : List (Bytes × DirItem), (∀ e ∈ l, ∃ d, e.2 = ⟨d, []⟩ ∧ named d) → ∃ es, openDirLoop l = .ok es := by
  intro l
  induction l with
  | nil => intro _; exact ⟨_, rfl⟩
  | cons e l ih =>
    intro h
    obtain ⟨es, hes⟩ := ih fun e' he' => h e' (List.mem_cons_of_mem _ he')
    obtain ⟨d, hd, en, n, hen⟩ := h e List.mem_cons_self
    simp only [openDirLoop, hd, hen.name, Go.ok_bind, DirItem.isDir, (hen.fields (t := [])).2.1, hes, Go.pure_eq]
    exact ⟨_, rfl⟩

/-- The entries a fresh node collects. -/
theorem ensure_crash (hb : b.WF) (hm : b.stores metadataVersionKey m) (h : b.Askable o i) :
    ∃ N, ∀ fuel, N ≤ fuel →
      ((newRescueNode o i).ensureDirItems fuel ⟨b, ~~~0⟩).CrashIff (∃ off d, b.seenData o 84 i off d ∧ ¬ named d) ∧
      ∀ n, (newRescueNode o i).ensureDirItems fuel ⟨b, ~~~0⟩ = .ok n → n.owner = o ∧ n.ixInode = i ∧
        (∀ e ∈ n.dirItems, ∃ d, e.2 = ⟨d, []⟩ ∧ named d) ∧
        ∀ name, (∃ off d e, b.seenData o 84 i off d ∧ namedBy d e name ∧ n.dirItems.find name = some ⟨d, []⟩ ∧
            ∀ off' d' e', b.seenData o 84 i off' d' → namedBy d' e' name → off' ≤ off) ∨
          ((∀ off d e, b.seenData o 84 i off d → ¬ namedBy d e name) ∧ n.dirItems.find name = none) := by
  obtain ⟨rd, its, hr, hy, hp, -, hs⟩ := seen_run hb hm h.entries (fun v x hv ho => h.exact v x hv (ho ▸ h.entries.ordinary))
  refine ⟨its.length + 1, fun fuel hf => ?_⟩
  have hfold := fold_good (body := dirMapBody) named (fun s => ∀ e ∈ s, ∃ d, e.2 = ⟨d, []⟩ ∧ named d) its
    (by
      rintro e - ⟨en, n, hen⟩ s hI
      refine ⟨s.put n ⟨e.2.2, []⟩, fun e' he' => ?_, by simp only [dirMapBody, hen.name, Go.ok_bind, Go.pure_eq]⟩
      rcases DirMap.mem_put he' with rfl | he'
      · exact ⟨_, rfl, en, n, hen⟩
      · exact hI e' he')
    (by
      intro e _ hn s _
      simp only [dirMapBody, not_named hn]
      rfl) [] (by simp)
  have hloop : (newRescueNode o i).ensureDirItems fuel ⟨b, ~~~0⟩ =
      (foldRange dirMapBody [] (its.map fun e => (e.2.1, ⟨e.2.2, []⟩)) >>= fun x => .ok { newRescueNode o i with dirItems := x.1 }) := by
    unfold RescueNode.ensureDirItems newRescueNode
    rw [if_neg (by simp), show (Ix.mk b (~~~0)).dirItems o i = .ok rd from hr]
    simp only [Go.ok_bind]
    rw [rangeLoop_eq _ hy fuel _ (by rw [List.length_map]; omega)]
    rfl
  rw [hloop]
  have hiff : (∃ e ∈ its, ¬ named e.2.2) ↔ ∃ off d, b.seenData o 84 i off d ∧ ¬ named d := by
    constructor
    · rintro ⟨⟨off, r, d⟩, he, hn⟩
      exact ⟨off, d, (hs off d).mp ⟨r, he⟩, hn⟩
    · rintro ⟨off, d, h1, h2⟩
      obtain ⟨r, hr'⟩ := (hs off d).mpr h1
      exact ⟨_, hr', h2⟩
  rcases hfold with ⟨h1, h2⟩ | ⟨h1, s, h2, h3⟩
  · rw [h2]
    exact ⟨Or.inl ⟨hiff.mp h1, rfl⟩, by intro n hn; cases hn⟩
  · rw [h3]
    refine ⟨Or.inr ⟨fun hc => ?_, _, rfl⟩, ?_⟩
    · obtain ⟨e, he, hn⟩ := hiff.mpr hc
      exact hn (h1 e he)
    · intro n hn
      simp only [Go.ok_bind, Go.ok.injEq] at hn
      subst hn
      refine ⟨rfl, rfl, h2, fun name => ?_⟩
      rcases fold_find its hp [] s false h3 name with ⟨⟨off, r, d⟩, k1, en, k2, k3, k4⟩ | ⟨k1, k2⟩
      · refine Or.inl ⟨off, d, en, (hs off d).mp ⟨r, k1⟩, k2, k3, fun off' d' e' k5 k6 => ?_⟩
        obtain ⟨r', hr'⟩ := (hs off' d').mpr k5
        exact k4 _ hr' e' k6
      · refine Or.inr ⟨fun off d e k3 k4 => ?_, k2⟩
        obtain ⟨r', hr'⟩ := (hs off d).mpr k3
        exact k1 _ hr' e k4

theorem lookup_crash (hb : b.WF) (hm : b.stores metadataVersionKey m) (h : b.Askable o i) :
    ∃ N, ∀ fuel, N ≤ fuel → ∀ h' name,
      ((newRescueNode o i).lookup fuel ⟨b, ~~~0⟩ name).CrashIff (b.crashes o i (.lookup h' name)) := by
  obtain ⟨N, hN⟩ := ensure_crash hb hm h
  refine ⟨N, fun fuel hf h' name => ?_⟩
  obtain ⟨h1, h2⟩ := hN fuel hf
  unfold RescueNode.lookup
  refine h1.bind fun n hn => ?_
  obtain ⟨k1, k2, -, k3⟩ := h2 n hn
  rcases k3 name with ⟨off, d, e, a1, a2, a3, a4⟩ | ⟨a1, a2⟩
  · rw [a3]
    obtain ⟨f1, f2, -, -⟩ := a2.fields (t := [])
    have hR : RootItemKey = 132 := rfl
    have hF : FirstFreeObjectID = 256 := rfl
    have htgt := h.targets off d e name a1 a2
    have hga := getAttr_crash (i := (target o e.location).2) hb hm htgt h.exact
    have hone : b.inodeTorn (target o e.location).1 (target o e.location).2 ↔
        ∃ off d e, b.seenData o 84 i off d ∧ namedBy d e name ∧
        (∀ off' d' e', b.seenData o 84 i off' d' → namedBy d' e' name → off' ≤ off) ∧
        b.inodeTorn (target o e.location).1 (target o e.location).2 := by
      constructor
      · exact fun ht => ⟨off, d, e, a1, a2, a4, ht⟩
      · rintro ⟨off', d', e', c1, c2, c3, c4⟩
        have hle := a4 off' d' e' c1 c2
        have hge := c3 off d e a1 a2
        have hoff : off' = off := by
          rw [UInt64.le_iff_toNat_le] at hle hge
          exact UInt64.toNat_inj.mp (by omega)
        subst hoff
        obtain ⟨g1, x1, r1, s1, e1⟩ := c1
        obtain ⟨g2, x2, r2, s2, e2⟩ := a1
        obtain rfl := runVersion_gen r1 r2
        obtain ⟨l, hl, rfl⟩ := hb.exists_abs
        obtain rfl := hl.unique (enc_stores.mp s1) (enc_stores.mp s2)
        have hdd : d' = d := e1.holds.unique e2.holds
        subst hdd
        rw [(a2.unique c2).2.1]
        exact c4
    refine Go.CrashIff.of ?_ hone
    simp only [f1, Go.ok_bind, DirItem.isSubvolume, DirItem.isDir, f2, hR, hF, Go.pure_eq, k1]
    have key : ∀ (isd : Bool), (((newRescueNode (target o e.location).1 (target o e.location).2).getAttr ⟨b, ~~~0⟩ >>= fun x =>
        (Go.ok (n, Except.ok (x.1, isd, x.2)) : Go (RescueNode × Except FuseErr (RescueNode × Bool × Except FuseErr FuseAttr)))).CrashIff
        (b.inodeTorn (target o e.location).1 (target o e.location).2)) := fun isd => hga.then fun a _ => ⟨_, rfl⟩
    by_cases ht : e.location.typ = 132
    · have ht' : target o e.location = (e.location.objectID, 256) := by unfold target; rw [if_pos ht]
      rw [ht'] at key ⊢
      simp only [ht, beq_self_eq_true, Bool.not_true, Bool.false_eq_true, if_false, Go.ok_bind]
      exact key _
    · have ht' : target o e.location = (o, e.location.objectID) := by unfold target; rw [if_neg ht]
      rw [ht'] at key ⊢
      simp only [beq_eq_false_iff_ne.mpr ht, Bool.not_false, if_true, Go.ok_bind]
      exact key _
  · rw [a2]
    exact Or.inr ⟨fun ⟨off, d, e, c1, c2, _⟩ => a1 off d e c1 c2, _, rfl⟩

theorem openDir_crash (hb : b.WF) (hm : b.stores metadataVersionKey m) (h : b.Askable o i) :
    ∃ N, ∀ fuel, N ≤ fuel → ∀ ord : DirMap → DirMap, MapOrder ord →
      ((newRescueNode o i).openDir fuel ord ⟨b, ~~~0⟩).CrashIff (∃ off d, b.seenData o 84 i off d ∧ ¬ named d) := by
  obtain ⟨N, hN⟩ := ensure_crash hb hm h
  refine ⟨N, fun fuel hf ord hord => ?_⟩
  obtain ⟨h1, h2⟩ := hN fuel hf
  unfold RescueNode.openDir
  refine h1.then fun n hn => ?_
  obtain ⟨es, hes⟩ := openDirLoop_total (ord n.dirItems) fun e he => (h2 n hn).2.2.1 e ((hord _).mem_iff.mp he)
  rw [hes]
  exact ⟨_, rfl⟩

theorem listXAttr_crash (hb : b.WF) (hm : b.stores metadataVersionKey m) (h : b.Askable o i) :
    ∃ N, ∀ fuel, N ≤ fuel →
      ((newRescueNode o i).listXAttr fuel ⟨b, ~~~0⟩).CrashIff (∃ off d, b.seenData o 24 i off d ∧ ¬ named d) := by
  obtain ⟨rd, its, hr, hy, hp, -, hs⟩ := seen_run hb hm h.xattrs (fun v x hv ho => h.exact v x hv (ho ▸ h.entries.ordinary))
  refine ⟨its.length + 1, fun fuel hf => ?_⟩
  have hfold := fold_good (body := listXAttrBody) named (fun _ => True) its
    (by
      rintro e - ⟨en, n, hen⟩ s -
      exact ⟨s ++ [n], trivial, by simp only [listXAttrBody, hen.name, Go.ok_bind, Go.pure_eq]⟩)
    (by
      intro e _ hn s _
      simp only [listXAttrBody, not_named hn]
      rfl) [] trivial
  unfold RescueNode.listXAttr newRescueNode
  rw [show (Ix.mk b (~~~0)).xattrItems o i = .ok rd from hr]
  simp only [Go.ok_bind]
  rw [rangeLoop_eq _ hy fuel _ (by rw [List.length_map]; omega)]
  rcases hfold with ⟨⟨⟨off, r, d⟩, h0, h1⟩, h2⟩ | ⟨h1, s, h2, h3⟩
  · rw [h2]
    exact Or.inl ⟨⟨off, d, (hs off d).mp ⟨r, h0⟩, h1⟩, rfl⟩
  · rw [h3]
    refine Or.inr ⟨fun ⟨off, d, k1, k2⟩ => ?_, _, rfl⟩
    obtain ⟨r, hr'⟩ := (hs off d).mpr k1
    exact k2 (h1 _ hr')

/-- The search for an attribute crashes at the first item that is damaged, if it gets there. -/
theorem fold_getXAttr (a : Bytes) : ∀ (its : List (UInt64 × Range × Bytes)), its.Pairwise (fun x y => x.1 < y.1) → ∀ s : Option Bytes,
    (foldRange (getXAttrBody a) s (its.map fun e => (e.2.1, ⟨e.2.2, []⟩))).CrashIff
      (∃ e ∈ its, (∀ e' ∈ its, e'.1 < e.1 → ∃ en n, namedBy e'.2.2 en n ∧ n ≠ a) ∧
        (¬ named e.2.2 ∨ ∃ en, namedBy e.2.2 en a ∧ ¬ valueThere e.2.2 en)) := by
  intro its
  induction its with
  | nil => intro _ s; exact Or.inr ⟨by simp, _, rfl⟩
  | cons e its ih =>
    intro hp s
    rw [List.pairwise_cons] at hp
    have hfirst : ∀ e' ∈ e :: its, ¬ e'.1 < e.1 := by
      intro e' he' hlt
      rcases List.mem_cons.mp he' with rfl | he'
      · rw [UInt64.lt_iff_toNat_lt] at hlt; omega
      · have := hp.1 e' he'
        rw [UInt64.lt_iff_toNat_lt] at hlt this; omega
    simp only [List.map_cons, foldRange, getXAttrBody]
    by_cases hn : named e.2.2
    · obtain ⟨en, n, hen⟩ := hn
      rw [hen.name]
      simp only [Go.ok_bind]
      by_cases hna : n = a
      · subst hna
        rw [if_pos rfl]
        have honly : ∀ e1 ∈ e :: its, (∀ e' ∈ e :: its, e'.1 < e1.1 → ∃ en m, namedBy e'.2.2 en m ∧ m ≠ n) → e1 = e := by
          intro e1 he1 hb'
          rcases List.mem_cons.mp he1 with rfl | he1
          · rfl
          · obtain ⟨en', m, k1, k2⟩ := hb' e List.mem_cons_self (hp.1 e1 he1)
            exact absurd (k1.unique hen).1 k2
        by_cases hv : valueThere e.2.2 en
        · obtain ⟨v, hv'⟩ := (value_ok hen).1 hv
          rw [hv']
          refine Or.inr ⟨fun ⟨e1, he1, k1, k2⟩ => ?_, _, rfl⟩
          obtain rfl := honly e1 he1 k1
          rcases k2 with k2 | ⟨en', k2, k3⟩
          · exact k2 ⟨en, n, hen⟩
          · obtain ⟨-, -, u1, u2⟩ := hen.unique k2
            refine k3 ?_
            unfold valueThere at hv ⊢
            rw [← u1, ← u2]; exact hv
        · rw [(value_ok hen).2 hv]
          exact Or.inl ⟨⟨e, List.mem_cons_self, fun e' he' hlt => absurd hlt (hfirst e' he'), Or.inr ⟨en, hen, hv⟩⟩, rfl⟩
      · rw [if_neg hna]
        simp only [Go.pure_eq, Go.ok_bind, Bool.false_eq_true, if_false]
        refine (ih hp.2 s).of ⟨?_, ?_⟩
        · rintro ⟨e1, h1, h2, h3⟩
          refine ⟨e1, List.mem_cons_of_mem _ h1, fun e' he' hlt => ?_, h3⟩
          rcases List.mem_cons.mp he' with rfl | he'
          · exact ⟨en, n, hen, hna⟩
          · exact h2 e' he' hlt
        · rintro ⟨e1, h1, h2, h3⟩
          rcases List.mem_cons.mp h1 with rfl | h1
          · exfalso
            rcases h3 with h3 | ⟨en', h3, -⟩
            · exact h3 ⟨en, n, hen⟩
            · exact hna (hen.unique h3).1
          · exact ⟨e1, h1, fun e' he' => h2 e' (List.mem_cons_of_mem _ he'), h3⟩
    · rw [not_named hn]
      exact Or.inl ⟨⟨e, List.mem_cons_self, fun e' he' hlt => absurd hlt (hfirst e' he'), Or.inl hn⟩, rfl⟩

theorem getXAttr_crash (hb : b.WF) (hm : b.stores metadataVersionKey m) (h : b.Askable o i) :
    ∃ N, ∀ fuel, N ≤ fuel → ∀ h' a,
      ((newRescueNode o i).getXAttr fuel ⟨b, ~~~0⟩ a).CrashIff (b.crashes o i (.getXAttr h' a)) := by
  obtain ⟨rd, its, hr, hy, hp, -, hs⟩ := seen_run hb hm h.xattrs (fun v x hv ho => h.exact v x hv (ho ▸ h.entries.ordinary))
  refine ⟨its.length + 1, fun fuel hf h' a => ?_⟩
  unfold RescueNode.getXAttr newRescueNode
  rw [show (Ix.mk b (~~~0)).xattrItems o i = .ok rd from hr]
  simp only [Go.ok_bind]
  rw [rangeLoop_eq _ hy fuel _ (by rw [List.length_map]; omega)]
  refine Go.CrashIff.then ((fold_getXAttr a its hp none).of ⟨?_, ?_⟩) ?_
  · rintro ⟨⟨off, r, d⟩, h1, h2, h3⟩
    refine ⟨off, d, (hs off d).mp ⟨r, h1⟩, fun off' d' k1 k2 => ?_, h3⟩
    obtain ⟨r', hr'⟩ := (hs off' d').mpr k1
    exact h2 _ hr' k2
  · rintro ⟨off, d, h1, h2, h3⟩
    obtain ⟨r, hr'⟩ := (hs off d).mpr h1
    exact ⟨_, hr', fun e' he' hlt => h2 e'.1 e'.2.2 ((hs _ _).mp ⟨_, he'⟩) hlt, h3⟩
  · rintro ⟨s, brk⟩ -
    cases s <;> exact ⟨_, rfl⟩

theorem mappable_body (hb : b.WF) (hm : b.stores metadataVersionKey m) (h : b.Askable o i) :
    ∃ N, ∀ fuel, N ≤ fuel → ∀ (r : Range) (k : Key) (d : Bytes), r.rKey = .ok k →
      ∀ s : List ExtentMapEntry × Option (List StripeMapEntry), StripesKept fuel ⟨b, ~~~0⟩ s.2 →
      (b.mappable d → ∃ s', StripesKept fuel ⟨b, ~~~0⟩ s'.2 ∧ extentMapBody fuel ⟨b, ~~~0⟩ s r ⟨d, []⟩ = .ok (s', false)) ∧
      (¬ b.mappable d → extentMapBody fuel ⟨b, ~~~0⟩ s r ⟨d, []⟩ = .panic) := by
  obtain ⟨N, hN⟩ := C37_returns_iff b hb m hm h.chunks (fun v x hv ho => h.exact v x hv (by rw [ho]; decide))
  refine ⟨N, fun fuel hf r k d hk s hs => ?_⟩
  have hphys : ∀ a, (b.addressable → ∃ c p, StripesKept fuel ⟨b, ~~~0⟩ c ∧ (Ix.mk b (~~~0)).physical fuel s.2 a = .ok (c, p)) ∧
      (¬ b.addressable → (Ix.mk b (~~~0)).physical fuel s.2 a = .panic) := by
    intro a
    obtain ⟨h1, h2⟩ := hN fuel hf a
    have hrel := physical_rel hs (show StripesKept fuel ⟨b, ~~~0⟩ none from fun _ h => by cases h) a
    revert hrel h1 h2
    cases (Ix.mk b (~~~0)).physical fuel none a with
    | hang => intro _ h; exact absurd rfl h
    | panic =>
      intro h1 _ hrel
      have hn : ¬ b.addressable := fun h => by cases h1.mpr h
      refine ⟨fun h => absurd h hn, fun _ => ?_⟩
      revert hrel
      cases (Ix.mk b (~~~0)).physical fuel s.2 a with
      | ok _ => intro h; exact h.elim
      | panic => intro _; rfl
      | hang => intro h; exact h.elim
    | ok y =>
      intro h1 _ hrel
      refine ⟨fun _ => ?_, fun h => absurd (h1.mp rfl) h⟩
      revert hrel
      cases (Ix.mk b (~~~0)).physical fuel s.2 a with
      | ok x => intro h; exact ⟨x.1, x.2, h.1.1, rfl⟩
      | panic => intro h; exact h.elim
      | hang => intro h; exact h.elim
  rcases Nat.lt_or_ge d.length 53 with hl | hl
  · have hno : ¬ b.mappable d := by
      rintro ⟨f, rest, rfl, -⟩
      have : f.layout.length = 53 := (C07_FileExtentItem_decodes f rest []).1
      rw [List.length_append] at hl
      omega
    refine ⟨fun h => absurd h hno, fun _ => ?_⟩
    have hnb : FileExtentItem.numBytes ⟨d, []⟩ = .panic := u64at_short (by
      have : fileExtentItemNumBytes = 45 := by decide
      omega)
    unfold extentMapBody
    cases hd : FileExtentItem.diskByteNr ⟨d, []⟩ with
    | panic => rfl
    | hang => exact absurd hd (NH.out (x := FileExtentItem.diskByteNr ⟨d, []⟩))
    | ok a =>
      simp only [Go.ok_bind, hnb, hk]
      by_cases ha : 0 < a
      · rw [if_pos ha]
        by_cases had : b.addressable
        · obtain ⟨c, p, -, hp⟩ := (hphys a).1 had
          rw [hp]
          rfl
        · rw [(hphys a).2 had]
          rfl
      · rw [if_neg ha]
        rfl
  · obtain ⟨f, rest, rfl⟩ := extent_of hl
    obtain ⟨-, -, -, -, -, -, -, d7, -, d9, d10⟩ := C07_FileExtentItem_decodes f rest []
    unfold extentMapBody
    simp only [d7, Go.ok_bind, d9, d10, hk]
    have hpos : f.diskByteNr ≠ 0 ↔ 0 < f.diskByteNr := by
      rw [UInt64.lt_iff_toNat_lt, ← UInt64.toNat_inj.ne]
      have : (0 : UInt64).toNat = 0 := rfl
      omega
    constructor
    · rintro ⟨f', rest', he, hadr⟩
      obtain ⟨-, -, -, -, -, -, -, d7', -, -, -⟩ := C07_FileExtentItem_decodes f' rest' []
      rw [← he, d7] at d7'
      rw [← Go.ok.inj d7'] at hadr
      by_cases ha : 0 < f.diskByteNr
      · obtain ⟨c, p, hc, hp⟩ := (hphys f.diskByteNr).1 (hadr (hpos.mpr ha))
        rw [if_pos ha, hp]
        exact ⟨_, hc, rfl⟩
      · rw [if_neg ha]
        refine ⟨_, ?_, rfl⟩
        exact hs
    · intro hno
      have ha : 0 < f.diskByteNr := by
        by_contra ha
        exact hno ⟨f, rest, rfl, fun h => absurd (hpos.mp h) ha⟩
      rw [if_pos ha, (hphys f.diskByteNr).2 fun h => hno ⟨f, rest, rfl, fun _ => h⟩]
      rfl

theorem open_crash (hb : b.WF) (hm : b.stores metadataVersionKey m) (h : b.Askable o i) :
    ∃ N, ∀ fuel, N ≤ fuel → ∀ h', ((newRescueNode o i).open fuel ⟨b, ~~~0⟩ none).CrashIff (b.crashes o i (.open h')) := by
  obtain ⟨rd, its, hr, hy, hp, hk, hs⟩ := seen_run hb hm h.extents (fun v x hv ho => h.exact v x hv (ho ▸ h.entries.ordinary))
  obtain ⟨N, hN⟩ := mappable_body hb hm h
  refine ⟨max N (its.length + 1), fun fuel hf h' => ?_⟩
  have hfold := fold_good (body := extentMapBody fuel ⟨b, ~~~0⟩) b.mappable (fun s => StripesKept fuel ⟨b, ~~~0⟩ s.2) its
    (fun e he hg s hI => (hN fuel (by omega) _ _ _ (hk e he) s hI).1 hg)
    (fun e he hg s hI => (hN fuel (by omega) _ _ _ (hk e he) s hI).2 hg) ([], none) (fun _ h => by cases h)
  have hr' : (Ix.mk b (~~~0)).fileExtentItems o i = .ok rd := hr
  unfold RescueNode.open newRescueNode newExtentFile
  rw [hr']
  simp only [Go.ok_bind]
  rw [rangeLoop_eq _ hy fuel _ (by rw [List.length_map]; omega)]
  rcases yields_head hy with ⟨hnil, hno⟩ | ⟨rest, hcons, hyes⟩
  · rw [hno]
    obtain rfl : its = [] := List.map_eq_nil_iff.mp hnil
    refine Or.inr ⟨fun ⟨off, d, k1, _⟩ => ?_, _, rfl⟩
    obtain ⟨r, hr''⟩ := (hs off d).mpr k1
    cases hr''
  · cases its with
    | nil => cases hcons
    | cons e its =>
      obtain ⟨off, r, d⟩ := e
      simp only [List.map_cons, List.cons.injEq] at hcons
      obtain ⟨rfl, -⟩ := hcons
      have hseen : b.seenData o 108 i off d := (hs off d).mp ⟨r, List.mem_cons_self⟩
      rw [List.pairwise_cons] at hp
      have hmin : ∀ off' d', b.seenData o 108 i off' d' → off ≤ off' := by
        intro off' d' k1
        obtain ⟨r', hr''⟩ := (hs off' d').mpr k1
        rcases List.mem_cons.mp hr'' with h | h
        · simp only [Prod.mk.injEq] at h
          rw [h.1]; exact UInt64.le_refl _
        · exact UInt64.le_of_lt (hp.1 _ h)
      have huniq : ∀ off' d', b.seenData o 108 i off' d' → (∀ off'' d'', b.seenData o 108 i off'' d'' → off' ≤ off'') → d' = d := by
        intro off' d' k1 k2
        have hle := hmin off' d' k1
        have hge := k2 off d hseen
        obtain ⟨r', hr''⟩ := (hs off' d').mpr k1
        rcases List.mem_cons.mp hr'' with h | h
        · simp only [Prod.mk.injEq] at h
          exact h.2.2
        · have := hp.1 _ h
          rw [UInt64.le_iff_toNat_le] at hge
          rw [UInt64.lt_iff_toNat_lt] at this
          simp only at this
          omega
      have hred : b.crashes o i (.open h') ↔ (¬ firstThere d ∨ d[20]? ≠ some 0 ∧ ∃ off' d', b.seenData o 108 i off' d' ∧ ¬ b.mappable d') := by
        constructor
        · rintro ⟨off', d', k1, k2, k3⟩
          obtain rfl := huniq off' d' k1 k2
          exact k3
        · exact fun k => ⟨off, d, hseen, hmin, k⟩
      refine Go.CrashIff.of ?_ hred.symm
      simp only at hyes
      simp only [hyes, Bool.not_true, Bool.false_eq_true, if_false]
      by_cases hft : firstThere d
      · rcases first_ok hft with ⟨h0, k1, data, k2⟩ | ⟨h0, k1⟩
        · rw [k1, k2]
          refine Or.inr ⟨fun k => ?_, _, rfl⟩
          rcases k with k | ⟨k, -⟩
          · exact k hft
          · exact k h0
        · rw [k1]
          simp only [Go.ok_bind, Bool.false_eq_true, if_false]
          rcases hfold with ⟨⟨⟨off1, r1, d1⟩, e1, e2⟩, e3⟩ | ⟨e1, s', e2, e3⟩
          · rw [e3]
            exact Or.inl ⟨Or.inr ⟨h0, off1, d1, (hs _ _).mp ⟨r1, e1⟩, e2⟩, rfl⟩
          · rw [e3]
            refine Or.inr ⟨fun k => ?_, _, rfl⟩
            rcases k with k | ⟨-, off1, d1, k2, k3⟩
            · exact k hft
            · obtain ⟨r1, hr1⟩ := (hs _ _).mpr k2
              exact k3 (e1 _ hr1)
      · refine Or.inl ⟨Or.inl hft, ?_⟩
        rcases first_bad hft with k1 | ⟨k1, k2⟩
        · rw [k1]; rfl
        · rw [k1, k2]; rfl

end

/-- C116, exactly: after any requests, a request about an inode ends the process if and only if
the items it reads are damaged in the way `Bucket.crashes` says, whatever they contain otherwise,
and it never hangs. -/
theorem C116_crash_iff (b : Bucket) (hb : b.WF) (m : Bytes) (hm : b.stores metadataVersionKey m) (o i : UInt64) (h : b.Askable o i) :
    ∃ N, ∀ fuel, N ≤ fuel → ∀ dev qs s as, mountRunAll fuel ⟨b, ~~~0⟩ dev {} qs = .ok (s, as) →
      ∀ (q : MountReq) (k : Nat) (n : RescueNode), q.target = .inl k → s.nodes[k]? = some n → n.owner = o → n.ixInode = i →
      (∀ k' ord, q = .openDir k' ord → MapOrder ord) →
      (mountStep fuel ⟨b, ~~~0⟩ dev s q = .panic ↔ b.crashes o i q) ∧ mountStep fuel ⟨b, ~~~0⟩ dev s q ≠ .hang := by
  obtain ⟨N1, h1⟩ := lookup_crash hb hm h
  obtain ⟨N2, h2⟩ := openDir_crash hb hm h
  obtain ⟨N3, h3⟩ := listXAttr_crash hb hm h
  obtain ⟨N4, h4⟩ := getXAttr_crash hb hm h
  obtain ⟨N5, h5⟩ := open_crash hb hm h
  have hga := getAttr_crash (i := i) hb hm h.entries.ordinary h.exact
  have hrl := readlink_crash (i := i) hb hm h.entries.ordinary h.exact
  refine ⟨max N1 (max N2 (max N3 (max N4 N5))), ?_⟩
  rintro fuel hf dev qs s as hs q k n hq hn rfl rfl hord
  have hans := C107_node_requests fuel ⟨b, ~~~0⟩ dev qs s as hs q k hq n hn
  have hfresh : (mountStep fuel ⟨b, ~~~0⟩ dev (.only n.owner n.ixInode) (q.to 0)).CrashIff (b.crashes n.owner n.ixInode q) := by
    cases q with
    | getAttr _ => exact hga.then fun a _ => ⟨_, rfl⟩
    | lookup k' name =>
      refine (h1 fuel (by omega) k' name).then fun a _ => ?_
      obtain ⟨n', r⟩ := a
      cases r <;> exact ⟨_, rfl⟩
    | openDir k' ord => exact (h2 fuel (by omega) ord (hord k' ord rfl)).then fun a _ => ⟨_, rfl⟩
    | «open» k' =>
      refine (h5 fuel (by omega) k').then fun a _ => ?_
      obtain ⟨c, r⟩ := a
      cases r <;> exact ⟨_, rfl⟩
    | getXAttr k' a => exact (h4 fuel (by omega) k' a).then fun a _ => ⟨_, rfl⟩
    | listXAttr _ => exact (h3 fuel (by omega)).then fun a _ => ⟨_, rfl⟩
    | readlink _ => exact hrl.then fun a _ => ⟨_, rfl⟩
    | fileAttr _ => cases hq
    | read _ _ _ => cases hq
  revert hans
  rcases hfresh with ⟨k1, k2⟩ | ⟨k1, a, k2⟩
  · rw [k2]
    cases mountStep fuel ⟨b, ~~~0⟩ dev s q with
    | ok _ => intro h; cases h
    | panic => intro _; exact ⟨⟨fun _ => k1, fun _ => rfl⟩, by simp⟩
    | hang => intro h; cases h
  · rw [k2]
    cases mountStep fuel ⟨b, ~~~0⟩ dev s q with
    | ok _ => intro _; exact ⟨⟨fun h => (by cases h), fun h => absurd h k1⟩, by simp⟩
    | panic => intro h; cases h
    | hang => intro h; cases h

/-- C116: with the items of an inode whole — the inode item, the entries and attributes with their
names and values, the extents, and the inode items the entries lead to — no request about it ends the
process. Missing: as `C116_one_torn_entry_refuted` shows, one item that is cut off is enough. -/
theorem C116_whole_items_partial (b : Bucket) (hb : b.WF) (m : Bytes) (hm : b.stores metadataVersionKey m) (o i : UInt64) (h : b.Askable o i)
    (hinode : ∀ o' i' d, b.nowData o' ⟨i', 1, 0⟩ d → 148 ≤ d.length)
    (hentry : ∀ off d, b.seenData o 84 i off d → named d)
    (hxattr : ∀ off d, b.seenData o 24 i off d → named d ∧ ∀ e n, namedBy d e n → valueThere d e)
    (hextent : ∀ off d, b.seenData o 108 i off d → firstThere d ∧ b.mappable d)
    (hlink : ∀ d, b.nowData o ⟨i, 108, 0⟩ d → firstThere d) :
    ∃ N, ∀ fuel, N ≤ fuel → ∀ dev qs s as, mountRunAll fuel ⟨b, ~~~0⟩ dev {} qs = .ok (s, as) →
      ∀ (q : MountReq) (k : Nat) (n : RescueNode), q.target = .inl k → s.nodes[k]? = some n → n.owner = o → n.ixInode = i →
      (∀ k' ord, q = .openDir k' ord → MapOrder ord) → ∃ s' a, mountStep fuel ⟨b, ~~~0⟩ dev s q = .ok (s', a) := by
  obtain ⟨N, hN⟩ := C116_crash_iff b hb m hm o i h
  refine ⟨N, fun fuel hf dev qs s as hs q k n hq hn ho hi hord => ?_⟩
  obtain ⟨h1, h2⟩ := hN fuel hf dev qs s as hs q k n hq hn ho hi hord
  have htorn : ∀ o' i', ¬ b.inodeTorn o' i' := fun o' i' ⟨d, k1, k2⟩ => by
    have := hinode o' i' d k1
    omega
  have hno : ¬ b.crashes o i q := by
    cases q with
    | getAttr _ => exact htorn _ _
    | lookup _ name =>
      rintro (⟨off, d, k1, k2⟩ | ⟨off, d, e, -, -, -, k⟩)
      · exact k2 (hentry off d k1)
      · exact htorn _ _ k
    | openDir _ _ => exact fun ⟨off, d, k1, k2⟩ => k2 (hentry off d k1)
    | «open» _ =>
      rintro ⟨off, d, k1, -, k2 | ⟨-, off', d', k3, k4⟩⟩
      · exact k2 (hextent off d k1).1
      · exact k4 (hextent off' d' k3).2
    | listXAttr _ => exact fun ⟨off, d, k1, k2⟩ => k2 (hxattr off d k1).1
    | getXAttr _ a =>
      rintro ⟨off, d, k1, -, k2 | ⟨e, k2, k3⟩⟩
      · exact k2 (hxattr off d k1).1
      · exact k3 ((hxattr off d k1).2 e a k2)
    | readlink _ => exact fun ⟨d, k1, k2⟩ => k2 (hlink d k1)
    | fileAttr _ => exact fun h => h
    | read _ _ _ => exact fun h => h
  cases hx : mountStep fuel ⟨b, ~~~0⟩ dev s q with
  | ok r => exact ⟨r.1, r.2, rfl⟩
  | panic => exact absurd (h1.mp hx) hno
  | hang => exact absurd hx h2

/-- C116 for open files: asking for the attributes of one ends the process if and only if it has
extents on the device (an inline file has its own attributes) and the newest inode item is cut
off, whatever came before. -/
theorem C116_file_attr (b : Bucket) (hb : b.WF) (m : Bytes) (hm : b.stores metadataVersionKey m) (o i : UInt64) (ho : o ≠ ~~~0)
    (hex : ∀ v x, b.stores v x → v.owner ≠ ~~~0 → ∃ d, holdsExactly x d)
    (fuel : Nat) (dev : Option ReaderAt) (s : MountState) (k : Nat) (f : OpenFile) (hk : s.files[k]? = some (o, i, f)) :
    (mountStep fuel ⟨b, ~~~0⟩ dev s (.fileAttr k) = .panic ↔ (∃ es, f = .extents es) ∧ b.inodeTorn o i) ∧
      mountStep fuel ⟨b, ~~~0⟩ dev s (.fileAttr k) ≠ .hang := by
  have hga : ∀ es, (extentFileGetAttr ⟨b, ~~~0⟩ o i es).CrashIff (b.inodeTorn o i) := by
    intro es
    unfold extentFileGetAttr Ix.findInodeItem
    rcases findData_now hb hm ho ⟨i, 1, 0⟩ (fun g x h => hex _ x h ho) with ⟨d, h1, h2, h3⟩ | ⟨h1, h2⟩
    · rw [show (Ix.mk b (~~~0)).findData o (KF InodeItemKey i) = _ from h3]
      simp only [Go.ok_bind]
      rcases Nat.lt_or_ge d.length 148 with hl | hl
      · rw [attrOf_short hl]
        exact Or.inl ⟨⟨d, h1, hl⟩, rfl⟩
      · obtain ⟨a, ha⟩ := attrOf_ok (i := 0) hl
        rw [ha]
        refine Or.inr ⟨fun ⟨d', k1, k2⟩ => ?_, _, rfl⟩
        rw [h2 d' k1] at k2
        omega
    · rw [show (Ix.mk b (~~~0)).findData o (KF InodeItemKey i) = _ from h2]
      exact Or.inr ⟨fun ⟨d', k1, _⟩ => h1 d' k1, _, rfl⟩
  unfold mountStep
  simp only [MountReq.target, hk, fileStep]
  cases f with
  | data x => exact ⟨⟨fun h => (by cases h), fun ⟨⟨_, h⟩, _⟩ => (by cases h)⟩, by simp⟩
  | extents es =>
    simp only
    rcases hga es with ⟨k1, k2⟩ | ⟨k1, a, k2⟩
    · rw [k2]
      exact ⟨⟨fun _ => ⟨⟨es, rfl⟩, k1⟩, fun _ => rfl⟩, by simp⟩
    · rw [k2]
      exact ⟨⟨fun h => (by cases h), fun h => absurd h.2 k1⟩, by simp⟩

/-! ### The hypotheses can be met, and the property is false -/

/-- The top directory with two entries, the file "a" and one of which only two bytes are left. -/
def exTornDir : AStore :=
  [(⟨3, ⟨1, 216, 1⟩, 7⟩, mkItem ⟨1, 216, 1⟩ []),
   (⟨3, ⟨257, 229, 0⟩, 7⟩, mkItem ⟨257, 229, 0⟩ []),
   (⟨5, ⟨256, 84, 1⟩, 10⟩, mkItem ⟨256, 84, 1⟩ (exEntry ⟨257, 1, 0⟩ 1 [97])),
   (⟨5, ⟨256, 84, 2⟩, 10⟩, mkItem ⟨256, 84, 2⟩ [9, 9]),
   (⟨5, ⟨258, 132, 0⟩, 10⟩, mkItem ⟨258, 132, 0⟩ []),
   (metadataVersionKey, [])]

theorem exTornDir_sorted : exTornDir.Sorted := sorted_of_before (by decide +kernel)

theorem exTornDir_exact (e : VKey × Bytes) (he : e ∈ exTornDir) (ho : e.1.owner ≠ ~~~0) : ∃ d, holdsExactly e.2 d := by
  simp only [exTornDir, List.mem_cons, List.not_mem_nil, or_false] at he
  rcases he with rfl | rfl | rfl | rfl | rfl | rfl
  · exact ⟨_, mkItem_exactly _ _ (by decide)⟩
  · exact ⟨_, mkItem_exactly _ _ (by decide)⟩
  · exact ⟨_, mkItem_exactly _ _ (by decide +kernel)⟩
  · exact ⟨_, mkItem_exactly _ _ (by decide)⟩
  · exact ⟨_, mkItem_exactly _ _ (by decide)⟩
  · exact absurd rfl ho

theorem exTornDir_range (o : UInt64) (last : Key) (ho : o ≠ ~~~0) (hc : ∃ e ∈ exTornDir, e.1.owner = o ∧ last.before e.1.key) :
    exTornDir.enc.RangeOK o last :=
  rangeOK_of ho (fun e he h => (exTornDir_exact e he (h ▸ ho)).imp fun _ h => h.holds)
    (fun e he h => (by decide +kernel : ∀ e ∈ exTornDir, e.1.owner ≠ ~~~0 → e.1.gen ≠ ~~~0 ∧ e.1.key ≠ KL0) e he (h ▸ ho)) hc

theorem exTornDir_items : ∀ e ∈ exTornDir, e.1.owner = 5 → e.1.key.objectID = 256 →
    e = (⟨5, ⟨256, 84, 1⟩, 10⟩, mkItem ⟨256, 84, 1⟩ (exEntry ⟨257, 1, 0⟩ 1 [97])) ∨
    e = (⟨5, ⟨256, 84, 2⟩, 10⟩, mkItem ⟨256, 84, 2⟩ [9, 9]) := by decide +kernel

theorem short_not_named : ¬ named [9, 9] := by
  rintro ⟨e, n, rest, h, -⟩
  have : 30 ≤ ([9, 9] : Bytes).length := by rw [h]; simp [DirItemRec.layout]; omega
  simp at this

theorem exTornDir_askable : exTornDir.enc.Askable 5 256 where
  exact v x hv ho := exTornDir_exact _ (enc_stores.mp hv) ho
  entries := exTornDir_range _ _ (by decide) (by decide +kernel)
  xattrs := exTornDir_range _ _ (by decide) (by decide +kernel)
  extents := exTornDir_range _ _ (by decide) (by decide +kernel)
  chunks := exTornDir_range _ _ (by decide) (by decide +kernel)
  targets := by
    rintro off d e n ⟨g, x, -, h2, h3⟩ h4
    rcases exTornDir_items _ (enc_stores.mp h2) rfl rfl with h' | h'
    · simp only [Prod.mk.injEq, VKey.mk.injEq, Key.mk.injEq] at h'
      obtain ⟨⟨-, ⟨-, -, rfl⟩, rfl⟩, rfl⟩ := h'
      obtain rfl := h3.holds.unique (mkItem_exactly _ (exEntry ⟨257, 1, 0⟩ 1 [97]) (by decide +kernel)).holds
      have : namedBy (exEntry ⟨257, 1, 0⟩ 1 [97]) ⟨⟨257, 1, 0⟩, 7, 0, 1, 1⟩ [97] := ⟨[], by decide +kernel, by decide +kernel⟩
      rw [(h4.unique this).2.1]
      decide
    · simp only [Prod.mk.injEq, VKey.mk.injEq, Key.mk.injEq] at h'
      obtain ⟨⟨-, ⟨-, -, rfl⟩, rfl⟩, rfl⟩ := h'
      obtain rfl := h3.holds.unique (mkItem_exactly _ [9, 9] (by decide)).holds
      exact absurd ⟨e, n, h4⟩ short_not_named

theorem exTornDir_seen : exTornDir.enc.seenData 5 84 256 2 [9, 9] := by
  have hg : ∀ e ∈ exTornDir, e.1.owner = 5 → e.1.gen = 10 := by decide +kernel
  obtain ⟨off, g, h1, ⟨x, h2⟩⟩ := run_first (b := exTornDir.enc) (o := 5) (t := 84) (id := 256)
    ⟨2, enc_hasKey.mpr ⟨10, mkItem ⟨256, 84, 2⟩ [9, 9], by simp only [exTornDir, List.mem_cons, true_or, or_true]⟩⟩
  have h3 : g = 10 := hg _ (enc_stores.mp h2) rfl
  subst h3
  refine ⟨10, mkItem ⟨256, 84, 2⟩ [9, 9], ⟨h1.1, fun off' hk _ => ?_⟩,
    enc_stores.mpr (by simp only [exTornDir, List.mem_cons, true_or, or_true]), mkItem_exactly _ _ (by decide)⟩
  obtain ⟨g, y, hy⟩ := enc_hasKey.mp hk
  have := hg _ hy rfl
  simp only at this
  subst this
  exact enc_hasVersion.mpr ⟨y, hy⟩

/-- C116 is false of the code: with one entry of the top directory cut off, listing the directory
and looking up any name in it, also that of the other entry, end the process that serves the mount,
while asking for its attributes does not. -/
theorem C116_one_torn_entry_refuted : ∃ N, ∀ fuel, N ≤ fuel → ∀ dev,
    (∀ name, mountStep fuel ⟨exTornDir.enc, ~~~0⟩ dev {} (.lookup 0 name) = .panic) ∧
    (∀ ord, MapOrder ord → mountStep fuel ⟨exTornDir.enc, ~~~0⟩ dev {} (.openDir 0 ord) = .panic) ∧
    ∃ s a, mountStep fuel ⟨exTornDir.enc, ~~~0⟩ dev {} (.getAttr 0) = .ok (s, a) := by
  obtain ⟨N, h⟩ := C116_crash_iff exTornDir.enc (AStore.enc_wf exTornDir_sorted) [] (enc_stores.mpr (by simp [exTornDir])) 5 256 exTornDir_askable
  refine ⟨N, fun fuel hf dev => ?_⟩
  have h := fun q hq => h fuel hf dev [] {} [] rfl q 0 topRescueNode hq rfl rfl rfl
  refine ⟨fun name => (h (.lookup 0 name) rfl (by intro _ _ h; cases h)).1.mpr (Or.inl ⟨2, _, exTornDir_seen, short_not_named⟩),
    fun ord hord => (h (.openDir 0 ord) rfl (by rintro _ _ h; cases h; exact hord)).1.mpr ⟨2, _, exTornDir_seen, short_not_named⟩, ?_⟩
  obtain ⟨h1, h2⟩ := h (.getAttr 0) rfl (by intro _ _ h; cases h)
  cases hx : mountStep fuel ⟨exTornDir.enc, ~~~0⟩ dev {} (.getAttr 0) with
  | ok r => exact ⟨r.1, r.2, rfl⟩
  | hang => exact absurd hx h2
  | panic =>
    obtain ⟨d, ⟨g, x, -, k1, -⟩, -⟩ := h1.mp hx
    have : ∀ e ∈ exTornDir, e.1.key ≠ ⟨256, 1, 0⟩ := by decide +kernel
    exact absurd rfl (this _ (enc_stores.mp k1))

/-- The store `exOneExtent`: the file "a" with four bytes on the device. -/
def exAsk : AStore := exOneExtent 4 ⟨9, 4, 0, 0, 0, 1, 16, 4, 0, 4⟩

theorem exAsk_sorted : exAsk.Sorted := sorted_of_before (by decide +kernel)

theorem exChunk_exactly (start len dev off : UInt64) : holdsExactly (exChunk start len dev off)
    ((ChunkRec.mk len 2 65536 1 4096 4096 4096 1 0).layout ++ (stripesLayout [⟨dev, off, uuidAllZero⟩] ++ [])) := by
  unfold exChunk
  exact mkItem_exactly _ _ (by simp [ChunkRec.layout, stripesLayout, StripeRec.layout])

theorem exAsk_exact (e : VKey × Bytes) (he : e ∈ exAsk) (ho : e.1.owner ≠ ~~~0) : ∃ d, holdsExactly e.2 d := by
  simp only [exAsk, exOneExtent, List.mem_cons, List.not_mem_nil, or_false] at he
  rcases he with rfl | rfl | rfl | rfl | rfl | rfl | rfl | rfl
  · exact ⟨_, mkItem_exactly _ _ (by decide)⟩
  · exact ⟨_, exChunk_exactly _ _ _ _⟩
  · exact ⟨_, mkItem_exactly _ _ (by decide)⟩
  · exact ⟨_, mkItem_exactly _ _ (by decide +kernel)⟩
  · exact ⟨_, mkItem_exactly _ _ (by decide +kernel)⟩
  · exact ⟨_, mkItem_exactly _ _ (by decide +kernel)⟩
  · exact ⟨_, mkItem_exactly _ _ (by decide)⟩
  · exact absurd rfl ho

theorem exAsk_range (o : UInt64) (last : Key) (ho : o ≠ ~~~0) (hc : ∃ e ∈ exAsk, e.1.owner = o ∧ last.before e.1.key) :
    exAsk.enc.RangeOK o last :=
  rangeOK_of ho (fun e he h => (exAsk_exact e he (h ▸ ho)).imp fun _ h => h.holds)
    (fun e he h => (by decide +kernel : ∀ e ∈ exAsk, e.1.owner ≠ ~~~0 → e.1.gen ≠ ~~~0 ∧ e.1.key ≠ KL0) e he (h ▸ ho)) hc

/-- What it holds under a key. -/
theorem exAsk_data {v : VKey} {x d : Bytes} (hv : exAsk.enc.stores v x) (hd : holdsExactly x d) :
    (v.owner = 5 → v.key.typ = 84 → d = exEntry ⟨257, 1, 0⟩ 1 [97]) ∧
    (v.owner = 5 → v.key.typ = 108 → d = (FileExtentItemRec.mk 9 4 0 0 0 1 16 4 0 4).layout) ∧
    (v.key.typ = 1 → d = (exInode 4).layout) ∧ (v.owner = 5 → v.key.typ ≠ 24) ∧
    (v.owner = 3 → v.key.typ = 228 →
      d = (ChunkRec.mk 64 2 65536 1 4096 4096 4096 1 0).layout ++ (stripesLayout [⟨1, 0, uuidAllZero⟩] ++ [])) := by
  have he := enc_stores.mp hv
  simp only [exAsk, exOneExtent, List.mem_cons, List.not_mem_nil, or_false, Prod.mk.injEq] at he
  rcases he with ⟨rfl, rfl⟩ | ⟨rfl, rfl⟩ | ⟨rfl, rfl⟩ | ⟨rfl, rfl⟩ | ⟨rfl, rfl⟩ | ⟨rfl, rfl⟩ | ⟨rfl, rfl⟩ | ⟨rfl, rfl⟩
  · exact ⟨fun h => absurd h (by decide), fun h => absurd h (by decide), fun h => absurd h (by decide), fun h => absurd h (by decide), fun _ h => absurd h (by decide)⟩
  · refine ⟨fun h => absurd h (by decide), fun h => absurd h (by decide), fun h => absurd h (by decide), fun h => absurd h (by decide), fun _ _ => ?_⟩
    exact hd.holds.unique (exChunk_exactly _ _ _ _).holds
  · exact ⟨fun h => absurd h (by decide), fun h => absurd h (by decide), fun h => absurd h (by decide), fun h => absurd h (by decide), fun _ h => absurd h (by decide)⟩
  · refine ⟨fun _ h => absurd h (by decide), fun _ h => absurd h (by decide), fun _ => ?_, fun _ => by decide, fun h => absurd h (by decide)⟩
    exact hd.holds.unique (mkItem_holds _ _ (by decide +kernel))
  · refine ⟨fun _ _ => ?_, fun _ h => absurd h (by decide), fun h => absurd h (by decide), fun _ => by decide, fun h => absurd h (by decide)⟩
    exact hd.holds.unique (mkItem_holds _ _ (by decide +kernel))
  · refine ⟨fun _ h => absurd h (by decide), fun _ _ => ?_, fun h => absurd h (by decide), fun _ => by decide, fun h => absurd h (by decide)⟩
    exact hd.holds.unique (mkItem_holds _ _ (by decide +kernel))
  · exact ⟨fun _ h => absurd h (by decide), fun _ h => absurd h (by decide), fun h => absurd h (by decide), fun _ => by decide, fun h => absurd h (by decide)⟩
  · exact ⟨fun h => absurd h (by decide), fun h => absurd h (by decide), fun h => absurd h (by decide), fun h => absurd h (by decide), fun h => absurd h (by decide)⟩

theorem exEntry_named : namedBy (exEntry ⟨257, 1, 0⟩ 1 [97]) ⟨⟨257, 1, 0⟩, 7, 0, 1, 1⟩ [97] := ⟨[], by decide +kernel, by decide +kernel⟩

theorem exAsk_askable (i : UInt64) : exAsk.enc.Askable 5 i where
  exact v x hv ho := exAsk_exact _ (enc_stores.mp hv) ho
  entries := exAsk_range _ _ (by decide) ⟨(⟨5, ⟨258, 132, 0⟩, 10⟩, mkItem ⟨258, 132, 0⟩ []), by simp [exAsk, exOneExtent], rfl, Or.inl (by decide : (84 : UInt8) < 132)⟩
  xattrs := exAsk_range _ _ (by decide) ⟨(⟨5, ⟨258, 132, 0⟩, 10⟩, mkItem ⟨258, 132, 0⟩ []), by simp [exAsk, exOneExtent], rfl, Or.inl (by decide : (24 : UInt8) < 132)⟩
  extents := exAsk_range _ _ (by decide) ⟨(⟨5, ⟨258, 132, 0⟩, 10⟩, mkItem ⟨258, 132, 0⟩ []), by simp [exAsk, exOneExtent], rfl, Or.inl (by decide : (108 : UInt8) < 132)⟩
  chunks := exAsk_range _ _ (by decide) (by decide +kernel)
  targets := by
    rintro off d e n ⟨g, x, -, h2, h3⟩ h4
    obtain rfl := (exAsk_data h2 h3).1 rfl rfl
    rw [(h4.unique exEntry_named).2.1]
    decide

/-- `C116_whole_items_partial` applies to every inode of it. -/
example (i : UInt64) : ∃ N, ∀ fuel, N ≤ fuel → ∀ dev qs s as, mountRunAll fuel ⟨exAsk.enc, ~~~0⟩ dev {} qs = .ok (s, as) →
      ∀ (q : MountReq) (k : Nat) (n : RescueNode), q.target = .inl k → s.nodes[k]? = some n → n.owner = 5 → n.ixInode = i →
      (∀ k' ord, q = .openDir k' ord → MapOrder ord) → ∃ s' a, mountStep fuel ⟨exAsk.enc, ~~~0⟩ dev s q = .ok (s', a) := by
  have hfirst : firstThere (FileExtentItemRec.mk 9 4 0 0 0 1 16 4 0 4).layout := ⟨1, by decide +kernel, fun h => absurd h (by decide)⟩
  refine C116_whole_items_partial _ (AStore.enc_wf exAsk_sorted) [] (enc_stores.mpr (by simp [exAsk, exOneExtent])) 5 i (exAsk_askable i) ?_ ?_ ?_ ?_ ?_
  · rintro o' i' d ⟨g, x, -, h2, h3⟩
    rw [(exAsk_data h2 h3).2.2.1 rfl]
    decide +kernel
  · rintro off d ⟨g, x, -, h2, h3⟩
    rw [(exAsk_data h2 h3).1 rfl rfl]
    exact ⟨_, _, exEntry_named⟩
  · rintro off d ⟨g, x, -, h2, h3⟩
    exact absurd rfl ((exAsk_data h2 h3).2.2.2.1 rfl)
  · rintro off d ⟨g, x, -, h2, h3⟩
    rw [(exAsk_data h2 h3).2.1 rfl rfl]
    refine ⟨hfirst, _, [], (List.append_nil _).symm, fun _ => ⟨?_, ?_⟩⟩
    · rintro d' ⟨start, g', x', -, k1, k2⟩
      rw [(exAsk_data k1 k2).2.2.2.2 rfl rfl]
      exact ⟨by decide +kernel, Or.inr (by decide +kernel)⟩
    · have hkey : exAsk.enc.hasKey 3 ⟨256, 228, 16⟩ :=
        enc_hasKey.mpr ⟨7, exChunk 16 64 1 0, by simp only [exAsk, exOneExtent, List.mem_cons, true_or, or_true]⟩
      obtain ⟨start, g', k1, ⟨x', k2⟩⟩ := run_first (b := exAsk.enc) (o := 3) (t := 228) (id := 256) ⟨16, hkey⟩
      obtain ⟨d', k3⟩ := exAsk_exact _ (enc_stores.mp k2) (show (3 : UInt64) ≠ ~~~0 by decide)
      refine ⟨d', ⟨start, g', x', k1, k2, k3⟩, ?_⟩
      rw [(exAsk_data k2 k3).2.2.2.2 rfl rfl]
      exact fun h => absurd h.1 (by decide +kernel)
  · rintro d ⟨g, x, -, h2, h3⟩
    rw [(exAsk_data h2 h3).2.1 rfl rfl]
    exact hfirst

/-- `C116_file_attr` applies after looking up and opening the file "a", with extents on the device. -/
example : ∃ s as es, mountRunAll 9 ⟨exAsk.enc, ~~~0⟩ (some (imageReader [5, 6])) {} [.lookup 0 [97], .open 1] = .ok (s, as) ∧
    s.files[0]? = some (5, 257, .extents es) := by
  have h1 : (match mountRunAll 9 ⟨exAsk.enc, ~~~0⟩ (some (imageReader [5, 6])) {} [.lookup 0 [97], .open 1] with
      | .ok (s, _) => decide (s.files[0]? = some (5, 257, .extents [⟨0, 4, 0, 16, 1⟩]))
      | _ => false) = true := by decide +kernel
  cases hx : mountRunAll 9 ⟨exAsk.enc, ~~~0⟩ (some (imageReader [5, 6])) {} [.lookup 0 [97], .open 1] with
  | panic => rw [hx] at h1; cases h1
  | hang => rw [hx] at h1; cases h1
  | ok r =>
    obtain ⟨s, as⟩ := r
    rw [hx] at h1
    exact ⟨s, as, _, rfl, of_decide_eq_true h1⟩

end Btrfscue
