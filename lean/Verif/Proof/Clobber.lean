import Verif.Proof.WholeRun
/-!
# Recovering over what is there: removing links
-/

namespace Btrfscue

open Cmd

/-! ## Removing an entry -/

/-- Names that are found without following a link are found under their last one. -/
theorem walk_entry (f : HostFS) (follow : Bool) : ∀ (A : List Bytes) (d i : Nat) (e e' : Option (Nat × Bytes)), (∀ n ∈ A, Plain n) → A ≠ [] →
    f.walk follow d e A = .done (.found i e') → ∃ X n d', A = X ++ [n] ∧ f.down d X = some d' ∧ e' = some (d', n) := by
  intro A
  induction A with
  | nil => intro d i e e' _ h; exact absurd rfl h
  | cons c A ih =>
    intro d i e e' hA _ hw
    have hc := hA c List.mem_cons_self
    have hA' : ∀ n ∈ A, Plain n := fun n h => hA n (List.mem_cons_of_mem _ h)
    rw [HostFS.walk.eq_2] at hw
    cases hd : f.inodes[d]? with
    | none => rw [hd] at hw; cases hw
    | some nd =>
      rw [hd] at hw
      cases nd with
      | file _ => cases hw
      | link _ => cases hw
      | dir es par =>
        simp only at hw
        rw [if_neg (fun h => h.elim hc.1 hc.2.1), if_neg (show ¬ c = dotdot from hc.2.2.1)] at hw
        cases he : hostEntry es c with
        | none =>
          rw [he] at hw
          simp only at hw
          split at hw <;> cases hw
        | some j =>
          rw [he] at hw
          simp only at hw
          have hch : f.child d c = some j := (child_dir hd c).trans he
          have hstep : f.walk follow j (some (d, c)) A = .done (.found i e') →
              ∃ X n d', c :: A = X ++ [n] ∧ f.down d X = some d' ∧ e' = some (d', n) := by
            intro hw
            by_cases hemp : A = []
            · subst hemp
              simp only [HostFS.walk, Walk.done.injEq, Look.found.injEq] at hw
              exact ⟨[], c, d, rfl, rfl, hw.2.symm⟩
            · obtain ⟨X, n, d', h1, h2, h3⟩ := ih j i _ e' hA' hemp hw
              refine ⟨c :: X, n, d', by rw [h1]; rfl, ?_, h3⟩
              simp only [HostFS.down, hch, Option.bind_some]
              exact h2
          cases hj : f.inodes[j]? with
          | none => rw [hj] at hw; exact hstep hw
          | some nd =>
            rw [hj] at hw
            cases nd with
            | file _ => exact hstep hw
            | dir _ _ => exact hstep hw
            | link t =>
              simp only at hw
              by_cases hend : (A.isEmpty && !follow) = true
              · rw [if_pos hend] at hw
                rw [Bool.and_eq_true, List.isEmpty_iff] at hend
                simp only [Walk.done.injEq, Look.found.injEq] at hw
                rw [hend.1]
                exact ⟨[], c, d, rfl, rfl, hw.2.symm⟩
              · rw [if_neg hend] at hw
                by_cases ht : t = []
                · rw [if_pos ht] at hw; cases hw
                · rw [if_neg ht] at hw; cases hw

theorem resolveFrom_entry {f : HostFS} {r : Nat} (follow : Bool) {A : List Bytes} (hA : ∀ n ∈ A, Plain n) (hne : A ≠ [])
    (hn : NoLinks f r A (!follow)) :
    ∀ (n d : Nat) (D : List Bytes) (e e' : Option (Nat × Bytes)) (i : Nat), f.resolveFrom true n d D = .found r e →
      f.resolveFrom follow n d (D ++ A) = .found i e' → ∃ X n d', A = X ++ [n] ∧ f.down r X = some d' ∧ e' = some (d', n) := by
  intro n
  induction n with
  | zero => intro d D e e' i h; cases h
  | succ n ih =>
    intro d D e e' i h h'
    simp only [HostFS.resolveFrom] at h h'
    cases hw : f.walk true d none D with
    | done l =>
      rw [hw] at h
      simp only at h
      subst h
      rw [(walk_append' f follow A hne D d none).1 r e hw] at h'
      obtain ⟨l, h1, -⟩ := walk_names f follow [] (Or.inl rfl) A r e hA hne (by simpa using hn)
      rw [List.append_nil] at h1
      rw [h1] at h'
      simp only at h'
      subst h'
      exact walk_entry f follow A r i e e' hA hne h1
    | jump d' cs' =>
      rw [hw] at h
      rw [(walk_append' f follow A hne D d none).2 d' cs' hw] at h'
      exact ih d' cs' e e' i h h'

theorem hostEntry_filter (es : List (Bytes × Nat)) (n c : Bytes) :
    hostEntry (es.filter fun e => decide (e.1 ≠ n)) c = if c = n then none else hostEntry es c := by
  induction es with
  | nil => simp [hostEntry]
  | cons e r ih =>
    by_cases he : e.1 = n
    · rw [List.filter_cons_of_neg (by simpa using he), ih]
      by_cases hc : c = n
      · rw [if_pos hc, if_pos hc]
      · rw [if_neg hc, if_neg hc]
        simp only [hostEntry]
        rw [if_neg (by rw [he]; exact fun h => hc h.symm)]
    · rw [List.filter_cons_of_pos (by simpa using he)]
      simp only [hostEntry, ih]
      by_cases hc : c = n
      · rw [if_pos hc, if_pos hc, if_neg (by rw [hc]; exact he)]
      · rw [if_neg hc, if_neg hc]

theorem unlink_get {f f' : HostFS} {d : Nat} {n : Bytes} (h : f.unlink d n = some f') :
    ∃ es par, f.inodes[d]? = some (.dir es par) ∧ f'.inodes[d]? = some (.dir (es.filter fun e => decide (e.1 ≠ n)) par) ∧
      f'.inodes.length = f.inodes.length ∧ f'.cwd = f.cwd ∧ ∀ j, j ≠ d → f'.inodes[j]? = f.inodes[j]? := by
  unfold HostFS.unlink at h
  cases hd : f.inodes[d]? with
  | none => rw [hd] at h; cases h
  | some nd =>
    rw [hd] at h
    cases nd with
    | file _ => cases h
    | link _ => cases h
    | dir es par =>
      simp only [Option.some.injEq] at h
      subst h
      refine ⟨es, par, rfl, put_get_self (List.getElem?_eq_some_iff.mp hd).1, by simp [HostFS.put], rfl, fun j hj => put_get (Ne.symm hj)⟩

theorem child_unlink {f f' : HostFS} {d : Nat} {n : Bytes} (h : f.unlink d n = some f') (k : Nat) (c : Bytes) :
    f'.child k c = if k = d ∧ c = n then none else f.child k c := by
  obtain ⟨es, par, h1, h2, -, -, h3⟩ := unlink_get h
  by_cases hk : k = d
  · subst hk
    rw [child_dir h2, child_dir h1, hostEntry_filter]
    by_cases hc : c = n
    · rw [if_pos hc, if_pos ⟨rfl, hc⟩]
    · rw [if_neg hc, if_neg (fun h => hc h.2)]
  · rw [if_neg (fun h => hk h.1)]
    unfold HostFS.child
    rw [h3 k hk]

/-- Removing an entry without children removes just it. -/
theorem down_unlink {f f' : HostFS} {r d : Nat} {n : Bytes} {X : List Bytes} (hT : IsTree f r) (h : f.unlink d n = some f')
    (hX : f.down r X = some d) (hi : ∀ i c, f.child d n = some i → f.child i c = none) :
    ∀ B j, f'.down r B = some j ↔ f.down r B = some j ∧ B ≠ X ++ [n] := by
  intro B
  induction B using List.reverseRecOn with
  | nil => intro j; simp [HostFS.down]
  | append_singleton A c ih =>
    intro j
    rw [down_snoc, down_snoc]
    constructor
    · intro hd
      obtain ⟨k, hk, hch⟩ := Option.bind_eq_some_iff.mp hd
      obtain ⟨hk, -⟩ := (ih k).mp hk
      rw [child_unlink h] at hch
      by_cases hkd : k = d ∧ c = n
      · rw [if_pos hkd] at hch; cases hch
      · rw [if_neg hkd] at hch
        refine ⟨by rw [hk]; exact hch, fun he => ?_⟩
        obtain ⟨h1, h2⟩ := List.append_inj' he rfl
        injection h2 with h2
        subst h1
        rw [hX] at hk
        cases hk
        exact hkd ⟨rfl, h2⟩
    · rintro ⟨hd, hne⟩
      obtain ⟨k, hk, hch⟩ := Option.bind_eq_some_iff.mp hd
      have hA : A ≠ X ++ [n] := by
        rintro rfl
        rw [down_snoc, hX, Option.bind_some] at hk
        rw [hi k c hk] at hch
        cases hch
      rw [(ih k).mpr ⟨hk, hA⟩, Option.bind_some, child_unlink h, if_neg]
      · exact hch
      · rintro ⟨rfl, rfl⟩
        exact hne (by rw [hT.inj _ _ _ hk hX])

theorem IsTree.unlink {f f' : HostFS} {r d : Nat} {n : Bytes} {X : List Bytes} (hT : IsTree f r) (h : f.unlink d n = some f')
    (hX : f.down r X = some d) (hi : ∀ i c, f.child d n = some i → f.child i c = none) : IsTree f' r := by
  have hd := down_unlink hT h hX hi
  obtain ⟨_, _, -, -, hlen, -⟩ := unlink_get h
  exact ⟨fun A B i hA hB => hT.inj A B i ((hd A i).mp hA).1 ((hd B i).mp hB).1, fun A i hA => by
    rw [hlen]; exact hT.ex A i ((hd A i).mp hA).1⟩

/-- What there was before is not among what is removed. -/
theorem Grown.unlink {fs f f' : HostFS} {d : Nat} {n : Bytes} (hg : Grown fs f) (h : f.unlink d n = some f')
    (hd : fs.inodes.length ≤ d ∨ ∃ par, fs.inodes[d]? = some (.dir [] par)) : Grown fs f' := by
  obtain ⟨es, par, h1, h2, h3, h4, h5⟩ := unlink_get h
  refine ⟨h4.trans hg.cwd, by rw [h3]; exact hg.len, fun i x hi => ?_, fun i x hi => ?_, fun i es0 p hi => ?_⟩
  · obtain ⟨x', hx⟩ := hg.file i x hi
    have : i ≠ d := by rintro rfl; rw [h1] at hx; cases hx
    exact ⟨x', by rw [h5 i this]; exact hx⟩
  · have hx := hg.link i x hi
    have : i ≠ d := by rintro rfl; rw [h1] at hx; cases hx
    rw [h5 i this]; exact hx
  · by_cases hid : i = d
    · subst hid
      rcases hd with hd | ⟨par', hd⟩
      · have := (List.getElem?_eq_some_iff.mp hi).1
        omega
      · rw [hd] at hi
        cases hi
        obtain ⟨es', h6, -⟩ := hg.dir i [] _ hd
        rw [h1] at h6
        cases h6
        exact ⟨_, h2, fun n j hj => by cases hj⟩
    · obtain ⟨es', h6, h7⟩ := hg.dir i es0 p hi
      exact ⟨es', by rw [h5 i hid]; exact h6, h7⟩

theorem down_grown {a b : HostFS} (h : Grown a b) : ∀ (A : List Bytes) (d i : Nat), a.down d A = some i → b.down d A = some i := by
  intro A
  induction A with
  | nil => exact fun _ _ h => h
  | cons c A ih =>
    intro d i hd
    simp only [HostFS.down] at hd ⊢
    obtain ⟨k, hk, hr⟩ := Option.bind_eq_some_iff.mp hd
    obtain ⟨es, par, h1, h2⟩ := child_some hk
    obtain ⟨es', h3, h4⟩ := h.dir d es par h1
    rw [child_dir h3, h4 c k h2, Option.bind_some]
    exact ih k i hr

/-! ## What stays -/

/-- All that is there in `f`, but for what is at `Q`, is there in `f'`, and holds the same. -/
def Others (r : Nat) (Q : List Bytes → Prop) (f f' : HostFS) : Prop :=
  ∀ B j, ¬ Q B → f.down r B = some j → f'.down r B = some j ∧ (f'.inodes[j]? = f.inodes[j]? ∨ f.isDirAt j = true ∧ f'.isDirAt j = true)

theorem Others.refl (r : Nat) (Q : List Bytes → Prop) (f : HostFS) : Others r Q f f := fun _ _ _ h => ⟨h, Or.inl rfl⟩

theorem isDirAt_congr {f g : HostFS} {j : Nat} (h : g.inodes[j]? = f.inodes[j]?) : g.isDirAt j = f.isDirAt j := by
  unfold HostFS.isDirAt; rw [h]

theorem Others.trans {r : Nat} {Q : List Bytes → Prop} {f g k : HostFS} (h : Others r Q f g) (h' : Others r Q g k) : Others r Q f k := by
  intro B j hQ hB
  obtain ⟨h1, h2⟩ := h B j hQ hB
  obtain ⟨h3, h4⟩ := h' B j hQ h1
  refine ⟨h3, ?_⟩
  rcases h2 with h2 | ⟨h2, h2'⟩
  · rcases h4 with h4 | ⟨h4, h5⟩
    · exact Or.inl (h4.trans h2)
    · exact Or.inr ⟨(isDirAt_congr h2).symm.trans h4, h5⟩
  · rcases h4 with h4 | ⟨h4, h5⟩
    · exact Or.inr ⟨h2, (isDirAt_congr h4).trans h2'⟩
    · exact Or.inr ⟨h2, h5⟩

theorem Preserved.others {r : Nat} {Q : List Bytes → Prop} {f g : HostFS} (hT : IsTree f r) (h : Preserved f g) : Others r Q f g := by
  intro B j _ hB
  refine ⟨down_grown h.grown B r j hB, ?_⟩
  have hlt := hT.ex B j hB
  have : f.inodes[j]? = some f.inodes[j] := List.getElem?_eq_getElem hlt
  cases hn : f.inodes[j] with
  | file x => rw [hn] at this; exact Or.inl ((h.file j x this).trans this.symm)
  | link x => rw [hn] at this; exact Or.inl ((h.link j x this).trans this.symm)
  | dir es par =>
    rw [hn] at this
    have hd := isDirAt_iff.mpr ⟨_, _, this⟩
    exact Or.inr ⟨hd, isDirAt_grown h.grown hd⟩

section
variable {ix : Ix} {fs : HostFS} {dest : Bytes} {r : Nat} {f : HostFS} {A : List Bytes}

/-- What is below the destination is where it belongs, and was not there in `fs`. -/
structure Base (ix : Ix) (fs : HostFS) (dest : Bytes) (r : Nat) (f : HostFS) : Prop where
  shape : Shape ix dest r f
  grown : Grown fs f
  fresh : ∀ A i, f.down r A = some i → A ≠ [] → fs.inodes.length ≤ i

theorem Base.create (h : Base ix fs dest r f) {d i : Nat} {n : Bytes} {nd : INode} {f' : HostFS} {X : List Bytes}
    (hc : f.create d n nd = some (f', i)) (hX : f.down r X = some d) (hno : f.down r (X ++ [n]) = none)
    (hk : (∃ par, nd = .dir [] par ∧ DirAt ix dest (X ++ [n])) ∨ (∃ x o m, nd = .file x ∧ EntryAt ix dest 1 o m (X ++ [n])) ∨
      ∃ x o m, nd = .link x ∧ EntryAt ix dest 7 o m (X ++ [n])) :
    Base ix fs dest r f' ∧ ∀ Q, Others r Q f f' := by
  have hno' : f.child d n = none := by
    rw [down_snoc, hX, Option.bind_some] at hno; exact hno
  have hnd : ∀ es par, nd = .dir es par → es = [] := by
    intro es par he
    rcases hk with ⟨par', h, -⟩ | ⟨x, o, m, h, -⟩ | ⟨x, o, m, h, -⟩
    · rw [he] at h; cases h; rfl
    · rw [he] at h; cases h
    · rw [he] at h; cases h
  have hdown := down_create h.shape.tree hnd hc hX hno'
  refine ⟨⟨(h.shape.create hc hX hno hk).1, h.grown.trans (create_preserved hc).grown, fun B j hB hne => ?_⟩,
    fun Q => (create_preserved hc).others h.shape.tree⟩
  rcases (hdown B j).mp hB with hB | ⟨-, rfl⟩
  · exact h.fresh B j hB hne
  · rw [(create_get hc).1]; exact h.grown.len

theorem Base.put (h : Base ix fs dest r f) {i : Nat} {x y : Bytes} (hf : f.inodes[i]? = some (.file x)) :
    Base ix fs dest r (f.put i (.file y)) :=
  ⟨(h.shape.put hf).1, h.grown.trans (put_grown hf), fun B j hB hne => by rw [down_put hf] at hB; exact h.fresh B j hB hne⟩

theorem others_put {Q : List Bytes → Prop} {i : Nat} {x y : Bytes} {f0 : HostFS} (h : Others r Q f0 f) (hf : f.inodes[i]? = some (.file x))
    (hi : ∀ B j, ¬ Q B → f0.down r B = some j → j ≠ i) : Others r Q f0 (f.put i (.file y)) := by
  intro B j hQ hB
  obtain ⟨h1, h2⟩ := h B j hQ hB
  have hji := hi B j hQ hB
  have hput : (f.put i (.file y)).inodes[j]? = f.inodes[j]? := put_get (Ne.symm hji)
  refine ⟨by rw [down_put hf]; exact h1, ?_⟩
  rw [hput, isDirAt_congr hput]
  exact h2

/-- Removing a link. -/
theorem Base.unlink (hD : ix.Distinct dest) (he : EmptyDest fs dest r) (h : Base ix fs dest r f) {d : Nat} {n : Bytes} {f' : HostFS} {X : List Bytes}
    {o m : UInt64} (hA : EntryAt ix dest 7 o m (X ++ [n])) (hu : f.unlink d n = some f') (hX : f.down r X = some d) :
    Base ix fs dest r f' ∧ Others r (· = X ++ [n]) f f' := by
  have hi : ∀ i c, f.child d n = some i → f.child i c = none := by
    intro i c hc
    have hd : f.down r (X ++ [n]) = some i := by rw [down_snoc, hX, Option.bind_some]; exact hc
    obtain ⟨x, hx⟩ := h.shape.link hD he.ok hA hd
    unfold HostFS.child
    rw [hx]
  have hdown := down_unlink h.shape.tree hu hX hi
  obtain ⟨es, par, h1, h2, h3, h4, h5⟩ := unlink_get hu
  have hkeep : ∀ j, f'.inodes[j]? = f.inodes[j]? ∨ f.isDirAt j = true ∧ f'.isDirAt j = true := by
    intro j
    by_cases hj : j = d
    · subst hj
      exact Or.inr ⟨isDirAt_iff.mpr ⟨_, _, h1⟩, isDirAt_iff.mpr ⟨_, _, h2⟩⟩
    · exact Or.inl (h5 j hj)
  refine ⟨⟨⟨h.shape.tree.unlink hu hX hi, fun B j hB => ?_⟩, h.grown.unlink hu ?_, fun B j hB => h.fresh B j ((hdown B j).mp hB).1⟩, ?_⟩
  · have hB' := ((hdown B j).mp hB).1
    rcases h.shape.kind B j hB' with ⟨g1, g2⟩ | ⟨o, m, x, g1, g2⟩ | ⟨o, m, x, g1, g2⟩
    · refine Or.inl ⟨g1, ?_⟩
      rcases hkeep j with hk | ⟨-, hk⟩
      · rw [isDirAt_congr hk]; exact g2
      · exact hk
    · refine Or.inr (Or.inl ⟨o, m, x, g1, ?_⟩)
      rw [h5 j (by rintro rfl; rw [h1] at g2; cases g2)]; exact g2
    · refine Or.inr (Or.inr ⟨o, m, x, g1, ?_⟩)
      rw [h5 j (by rintro rfl; rw [h1] at g2; cases g2)]; exact g2
  · by_cases hXn : X = []
    · subst hXn
      cases hX
      exact Or.inr he.empty
    · exact Or.inl (h.fresh X d hX hXn)
  · intro B j hQ hB
    exact ⟨(hdown B j).mpr ⟨hB, hQ⟩, hkeep j⟩

/-- Between `s` and `t`, all but what is at `Q` has stayed. -/
structure Between (ix : Ix) (fs : HostFS) (dest : Bytes) (r rf : Nat) (Q : List Bytes → Prop) (s t : RecState) : Prop where
  base : Base ix fs dest r t.fs
  cache : CacheOK rf ix t
  past : ∀ f ∈ t.past, Base ix fs dest r f
  others : Others r Q s.fs t.fs
  logs : ∀ e ∈ s.log, e ∈ t.log
  dests : t.dests = s.dests

variable {rf : Nat} {Q : List Bytes → Prop} {s : RecState} {env : Env}

theorem Between.refl (h1 : Base ix fs dest r s.fs) (h3 : CacheOK rf ix s) (h4 : ∀ f ∈ s.past, Base ix fs dest r f) :
    Between ix fs dest r rf Q s s := ⟨h1, h3, h4, Others.refl _ _ _, fun _ h => h, rfl⟩

theorem Between.calls (t : RecState) (n : Nat) (h : Between ix fs dest r rf Q s t) : Between ix fs dest r rf Q s { t with calls := n } :=
  ⟨h.base, h.cache, h.past, h.others, h.logs, h.dests⟩

theorem Between.note (k : Sys) (p : Bytes) : Keeps (Between ix fs dest r rf Q s) (note (.op k p)) :=
  Keeps.modify fun _ h => ⟨h.base, h.cache, h.past, h.others, fun e he => List.mem_cons_of_mem _ (h.logs e he), h.dests⟩

theorem Between.setfs {t : RecState} (h : Between ix fs dest r rf Q s t) {f' : HostFS} (hs : Base ix fs dest r f') (ho : Others r Q s.fs f') :
    Between ix fs dest r rf Q s { t with fs := f', past := t.fs :: t.past } :=
  ⟨hs, h.cache, past_cons h.base h.past, ho, h.logs, h.dests⟩

theorem Between.apply {g : HostFS → Option HostFS}
    (hg : ∀ f f', Base ix fs dest r f → Others r Q s.fs f → g f = some f' → Base ix fs dest r f' ∧ Others r Q s.fs f') :
    Keeps (Between ix fs dest r rf Q s) ((Cmd.get : Rec RecState) >>= fun s => applyFS (g s.fs)) := by
  intro t ht
  rw [wp_bind, wp_get]
  cases hf : g t.fs with
  | none => exact ht
  | some f' =>
    obtain ⟨h1, h2⟩ := hg _ _ ht.base ht.others hf
    exact ht.setfs h1 h2

theorem Between.mkdir (hD : ix.Distinct dest) (hok : DestOK fs dest r) {p : Bytes} (hA : DirAt ix dest A) (hne : A ≠ [])
    (hp : WayNames dest A p) : Keeps (Between ix fs dest r rf Q s) (sysMkdir env p) := by
  unfold sysMkdir
  refine Keeps.bind (Between.note _ _) fun _ => Keeps.bind (Keeps.tick Between.calls) fun _ => Keeps.ite (fun _ => Keeps.pure) fun _ => ?_
  refine Between.apply (g := fun f => f.mkdir p) fun f f' hs ho hm => ?_
  unfold HostFS.mkdir at hm
  obtain ⟨hpn, hroot, ⟨-, h⟩ | ⟨tail, h1, h2, -, h4⟩⟩ := hp
  · exact absurd h hne
  · have hl := resolve_names (follow := false) hok hs.grown hroot h4 h2 h1 hne (hs.shape.nolinks_dir hD hok hA _)
    cases hr : f.resolve false p with
    | found _ _ => rw [hr] at hm; cases hm
    | fail => rw [hr] at hm; cases hm
    | missing d n sl =>
      rw [hr] at hm hl
      obtain ⟨⟨f1, i⟩, h5, h6⟩ := Option.map_eq_some_iff.mp hm
      simp only at h6
      subst h6
      rcases hl with ⟨hl, -⟩ | hl
      · cases hl
      · obtain ⟨k1, -, X, rfl, k3⟩ := hl.missing d n sl rfl
        obtain ⟨g1, g2⟩ := hs.create h5 k3 k1 (Or.inl ⟨d, rfl, hA⟩)
        exact ⟨g1, ho.trans (g2 _)⟩

theorem Between.mkdirAll (hst : ∀ n, env.fails .stat n = false) (hD : ix.Distinct dest) (hok : DestOK fs dest r) :
    ∀ (n : Nat) (A : List Bytes) (p : Bytes), DirAt ix dest A → WayNames dest A p →
      Keeps (Between ix fs dest r rf Q s) (mkdirAllAux env n p) := by
  intro n
  induction n with
  | zero => exact fun _ _ _ _ => Keeps.hang
  | succ n ih =>
    intro A p hA hp t ht
    unfold mkdirAllAux
    rw [wp_bind]
    refine wp_mono (wp_sysStat (p := p) Between.calls ht) ?_ fun _ ht => ht
    rintro st u ⟨hu, hn⟩
    cases st with
    | some b => exact hu
    | none =>
      have h0 : u.fs.stat true p = none := by
        rcases hn rfl with ⟨m, hm⟩ | h
        · rw [hst m] at hm; cases hm
        · exact h
      rcases hp.parent hok hu.base.grown with h | ⟨N, c, rfl, h⟩
      · exact absurd h0 h
      · have hlast : Keeps (Between ix fs dest r rf Q s) (mkdirLast env p) := by
          unfold mkdirLast
          exact Keeps.bind (Between.mkdir hD hok hA (by simp) hp) fun _ => Keeps.ite (fun _ => Keeps.pure) fun _ =>
            Keeps.bind (Keeps.sysLstat Between.calls) fun _ => Keeps.pure
        refine (show Keeps (Between ix fs dest r rf Q s) _ from ?_) u hu
        refine Keeps.ite (fun _ => hlast) fun hne => Keeps.bind (ih N _ (hA.front hD hok.clean hok.ne) ?_) fun _ =>
          Keeps.ite (fun _ => hlast) fun _ => Keeps.pure
        exact h.resolve_left hne

theorem Between.fileInv {clobber : Bool} (hD : ix.Distinct dest) (hok : DestOK fs dest r) {o i : UInt64}
    (hA : EntryAt ix dest 1 o i A) :
    FileInv env rf ix clobber (Between ix fs dest r rf (· = A) s) (Named dest A)
      (fun fd => ∀ B j, B ≠ A → s.fs.down r B = some j → j ≠ fd) where
  calls := Between.calls
  cache t l c x hp ht := ⟨ht.base, ht.cache.physical hp, ht.past, ht.others, ht.logs, ht.dests⟩
  openFile p t hp ht _ := by
    unfold wp sysOpen
    simp only [bind_def, Btrfscue.note, modify_run, tick]
    have hop0 : ∀ (x : Bytes) , Between ix fs dest r rf (· = A) s
        { fs := t.fs, calls := t.calls + 1, cache := t.cache, visited := t.visited, log := .op .open x :: t.log, past := t.past } := fun x =>
      ⟨ht.base, ht.cache, ht.past, ht.others, fun e he => List.mem_cons_of_mem _ (ht.logs e he), ht.dests⟩
    by_cases hf : env.fails .open t.calls = true
    · simp only [hf, if_true, pure_run]
      exact ⟨hop0 p, fun _ h => by cases h⟩
    · simp only [hf, Bool.false_eq_true, if_false, bind_def, get_run]
      cases hop : t.fs.openTrunc p with
      | none => exact ⟨hop0 p, fun _ h => by cases h⟩
      | some x =>
        obtain ⟨f', j⟩ := x
        unfold HostFS.openTrunc at hop
        have hl := ht.base.shape.resolve_entry hD hok ht.base.grown hA hp (follow := true) (Or.inl rfl)
        have hmain : (Base ix fs dest r f' ∧ Others r (· = A) s.fs f') ∧ ∀ B k, B ≠ A → s.fs.down r B = some k → k ≠ j := by
          cases hr : t.fs.resolve true p with
          | fail => rw [hr] at hop; cases hop
          | found k e =>
            rw [hr] at hop hl
            simp only at hop
            cases hk : t.fs.inodes[k]? with
            | none => rw [hk] at hop; cases hop
            | some nd =>
              rw [hk] at hop
              cases nd with
              | dir _ _ => cases hop
              | link _ => cases hop
              | file x =>
                simp only [Option.some.injEq, Prod.mk.injEq] at hop
                obtain ⟨rfl, rfl⟩ := hop
                have hother : ∀ B m, B ≠ A → s.fs.down r B = some m → m ≠ k := by
                  rintro B m hne hB rfl
                  rcases hl with ⟨hl, -⟩ | hl
                  · cases hl
                  · exact hne (ht.base.shape.tree.inj _ _ _ (ht.others B m hne hB).1 (hl.found m e rfl))
                exact ⟨⟨ht.base.put hk, others_put ht.others hk hother⟩, hother⟩
          | missing d n sl =>
            rw [hr] at hop hl
            cases sl with
            | true => cases hop
            | false =>
              simp only at hop
              rcases hl with ⟨hl, -⟩ | hl
              · cases hl
              · obtain ⟨k1, -, X, rfl, k3⟩ := hl.missing d n false rfl
                obtain ⟨g1, g2⟩ := ht.base.create hop k3 k1 (Or.inr (Or.inl ⟨_, _, _, rfl, hA⟩))
                refine ⟨⟨g1, ht.others.trans (g2 _)⟩, ?_⟩
                rintro B m hne hB rfl
                have := ht.base.shape.tree.ex B _ (ht.others B _ hne hB).1
                rw [(create_get hop).1] at this
                omega
        exact ⟨(hop0 p).setfs hmain.1.1 hmain.1.2, fun fd hfd => by cases hfd; exact hmain.2⟩
  write fd b off hfd := by
    have hw : ∀ x n f f', Base ix fs dest r f → Others r (· = A) s.fs f → f.write fd n x = some f' →
        Base ix fs dest r f' ∧ Others r (· = A) s.fs f' := by
      intro x n f f' hs ho hm
      unfold HostFS.write at hm
      split at hm
      · next d hd => cases hm; exact ⟨hs.put hd, others_put ho hd hfd⟩
      · cases hm
    unfold sysWrite
    refine Keeps.ite (fun _ => Keeps.pure) fun _ => Keeps.ite (fun _ => Keeps.pure) fun _ => ?_
    refine Keeps.bind Keeps.get fun u => Keeps.bind (Keeps.tick Between.calls) fun _ => Keeps.ite (fun _ => ?_) fun _ =>
      Keeps.ite (fun _ => Keeps.pure) fun _ => ?_
    · have := Between.apply (s := s) (rf := rf) (g := fun f => f.write fd off.toNat (b.take (env.short u.calls))) fun f f' => hw _ _ f f'
      intro t ht
      have := this t ht
      rw [wp_bind] at this ⊢
      refine wp_mono this (fun a v hv => ?_) fun _ h => h
      rw [wp_bind]
      exact hv
    · exact Between.apply (g := fun f => f.write fd off.toNat b) fun f f' => hw _ _ f f'
  truncate fd n hfd := by
    unfold sysTruncate
    refine Keeps.bind (Keeps.tick Between.calls) fun _ => Keeps.ite (fun _ => Keeps.pure) fun _ =>
      Keeps.ite (fun _ => Keeps.pure) fun _ => ?_
    refine Between.apply (g := fun f => f.truncate fd n.toNat) fun f f' hs ho hm => ?_
    unfold HostFS.truncate at hm
    split at hm
    · next d hd => cases hm; exact ⟨hs.put hd, others_put ho hd hfd⟩
    · cases hm

theorem Between.symlink (hD : ix.Distinct dest) (hok : DestOK fs dest r) {o i : UInt64}
    (hA : EntryAt ix dest 7 o i A) {p : Bytes} (hp : Named dest A p) (t : Bytes) :
    Keeps (Between ix fs dest r rf (· = A) s) (sysSymlink env t p) := by
  unfold sysSymlink
  refine Keeps.bind (Between.note _ _) fun _ => Keeps.bind (Keeps.tick Between.calls) fun _ => Keeps.ite (fun _ => Keeps.pure) fun _ => ?_
  refine Between.apply (g := fun f => f.symlink t p) fun f f' hs ho hm => ?_
  unfold HostFS.symlink at hm
  by_cases ht : t = [] ∨ 0 ∈ t ∨ 4096 ≤ t.length
  · rw [if_pos ht] at hm; cases hm
  · rw [if_neg ht] at hm
    have hl := hs.shape.resolve_entry hD hok hs.grown hA hp (follow := false) (Or.inr rfl)
    cases hr : f.resolve false p with
    | found _ _ => rw [hr] at hm; cases hm
    | fail => rw [hr] at hm; cases hm
    | missing d n sl =>
      rw [hr] at hm hl
      cases sl with
      | true => cases hm
      | false =>
        obtain ⟨⟨f1, i⟩, h5, h6⟩ := Option.map_eq_some_iff.mp hm
        simp only at h6
        subst h6
        rcases hl with ⟨hl, -⟩ | hl
        · cases hl
        · obtain ⟨k1, -, X, rfl, k3⟩ := hl.missing d n false rfl
          obtain ⟨g1, g2⟩ := hs.create h5 k3 k1 (Or.inr (Or.inr ⟨_, _, _, rfl, hA⟩))
          exact ⟨g1, ho.trans (g2 _)⟩

theorem Between.remove (hD : ix.Distinct dest) (he : EmptyDest fs dest r) {o i : UInt64}
    (hA : EntryAt ix dest 7 o i A) {p : Bytes} (hp : Named dest A p) :
    Keeps (Between ix fs dest r rf (· = A) s) (sysRemove env p) := by
  unfold sysRemove
  refine Keeps.bind (Between.note _ _) fun _ => Keeps.bind (Keeps.tick Between.calls) fun _ => Keeps.ite (fun _ => Keeps.pure) fun _ => ?_
  refine Between.apply (g := fun f => f.remove p) fun f f' hs ho hm => ?_
  unfold HostFS.remove at hm
  have hl := hs.shape.resolve_entry hD he.ok hs.grown hA hp (follow := false) (Or.inr rfl)
  cases hr : f.resolve false p with
  | missing _ _ _ => rw [hr] at hm; cases hm
  | fail => rw [hr] at hm; cases hm
  | found k e =>
    rw [hr] at hm hl
    rcases hl with ⟨hl, -⟩ | hl
    · cases hl
    have hk := hl.found k e rfl
    obtain ⟨x, hx⟩ := hs.shape.link hD he.ok hA hk
    have hent : ∃ X n d, A = X ++ [n] ∧ f.down r X = some d ∧ e = some (d, n) := by
      unfold HostFS.resolve at hr
      by_cases hb : p = [] ∨ 0 ∈ p ∨ 4096 ≤ p.length
      · rw [if_pos hb] at hr; cases hr
      · rw [if_neg hb, hp.split (hA.ne hD he.ok), List.append_nil, hp.rooted] at hr
        obtain ⟨e0, he0⟩ := he.ok.base_grown hs.grown
        exact resolveFrom_entry false hp.plain (hA.ne hD he.ok) (hs.shape.nolinks_entry hD he.ok hA _ (Or.inr rfl)) _ _ _ e0 e k he0 hr
    obtain ⟨X, n, d, rfl, h2, rfl⟩ := hent
    simp only [hx] at hm
    obtain ⟨g1, g2⟩ := hs.unlink hD he hA hm h2
    exact ⟨g1, ho.trans g2⟩

theorem Between.link {clobber : Bool} (hD : ix.Distinct dest) (he : EmptyDest fs dest r) {o i : UInt64}
    (hA : EntryAt ix dest 7 o i A) {p : Bytes} (hp : Named dest A p) (o' i' : UInt64) :
    Keeps (Between ix fs dest r rf (· = A) s) (recoverSymlink env rf ix clobber o' i' p) :=
  Keeps.recoverSymlink Between.calls rf ix (fun _ _ _ _ hp ht => ⟨ht.base, ht.cache.physical hp, ht.past, ht.others, ht.logs, ht.dests⟩)
    (fun _ => Between.remove hD he hA hp) (fun t => Between.symlink hD he.ok hA hp t) o' i'

/-! ## Reading what stays -/

theorem readFile_others (hD : ix.Distinct dest) (hok : DestOK fs dest r) {g : HostFS} (hf : Base ix fs dest r f) (hg : Base ix fs dest r g)
    (ho : Others r Q f g) (hQ : ¬ Q A) {o i : UInt64} (hA : EntryAt ix dest 1 o i A) {p : Bytes} (hp : Named dest A p) {x : Bytes}
    (hx : f.readFile p = some x) : g.readFile p = some x := by
  unfold HostFS.readFile at hx ⊢
  cases hr : f.resolve true p with
  | fail => rw [hr] at hx; cases hx
  | missing _ _ _ => rw [hr] at hx; cases hx
  | found j e =>
    rw [hr] at hx
    simp only at hx
    have hj : f.down r A = some j := by
      rcases hf.shape.resolve_entry hD hok hf.grown hA hp (follow := true) (Or.inl rfl) with ⟨h, -⟩ | h
      · rw [hr] at h; cases h
      · exact h.found j e hr
    obtain ⟨h1, h2⟩ := ho A j hQ hj
    rcases hg.shape.resolve_entry hD hok hg.grown hA hp (follow := true) (Or.inl rfl) with ⟨-, h⟩ | h
    · unfold HostFS.resolve at hr
      rw [if_pos h] at hr; cases hr
    · obtain ⟨e', he'⟩ := h.there j h1 (Or.inl rfl)
      rw [he']
      simp only
      rcases h2 with h2 | ⟨h2, -⟩
      · rw [h2]; exact hx
      · obtain ⟨es, par, h2⟩ := isDirAt_iff.mp h2
        rw [h2] at hx
        cases hx

theorem readLink_others (hD : ix.Distinct dest) (hok : DestOK fs dest r) {g : HostFS} (hf : Base ix fs dest r f) (hg : Base ix fs dest r g)
    (ho : Others r Q f g) (hQ : ¬ Q A) {o i : UInt64} (hA : EntryAt ix dest 7 o i A) {p : Bytes} (hp : Named dest A p) {x : Bytes}
    (hx : f.readLink p = some x) : g.readLink p = some x := by
  unfold HostFS.readLink at hx ⊢
  cases hr : f.resolve false p with
  | fail => rw [hr] at hx; cases hx
  | missing _ _ _ => rw [hr] at hx; cases hx
  | found j e =>
    rw [hr] at hx
    simp only at hx
    have hj : f.down r A = some j := by
      rcases hf.shape.resolve_entry hD hok hf.grown hA hp (follow := false) (Or.inr rfl) with ⟨h, -⟩ | h
      · rw [hr] at h; cases h
      · exact h.found j e hr
    obtain ⟨h1, h2⟩ := ho A j hQ hj
    rcases hg.shape.resolve_entry hD hok hg.grown hA hp (follow := false) (Or.inr rfl) with ⟨-, h⟩ | h
    · unfold HostFS.resolve at hr
      rw [if_pos h] at hr; cases hr
    · obtain ⟨e', he'⟩ := h.there j h1 (Or.inl rfl)
      rw [he']
      simp only
      rcases h2 with h2 | ⟨h2, -⟩
      · rw [h2]; exact hx
      · obtain ⟨es, par, h2⟩ := isDirAt_iff.mp h2
        rw [h2] at hx
        cases hx

theorem stat_others (hD : ix.Distinct dest) (hok : DestOK fs dest r) {g : HostFS} (hf : Base ix fs dest r f) (hg : Base ix fs dest r g)
    (ho : Others r Q f g) (hQ : ¬ Q A) (hA : DirAt ix dest A) {p : Bytes} (hp : Named dest A p)
    (hx : f.stat true p = some true) : g.stat true p = some true := by
  by_cases hne : A = []
  · subst hne
    have : p = dest := hp.path (Named.refl hok.clean hok.ne)
    subst this
    obtain ⟨e, he⟩ := hok.found
    obtain ⟨es, par, hd⟩ := hok.dir
    have h1 := resolve_grown hg.grown he ⟨_, hd⟩
    obtain ⟨es', h2, -⟩ := hg.grown.dir r es par hd
    unfold HostFS.stat
    rw [h1]
    simp only [h2, Option.map_some, HostFS.isDirAt]
  · have hw : ∀ k, Base ix fs dest r k → (k.resolve true p = .fail ∧ (p = [] ∨ 0 ∈ p ∨ 4096 ≤ p.length)) ∨ Leads' k r A [] (k.resolve true p) :=
      fun k hk => resolve_names hok hk.grown hp.rooted (hp.split hne) (Or.inl rfl) hp.plain hne (hk.shape.nolinks_dir hD hok hA _)
    unfold HostFS.stat at hx ⊢
    cases hr : f.resolve true p with
    | fail => rw [hr] at hx; cases hx
    | missing _ _ _ => rw [hr] at hx; cases hx
    | found j e =>
      have hj : f.down r A = some j := by
        rcases hw f hf with ⟨h, -⟩ | h
        · rw [hr] at h; cases h
        · exact h.found j e hr
      obtain ⟨h1, -⟩ := ho A j hQ hj
      have h2 := hg.shape.dir hD hok hA h1
      rcases hw g hg with ⟨-, h⟩ | h
      · unfold HostFS.resolve at hr
        rw [if_pos h] at hr; cases hr
      · obtain ⟨e', he'⟩ := h.there j h1 (Or.inl rfl)
        rw [he']
        obtain ⟨es, par, h3⟩ := isDirAt_iff.mp h2
        simp only [h3, Option.map_some, h2]

end

end Btrfscue
