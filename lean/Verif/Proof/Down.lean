import Verif.Proof.Contain
import Verif.Spec.RecoverWhole
import Mathlib.Data.List.Induction
/-!
# Walking down a directory tree
-/

namespace Btrfscue

theorem down_nil (f : HostFS) (d : Nat) : f.down d [] = some d := rfl

theorem down_append (f : HostFS) (B : List Bytes) : ∀ (A : List Bytes) (d : Nat), f.down d (A ++ B) = (f.down d A).bind fun i => f.down i B := by
  intro A
  induction A with
  | nil => intro d; rfl
  | cons c A ih =>
    intro d
    rw [List.cons_append]
    simp only [HostFS.down]
    cases h : f.child d c with
    | none => rfl
    | some i => simp only [Option.bind_some]; exact ih i

theorem down_snoc (f : HostFS) (A : List Bytes) (c : Bytes) (d : Nat) : f.down d (A ++ [c]) = (f.down d A).bind fun i => f.child i c := by
  rw [down_append]
  congr 1
  funext i
  simp only [HostFS.down]
  cases f.child i c <;> rfl

theorem child_dir {f : HostFS} {d : Nat} {es : List (Bytes × Nat)} {par : Nat} (h : f.inodes[d]? = some (.dir es par)) (c : Bytes) :
    f.child d c = hostEntry es c := by
  unfold HostFS.child; rw [h]

theorem child_some {f : HostFS} {d : Nat} {c : Bytes} {i : Nat} (h : f.child d c = some i) :
    ∃ es par, f.inodes[d]? = some (.dir es par) ∧ hostEntry es c = some i := by
  unfold HostFS.child at h
  cases hd : f.inodes[d]? with
  | none => rw [hd] at h; cases h
  | some nd =>
    rw [hd] at h
    cases nd with
    | dir es par => exact ⟨es, par, rfl, h⟩
    | file _ => cases h
    | link _ => cases h

/-- No link stands at one of the names on the way; at the last one only if `last`. -/
def NoLinks (f : HostFS) (d : Nat) (A : List Bytes) (last : Bool) : Prop :=
  ∀ X c B j t, A = X ++ c :: B → (B ≠ [] ∨ last = false) → f.down d (X ++ [c]) = some j → f.inodes[j]? ≠ some (.link t)

theorem NoLinks.tail {f : HostFS} {d i : Nat} {c : Bytes} {A : List Bytes} {last : Bool} (h : NoLinks f d (c :: A) last)
    (hc : f.child d c = some i) : NoLinks f i A last := by
  intro X c' B j t he hB hd
  refine h (c :: X) c' B j t (by rw [he]; rfl) hB ?_
  rw [List.cons_append]
  simp only [HostFS.down, hc, Option.bind_some]
  exact hd

/-- Where names, perhaps with a slash behind them, lead. -/
structure Leads' (f : HostFS) (d : Nat) (A tail : List Bytes) (l : Look) : Prop where
  found : ∀ i e, l = .found i e → f.down d A = some i
  missing : ∀ d' n sl, l = .missing d' n sl → f.down d A = none ∧ (sl = false ↔ tail = []) ∧ ∃ X, A = X ++ [n] ∧ f.down d X = some d'
  there : ∀ i, f.down d A = some i → tail = [] ∨ f.isDirAt i = true → ∃ e, l = .found i e
  gone : ∀ X n d', A = X ++ [n] → f.down d X = some d' → f.isDirAt d' = true → f.down d A = none → ∃ sl, l = .missing d' n sl

theorem isDirAt_iff {f : HostFS} {i : Nat} : f.isDirAt i = true ↔ ∃ es par, f.inodes[i]? = some (.dir es par) := by
  unfold HostFS.isDirAt
  cases h : f.inodes[i]? with
  | none => simp
  | some nd => cases nd <;> simp

theorem walk_names (f : HostFS) (follow : Bool) (tail : List Bytes) (ht : tail = [] ∨ tail = [[]]) :
    ∀ (A : List Bytes) (d : Nat) (e : Option (Nat × Bytes)), (∀ n ∈ A, Plain n) → A ≠ [] →
      NoLinks f d A (!follow && tail.isEmpty) → ∃ l, f.walk follow d e (A ++ tail) = .done l ∧ Leads' f d A tail l := by
  intro A
  induction A with
  | nil => intro d e _ h; exact absurd rfl h
  | cons c A ih =>
    intro d e hA _ hn
    have hc := hA c List.mem_cons_self
    have hA' : ∀ n ∈ A, Plain n := fun n h => hA n (List.mem_cons_of_mem _ h)
    rw [List.cons_append]
    unfold HostFS.walk
    have hbad : (∀ es par, f.inodes[d]? ≠ some (.dir es par)) → ∃ l, Walk.done Look.fail = .done l ∧ Leads' f d (c :: A) tail l := by
      intro hno
      have hch : f.child d c = none := by
        cases h : f.child d c with
        | none => rfl
        | some i => obtain ⟨es, par, h1, -⟩ := child_some h; exact absurd h1 (hno es par)
      have hdn : f.down d (c :: A) = none := by simp only [HostFS.down, hch, Option.bind_none]
      refine ⟨_, rfl, fun i e h => (by cases h), fun d' n sl h => (by cases h), fun i h => (by rw [hdn] at h; cases h), ?_⟩
      intro X n d' he hX hd' _
      exfalso
      cases X with
      | nil =>
        cases hX
        obtain ⟨es, par, h⟩ := isDirAt_iff.mp hd'
        exact hno es par h
      | cons x X =>
        rw [List.cons_append] at he
        injection he with h1 h2
        subst h1
        simp only [HostFS.down, hch, Option.bind_none] at hX
        cases hX
    cases hi : f.inodes[d]? with
    | none => exact hbad (by rw [hi]; intro _ _ h; cases h)
    | some nd =>
      cases nd with
      | file _ => exact hbad (by rw [hi]; intro _ _ h; cases h)
      | link _ => exact hbad (by rw [hi]; intro _ _ h; cases h)
      | dir es par =>
        have hch := child_dir hi c
        simp only
        rw [if_neg (fun h => h.elim hc.1 hc.2.1), if_neg (show ¬ c = dotdot from hc.2.2.1)]
        cases he : hostEntry es c with
        | none =>
          rw [he] at hch
          have hdn : f.down d (c :: A) = none := by simp only [HostFS.down, hch, Option.bind_none]
          refine ⟨_, rfl, ?_⟩
          by_cases hemp : A = []
          · subst hemp
            have hall : tail.all List.isEmpty = true := by rcases ht with rfl | rfl <;> rfl
            rw [List.nil_append, if_pos hall]
            refine ⟨fun i e h => (by cases h), fun d' n sl h => ?_, fun i h => (by rw [hdn] at h; cases h), fun X n d' h1 h2 _ _ => ?_⟩
            · cases h
              refine ⟨hdn, ?_, [], rfl, rfl⟩
              rcases ht with rfl | rfl <;> simp
            · cases X with
              | nil =>
                cases h2
                injection h1 with h1
                subst h1
                exact ⟨_, rfl⟩
              | cons x X =>
                exfalso
                have := congrArg List.length h1
                simp only [List.length_cons, List.length_nil, List.length_append] at this
                omega
          · have hall : ¬ (A ++ tail).all List.isEmpty = true := by
              cases A with
              | nil => exact absurd rfl hemp
              | cons a A =>
                have := (hA' a List.mem_cons_self).1
                simp [this]
            rw [if_neg hall]
            refine ⟨fun i e h => (by cases h), fun d' n sl h => (by cases h), fun i h => (by rw [hdn] at h; cases h), fun X n d' h1 h2 _ _ => ?_⟩
            exfalso
            cases X with
            | nil =>
              rw [List.nil_append] at h1
              injection h1 with h1 h3
              exact hemp h3
            | cons x X =>
              rw [List.cons_append] at h1
              injection h1 with h1 h3
              subst h1
              simp only [HostFS.down, hch, Option.bind_none] at h2
              cases h2
        | some j =>
          rw [he] at hch
          simp only
          have hdn : ∀ B, f.down d (c :: B) = f.down j B := fun B => by simp only [HostFS.down, hch, Option.bind_some]
          have hstep : ∀ w, (f.walk follow j (some (d, c)) (A ++ tail) = w) → ∃ l, w = .done l ∧ Leads' f d (c :: A) tail l := by
            intro w hw
            by_cases hemp : A = []
            · subst hemp
              rcases ht with rfl | rfl
              · subst hw
                refine ⟨_, rfl, fun i e h => ?_, fun d' n sl h => (by cases h), fun i h _ => ?_, fun X n d' h1 h2 _ h3 => ?_⟩
                · cases h; rw [hdn]; rfl
                · rw [hdn] at h; cases h; exact ⟨_, rfl⟩
                · rw [hdn] at h3; cases h3
              · rw [List.nil_append] at hw
                unfold HostFS.walk at hw
                cases hj : f.inodes[j]? with
                | none =>
                  rw [hj] at hw; subst hw
                  refine ⟨_, rfl, fun i e h => (by cases h), fun d' n sl h => (by cases h), fun i h h' => ?_, fun X n d' h1 h2 _ h3 => ?_⟩
                  · rw [hdn] at h; cases h
                    rcases h' with h' | h'
                    · cases h'
                    · obtain ⟨_, _, h'⟩ := isDirAt_iff.mp h'; rw [hj] at h'; cases h'
                  · rw [hdn] at h3; cases h3
                | some nd =>
                  rw [hj] at hw
                  cases nd with
                  | dir es' par' =>
                    simp only [true_or, if_true, HostFS.walk] at hw
                    subst hw
                    refine ⟨_, rfl, fun i e h => ?_, fun d' n sl h => (by cases h), fun i h _ => ?_, fun X n d' h1 h2 _ h3 => ?_⟩
                    · cases h; rw [hdn]; rfl
                    · rw [hdn] at h; cases h; exact ⟨_, rfl⟩
                    · rw [hdn] at h3; cases h3
                  | file _ =>
                    subst hw
                    refine ⟨_, rfl, fun i e h => (by cases h), fun d' n sl h => (by cases h), fun i h h' => ?_, fun X n d' h1 h2 _ h3 => ?_⟩
                    · rw [hdn] at h; cases h
                      rcases h' with h' | h'
                      · cases h'
                      · obtain ⟨_, _, h'⟩ := isDirAt_iff.mp h'; rw [hj] at h'; cases h'
                    · rw [hdn] at h3; cases h3
                  | link _ =>
                    subst hw
                    refine ⟨_, rfl, fun i e h => (by cases h), fun d' n sl h => (by cases h), fun i h h' => ?_, fun X n d' h1 h2 _ h3 => ?_⟩
                    · rw [hdn] at h; cases h
                      rcases h' with h' | h'
                      · cases h'
                      · obtain ⟨_, _, h'⟩ := isDirAt_iff.mp h'; rw [hj] at h'; cases h'
                    · rw [hdn] at h3; cases h3
            · obtain ⟨l, h1, h2⟩ := ih j (some (d, c)) hA' hemp (hn.tail hch)
              rw [h1] at hw
              refine ⟨l, hw.symm, fun i e h => ?_, fun d' n sl h => ?_, fun i h => ?_, fun X n d' g1 g2 g3 g4 => ?_⟩
              · rw [hdn]; exact h2.found i e h
              · obtain ⟨k1, k2, X, k3, k4⟩ := h2.missing d' n sl h
                refine ⟨by rw [hdn]; exact k1, k2, c :: X, by rw [k3]; rfl, by rw [hdn]; exact k4⟩
              · rw [hdn] at h; exact h2.there i h
              · cases X with
                | nil => rw [List.nil_append] at g1; injection g1 with _ g1; exact absurd g1 hemp
                | cons x X =>
                  rw [List.cons_append] at g1
                  injection g1 with g0 g1
                  subst g0
                  rw [hdn] at g2 g4
                  exact h2.gone X n d' g1 g2 g3 g4
          cases hj : f.inodes[j]? with
          | none => exact hstep _ rfl
          | some nd =>
            cases nd with
            | file _ => exact hstep _ rfl
            | dir _ _ => exact hstep _ rfl
            | link t =>
              -- a link: only at the end, and not followed
              simp only
              by_cases hend : A = [] ∧ tail = [] ∧ follow = false
              · obtain ⟨rfl, rfl, rfl⟩ := hend
                simp only [List.append_nil, List.isEmpty_nil, Bool.not_false, Bool.and_self, if_true]
                refine ⟨_, rfl, fun i e h => ?_, fun d' n sl h => (by cases h), fun i h _ => ?_, fun X n d' h1 h2 _ h3 => ?_⟩
                · cases h; rw [hdn]; rfl
                · rw [hdn] at h; cases h; exact ⟨_, rfl⟩
                · rw [hdn] at h3; cases h3
              · exfalso
                refine hn [] c A j t rfl ?_ (by rw [List.nil_append, hdn]; rfl) hj
                by_cases h1 : A = []
                · right
                  cases follow with
                  | true => rfl
                  | false =>
                    rcases ht with rfl | rfl
                    · exact absurd ⟨h1, rfl, rfl⟩ hend
                    · rfl
                · exact Or.inl h1

theorem walk_append' (f : HostFS) (follow : Bool) (B : List Bytes) (hB : B ≠ []) : ∀ (A : List Bytes) (d : Nat) (e : Option (Nat × Bytes)),
    (∀ i e', f.walk true d e A = .done (.found i e') → f.walk follow d e (A ++ B) = f.walk follow i e' B) ∧
    (∀ d' cs, f.walk true d e A = .jump d' cs → f.walk follow d e (A ++ B) = .jump d' (cs ++ B)) := by
  intro A
  induction A with
  | nil =>
    intro d e
    refine ⟨fun i e' hw => ?_, fun d' cs hw => (by cases hw)⟩
    simp only [HostFS.walk, Walk.done.injEq, Look.found.injEq] at hw
    obtain ⟨rfl, rfl⟩ := hw
    rfl
  | cons c A ih =>
    intro d e
    rw [List.cons_append, HostFS.walk.eq_2, HostFS.walk.eq_2]
    cases hi : f.inodes[d]? with
    | none => exact ⟨fun i e' hw => (by cases hw), fun d' cs hw => (by cases hw)⟩
    | some nd =>
      cases nd with
      | file _ => exact ⟨fun i e' hw => (by cases hw), fun d' cs hw => (by cases hw)⟩
      | link _ => exact ⟨fun i e' hw => (by cases hw), fun d' cs hw => (by cases hw)⟩
      | dir es par =>
        simp only
        by_cases h1 : c = [] ∨ c = dot
        · simp only [if_pos h1]; exact ih d e
        · simp only [if_neg h1]
          by_cases h2 : c = dotdot
          · simp only [if_pos h2]; exact ih par none
          · simp only [if_neg h2]
            cases he : hostEntry es c with
            | none =>
              simp only
              refine ⟨fun i e' hw => ?_, fun d' cs hw => (by cases hw)⟩
              split at hw <;> cases hw
            | some j =>
              simp only
              cases hnj : f.inodes[j]? with
              | none => exact ih j _
              | some nd =>
                cases nd with
                | file _ => exact ih j _
                | dir _ _ => exact ih j _
                | link t =>
                  have hne : (A ++ B).isEmpty = false := by
                    cases A with
                    | nil => cases B with
                      | nil => exact absurd rfl hB
                      | cons _ _ => rfl
                    | cons _ _ => rfl
                  simp only [Bool.not_true, Bool.and_false, Bool.false_eq_true, if_false, hne, Bool.false_and]
                  by_cases ht : t = []
                  · simp only [if_pos ht]
                    exact ⟨fun i e' hw => (by cases hw), fun d' cs hw => (by cases hw)⟩
                  · simp only [if_neg ht]
                    refine ⟨fun i e' hw => (by cases hw), fun d' cs hw => ?_⟩
                    simp only [Walk.jump.injEq] at hw
                    obtain ⟨rfl, rfl⟩ := hw
                    rw [List.append_assoc]

/-- Resolving names behind a path that leads to `r`. -/
theorem resolveFrom_names {f : HostFS} {r : Nat} (follow : Bool) {A tail : List Bytes} (ht : tail = [] ∨ tail = [[]])
    (hA : ∀ n ∈ A, Plain n) (hne : A ≠ []) (hn : NoLinks f r A (!follow && tail.isEmpty)) :
    ∀ (n d : Nat) (D : List Bytes) (e : Option (Nat × Bytes)), f.resolveFrom true n d D = .found r e →
      Leads' f r A tail (f.resolveFrom follow n d (D ++ (A ++ tail))) := by
  have hB : A ++ tail ≠ [] := by simp [hne]
  intro n
  induction n with
  | zero => intro d D e h; cases h
  | succ n ih =>
    intro d D e h
    simp only [HostFS.resolveFrom] at h ⊢
    cases hw : f.walk true d none D with
    | done l =>
      rw [hw] at h
      simp only at h
      subst h
      rw [(walk_append' f follow (A ++ tail) hB D d none).1 r e hw]
      obtain ⟨l, h1, h2⟩ := walk_names f follow tail ht A r e hA hne hn
      rw [h1]; exact h2
    | jump d' cs' =>
      rw [hw] at h
      rw [(walk_append' f follow (A ++ tail) hB D d none).2 d' cs' hw]
      exact ih d' cs' e h

/-! ## Changes -/

theorem hostEntry_append (es : List (Bytes × Nat)) (n : Bytes) (j : Nat) (c : Bytes) :
    hostEntry (es ++ [(n, j)]) c = (hostEntry es c).or (if n = c then some j else none) := by
  induction es with
  | nil => simp only [List.nil_append, hostEntry, Option.none_or]
  | cons e r ih =>
    rw [List.cons_append]
    simp only [hostEntry]
    by_cases h : e.1 = c
    · simp only [if_pos h, Option.some_or]
    · simp only [if_neg h]; exact ih

/-- A directory tree below `r`: no two ways lead to the same inode, and every inode
exists. -/
structure IsTree (f : HostFS) (r : Nat) : Prop where
  inj : ∀ A B i, f.down r A = some i → f.down r B = some i → A = B
  ex : ∀ A i, f.down r A = some i → i < f.inodes.length

theorem down_create {f f' : HostFS} {r d new : Nat} {n : Bytes} {nd : INode} {X : List Bytes} (hT : IsTree f r)
    (hnd : ∀ es par, nd = .dir es par → es = []) (hc : f.create d n nd = some (f', new)) (hX : f.down r X = some d)
    (hno : f.child d n = none) : ∀ A i, f'.down r A = some i ↔ f.down r A = some i ∨ (A = X ++ [n] ∧ i = new) := by
  obtain ⟨hi, hget, hlen, -, ⟨es, par, hd1, hd2⟩, hoth⟩ := create_get hc
  have hnew : ∀ c, f'.child new c = none := by
    intro c
    unfold HostFS.child
    rw [hget]
    cases nd with
    | dir es par => rw [hnd es par rfl]; rfl
    | file _ => rfl
    | link _ => rfl
  have hold : ∀ j c, j < f.inodes.length → f'.child j c = if j = d ∧ n = c then some new else f.child j c := by
    intro j c hj
    by_cases hjd : j = d
    · subst hjd
      rw [child_dir hd2, hostEntry_append]
      by_cases hnc : n = c
      · subst hnc
        rw [child_dir hd1] at hno
        simp only [hno, Option.none_or, if_true, and_self, hi]
      · simp only [hnc, if_false, Option.or_none, and_false]
        exact (child_dir hd1 c).symm
    · rw [if_neg (by rintro ⟨h, -⟩; exact hjd h)]
      unfold HostFS.child
      rw [hoth j hjd (by omega)]
  intro A
  induction A using List.reverseRecOn with
  | nil =>
    intro i
    simp only [HostFS.down]
    constructor
    · exact Or.inl
    · rintro (h | ⟨h, -⟩)
      · exact h
      · simp at h
  | append_singleton A c ih =>
    intro i
    rw [down_snoc, down_snoc]
    constructor
    · intro h
      obtain ⟨j, hj, hch⟩ := Option.bind_eq_some_iff.mp h
      rcases (ih j).mp hj with hj' | ⟨rfl, rfl⟩
      · rw [hold j c (hT.ex _ _ hj')] at hch
        by_cases hjd : j = d ∧ n = c
        · rw [if_pos hjd] at hch
          cases hch
          obtain ⟨rfl, rfl⟩ := hjd
          right
          rw [hT.inj _ _ _ hj' hX]
          exact ⟨rfl, rfl⟩
        · rw [if_neg hjd] at hch
          left
          rw [hj']
          exact hch
      · rw [hnew c] at hch; cases hch
    · rintro (h | ⟨h, rfl⟩)
      · obtain ⟨j, hj, hch⟩ := Option.bind_eq_some_iff.mp h
        rw [(ih j).mpr (Or.inl hj), Option.bind_some, hold j c (hT.ex _ _ hj)]
        rw [if_neg ?_]
        · exact hch
        · rintro ⟨rfl, rfl⟩
          rw [hno] at hch; cases hch
      · obtain ⟨h1, h2⟩ := List.append_inj' h rfl
        injection h2 with h2
        subst h1; subst h2
        rw [(ih d).mpr (Or.inl hX), Option.bind_some, hold d c (hT.ex _ _ hX), if_pos ⟨rfl, rfl⟩]

theorem IsTree.create {f f' : HostFS} {r d new : Nat} {n : Bytes} {nd : INode} {X : List Bytes} (hT : IsTree f r)
    (hnd : ∀ es par, nd = .dir es par → es = []) (hc : f.create d n nd = some (f', new)) (hX : f.down r X = some d)
    (hno : f.child d n = none) : IsTree f' r := by
  have hd := down_create hT hnd hc hX hno
  obtain ⟨hi, -, hlen, -⟩ := create_get hc
  constructor
  · intro A B i hA hB
    rcases (hd A i).mp hA with hA | ⟨rfl, rfl⟩ <;> rcases (hd B i).mp hB with hB | ⟨rfl, h⟩
    · exact hT.inj A B i hA hB
    · have := hT.ex _ _ hA; omega
    · have := hT.ex _ _ hB; omega
    · rfl
  · intro A i hA
    rcases (hd A i).mp hA with hA | ⟨-, h⟩
    · have := hT.ex _ _ hA; omega
    · omega

theorem child_put {f : HostFS} {i : Nat} {x y : Bytes} (hf : f.inodes[i]? = some (.file x)) (d : Nat) (c : Bytes) :
    (f.put i (.file y)).child d c = f.child d c := by
  unfold HostFS.child
  by_cases h : i = d
  · subst h
    rw [put_get_self (List.getElem?_eq_some_iff.mp hf).1, hf]
  · rw [put_get h]

theorem down_put {f : HostFS} {i : Nat} {x y : Bytes} (hf : f.inodes[i]? = some (.file x)) :
    ∀ (A : List Bytes) (d : Nat), (f.put i (.file y)).down d A = f.down d A := by
  intro A
  induction A with
  | nil => intro d; rfl
  | cons c A ih =>
    intro d
    simp only [HostFS.down, child_put hf]
    cases f.child d c with
    | none => rfl
    | some j => simp only [Option.bind_some]; exact ih j

theorem IsTree.put {f : HostFS} {r i : Nat} {x y : Bytes} (hT : IsTree f r) (hf : f.inodes[i]? = some (.file x)) :
    IsTree (f.put i (.file y)) r where
  inj A B j hA hB := by rw [down_put hf] at hA hB; exact hT.inj A B j hA hB
  ex A j hA := by
    rw [down_put hf] at hA
    have := hT.ex A j hA
    simpa [HostFS.put] using this

end Btrfscue
