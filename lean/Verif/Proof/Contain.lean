import Verif.Proof.HostFS
import Verif.Proof.ParentPath
/-!
# Changes below a directory
-/

namespace Btrfscue

/-- Everything changed so far lies below directory `r` of `fs`, or is new; and there are no
links there. -/
structure Contained (fs : HostFS) (r : Nat) (f : HostFS) : Prop where
  grown : Grown fs f
  closed : ∀ (d : Nat) es par, (fs.Below r d ∨ fs.inodes.length ≤ d) → f.inodes[d]? = some (INode.dir es par) →
    ∀ n j, (n, j) ∈ es → fs.Below r j ∨ fs.inodes.length ≤ j
  nolink : ∀ (i : Nat) t, (fs.Below r i ∨ fs.inodes.length ≤ i) → f.inodes[i]? ≠ some (INode.link t)
  out : ∀ i, i < fs.inodes.length → ¬ fs.Below r i → f.inodes[i]? = fs.inodes[i]?

section
variable {fs : HostFS} {r : Nat} {f : HostFS}

theorem Contained.start (h : ∀ i t, fs.Below r i → fs.inodes[i]? ≠ some (INode.link t)) : Contained fs r fs where
  grown := Grown.refl _
  closed d es par hd hi n j hj := by
    rcases hd with hd | hd
    · exact Or.inl (.entry hd hi hj)
    · rw [List.getElem?_eq_none hd] at hi; cases hi
  nolink i t hi := by
    rcases hi with hi | hi
    · exact h i t hi
    · rw [List.getElem?_eq_none hi]; simp
  out i _ _ := rfl

theorem Contained.create (h : Contained fs r f) {d i : Nat} {n : Bytes} {nd : INode} {f' : HostFS}
    (hd : fs.Below r d ∨ fs.inodes.length ≤ d) (hnd : (∃ x, nd = .file x) ∨ ∃ par, nd = .dir [] par)
    (hc : f.create d n nd = some (f', i)) : Contained fs r f' := by
  obtain ⟨hi, hget, hlen, hcwd, ⟨es, par, hd1, hd2⟩, hoth⟩ := create_get hc
  have hl := h.grown.len
  refine ⟨h.grown.trans (create_preserved hc).grown, ?_, ?_, ?_⟩
  · intro d' es' par' hd' hg m j hj
    by_cases h1 : d' = d
    · subst h1
      rw [hd2] at hg
      cases hg
      rcases List.mem_append.mp hj with hj | hj
      · exact h.closed d' es par hd hd1 m j hj
      · simp only [List.mem_singleton, Prod.mk.injEq] at hj
        rw [hj.2]; right; exact hl
    · by_cases h2 : d' = i
      · subst h2
        rw [hget] at hg
        rcases hnd with ⟨x, rfl⟩ | ⟨par, rfl⟩
        · cases hg
        · cases hg; cases hj
      · rw [hoth d' h1 h2] at hg
        exact h.closed d' es' par' hd' hg m j hj
  · intro d' t hd' hg
    by_cases h1 : d' = d
    · subst h1; rw [hd2] at hg; cases hg
    · by_cases h2 : d' = i
      · subst h2
        rw [hget] at hg
        rcases hnd with ⟨x, rfl⟩ | ⟨par, rfl⟩ <;> cases hg
      · rw [hoth d' h1 h2] at hg
        exact h.nolink d' t hd' hg
  · intro j hj hb
    rw [hoth j ?_ (by omega)]
    · exact h.out j hj hb
    · rintro rfl
      rcases hd with hd | hd
      · exact hb hd
      · omega

theorem Contained.put (h : Contained fs r f) {i : Nat} {x y : Bytes} (hi : fs.Below r i ∨ fs.inodes.length ≤ i)
    (hf : f.inodes[i]? = some (.file x)) : Contained fs r (f.put i (.file y)) := by
  have hlt : i < f.inodes.length := (List.getElem?_eq_some_iff.mp hf).1
  have hself := put_get_self (nd := INode.file y) hlt
  refine ⟨?_, ?_, ?_, ?_⟩
  · refine h.grown.trans ⟨rfl, by simp [HostFS.put], ?_, ?_, ?_⟩
    · intro j d hj
      by_cases hji : i = j
      · subst hji; exact ⟨y, hself⟩
      · rw [put_get hji]; exact ⟨d, hj⟩
    · intro j d hj
      have hji : i ≠ j := by rintro rfl; rw [hf] at hj; cases hj
      rw [put_get hji]; exact hj
    · intro j es p hj
      have hji : i ≠ j := by rintro rfl; rw [hf] at hj; cases hj
      rw [put_get hji]; exact ⟨es, hj, fun _ _ h => h⟩
  · intro d es par hd hg
    have hji : i ≠ d := by rintro rfl; rw [hself] at hg; cases hg
    rw [put_get hji] at hg
    exact h.closed d es par hd hg
  · intro j t hj hg
    have hji : i ≠ j := by rintro rfl; rw [hself] at hg; cases hg
    rw [put_get hji] at hg
    exact h.nolink j t hj hg
  · intro j hj hb
    rw [put_get ?_]
    · exact h.out j hj hb
    · rintro rfl
      rcases hi with hi | hi
      · exact hb hi
      · omega

/-! ## Resolving paths below -/

/-- Where a path below leads. -/
def SafeLook (fs : HostFS) (r : Nat) (strict : Bool) : Look → Prop
  | .found i _ => strict = true → fs.Below r i ∨ fs.inodes.length ≤ i
  | .missing d _ _ => fs.Below r d ∨ fs.inodes.length ≤ d
  | .fail => True

theorem walk_below (h : Contained fs r f) (follow : Bool) : ∀ (B : List Bytes) (d : Nat) (e : Option (Nat × Bytes)),
    (fs.Below r d ∨ fs.inodes.length ≤ d) → dotdot ∉ B → ∃ l, f.walk follow d e B = .done l ∧ SafeLook fs r true l := by
  intro B
  induction B with
  | nil => intro d e hd _; exact ⟨_, rfl, fun _ => hd⟩
  | cons c B ih =>
    intro d e hd hB
    have hB' : dotdot ∉ B := fun hm => hB (List.mem_cons_of_mem _ hm)
    unfold HostFS.walk
    cases hi : f.inodes[d]? with
    | none => exact ⟨_, rfl, trivial⟩
    | some nd =>
      cases nd with
      | file _ => exact ⟨_, rfl, trivial⟩
      | link _ => exact ⟨_, rfl, trivial⟩
      | dir es par =>
        simp only
        by_cases h1 : c = [] ∨ c = dot
        · rw [if_pos h1]; exact ih d e hd hB'
        · rw [if_neg h1, if_neg (show ¬ c = dotdot from fun hc => hB (by rw [hc]; exact List.mem_cons_self))]
          cases he : hostEntry es c with
          | none =>
            refine ⟨_, rfl, ?_⟩
            by_cases hB2 : B.all List.isEmpty = true
            · rw [if_pos hB2]; exact hd
            · rw [if_neg hB2]; trivial
          | some j =>
            have hj := h.closed d es par hd hi c j (hostEntry_mem he)
            simp only
            cases hnj : f.inodes[j]? with
            | none => exact ih j _ hj hB'
            | some nd =>
              cases nd with
              | link t => exact absurd hnj (h.nolink j t hj)
              | file _ => exact ih j _ hj hB'
              | dir _ _ => exact ih j _ hj hB'

theorem walk_base (h : Contained fs r f) (follow : Bool) (B : List Bytes) (hB : dotdot ∉ B) :
    ∀ (A : List Bytes) (d : Nat) (e : Option (Nat × Bytes)),
      (∀ e', f.walk true d e A = .done (.found r e') →
        ∃ l, f.walk follow d e (A ++ B) = .done l ∧ SafeLook fs r (follow || !B.isEmpty) l) ∧
      (∀ d' cs, f.walk true d e A = .jump d' cs → f.walk follow d e (A ++ B) = .jump d' (cs ++ B) ∨
        (B = [] ∧ follow = false ∧ ∃ i e', f.walk follow d e (A ++ B) = .done (.found i e'))) := by
  intro A
  induction A with
  | nil =>
    intro d e
    refine ⟨fun e' hw => ?_, fun d' cs hw => (by cases hw)⟩
    simp only [HostFS.walk, Walk.done.injEq, Look.found.injEq] at hw
    obtain ⟨rfl, rfl⟩ := hw
    obtain ⟨l, h1, h2⟩ := walk_below h follow B d e (Or.inl .root) hB
    refine ⟨l, h1, ?_⟩
    cases l with
    | found i e => exact fun _ => h2 rfl
    | missing _ _ _ => exact h2
    | fail => trivial
  | cons c A ih =>
    intro d e
    rw [List.cons_append]
    unfold HostFS.walk
    cases hi : f.inodes[d]? with
    | none => exact ⟨fun e' hw => (by cases hw), fun d' cs hw => (by cases hw)⟩
    | some nd =>
      cases nd with
      | file _ => exact ⟨fun e' hw => (by cases hw), fun d' cs hw => (by cases hw)⟩
      | link _ => exact ⟨fun e' hw => (by cases hw), fun d' cs hw => (by cases hw)⟩
      | dir es par =>
        simp only
        by_cases h1 : c = [] ∨ c = dot
        · simp only [if_pos h1]; exact ih d e
        · simp only [if_neg h1]
          by_cases h2 : c = dotdot
          · simp only [if_pos h2]; exact ih par none
          · simp only [if_neg h2]
            cases he : hostEntry es c with
            | none =>
              simp only
              refine ⟨fun e' hw => ?_, fun d' cs hw => (by cases hw)⟩
              split at hw <;> cases hw
            | some j =>
              simp only
              cases hnj : f.inodes[j]? with
              | none => exact ih j _
              | some nd =>
                cases nd with
                | file _ => exact ih j _
                | dir _ _ => exact ih j _
                | link t =>
                  simp only [Bool.not_true, Bool.and_false, Bool.false_eq_true, if_false]
                  by_cases ht : t = []
                  · simp only [if_pos ht]
                    exact ⟨fun e' hw => (by cases hw), fun d' cs hw => (by cases hw)⟩
                  · simp only [if_neg ht]
                    refine ⟨fun e' hw => (by cases hw), fun d' cs hw => ?_⟩
                    simp only [Walk.jump.injEq] at hw
                    obtain ⟨rfl, rfl⟩ := hw
                    by_cases hl : ((A ++ B).isEmpty && !follow) = true
                    · right
                      rw [if_pos hl]
                      simp only [Bool.and_eq_true, List.isEmpty_iff, List.append_eq_nil_iff, Bool.not_eq_true'] at hl
                      exact ⟨hl.1.2, hl.2, _, _, rfl⟩
                    · left
                      rw [if_neg hl, List.append_assoc]

theorem resolveFrom_base (h : Contained fs r f) (follow : Bool) (B : List Bytes) (hB : dotdot ∉ B) :
    ∀ (n d : Nat) (A : List Bytes) (e' : Option (Nat × Bytes)), f.resolveFrom true n d A = .found r e' →
      SafeLook fs r (follow || !B.isEmpty) (f.resolveFrom follow n d (A ++ B)) := by
  intro n
  induction n with
  | zero => intro d A e' hr; cases hr
  | succ n ih =>
    intro d A e' hr
    simp only [HostFS.resolveFrom] at hr ⊢
    cases hw : f.walk true d none A with
    | done l =>
      rw [hw] at hr
      simp only at hr
      subst hr
      obtain ⟨l, h1, h2⟩ := (walk_base h follow B hB A d none).1 e' hw
      rw [h1]; exact h2
    | jump d' cs' =>
      rw [hw] at hr
      rcases (walk_base h follow B hB A d none).2 d' cs' hw with h1 | ⟨rfl, rfl, i, e'', h1⟩
      · rw [h1]; exact ih d' cs' e' hr
      · rw [h1]; exact fun hf => absurd hf (by decide)

theorem walk_append (f : HostFS) (B : List Bytes) : ∀ (A : List Bytes) (d : Nat) (e : Option (Nat × Bytes)),
    (∀ i e', f.walk true d e A = .done (.found i e') → f.walk true d e (A ++ B) = f.walk true i e' B) ∧
    (∀ d' cs, f.walk true d e A = .jump d' cs → f.walk true d e (A ++ B) = .jump d' (cs ++ B)) := by
  intro A
  induction A with
  | nil =>
    intro d e
    refine ⟨fun i e' hw => ?_, fun d' cs hw => (by cases hw)⟩
    simp only [HostFS.walk, Walk.done.injEq, Look.found.injEq] at hw
    obtain ⟨rfl, rfl⟩ := hw
    rfl
  | cons c A ih =>
    intro d e
    rw [List.cons_append]
    unfold HostFS.walk
    cases hi : f.inodes[d]? with
    | none => exact ⟨fun i e' hw => (by cases hw), fun d' cs hw => (by cases hw)⟩
    | some nd =>
      cases nd with
      | file _ => exact ⟨fun i e' hw => (by cases hw), fun d' cs hw => (by cases hw)⟩
      | link _ => exact ⟨fun i e' hw => (by cases hw), fun d' cs hw => (by cases hw)⟩
      | dir es par =>
        simp only
        by_cases h1 : c = [] ∨ c = dot
        · simp only [if_pos h1]
          obtain ⟨h3, h4⟩ := ih d e
          refine ⟨fun i e' hw => ?_, fun d' cs hw => ?_⟩
          · rw [h3 i e' hw]
            cases B <;> rfl
          · rw [h4 d' cs hw]
        · simp only [if_neg h1]
          by_cases h2 : c = dotdot
          · simp only [if_pos h2]
            obtain ⟨h3, h4⟩ := ih par none
            refine ⟨fun i e' hw => ?_, fun d' cs hw => ?_⟩
            · rw [h3 i e' hw]
              cases B <;> rfl
            · rw [h4 d' cs hw]
          · simp only [if_neg h2]
            cases he : hostEntry es c with
            | none =>
              simp only
              refine ⟨fun i e' hw => ?_, fun d' cs hw => (by cases hw)⟩
              split at hw <;> cases hw
            | some j =>
              simp only
              have hrec : (∀ i e', f.walk true j (some (d, c)) A = .done (.found i e') →
                  f.walk true j (some (d, c)) (A ++ B) = f.walk true i e' B) ∧ _ := ih j (some (d, c))
              cases hnj : f.inodes[j]? with
              | none =>
                refine ⟨fun i e' hw => ?_, fun d' cs hw => ?_⟩
                · rw [hrec.1 i e' hw]; cases B <;> rfl
                · rw [hrec.2 d' cs hw]
              | some nd =>
                cases nd with
                | file _ =>
                  refine ⟨fun i e' hw => ?_, fun d' cs hw => ?_⟩
                  · rw [hrec.1 i e' hw]; cases B <;> rfl
                  · rw [hrec.2 d' cs hw]
                | dir _ _ =>
                  refine ⟨fun i e' hw => ?_, fun d' cs hw => ?_⟩
                  · rw [hrec.1 i e' hw]; cases B <;> rfl
                  · rw [hrec.2 d' cs hw]
                | link t =>
                  simp only [Bool.not_true, Bool.and_false, Bool.false_eq_true, if_false]
                  by_cases ht : t = []
                  · simp only [if_pos ht]
                    exact ⟨fun i e' hw => (by cases hw), fun d' cs hw => (by cases hw)⟩
                  · simp only [if_neg ht]
                    refine ⟨fun i e' hw => (by cases hw), fun d' cs hw => ?_⟩
                    simp only [Walk.jump.injEq] at hw
                    obtain ⟨rfl, rfl⟩ := hw
                    rw [List.append_assoc]

/-- A slash behind a path to a directory. -/
theorem resolveFrom_slash {f : HostFS} {r : Nat} {es : List (Bytes × Nat)} {par : Nat} (hr : f.inodes[r]? = some (.dir es par)) :
    ∀ (n d : Nat) (A : List Bytes) (e' : Option (Nat × Bytes)), f.resolveFrom true n d A = .found r e' →
      f.resolveFrom true n d (A ++ [[]]) = .found r e' := by
  intro n
  induction n with
  | zero => intro d A e' h; cases h
  | succ n ih =>
    intro d A e' h
    simp only [HostFS.resolveFrom] at h ⊢
    cases hw : f.walk true d none A with
    | done l =>
      rw [hw] at h
      simp only at h
      subst h
      rw [(walk_append f [[]] A d none).1 r e' hw]
      simp only [HostFS.walk, hr, true_or, if_true]
    | jump d' cs' =>
      rw [hw] at h
      rw [(walk_append f [[]] A d none).2 d' cs' hw]
      exact ih d' cs' e' h

end

end Btrfscue
