import Verif.Spec.PathSame
import Verif.Props.LsPathExact
/-!
# C115: `ls PATH` and the mounted file system lead to the same
-/

namespace Btrfscue

variable {b : Bucket}

theorem seenItems_slice {o id : UInt64} {t : UInt8} {vs : List (UInt64 × Slice)} (hb : b.WF) (h : b.seenItems o t id vs)
    {off : UInt64} {d d' : Slice} (h1 : (off, d) ∈ vs) (h2 : (off, d') ∈ vs) : d = d' := by
  have hp := h.1
  clear h hb
  induction vs with
  | nil => cases h1
  | cons v vs ih =>
    rw [List.pairwise_cons] at hp
    rcases List.mem_cons.mp h1 with rfl | h1' <;> rcases List.mem_cons.mp h2 with h2' | h2'
    · exact (Prod.mk.inj h2').2.symm
    · exact absurd (hp.1 _ h2') (UInt64.lt_irrefl _)
    · subst h2'; exact absurd (hp.1 _ h1') (UInt64.lt_irrefl _)
    · exact ih h1' h2' hp.2

/-- The tree an entry leads to is not the one of the index metadata. -/
theorem Bucket.PathSameOK.tree (h : b.PathSameOK) {o dir : UInt64} {vs : List (UInt64 × Slice)} (ho : o ≠ ~~~0)
    (hv : b.seenItems o 84 dir vs) {off : UInt64} {d : Slice} (hm : (off, d) ∈ vs) {name : Bytes} {e : DirItemRec}
    (he : startsEntry (Slice.data d) name e) : (target o e.location).1 ≠ ~~~0 := by
  obtain ⟨g, x, -, q1, q2⟩ := (hv.2 off d).mp hm
  unfold target
  by_cases ht : e.location.typ = 132
  · rw [if_pos ht]
    obtain ⟨nm, e', w1, -, -, w2⟩ := (h.full o dir d ho ⟨off, g, x, q1, q2⟩).named
    obtain ⟨-, rfl⟩ := startsEntry_unique he w1
    exact h.dirs.noMetaTree o dir d _ ho ⟨off, g, x, q1, q2⟩ w2 ht
  · rw [if_neg ht]; exact ho

/-- What a step of the lookup finds is what iterating gets to. -/
theorem Bucket.PathSameOK.step (h : b.PathSameOK) (hb : b.WF) {m : Bytes} (hm : b.stores metadataVersionKey m)
    {o dir : UInt64} (ho : o ≠ ~~~0) {name : Bytes} {last : Bool} {e : DirItemRec} {d : Slice} (hs : b.stepFinds o dir name last e d) :
    ∃ vs off, b.seenItems o 84 dir vs ∧ (off, d) ∈ vs ∧ startsEntry (Slice.data d) name e := by
  rcases hs with hs | ⟨-, vs, off, h1, h2, h3, -, -⟩
  · obtain ⟨rd, its, vs, k1, k2, k3, k4⟩ := seen_dirs hb hm h.dirs dir ho
    obtain ⟨off, ho'⟩ := h.hashed o dir name e d vs ho hs k3
    obtain ⟨g, x, -, -, -, hst⟩ := hs
    exact ⟨vs, off, k3, ho', hst⟩
  · exact ⟨vs, off, h1, h2, h3⟩

theorem Bucket.PathSameOK.lastEntry (h : b.PathSameOK) {o dir : UInt64} {vs : List (UInt64 × Slice)} (ho : o ≠ ~~~0)
    (hv : b.seenItems o 84 dir vs) {off : UInt64} {d : Slice} (hm : (off, d) ∈ vs) {name : Bytes} {e : DirItemRec}
    (he : startsEntry (Slice.data d) name e) : Btrfscue.lastEntry vs name e :=
  ⟨off, d, hm, he, fun off' d' e' h1 h2 => by
    rw [h.single o dir vs name off d e off' d' e' ho hv hm he h1 h2]; exact UInt64.le_refl _⟩

theorem Bucket.PathSameOK.path (h : b.PathSameOK) (hb : b.WF) {m : Bytes} (hm : b.stores metadataVersionKey m)
    {o dir : UInt64} {names : List Bytes} {q : Option Bytes} (hq : b.PathFinds o dir names q) (ho : o ≠ ~~~0) :
    (q = none → ∀ o' i, ¬ b.ShownAt o dir names o' i) ∧
    ∀ p, q = some p → ∃ po pd e name, b.ShownAt o dir names.dropLast po pd ∧ names.getLast? = some name ∧ startsEntry p name e ∧
      (∃ d, b.dirItem po pd d ∧ Slice.data d = p) ∧ b.ShownAt o dir names (target po e.location).1 (target po e.location).2 := by
  induction hq with
  | @last o dir n e d hs =>
    obtain ⟨vs, off, k1, k2, k3⟩ := h.step hb hm ho hs
    refine ⟨fun hc => (by cases hc), fun p hp => ?_⟩
    obtain rfl := Option.some.inj hp
    obtain ⟨g, x, -, q1, q2⟩ := (k1.2 off d).mp k2
    exact ⟨o, dir, e, n, .here, rfl, k3, ⟨d, ⟨off, g, x, q1, q2⟩, rfl⟩, .step k1 (h.lastEntry ho k1 k2 k3) (h.present _ _ _ _ _ _ _ ho k1 k2 k3) .here⟩
  | @step o dir n e d n' rest r hs hr ih =>
    obtain ⟨vs, off, k1, k2, k3⟩ := h.step hb hm ho hs
    have hl := h.lastEntry ho k1 k2 k3
    obtain ⟨i1, i2⟩ := ih (h.tree ho k1 k2 k3)
    refine ⟨fun hc o' i hsh => ?_, fun p hp => ?_⟩
    · cases hsh with
      | step s2 l2 _ t2 =>
        obtain rfl := lastEntry_unique k1 s2 hl l2
        exact i1 hc _ _ t2
    · obtain ⟨po, pd, e', name, j1, j2, j3, j5, j4⟩ := i2 p hp
      have hk := h.present _ _ _ _ _ _ _ ho k1 k2 k3
      refine ⟨po, pd, e', name, ?_, ?_, j3, j5, .step k1 hl hk j4⟩
      · rw [List.dropLast_cons_of_ne_nil (by simp)]
        exact .step k1 hl hk j1
      · rw [List.getLast?_cons_cons]; exact j2
  | @missing o dir n rest hno =>
    refine ⟨fun _ o' i hsh => ?_, fun p hp => (by cases hp)⟩
    cases hsh with
    | @step _ _ vs _ e _ _ _ s2 l2 _ t2 =>
      obtain ⟨off, d, p1, p2, -⟩ := l2
      have hnu : ∀ e' d', ¬ b.underHash o dir n e' d' := fun e' d' hu => hno e' d' (Or.inl hu)
      by_cases hc : rest.isEmpty = true ∨ e.typ = 2
      · refine hno e d (Or.inr ⟨hnu, vs, off, s2, p1, p2, hc, fun off' d' e' h1 h2 _ => ?_⟩)
        rw [h.single o dir vs n off d e off' d' e' ho s2 p1 p2 h1 h2]; exact UInt64.le_refl _
      · rw [not_or] at hc
        have hpl := h.plain o dir vs n off d e ho s2 p1 p2 hc.2
        cases t2 with
        | here => exact hc.1 rfl
        | @step _ _ vs' n' e' rest' _ _ s3 l3 _ _ =>
          obtain ⟨off', d', r1, -, -⟩ := l3
          obtain ⟨g, x, -, q1, -⟩ := (s3.2 off' d').mp r1
          exact hpl off' ⟨g, x, q1⟩

/-- C115: on such an index, `ls PATH` warns that the path does not exist if and only if walking down that
path in the mounted file system leads nowhere; and otherwise the entry that `ls` goes by is called
like the last name, and leads from the directory that the mounted file system shows above to the very
object that it shows under the path: if the entry is for a directory, the listing is that of this
object's number, else the line shown is that of this object. (In tree 5 always, see C74.) Missing:
where the object under the hash of the name is not what iterating gets to (`C115_refuted`). -/
theorem C115_same_path_partial (b : Bucket) (hb : b.WF) (m : Bytes) (hm : b.stores metadataVersionKey m) (h : b.PathSameOK)
    (arg : Bytes) (hroot : goClean arg ≠ [47]) :
    ∃ k names N, names ≠ [] ∧ (∀ x ∈ names, 47 ∉ x) ∧ goClean arg = List.replicate k 47 ++ joinPath names ∧
      ∀ rf, N ≤ rf → ∃ r, mountWalk rf ⟨b, ~~~0⟩ (ascii "rescue" :: names) = .ok r ∧
        (r = none → ∀ fuel srt ft o, doListFiles rf fuel srt ft ⟨b, ~~~0⟩ o [arg] = .ok ([], [goClean arg])) ∧
        ∀ c, r = some c → ∃ (dir : RescueNode) (e : DirItemRec) (name : Bytes), mountWalk rf ⟨b, ~~~0⟩ (ascii "rescue" :: names.dropLast) = .ok (some dir) ∧
          names.getLast? = some name ∧ (∃ d, b.dirItem dir.owner dir.ixInode d ∧ startsEntry (Slice.data d) name e) ∧ (c.owner, c.ixInode) = target dir.owner e.location ∧
          ∀ fuel srt ft o,
            if e.typ = 2 then ∀ text, doListFiles rf fuel srt ft ⟨b, ~~~0⟩ o [arg] = .ok (text, []) ↔
              listDirectory rf srt ft ⟨b, ~~~0⟩ 5 o.inode fuel e.location.objectID o.recursive = .ok text
            else ∃ cols, b.columns ft 5 e.typ e.location.objectID cols ∧
              doListFiles rf fuel srt ft ⟨b, ~~~0⟩ o [arg] =
                .ok (tabLine ((if o.inode then [decimal e.location.objectID.toNat] else []) ++ (cols ++ [name])), []) := by
  have hin : b.InodesOK 5 := by
    intro ino hk
    obtain ⟨g, x, f, rest, h1, h2, h3⟩ := h.inodes 5 (by decide) ino hk
    exact ⟨f, g, x, rest, h1, h2, h3⟩
  obtain ⟨k, n, rest, q, N, h1, h2, h3, h4⟩ := C74_ls_exact b hb m hm h.dirs h.full hin arg hroot
  obtain ⟨N1, hw1⟩ := C70_walk_exact b hb m hm h.dirs h.full h.inodes (n :: rest)
  obtain ⟨N2, hw2⟩ := C70_walk_exact b hb m hm h.dirs h.full h.inodes (n :: rest).dropLast
  obtain ⟨p1, p2⟩ := h.path hb hm h3 (by decide)
  refine ⟨k, n :: rest, N + N1 + N2, by simp, h2, h1, fun rf hrf => ?_⟩
  obtain ⟨r, r1, r2⟩ := hw1 rf (by omega)
  refine ⟨r, r1, fun hr fuel srt ft o => ?_, fun c hc => ?_⟩
  · have := h4 rf fuel srt ft o (by omega)
    cases q with
    | none => exact this
    | some p =>
      obtain ⟨po, pd, e, name, -, -, -, -, j4⟩ := p2 p rfl
      obtain ⟨c, hc, -⟩ := (r2 _ _).mpr j4
      rw [hr] at hc; cases hc
  · cases q with
    | none => exact absurd ((r2 _ _).mp ⟨c, hc, rfl, rfl⟩) (p1 rfl _ _)
    | some p =>
      obtain ⟨po, pd, e, name, j1, j2, j3, ⟨d0, j5, j6⟩, j4⟩ := p2 p rfl
      obtain ⟨c', hc', c1, c2⟩ := (r2 _ _).mpr j4
      obtain rfl : c = c' := Option.some.inj (hc.symm.trans hc')
      obtain ⟨r', w1, w2⟩ := hw2 rf (by omega)
      obtain ⟨dir, rfl, d1, d2⟩ := (w2 _ _).mpr j1
      refine ⟨dir, e, name, w1, j2, ⟨d0, by rw [d1, d2]; exact j5, by rw [j6]; exact j3⟩, by rw [c1, c2, d1], fun fuel srt ft o => ?_⟩
      obtain ⟨e', nm, s1, s2⟩ := h4 rf fuel srt ft o (by omega)
      obtain ⟨rfl, rfl⟩ := startsEntry_unique s1 j3
      by_cases ht : e'.typ = 2
      · rw [if_pos ht] at s2 ⊢; exact s2
      · rw [if_neg ht] at s2 ⊢
        obtain ⟨d, line, l1, ⟨e2, nm2, rest2, cols, t1, t2, t3, t4⟩, l2⟩ := s2
        obtain ⟨rfl, rfl⟩ := startsEntry_unique s1 ⟨rest2, by rw [← l1, t1], t2⟩
        exact ⟨cols, t3, by rw [l2, t4]⟩

end Btrfscue
