import Verif.Proof.TruePieces
import Verif.Proof.WholeRun
/-!
# A run that recovers to an empty destination makes no byte up
-/

namespace Btrfscue

open Cmd

/-- What is below `r` at `A` holds only what is stored for it. `FP` says which bytes a file may
have, `LP` which target a link. -/
def TrueAt (ix : Ix) (dest : Bytes) (r : Nat) (FP : UInt64 → UInt64 → Bytes → Prop) (LP : UInt64 → UInt64 → Bytes → Prop)
    (f : HostFS) (A : List Bytes) : Prop :=
  ∀ i, f.down r A = some i →
    (∀ x, f.inodes[i]? = some (.file x) → ∀ o n, EntryAt ix dest 1 o n A → FP o n x) ∧
    (∀ x, f.inodes[i]? = some (.link x) → ∀ o n, EntryAt ix dest 7 o n A → LP o n x)

/-- So it is everywhere, at every point. -/
def TrueRun (ix : Ix) (dest : Bytes) (r : Nat) (FP LP : UInt64 → UInt64 → Bytes → Prop) (s : RecState) : Prop :=
  ∀ f, s.reached f → ∀ A, TrueAt ix dest r FP LP f A

/-- Nothing is asked of what is done. -/
def anyFate : Fate := fun _ _ _ _ => True

theorem any_fates : Fates anyFate anyFate := ⟨fun _ _ _ _ _ _ _ => trivial, fun _ _ _ _ _ _ _ => trivial⟩

section
variable {ix : Ix} {fs : HostFS} {dest : Bytes} {r rf : Nat} {FD LD : Fate} {env : Env} {FP LP : UInt64 → UInt64 → Bytes → Prop}

/-- What was there before is as it was. -/
theorem TrueAt.kept {a f : HostFS} (hD : ix.Distinct dest) (hd : goClean dest = dest) (hne : dest ≠ []) (hs : Shape ix dest r a)
    (hp : Preserved a f) {A : List Bytes} {i : Nat} (hi : a.down r A = some i) (hi' : f.down r A = some i)
    (h : TrueAt ix dest r FP LP a A) : TrueAt ix dest r FP LP f A := by
  intro j hj
  rw [hi'] at hj
  cases hj
  obtain ⟨h1, h2⟩ := h i hi
  rcases hs.kind A i hi with ⟨k1, k2⟩ | ⟨o, n, x, k1, k2⟩ | ⟨o, n, x, k1, k2⟩
  · exact ⟨fun x _ o n he => absurd k1 (he.not_dir hD hd hne (by decide)), fun x _ o n he => absurd k1 (he.not_dir hD hd hne (by decide))⟩
  · refine ⟨fun y hy o' n' he => ?_, fun y hy o' n' he => absurd (he.unique hD hd hne k1).1 (by decide)⟩
    have := hp.file i x k2
    rw [this] at hy
    cases hy
    exact h1 x k2 o' n' he
  · refine ⟨fun y hy o' n' he => absurd (he.unique hD hd hne k1).1 (by decide), fun y hy o' n' he => ?_⟩
    have := hp.link i x k2
    rw [this] at hy
    cases hy
    exact h2 x k2 o' n' he

/-- While things are added. -/
theorem TrueRun.within (hD : ix.Distinct dest) (hd : goClean dest = dest) (hne : dest ≠ []) {Q : List Bytes → Prop} {s t : RecState}
    (hs : WholeInv ix fs dest r rf FD LD s) (hT : TrueRun ix dest r FP LP s) (h : Within ix fs dest r rf Q s t)
    (hQ : ∀ f, t.reached f → Shape ix dest r f → Grown fs f → ∀ A, Q A → s.reached f ∨ TrueAt ix dest r FP LP f A) :
    TrueRun ix dest r FP LP t := by
  have key : ∀ f, t.reached f → Adds r Q s.fs f → Preserved s.fs f → Shape ix dest r f → ∀ A, TrueAt ix dest r FP LP f A := by
    intro f hf hadd hpr hsh A i hi
    rcases hadd A i hi with hi' | hq
    · exact (hT s.fs (Or.inl rfl) A).kept hD hd hne hs.shape hpr hi' hi i hi
    · rcases hQ f hf hsh (hs.kept.trans hpr).grown A hq with h | h
      · exact hT f h A i hi
      · exact h i hi
  rintro f hf
  rcases id hf with rfl | hp
  · exact key _ hf h.adds h.pres h.shape
  · rcases h.since f hp with h' | ⟨h1, h2⟩
    · exact hT f (Or.inr h')
    · exact key f hf h1 h2 (h.past f hp)

/-- A file found at its path is the one there. -/
theorem TrueAt.file (hD : ix.Distinct dest) (hok : DestOK fs dest r) {f : HostFS} (hg : Grown fs f) (hs : Shape ix dest r f)
    {o n : UInt64} {A : List Bytes} {q : Bytes} (hE : EntryAt ix dest 1 o n A) (hA : Named dest A q) {x : Bytes}
    (hx : f.readFile q = some x) (h : FP o n x) : TrueAt ix dest r FP LP f A := by
  intro i hi
  refine ⟨fun y hy o' n' he => ?_, fun y hy o' n' he => absurd (he.unique hD hok.clean hok.ne hE).1 (by decide)⟩
  obtain ⟨-, rfl, rfl⟩ := he.unique hD hok.clean hok.ne hE
  unfold HostFS.readFile at hx
  cases hr : f.resolve true q with
  | fail => rw [hr] at hx; cases hx
  | missing _ _ _ => rw [hr] at hx; cases hx
  | found j e =>
    rw [hr] at hx
    simp only at hx
    rcases hs.resolve_entry hD hok hg hE hA (Or.inl rfl) with ⟨h', -⟩ | h'
    · rw [hr] at h'; cases h'
    · have := h'.found j e hr
      rw [hi] at this
      cases this
      rw [hy] at hx
      cases hx
      exact h

/-- A link found at its path is the one there. -/
theorem TrueAt.link (hD : ix.Distinct dest) (hok : DestOK fs dest r) {f : HostFS} (hg : Grown fs f) (hs : Shape ix dest r f)
    {o n : UInt64} {A : List Bytes} {q : Bytes} (hE : EntryAt ix dest 7 o n A) (hA : Named dest A q) {x : Bytes}
    (hx : f.readLink q = some x) (h : LP o n x) : TrueAt ix dest r FP LP f A := by
  intro i hi
  refine ⟨fun y hy o' n' he => absurd (he.unique hD hok.clean hok.ne hE).1 (by decide), fun y hy o' n' he => ?_⟩
  obtain ⟨-, rfl, rfl⟩ := he.unique hD hok.clean hok.ne hE
  unfold HostFS.readLink at hx
  cases hr : f.resolve false q with
  | fail => rw [hr] at hx; cases hx
  | missing _ _ _ => rw [hr] at hx; cases hx
  | found j e =>
    rw [hr] at hx
    simp only at hx
    rcases hs.resolve_entry hD hok hg hE hA (Or.inr rfl) with ⟨h', -⟩ | h'
    · rw [hr] at h'; cases h'
    · have := h'.found j e hr
      rw [hi] at this
      cases this
      rw [hy] at hx
      cases hx
      exact h

attribute [local irreducible] Cmd.wp

theorem TrueRun.report {c : Rec (Option RecErr)} {p : Bytes} {s : RecState}
    (h : wp c (fun _ => TrueRun ix dest r FP LP) (TrueRun ix dest r FP LP) s) :
    wp (c >>= report p) (fun _ => TrueRun ix dest r FP LP) (TrueRun ix dest r FP LP) s := by
  rw [wp_bind]
  refine wp_mono h (fun e t ht => ?_) fun _ h => h
  cases e with
  | none => exact wp_pure' ht
  | some e => unfold Btrfscue.report note; rw [wp_modify]; exact ht

/-- The run. -/
theorem trueRun (hst : ∀ n, env.fails .stat n = false) (hD : ix.Distinct dest) (hok : DestOK fs dest r)
    (hfile : ∀ o i q s, ix.HasEntry dest 1 o i q → CacheOK rf ix s →
      wp (recoverFile env rf ix false o i q) (fun _ t => ∀ f, t.reached f → s.reached f ∨ (∃ x, f.readFile q = some x ∧ FP o i x) ∨ ∀ x, FP o i x)
        (fun t => ∀ f, t.reached f → s.reached f ∨ (∃ x, f.readFile q = some x ∧ FP o i x) ∨ ∀ x, FP o i x) s)
    (hlink : ∀ o i q s, ix.HasEntry dest 7 o i q →
      wp (recoverSymlink env rf ix false o i q) (fun _ t => ∀ f, t.reached f → s.reached f ∨ (∃ x, f.readLink q = some x ∧ LP o i x) ∨ ∀ x, LP o i x)
        (fun t => ∀ f, t.reached f → s.reached f ∨ (∃ x, f.readLink q = some x ∧ LP o i x) ∨ ∀ x, LP o i x) s) :
    RunInv env rf ix false dest (fun s => WholeInv ix fs dest r rf anyFate anyFate s ∧ TrueRun ix dest r FP LP s)
      (fun _ s => TrueRun ix dest r FP LP s) (Went Preserved) anyFate anyFate := by
  have W : RunInv env rf ix false dest (WholeInv ix fs dest r rf anyFate anyFate) (fun _ => Sound ix dest r anyFate anyFate)
      (Went Preserved) anyFate anyFate := wholeRun hst hD hok any_fates
    (fun o i q s _ _ => by unfold wp; split <;> first | trivial | exact fun _ => Or.inr trivial)
    (fun o i q s _ _ => by unfold wp; split <;> first | trivial | exact fun _ => Or.inr trivial)
  refine RunInv.mk (fun s h => h.2) (fun s h _ => h.2) W.refl W.trans W.logs (fun s h => W.once s h.1) (fun s h => W.placed s h.1)
    ?_ ?_ ?_ ?_ W.dmono W.fmono W.lmono
  · intro s o d p h hp hv
    obtain ⟨h1, h2⟩ := W.visit s o d p h.1 hp hv
    exact ⟨⟨h1, h.2⟩, h2⟩
  · intro o d p s hp hs
    obtain ⟨A, hA⟩ := hp.named hD hok.clean hok.ne
    have hwn := WayNames.of_target hok.clean hA.ne hA.clean hA.rooted hA.plain hA.parts
    have hT : ∀ t, Within ix fs dest r rf (DirAt ix dest) s t → TrueRun ix dest r FP LP t := fun t h =>
      hs.2.within hD hok.clean hok.ne hs.1 h fun f _ _ _ B hB => Or.inr fun i _ =>
        ⟨fun x _ o n he => absurd hB (he.not_dir hD hok.clean hok.ne (by decide)),
          fun x _ o n he => absurd hB (he.not_dir hD hok.clean hok.ne (by decide))⟩
    refine wpE_mono (wpE_and (W.mkdirAll o d p s hp hs.1) (wpE_iff.mpr (Within.mkdirAll hst hD hok _ A p ⟨o, d, p, hp, hA⟩ hwn s
      (Within.refl (rf := rf) hs.1.shape hs.1.kept.grown hs.1.cache hs.1.past)))) ?_ fun _ t h => hT t h.2
    rintro ok t ⟨⟨h1, h2, h3, h4⟩, h5⟩
    exact ⟨⟨h1, hT t h5⟩, h2, h3, fun hf => ⟨⟨(h4 hf).1, hT t h5⟩, (h4 hf).2.1, hT t h5⟩⟩
  · intro s o d p di n i hs he hp hm hi
    obtain ⟨A, hA, hE⟩ := hm.entryAt hD hok.clean hok.ne (hs.1.once.2 o d p he) hi
    have hH : ix.HasEntry dest 1 o i (goJoin p n) := by
      obtain ⟨q, hq, hqA⟩ := hE
      rw [hA.path hqA]; exact hq
    have hT : ∀ t, (∀ f, t.reached f → s.reached f ∨ (∃ x, f.readFile (goJoin p n) = some x ∧ FP o i x) ∨ ∀ x, FP o i x) →
        Within ix fs dest r rf (· = A) s t → TrueRun ix dest r FP LP t := by
      intro t h1 h2
      refine hs.2.within hD hok.clean hok.ne hs.1 h2 fun f hf hsh hg B hB => ?_
      subst hB
      rcases h1 f hf with h | ⟨x, hx, hx'⟩ | h
      · exact Or.inl h
      · exact Or.inr (TrueAt.file hD hok hg hsh hE hA hx hx')
      · refine Or.inr fun j _ => ⟨fun y _ o' n' he' => ?_, fun y _ o' n' he' => absurd (he'.unique hD hok.clean hok.ne hE).1 (by decide)⟩
        obtain ⟨-, rfl, rfl⟩ := he'.unique hD hok.clean hok.ne hE
        exact h y
    have hw : wp (recoverFile env rf ix false o i (goJoin p n)) (fun _ => TrueRun ix dest r FP LP) (TrueRun ix dest r FP LP) s :=
      wp_mono (wp_and (hfile o i _ s hH hs.1.cache) ((Within.fileInv hst hD hok hE).file o i hA s
        (Within.refl hs.1.shape hs.1.kept.grown hs.1.cache hs.1.past))) (fun _ t h => hT t h.1 h.2) fun t h => hT t h.1 h.2
    refine wpE_mono (wpE_and (W.file s o d p di n i hs.1 he hp hm hi) (wpE_iff.mpr (TrueRun.report hw))) ?_ fun _ _ h => h.2
    rintro _ t ⟨⟨h1, h2, h3, h4⟩, h5⟩
    exact ⟨⟨h1, h5⟩, h2, h3, h4⟩
  · intro s o d p di n i hs he hp hm hi
    obtain ⟨A, hA, hE⟩ := hm.entryAt hD hok.clean hok.ne (hs.1.once.2 o d p he) hi
    have hH : ix.HasEntry dest 7 o i (goJoin p n) := by
      obtain ⟨q, hq, hqA⟩ := hE
      rw [hA.path hqA]; exact hq
    have hT : ∀ t, (∀ f, t.reached f → s.reached f ∨ (∃ x, f.readLink (goJoin p n) = some x ∧ LP o i x) ∨ ∀ x, LP o i x) →
        Within ix fs dest r rf (· = A) s t → TrueRun ix dest r FP LP t := by
      intro t h1 h2
      refine hs.2.within hD hok.clean hok.ne hs.1 h2 fun f hf hsh hg B hB => ?_
      subst hB
      rcases h1 f hf with h | ⟨x, hx, hx'⟩ | h
      · exact Or.inl h
      · exact Or.inr (TrueAt.link hD hok hg hsh hE hA hx hx')
      · refine Or.inr fun j _ => ⟨fun y _ o' n' he' => absurd (he'.unique hD hok.clean hok.ne hE).1 (by decide), fun y _ o' n' he' => ?_⟩
        obtain ⟨-, rfl, rfl⟩ := he'.unique hD hok.clean hok.ne hE
        exact h y
    have hw : wp (recoverSymlink env rf ix false o i (goJoin p n)) (fun _ => TrueRun ix dest r FP LP) (TrueRun ix dest r FP LP) s :=
      wp_mono (wp_and (hlink o i _ s hH) (Within.link hD hok hE hA o i s
        (Within.refl hs.1.shape hs.1.kept.grown hs.1.cache hs.1.past))) (fun _ t h => hT t h.1 h.2) fun t h => hT t h.1 h.2
    refine wpE_mono (wpE_and (W.link s o d p di n i hs.1 he hp hm hi) (wpE_iff.mpr (TrueRun.report hw))) ?_ fun _ _ h => h.2
    rintro _ t ⟨⟨h1, h2, h3, h4⟩, h5⟩
    exact ⟨⟨h1, h5⟩, h2, h3, h4⟩

/-- The beginning. -/
theorem TrueRun.start (he : EmptyDest fs dest r) (hD : ix.Distinct dest) : TrueRun ix dest r FP LP (RecState.start fs) := by
  rintro f (hf | hf) A i hi
  · have hf : f = fs := hf
    subst hf
    obtain ⟨par, hp⟩ := he.empty
    have hA : A = [] := by
      cases A with
      | nil => rfl
      | cons c A =>
        exfalso
        have hi' : f.down r (c :: A) = some i := hi
        have : f.down r (c :: A) = (f.child r c).bind fun i => f.down i A := by
          have := down_append f A [c] r
          simpa [HostFS.down] using this
        rw [this, child_dir hp] at hi'
        cases hi'
    subst hA
    exact ⟨fun x _ o n h => absurd rfl (h.ne hD he.ok), fun x _ o n h => absurd rfl (h.ne hD he.ok)⟩
  · cases hf

end

end Btrfscue
