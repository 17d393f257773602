import Verif.Proof.Down
import Verif.Proof.Named
import Verif.Props.RecoverContain
import Verif.Props.RecoverReach
/-!
# What stands below the destination
-/

namespace Btrfscue

open Cmd

/-- An empty destination is one without links. -/
theorem EmptyDest.ok {fs : HostFS} {dest : Bytes} {r : Nat} (h : EmptyDest fs dest r) : DestOK fs dest r where
  clean := h.clean
  short := h.short
  found := h.found
  dir := by obtain ⟨par, hp⟩ := h.empty; exact ⟨_, _, hp⟩
  nolink i t hb := by
    obtain ⟨par, hp⟩ := h.empty
    have : i = r := by
      induction hb with
      | root => rfl
      | entry _ h1 h2 ih =>
        subst ih
        rw [hp] at h1
        cases h1
        cases h2
    subst this
    rw [hp]; simp

theorem DestOK.ne {fs : HostFS} {dest : Bytes} {r : Nat} (h : DestOK fs dest r) : dest ≠ [] := by
  rintro rfl
  obtain ⟨e, he⟩ := h.found
  cases he

/-- Below the destination is a tree; everything stands where an entry of its kind has its place. -/
structure Shape (ix : Ix) (dest : Bytes) (r : Nat) (f : HostFS) : Prop where
  tree : IsTree f r
  kind : ∀ A i, f.down r A = some i →
    (DirAt ix dest A ∧ f.isDirAt i = true) ∨
    (∃ o n x, EntryAt ix dest 1 o n A ∧ f.inodes[i]? = some (.file x)) ∨
    (∃ o n x, EntryAt ix dest 7 o n A ∧ f.inodes[i]? = some (.link x))

/-- What there is in `f'` is there in `f`, or is one of `Q`. -/
def Adds (r : Nat) (Q : List Bytes → Prop) (f f' : HostFS) : Prop := ∀ B j, f'.down r B = some j → f.down r B = some j ∨ Q B

section
variable {ix : Ix} {fs : HostFS} {dest : Bytes} {r : Nat} {f : HostFS} {A : List Bytes}

theorem Shape.dir (hD : ix.Distinct dest) (hok : DestOK fs dest r) (h : Shape ix dest r f) (hA : DirAt ix dest A) {i : Nat}
    (hi : f.down r A = some i) : f.isDirAt i = true := by
  rcases h.kind A i hi with ⟨-, h⟩ | ⟨o, n, x, h, -⟩ | ⟨o, n, x, h, -⟩
  · exact h
  · exact absurd hA (h.not_dir hD hok.clean hok.ne (by decide))
  · exact absurd hA (h.not_dir hD hok.clean hok.ne (by decide))

theorem Shape.file (hD : ix.Distinct dest) (hok : DestOK fs dest r) (h : Shape ix dest r f) {o n : UInt64}
    (hA : EntryAt ix dest 1 o n A) {i : Nat} (hi : f.down r A = some i) : ∃ x, f.inodes[i]? = some (.file x) := by
  rcases h.kind A i hi with ⟨h, -⟩ | ⟨o, n, x, -, h⟩ | ⟨o, n, x, h, -⟩
  · exact absurd h (hA.not_dir hD hok.clean hok.ne (by decide))
  · exact ⟨x, h⟩
  · exact absurd (hA.unique hD hok.clean hok.ne h).1 (by decide)

theorem Shape.link (hD : ix.Distinct dest) (hok : DestOK fs dest r) (h : Shape ix dest r f) {o n : UInt64}
    (hA : EntryAt ix dest 7 o n A) {i : Nat} (hi : f.down r A = some i) : ∃ x, f.inodes[i]? = some (.link x) := by
  rcases h.kind A i hi with ⟨h, -⟩ | ⟨o, n, x, h, -⟩ | ⟨o, n, x, -, h⟩
  · exact absurd h (hA.not_dir hD hok.clean hok.ne (by decide))
  · exact absurd (hA.unique hD hok.clean hok.ne h).1 (by decide)
  · exact ⟨x, h⟩

theorem Shape.nolinks_dir (hD : ix.Distinct dest) (hok : DestOK fs dest r) (h : Shape ix dest r f) (hA : DirAt ix dest A)
    (last : Bool) : NoLinks f r A last := by
  intro X c B j t he _ hj hl
  have hX : DirAt ix dest (X ++ [c]) := by
    rw [he, show X ++ c :: B = (X ++ [c]) ++ B by simp] at hA
    exact hA.front hD hok.clean hok.ne
  have := h.dir hD hok hX hj
  obtain ⟨es, par, h'⟩ := isDirAt_iff.mp this
  rw [hl] at h'
  cases h'

theorem Shape.nolinks_entry (hD : ix.Distinct dest) (hok : DestOK fs dest r) (h : Shape ix dest r f) {t : UInt8} {o n : UInt64}
    (hA : EntryAt ix dest t o n A) (last : Bool) (ht : t = 1 ∨ last = true) : NoLinks f r A last := by
  intro X c B j tt he hB hj hl
  by_cases hBn : B = []
  · subst hBn
    rcases ht with rfl | rfl
    · subst he
      obtain ⟨x, hx⟩ := h.file hD hok hA hj
      rw [hl] at hx
      cases hx
    · rcases hB with hB | hB
      · exact hB rfl
      · cases hB
  · have hX : DirAt ix dest (X ++ [c]) := by
      rw [he, show X ++ c :: B = (X ++ [c]) ++ B by simp] at hA
      exact hA.front hD hok.clean hok.ne hBn
    have := h.dir hD hok hX hj
    obtain ⟨es, par, h'⟩ := isDirAt_iff.mp this
    rw [hl] at h'
    cases h'

/-- Where the path of a name leads. -/
theorem resolve_names (hok : DestOK fs dest r) (hg : Grown fs f) {p : Bytes} {tail : List Bytes} {follow : Bool}
    (hr : isRooted p = isRooted dest) (hp : splitSlash p = destComps dest ++ (A ++ tail)) (ht : tail = [] ∨ tail = [[]])
    (hA : ∀ n ∈ A, Plain n) (hne : A ≠ []) (hn : NoLinks f r A (!follow && tail.isEmpty)) :
    (f.resolve follow p = .fail ∧ (p = [] ∨ 0 ∈ p ∨ 4096 ≤ p.length)) ∨ Leads' f r A tail (f.resolve follow p) := by
  unfold HostFS.resolve
  by_cases hb : p = [] ∨ 0 ∈ p ∨ 4096 ≤ p.length
  · rw [if_pos hb]; exact Or.inl ⟨rfl, hb⟩
  · rw [if_neg hb, hp, hr]
    obtain ⟨e, he⟩ := hok.base_grown hg
    exact Or.inr (resolveFrom_names follow ht hA hne hn _ _ _ e he)

/-- The same for names from the index. -/
theorem Named.split (h : Named dest A p) (hne : A ≠ []) : splitSlash p = destComps dest ++ (A ++ []) := by
  have hl : pathParts p ≠ [] := by rw [h.parts]; simp [hne]
  rw [splitSlash_clean h.clean hl, h.parts, h.rooted, destComps, List.append_assoc, List.append_nil]

theorem EntryAt.ne (hD : ix.Distinct dest) (hok : DestOK fs dest r) {t : UInt8} {o n : UInt64}
    (h : EntryAt ix dest t o n A) : A ≠ [] := by
  obtain ⟨X, n, d, p, di, loc, rfl, -⟩ := h.inv hD hok.clean hok.ne
  simp

/-- Where the path of a file (or, not followed, of a link) leads. -/
theorem Shape.resolve_entry (hD : ix.Distinct dest) (hok : DestOK fs dest r) (hg : Grown fs f) (h : Shape ix dest r f)
    {t : UInt8} {o n : UInt64} (hA : EntryAt ix dest t o n A) {p : Bytes} (hp : Named dest A p) {follow : Bool}
    (ht : t = 1 ∨ follow = false) :
    (f.resolve follow p = .fail ∧ (p = [] ∨ 0 ∈ p ∨ 4096 ≤ p.length)) ∨ Leads' f r A [] (f.resolve follow p) := by
  have hne := hA.ne hD hok
  refine resolve_names hok hg hp.rooted (hp.split hne) (Or.inl rfl) hp.plain hne ?_
  refine h.nolinks_entry hD hok hA _ (ht.imp id fun h => ?_)
  rw [h]; rfl

theorem Shape.stat_entry (hD : ix.Distinct dest) (hok : DestOK fs dest r) (hg : Grown fs f) (h : Shape ix dest r f)
    {t : UInt8} {o n : UInt64} (hA : EntryAt ix dest t o n A) {p : Bytes} (hp : Named dest A p) {follow : Bool}
    (ht : t = 1 ∨ follow = false) (hs : f.stat follow p ≠ none) : ∃ i, f.down r A = some i := by
  unfold HostFS.stat at hs
  cases hr : f.resolve follow p with
  | fail => rw [hr] at hs; exact absurd rfl hs
  | missing _ _ _ => rw [hr] at hs; exact absurd rfl hs
  | found i e =>
    rcases h.resolve_entry hD hok hg hA hp ht with ⟨h, -⟩ | h
    · rw [hr] at h; cases h
    · exact ⟨i, h.found i e hr⟩

/-! ## Changes -/

theorem isDirAt_grown {a b : HostFS} (h : Grown a b) {i : Nat} (hi : a.isDirAt i = true) : b.isDirAt i = true := by
  obtain ⟨es, par, h1⟩ := isDirAt_iff.mp hi
  obtain ⟨es', h2, -⟩ := h.dir i es par h1
  exact isDirAt_iff.mpr ⟨es', par, h2⟩

theorem Shape.create (h : Shape ix dest r f) {d i : Nat} {n : Bytes} {nd : INode} {f' : HostFS} {X : List Bytes}
    (hc : f.create d n nd = some (f', i)) (hX : f.down r X = some d) (hno : f.down r (X ++ [n]) = none)
    (hk : (∃ par, nd = .dir [] par ∧ DirAt ix dest (X ++ [n])) ∨ (∃ x o m, nd = .file x ∧ EntryAt ix dest 1 o m (X ++ [n])) ∨
      ∃ x o m, nd = .link x ∧ EntryAt ix dest 7 o m (X ++ [n])) :
    Shape ix dest r f' ∧ ∀ Q : List Bytes → Prop, Q (X ++ [n]) → Adds r Q f f' := by
  have hno' : f.child d n = none := by
    rw [down_snoc, hX, Option.bind_some] at hno; exact hno
  have hnd : ∀ es par, nd = .dir es par → es = [] := by
    intro es par he
    rcases hk with ⟨par', h, -⟩ | ⟨x, o, m, h, -⟩ | ⟨x, o, m, h, -⟩
    · rw [he] at h; cases h; rfl
    · rw [he] at h; cases h
    · rw [he] at h; cases h
  have hdown := down_create h.tree hnd hc hX hno'
  have hpres := create_preserved hc
  obtain ⟨hi, hget, -⟩ := create_get hc
  refine ⟨⟨h.tree.create hnd hc hX hno', fun B j hB => ?_⟩, fun Q hQ B j hB => ?_⟩
  · rcases (hdown B j).mp hB with hB | ⟨rfl, rfl⟩
    · rcases h.kind B j hB with ⟨h1, h2⟩ | ⟨o, m, x, h1, h2⟩ | ⟨o, m, x, h1, h2⟩
      · exact Or.inl ⟨h1, isDirAt_grown hpres.grown h2⟩
      · exact Or.inr (Or.inl ⟨o, m, x, h1, hpres.file _ _ h2⟩)
      · exact Or.inr (Or.inr ⟨o, m, x, h1, hpres.link _ _ h2⟩)
    · rcases hk with ⟨par', rfl, h⟩ | ⟨x, o, m, rfl, h⟩ | ⟨x, o, m, rfl, h⟩
      · exact Or.inl ⟨h, isDirAt_iff.mpr ⟨_, _, hget⟩⟩
      · exact Or.inr (Or.inl ⟨o, m, x, h, hget⟩)
      · exact Or.inr (Or.inr ⟨o, m, x, h, hget⟩)
  · rcases (hdown B j).mp hB with hB | ⟨rfl, -⟩
    · exact Or.inl hB
    · exact Or.inr hQ

theorem Shape.put (h : Shape ix dest r f) {i : Nat} {x y : Bytes} (hf : f.inodes[i]? = some (.file x)) :
    Shape ix dest r (f.put i (.file y)) ∧ ∀ Q, Adds r Q f (f.put i (.file y)) := by
  have hself := put_get_self (fs := f) (nd := INode.file y) (List.getElem?_eq_some_iff.mp hf).1
  refine ⟨⟨h.tree.put hf, fun B j hB => ?_⟩, fun Q B j hB => ?_⟩
  · rw [down_put hf] at hB
    rcases h.kind B j hB with ⟨h1, h2⟩ | ⟨o, m, z, h1, h2⟩ | ⟨o, m, z, h1, h2⟩
    · exact Or.inl ⟨h1, isDirAt_grown (put_grown hf) h2⟩
    · refine Or.inr (Or.inl ⟨o, m, ?_⟩)
      by_cases hji : i = j
      · subst hji; exact ⟨y, h1, hself⟩
      · exact ⟨z, h1, by rw [put_get hji]; exact h2⟩
    · refine Or.inr (Or.inr ⟨o, m, z, h1, ?_⟩)
      have hji : i ≠ j := by rintro rfl; rw [hf] at h2; cases h2
      rw [put_get hji]; exact h2
  · rw [down_put hf] at hB; exact Or.inl hB

theorem Adds.trans {Q : List Bytes → Prop} {f g k : HostFS} (h : Adds r Q f g) (h' : Adds r Q g k) : Adds r Q f k := fun B j hB =>
  (h' B j hB).elim (h B j) Or.inr

/-- The cache of the stripe map is empty or what it should be. -/
def CacheOK (rf : Nat) (ix : Ix) (s : RecState) : Prop :=
  s.cache = none ∨ ∃ map, ix.buildStripeMap rf = .ok map ∧ s.cache = some map

theorem CacheOK.physical {rf : Nat} {s : RecState} {l : UInt64} {c : Option (List StripeMapEntry)} {x : UInt64 × UInt64}
    (h : CacheOK rf ix s) (hp : ix.physical rf s.cache l = .ok (c, x)) : CacheOK rf ix { s with cache := c } := by
  right
  unfold Ix.physical at hp
  rcases h with h | ⟨map, h1, h2⟩
  · rw [h] at hp
    simp only at hp
    obtain ⟨map, h1, h3⟩ := Go.bind_eq_ok.mp hp
    obtain ⟨y, -, h4⟩ := Go.bind_eq_ok.mp h3
    cases h4
    exact ⟨map, h1, rfl⟩
  · rw [h2] at hp
    simp only [Go.ok_bind] at hp
    obtain ⟨y, -, h4⟩ := Go.bind_eq_ok.mp hp
    cases h4
    exact ⟨map, h1, rfl⟩

theorem past_cons {P : HostFS → Prop} {g : HostFS} {l : List HostFS} (h1 : P g) (h2 : ∀ f ∈ l, P f) : ∀ f ∈ g :: l, P f := by
  intro f hf
  rcases List.mem_cons.mp hf with rfl | hf
  · exact h1
  · exact h2 f hf

/-- Between `s` and `t`, only things of `Q` were added. -/
structure Within (ix : Ix) (fs : HostFS) (dest : Bytes) (r rf : Nat) (Q : List Bytes → Prop) (s t : RecState) : Prop where
  shape : Shape ix dest r t.fs
  grown : Grown fs t.fs
  adds : Adds r Q s.fs t.fs
  cache : CacheOK rf ix t
  past : ∀ f ∈ t.past, Shape ix dest r f
  pres : Preserved s.fs t.fs
  since : ∀ f ∈ t.past, f ∈ s.past ∨ Adds r Q s.fs f ∧ Preserved s.fs f

variable {rf : Nat} {Q : List Bytes → Prop} {s : RecState} {env : Env}

theorem Within.refl (h1 : Shape ix dest r s.fs) (h2 : Grown fs s.fs) (h3 : CacheOK rf ix s)
    (h4 : ∀ f ∈ s.past, Shape ix dest r f) : Within ix fs dest r rf Q s s :=
  ⟨h1, h2, fun _ _ h => Or.inl h, h3, h4, Preserved.refl _, fun _ h => Or.inl h⟩

theorem Within.calls (t : RecState) (n : Nat) (h : Within ix fs dest r rf Q s t) : Within ix fs dest r rf Q s { t with calls := n } :=
  ⟨h.shape, h.grown, h.adds, h.cache, h.past, h.pres, h.since⟩

theorem Within.note (e : Ev) : Keeps (Within ix fs dest r rf Q s) (note e) :=
  Keeps.modify fun _ h => ⟨h.shape, h.grown, h.adds, h.cache, h.past, h.pres, h.since⟩

theorem Within.setfs {t : RecState} (h : Within ix fs dest r rf Q s t) {f' : HostFS} (hs : Shape ix dest r f' ∧ Adds r Q t.fs f')
    (hg : Grown t.fs f') (hp : Preserved s.fs f') : Within ix fs dest r rf Q s { t with fs := f', past := t.fs :: t.past } :=
  ⟨hs.1, h.grown.trans hg, h.adds.trans hs.2, h.cache, past_cons h.shape h.past, hp, past_cons (Or.inr ⟨h.adds, h.pres⟩) h.since⟩

theorem Within.apply {g : HostFS → Option HostFS}
    (hg : ∀ f f', Shape ix dest r f → Grown fs f → Preserved s.fs f → g f = some f' →
      (Shape ix dest r f' ∧ Adds r Q f f') ∧ Grown f f' ∧ Preserved s.fs f') :
    Keeps (Within ix fs dest r rf Q s) ((Cmd.get : Rec RecState) >>= fun s => applyFS (g s.fs)) := by
  intro t ht
  rw [wp_bind, wp_get]
  cases hf : g t.fs with
  | none => exact ht
  | some f' =>
    obtain ⟨h1, h2, h3⟩ := hg _ _ ht.shape ht.grown ht.pres hf
    exact ht.setfs h1 h2 h3

theorem Within.mkdir (hD : ix.Distinct dest) (hok : DestOK fs dest r) {p : Bytes} (hA : DirAt ix dest A) (hne : A ≠ [])
    (hp : WayNames dest A p) : Keeps (Within ix fs dest r rf (DirAt ix dest) s) (sysMkdir env p) := by
  unfold sysMkdir
  refine Keeps.bind (Within.note _) fun _ => Keeps.bind (Keeps.tick Within.calls) fun _ => Keeps.ite (fun _ => Keeps.pure) fun _ => ?_
  refine Within.apply (g := fun f => f.mkdir p) fun f f' hs hg hpr hm => ?_
  unfold HostFS.mkdir at hm
  obtain ⟨hpn, hroot, ⟨-, h⟩ | ⟨tail, h1, h2, -, h4⟩⟩ := hp
  · exact absurd h hne
  · have hl := resolve_names (follow := false) hok hg hroot h4 h2 h1 hne (hs.nolinks_dir hD hok hA _)
    cases hr : f.resolve false p with
    | found _ _ => rw [hr] at hm; cases hm
    | fail => rw [hr] at hm; cases hm
    | missing d n sl =>
      rw [hr] at hm hl
      obtain ⟨⟨f1, i⟩, h5, h6⟩ := Option.map_eq_some_iff.mp hm
      simp only at h6
      subst h6
      rcases hl with ⟨hl, -⟩ | hl
      · cases hl
      · obtain ⟨k1, -, X, rfl, k3⟩ := hl.missing d n sl rfl
        obtain ⟨g1, g2⟩ := hs.create h5 k3 k1 (Or.inl ⟨d, rfl, hA⟩)
        exact ⟨⟨g1, g2 _ hA⟩, (create_preserved h5).grown, hpr.trans (create_preserved h5)⟩

theorem Within.mkdirAll (hst : ∀ n, env.fails .stat n = false) (hD : ix.Distinct dest) (hok : DestOK fs dest r) :
    ∀ (n : Nat) (A : List Bytes) (p : Bytes), DirAt ix dest A → WayNames dest A p →
      Keeps (Within ix fs dest r rf (DirAt ix dest) s) (mkdirAllAux env n p) := by
  intro n
  induction n with
  | zero => exact fun _ _ _ _ => Keeps.hang
  | succ n ih =>
    intro A p hA hp t ht
    unfold mkdirAllAux
    rw [wp_bind]
    refine wp_mono (wp_sysStat (p := p) Within.calls ht) ?_ fun _ ht => ht
    rintro st u ⟨hu, hn⟩
    cases st with
    | some b => exact hu
    | none =>
      have h0 : u.fs.stat true p = none := by
        rcases hn rfl with ⟨m, hm⟩ | h
        · rw [hst m] at hm; cases hm
        · exact h
      rcases hp.parent hok hu.grown with h | ⟨N, c, rfl, h⟩
      · exact absurd h0 h
      · have hlast : Keeps (Within ix fs dest r rf (DirAt ix dest) s) (mkdirLast env p) := by
          unfold mkdirLast
          exact Keeps.bind (Within.mkdir hD hok hA (by simp) hp) fun _ => Keeps.ite (fun _ => Keeps.pure) fun _ =>
            Keeps.bind (Keeps.sysLstat Within.calls) fun _ => Keeps.pure
        refine (show Keeps (Within ix fs dest r rf (DirAt ix dest) s) _ from ?_) u hu
        refine Keeps.ite (fun _ => hlast) fun hne => Keeps.bind (ih N _ (hA.front hD hok.clean hok.ne) ?_) fun _ =>
          Keeps.ite (fun _ => hlast) fun _ => Keeps.pure
        exact h.resolve_left hne

theorem Within.fileInv (hst : ∀ n, env.fails .stat n = false) (hD : ix.Distinct dest) (hok : DestOK fs dest r) {o i : UInt64}
    (hA : EntryAt ix dest 1 o i A) :
    FileInv env rf ix false (Within ix fs dest r rf (· = A) s) (Named dest A) (fun fd => s.fs.inodes.length ≤ fd) where
  calls := Within.calls
  cache t l c x hp ht := ⟨ht.shape, ht.grown, ht.adds, ht.cache.physical hp, ht.past, ht.pres, ht.since⟩
  openFile p t hp ht ho := by
    have h0 : t.fs.stat true p = none := by
      rcases ho with ho | ⟨n, ho⟩ | ho
      · cases ho
      · rw [hst n] at ho; cases ho
      · exact ho
    unfold wp sysOpen
    simp only [bind_def, Btrfscue.note, modify_run, tick]
    by_cases hf : env.fails .open t.calls = true
    · simp only [hf, if_true, pure_run]
      exact ⟨⟨ht.shape, ht.grown, ht.adds, ht.cache, ht.past, ht.pres, ht.since⟩, fun _ h => by cases h⟩
    · simp only [hf, Bool.false_eq_true, if_false, bind_def, get_run]
      cases hop : t.fs.openTrunc p with
      | none => exact ⟨⟨ht.shape, ht.grown, ht.adds, ht.cache, ht.past, ht.pres, ht.since⟩, fun _ h => by cases h⟩
      | some x =>
        obtain ⟨f', j⟩ := x
        have hop' := hop
        unfold HostFS.openTrunc at hop
        have hl := ht.shape.resolve_entry hD hok ht.grown hA hp (follow := true) (Or.inl rfl)
        obtain ⟨n1, n2, -⟩ := openTrunc_new h0 hop'
        refine ⟨?_, fun fd hfd => by cases hfd; rw [n2]; exact ht.pres.len⟩
        have hmain : (Shape ix dest r f' ∧ Adds r (· = A) t.fs f') ∧ Grown t.fs f' := by
          cases hr : t.fs.resolve true p with
          | fail => rw [hr] at hop; cases hop
          | found k e =>
            rw [hr] at hop
            simp only at hop
            cases hk : t.fs.inodes[k]? with
            | none => rw [hk] at hop; cases hop
            | some nd =>
              rw [hk] at hop
              cases nd with
              | dir _ _ => cases hop
              | link _ => cases hop
              | file x =>
                simp only [Option.some.injEq, Prod.mk.injEq] at hop
                obtain ⟨rfl, rfl⟩ := hop
                exact ⟨⟨(ht.shape.put hk).1, (ht.shape.put hk).2 _⟩, put_grown hk⟩
          | missing d n sl =>
            rw [hr] at hop hl
            cases sl with
            | true => cases hop
            | false =>
              simp only at hop
              rcases hl with ⟨hl, -⟩ | hl
              · cases hl
              · obtain ⟨k1, -, X, rfl, k3⟩ := hl.missing d n false rfl
                obtain ⟨g1, g2⟩ := ht.shape.create hop k3 k1 (Or.inr (Or.inl ⟨_, _, _, rfl, hA⟩))
                exact ⟨⟨g1, g2 _ rfl⟩, (create_preserved hop).grown⟩
        exact ⟨hmain.1.1, ht.grown.trans hmain.2, ht.adds.trans hmain.1.2, ht.cache, past_cons ht.shape ht.past,
          ht.pres.trans n1, past_cons (Or.inr ⟨ht.adds, ht.pres⟩) ht.since⟩
  write fd b off hfd := by
    have hw : ∀ x n f f', Shape ix dest r f → Grown fs f → Preserved s.fs f → f.write fd n x = some f' →
        (Shape ix dest r f' ∧ Adds r (· = A) f f') ∧ Grown f f' ∧ Preserved s.fs f' := by
      intro x n f f' hs hg hpr hm
      unfold HostFS.write at hm
      split at hm
      · next d hd => cases hm; exact ⟨⟨(hs.put hd).1, (hs.put hd).2 _⟩, put_grown hd, put_preserved hpr hfd⟩
      · cases hm
    unfold sysWrite
    refine Keeps.ite (fun _ => Keeps.pure) fun _ => Keeps.ite (fun _ => Keeps.pure) fun _ => ?_
    refine Keeps.bind Keeps.get fun u => Keeps.bind (Keeps.tick Within.calls) fun _ => Keeps.ite (fun _ => ?_) fun _ =>
      Keeps.ite (fun _ => Keeps.pure) fun _ => ?_
    · have := Within.apply (s := s) (rf := rf) (g := fun f => f.write fd off.toNat (b.take (env.short u.calls))) fun f f' => hw _ _ f f'
      intro t ht
      have := this t ht
      rw [wp_bind] at this ⊢
      refine wp_mono this (fun a v hv => ?_) fun _ h => h
      rw [wp_bind]
      exact hv
    · exact Within.apply (g := fun f => f.write fd off.toNat b) fun f f' => hw _ _ f f'
  truncate fd n hfd := by
    unfold sysTruncate
    refine Keeps.bind (Keeps.tick Within.calls) fun _ => Keeps.ite (fun _ => Keeps.pure) fun _ =>
      Keeps.ite (fun _ => Keeps.pure) fun _ => ?_
    refine Within.apply (g := fun f => f.truncate fd n.toNat) fun f f' hs hg hpr hm => ?_
    unfold HostFS.truncate at hm
    split at hm
    · next d hd => cases hm; exact ⟨⟨(hs.put hd).1, (hs.put hd).2 _⟩, put_grown hd, put_preserved hpr hfd⟩
    · cases hm

theorem Within.symlink (hD : ix.Distinct dest) (hok : DestOK fs dest r) {o i : UInt64}
    (hA : EntryAt ix dest 7 o i A) {p : Bytes} (hp : Named dest A p) (t : Bytes) :
    Keeps (Within ix fs dest r rf (· = A) s) (sysSymlink env t p) := by
  unfold sysSymlink
  refine Keeps.bind (Within.note _) fun _ => Keeps.bind (Keeps.tick Within.calls) fun _ => Keeps.ite (fun _ => Keeps.pure) fun _ => ?_
  refine Within.apply (g := fun f => f.symlink t p) fun f f' hs hg hpr hm => ?_
  unfold HostFS.symlink at hm
  by_cases ht : t = [] ∨ 0 ∈ t ∨ 4096 ≤ t.length
  · rw [if_pos ht] at hm; cases hm
  · rw [if_neg ht] at hm
    have hl := hs.resolve_entry hD hok hg hA hp (follow := false) (Or.inr rfl)
    cases hr : f.resolve false p with
    | found _ _ => rw [hr] at hm; cases hm
    | fail => rw [hr] at hm; cases hm
    | missing d n sl =>
      rw [hr] at hm hl
      cases sl with
      | true => cases hm
      | false =>
        obtain ⟨⟨f1, i⟩, h5, h6⟩ := Option.map_eq_some_iff.mp hm
        simp only at h6
        subst h6
        rcases hl with ⟨hl, -⟩ | hl
        · cases hl
        · obtain ⟨k1, -, X, rfl, k3⟩ := hl.missing d n false rfl
          obtain ⟨g1, g2⟩ := hs.create h5 k3 k1 (Or.inr (Or.inr ⟨_, _, _, rfl, hA⟩))
          exact ⟨⟨g1, g2 _ rfl⟩, (create_preserved h5).grown, hpr.trans (create_preserved h5)⟩

theorem Within.link (hD : ix.Distinct dest) (hok : DestOK fs dest r) {o i : UInt64}
    (hA : EntryAt ix dest 7 o i A) {p : Bytes} (hp : Named dest A p) (o' i' : UInt64) :
    Keeps (Within ix fs dest r rf (· = A) s) (recoverSymlink env rf ix false o' i' p) :=
  Keeps.recoverSymlink Within.calls rf ix (fun _ _ _ _ hp ht => ⟨ht.shape, ht.grown, ht.adds, ht.cache.physical hp, ht.past, ht.pres, ht.since⟩)
    (fun h => by cases h) (fun t => Within.symlink hD hok hA hp t) o' i'

end

end Btrfscue
