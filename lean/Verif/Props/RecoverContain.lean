import Verif.Proof.Contain
import Verif.Proof.MkdirDone
import Verif.Props.RecoverInside
/-!
# C57: what is changed lies below the destination
-/

namespace Btrfscue

open Cmd

/-- The components of a clean destination. -/
def destComps (dest : Bytes) : List Bytes := (if isRooted dest then [[]] else []) ++ pathParts dest

/-- The circumstances: a clean destination that leads to directory `r`, with no links
below. -/
structure DestOK (fs : HostFS) (dest : Bytes) (r : Nat) : Prop where
  clean : goClean dest = dest
  short : dest.length < 4095
  found : ∃ e, fs.resolve true dest = .found r e
  dir : ∃ es par, fs.inodes[r]? = some (INode.dir es par)
  nolink : ∀ i t, fs.Below r i → fs.inodes[i]? ≠ some (INode.link t)

section
variable {fs : HostFS} {dest : Bytes} {r : Nat}

theorem DestOK.base (h : DestOK fs dest r) :
    ∃ e, fs.resolveFrom true 41 (if isRooted dest then 0 else fs.cwd) (destComps dest) = .found r e := by
  obtain ⟨e, he⟩ := h.found
  unfold HostFS.resolve at he
  by_cases hp : dest = [] ∨ 0 ∈ dest ∨ 4096 ≤ dest.length
  · rw [if_pos hp] at he; cases he
  · rw [if_neg hp] at he
    by_cases hl : pathParts dest = []
    · have hg := goClean_eq dest
      rw [h.clean, hl] at hg
      by_cases hr : isRooted dest = true
      · rw [if_pos hr] at hg he ⊢
        have hs : splitSlash dest = [[], []] := by rw [hg]; rfl
        rw [hs] at he
        refine ⟨none, ?_⟩
        simp only [destComps, hl, hr, if_true, List.append_nil, HostFS.resolveFrom, HostFS.walk] at he ⊢
        cases h0 : fs.inodes[0]? with
        | none => rw [h0] at he; cases he
        | some nd =>
          rw [h0] at he
          cases nd with
          | file _ => cases he
          | link _ => cases he
          | dir es par =>
            simp only [true_or, if_true, Look.found.injEq] at he ⊢
            exact ⟨he.1, trivial⟩
      · rw [if_neg hr] at hg he ⊢
        have hs : splitSlash dest = [dot] := by rw [hg]; rfl
        rw [hs] at he
        refine ⟨none, ?_⟩
        simp only [destComps, hl, hr, Bool.false_eq_true, if_false, List.append_nil, HostFS.resolveFrom, HostFS.walk] at he ⊢
        cases h0 : fs.inodes[fs.cwd]? with
        | none => rw [h0] at he; cases he
        | some nd =>
          rw [h0] at he
          cases nd with
          | file _ => cases he
          | link _ => cases he
          | dir es par =>
            simp only [or_true, if_true, Look.found.injEq] at he ⊢
            exact ⟨he.1, trivial⟩
    · refine ⟨e, ?_⟩
      rw [splitSlash_clean h.clean hl] at he
      exact he

theorem DestOK.base_grown (h : DestOK fs dest r) {f : HostFS} (hf : Grown fs f) :
    ∃ e, f.resolveFrom true 41 (if isRooted dest then 0 else f.cwd) (destComps dest) = .found r e := by
  obtain ⟨e, he⟩ := h.base
  obtain ⟨es, par, hd⟩ := h.dir
  refine ⟨e, ?_⟩
  rw [hf.cwd]
  exact resolveFrom_grown hf true _ _ _ _ _ he ⟨_, hd⟩

theorem DestOK.base_now (h : DestOK fs dest r) {f : HostFS} (hf : Contained fs r f) :
    ∃ e, f.resolveFrom true 41 (if isRooted dest then 0 else f.cwd) (destComps dest) = .found r e := h.base_grown hf.grown

/-- A path made of the destination and harmless components leads below. -/
theorem DestOK.safe (h : DestOK fs dest r) {f : HostFS} (hf : Contained fs r f) {p : Bytes} {B : List Bytes}
    (hr : isRooted p = isRooted dest) (hp : splitSlash p = destComps dest ++ B) (hB : dotdot ∉ B) (follow : Bool) :
    SafeLook fs r (follow || !B.isEmpty) (f.resolve follow p) := by
  obtain ⟨e, he⟩ := h.base_now hf
  unfold HostFS.resolve
  by_cases hg : p = [] ∨ 0 ∈ p ∨ 4096 ≤ p.length
  · rw [if_pos hg]; trivial
  · rw [if_neg hg, hp, hr]
    exact resolveFrom_base hf follow B hB _ _ _ e he

theorem Contained.mkdir (h : DestOK fs dest r) {f f' : HostFS} (hf : Contained fs r f) {p : Bytes} {B : List Bytes}
    (hr : isRooted p = isRooted dest) (hp : splitSlash p = destComps dest ++ B) (hB : dotdot ∉ B)
    (hm : f.mkdir p = some f') : Contained fs r f' := by
  have hs := h.safe hf hr hp hB false
  unfold HostFS.mkdir at hm
  cases hres : f.resolve false p with
  | found _ _ => rw [hres] at hm; cases hm
  | fail => rw [hres] at hm; cases hm
  | missing d n sl =>
    rw [hres] at hm hs
    obtain ⟨⟨g, i⟩, h1, h2⟩ := Option.map_eq_some_iff.mp hm
    simp only at h2
    subst h2
    exact hf.create hs (Or.inr ⟨_, rfl⟩) h1

theorem Contained.openTrunc (h : DestOK fs dest r) {f f' : HostFS} {i : Nat} (hf : Contained fs r f) {p : Bytes} {B : List Bytes}
    (hr : isRooted p = isRooted dest) (hp : splitSlash p = destComps dest ++ B) (hB : dotdot ∉ B)
    (hm : f.openTrunc p = some (f', i)) : Contained fs r f' ∧ (fs.Below r i ∨ fs.inodes.length ≤ i) := by
  have hs := h.safe hf hr hp hB true
  unfold HostFS.openTrunc at hm
  cases hres : f.resolve true p with
  | fail => rw [hres] at hm; cases hm
  | missing d n sl =>
    rw [hres] at hm hs
    cases sl with
    | true => cases hm
    | false =>
      have hi := (create_get hm).1
      exact ⟨hf.create hs (Or.inl ⟨_, rfl⟩) hm, Or.inr (hi ▸ hf.grown.len)⟩
  | found j e =>
    rw [hres] at hm hs
    simp only at hm
    cases hj : f.inodes[j]? with
    | none => rw [hj] at hm; cases hm
    | some nd =>
      rw [hj] at hm
      cases nd with
      | dir _ _ => cases hm
      | link _ => cases hm
      | file x =>
        simp only [Option.some.injEq, Prod.mk.injEq] at hm
        obtain ⟨rfl, rfl⟩ := hm
        have hs' := hs rfl
        exact ⟨hf.put hs' hj, hs'⟩

/-! ## The paths -/

/-- The components of a target. -/
theorem target_split {p : Bytes} (hp : goClean p = p) (hi : Inside dest p) :
    ∃ B, splitSlash p = destComps dest ++ B ∧ dotdot ∉ B := by
  obtain ⟨h1, names, h2, h3⟩ := hi
  by_cases hl : pathParts p = []
  · rw [hl] at h3
    have h4 := List.append_eq_nil_iff.mp h3.symm
    have hg := goClean_eq p
    rw [hp, hl] at hg
    by_cases hr : isRooted p = true
    · rw [if_pos hr] at hg
      refine ⟨[[]], ?_, by decide⟩
      rw [hg, destComps, h4.1, ← h1, if_pos hr]; rfl
    · rw [if_neg hr] at hg
      refine ⟨[dot], ?_, by decide⟩
      rw [hg, destComps, h4.1, ← h1, if_neg hr]; rfl
  · refine ⟨names, ?_, fun hd => (h2 _ hd).2.2.1 rfl⟩
    rw [splitSlash_clean hp hl, h3, h1, destComps, List.append_assoc]

/-- Paths that `MkdirAll` comes across: the destination, or the destination and names,
perhaps with a slash at the end. -/
def WayNames (dest : Bytes) (names : List Bytes) (p : Bytes) : Prop :=
  p ≠ [] ∧ isRooted p = isRooted dest ∧ ((p = dest ∧ names = []) ∨ ∃ tail, (∀ n ∈ names, Plain n) ∧ (tail = [] ∨ tail = [[]]) ∧
    (names ≠ [] ∨ tail ≠ []) ∧ splitSlash p = destComps dest ++ (names ++ tail))

/-- The same, with any names. -/
def WayPath (dest p : Bytes) : Prop := ∃ names, WayNames dest names p

theorem WayNames.of_target {p : Bytes} {names : List Bytes} (hd : goClean dest = dest) (hne : p ≠ []) (hp : goClean p = p)
    (h1 : isRooted p = isRooted dest) (h2 : ∀ n ∈ names, Plain n) (h3 : pathParts p = pathParts dest ++ names) :
    WayNames dest names p := by
  refine ⟨hne, h1, ?_⟩
  by_cases hn : names = []
  · subst hn
    rw [List.append_nil] at h3
    exact Or.inl ⟨clean_ext hp hd h1 h3, rfl⟩
  · refine Or.inr ⟨[], h2, Or.inl rfl, Or.inl hn, ?_⟩
    have hl : pathParts p ≠ [] := by rw [h3]; simp [hn]
    rw [splitSlash_clean hp hl, h3, h1, destComps, List.append_assoc, List.append_nil]

theorem WayPath.of_target {p : Bytes} (hd : goClean dest = dest) (hne : p ≠ []) (hp : goClean p = p) (hi : Inside dest p) :
    WayPath dest p := by
  obtain ⟨h1, names, h2, h3⟩ := hi
  exact ⟨names, WayNames.of_target hd hne hp h1 h2 h3⟩

theorem WayPath.split {p : Bytes} (hd : goClean dest = dest) (h : WayPath dest p) :
    ∃ B, splitSlash p = destComps dest ++ B ∧ dotdot ∉ B := by
  obtain ⟨names, h⟩ := h
  rcases h.2.2 with ⟨rfl, -⟩ | ⟨tail, h1, h2, -, h4⟩
  · exact target_split hd (Inside.refl _)
  · refine ⟨_, h4, fun hm => ?_⟩
    rcases List.mem_append.mp hm with hm | hm
    · exact (h1 _ hm).2.2.1 rfl
    · rcases h2 with rfl | rfl
      · cases hm
      · exact absurd hm (by decide)

/-- Either the path leads to the destination, or the parent path is of the same kind. -/
theorem WayNames.parent' (hok : DestOK fs dest r) {f : HostFS} (hf : Grown fs f) {p : Bytes} {names : List Bytes}
    (h : WayNames dest names p) : f.stat true p = some true ∨
      ∃ N c, names = N ++ [c] ∧ (parentPath p = [] ∨ WayNames dest N (parentPath p)) := by
  have hstat : ∀ {q : Bytes} {B : List Bytes}, q ≠ [] → 0 ∉ q → q.length < 4096 → isRooted q = isRooted dest →
      splitSlash q = destComps dest ++ B → (B = [] ∨ B = [[]]) → f.stat true q = some true := by
    intro q B h1 h2 h3 h4 h5 h6
    obtain ⟨e, he⟩ := hok.base_grown hf
    obtain ⟨es, par, hd⟩ := hok.dir
    obtain ⟨es', hd', -⟩ := hf.dir r es par hd
    have hres : f.resolve true q = .found r e := by
      unfold HostFS.resolve
      rw [if_neg (by simp only [not_or, Nat.not_le]; exact ⟨h1, h2, h3⟩), h4, h5]
      rcases h6 with rfl | rfl
      · rw [List.append_nil]; exact he
      · exact resolveFrom_slash hd' _ _ _ _ he
    exact stat_dir.mpr ⟨_, _, _, _, hres, hd'⟩
  have hgood : dest ≠ [] ∧ 0 ∉ dest := by
    obtain ⟨e, he⟩ := hok.found
    unfold HostFS.resolve at he
    by_cases hp : dest = [] ∨ 0 ∈ dest ∨ 4096 ≤ dest.length
    · rw [if_pos hp] at he; cases he
    · simp only [not_or] at hp; exact ⟨hp.1, hp.2.1⟩
  have hshort := hok.short
  obtain ⟨hne, hroot, hc⟩ := h
  rcases hc with ⟨rfl, -⟩ | ⟨tail, h1, h2, h3, h4⟩
  · left
    obtain ⟨e, he⟩ := hok.found
    obtain ⟨es, par, hd⟩ := hok.dir
    obtain ⟨es', hd', -⟩ := hf.dir r es par hd
    exact stat_dir.mpr ⟨_, _, _, _, resolve_grown hf he ⟨_, hd⟩, hd'⟩
  · rcases List.eq_nil_or_concat names with rfl | ⟨N, c, rfl⟩
    · left
      have ht : tail = [[]] := by
        rcases h2 with rfl | h2
        · rcases h3 with h3 | h3 <;> exact absurd rfl h3
        · exact h2
      subst ht
      rw [List.nil_append] at h4
      have hpe : p = dest ++ [47] ∨ p = dest := by
        have hj := joinSlash_splitSlash p
        rw [h4] at hj
        by_cases hl : pathParts dest = []
        · by_cases hr : isRooted dest = true
          · right
            have hg := goClean_eq dest
            rw [hok.clean, hl, if_pos hr] at hg
            rw [← hj, destComps, hl, if_pos hr]
            exact hg.symm
          · exfalso
            rw [destComps, hl, if_neg hr] at hj
            exact hne hj.symm
        · left
          have hd : destComps dest = splitSlash dest := (splitSlash_clean hok.clean hl).symm
          rw [hd, joinSlash_append (splitSlash_ne_nil _) (by simp), joinSlash_splitSlash] at hj
          rw [← hj]; rfl
      rcases hpe with rfl | rfl
      · refine hstat hne ?_ (by simp; omega) hroot h4 (Or.inr rfl)
        intro hm
        rcases List.mem_append.mp hm with hm | hm
        · exact hgood.2 hm
        · exact absurd hm (by decide)
      · exact hstat hne hgood.2 (by omega) hroot h4 (Or.inr rfl)
    · right
      rw [List.concat_eq_append] at h1 h4 ⊢
      refine ⟨N, c, rfl, ?_⟩
      have hcp := h1 c (by simp)
      have h5 : splitSlash p = (destComps dest ++ N) ++ c :: tail := by rw [h4]; simp
      obtain ⟨h6, h7⟩ := parentPath_split h5 hcp.1 h2
      by_cases hC : destComps dest ++ N = []
      · exact Or.inl (h6 hC)
      · by_cases hpp : parentPath p = []
        · exact Or.inl hpp
        · right
          refine ⟨hpp, ?_, Or.inr ⟨[[]], fun n hn => h1 n (by simp [hn]), Or.inr rfl, Or.inr (by simp), ?_⟩⟩
          · obtain ⟨⟨rest, hrest⟩, -⟩ := parentPath_prefix p
            exact (isRooted_front hrest hpp).trans hroot
          · rw [h7 hC, List.append_assoc]

theorem WayNames.parent (hok : DestOK fs dest r) {f : HostFS} (hf : Grown fs f) {p : Bytes} {names : List Bytes}
    (h : WayNames dest names p) : f.stat true p ≠ none ∨
      ∃ N c, names = N ++ [c] ∧ (parentPath p = [] ∨ WayNames dest N (parentPath p)) :=
  (h.parent' hok hf).imp (fun h => by rw [h]; simp) id

theorem WayPath.parent (hok : DestOK fs dest r) {f : HostFS} (hf : Contained fs r f) {p : Bytes} (h : WayPath dest p) :
    f.stat true p ≠ none ∨ parentPath p = [] ∨ WayPath dest (parentPath p) := by
  obtain ⟨names, h⟩ := h
  rcases h.parent hok hf.grown with h | ⟨N, c, -, h | h⟩
  · exact Or.inl h
  · exact Or.inr (Or.inl h)
  · exact Or.inr (Or.inr ⟨N, h⟩)

/-! ## The invariant -/

/-- All file systems so far. -/
def Holds (fs : HostFS) (r : Nat) (s : RecState) : Prop := Contained fs r s.fs ∧ ∀ f ∈ s.past, Contained fs r f

theorem Holds.step {s : RecState} (h : Holds fs r s) {f : HostFS} (hf : Contained fs r f) :
    Holds fs r { s with fs := f, past := s.fs :: s.past } :=
  ⟨hf, fun g hg => by
    rcases List.mem_cons.mp hg with rfl | hg
    · exact h.1
    · exact h.2 g hg⟩

theorem Holds.mkdir {env : Env} (hok : DestOK fs dest r) {p : Bytes} (hp : WayPath dest p) :
    Keeps (Holds fs r) (sysMkdir env p) := by
  intro s hs
  unfold wp sysMkdir
  simp only [bind_def, note, modify_run, tick]
  by_cases hf : env.fails .mkdir s.calls = true
  · simp only [hf, if_true, pure_run]; exact hs
  · simp only [hf, Bool.false_eq_true, if_false, bind_def, get_run]
    cases hm : s.fs.mkdir p with
    | none => exact hs
    | some f =>
      obtain ⟨B, h1, h2⟩ := hp.split hok.clean
      obtain ⟨names, hp⟩ := hp
      exact hs.step (Contained.mkdir hok hs.1 hp.2.1 h1 h2 hm)

theorem Holds.mkdirAll {env : Env} (hst : ∀ n, env.fails .stat n = false) (hok : DestOK fs dest r) :
    ∀ (n : Nat) (p : Bytes), WayPath dest p → Keeps (Holds fs r) (mkdirAllAux env n p) := by
  intro n
  induction n with
  | zero => exact fun _ _ => Keeps.hang
  | succ n ih =>
    intro p hp
    have hlast : Keeps (Holds fs r) (mkdirLast env p) := by
      unfold mkdirLast
      exact Keeps.bind (Holds.mkdir hok hp) fun _ => Keeps.ite (fun _ => Keeps.pure) fun _ =>
        Keeps.bind (Keeps.sysLstat fun _ _ h => h) fun _ => Keeps.pure
    intro s hs
    unfold mkdirAllAux
    rw [wp_bind]
    refine wp_mono (wp_sysStat (p := p) (fun _ _ h => h) hs) ?_ fun _ ht => ht
    rintro st t ⟨ht, hn⟩
    cases st with
    | some b => exact ht
    | none =>
      have h0 : t.fs.stat true p = none := by
        rcases hn rfl with ⟨m, hm⟩ | h
        · rw [hst m] at hm; cases hm
        · exact h
      refine (show Keeps (Holds fs r) _ from ?_) t ht
      refine Keeps.ite (fun _ => hlast) fun hne => Keeps.bind (ih _ ?_) fun _ =>
        Keeps.ite (fun _ => hlast) fun _ => Keeps.pure
      rcases hp.parent hok ht.1 with h | h | h
      · exact absurd h0 h
      · exact absurd h hne
      · exact h

/-- The paths recovered to, for a clean destination. -/
def CTarget (dest p : Bytes) : Prop := p ≠ [] ∧ goClean p = p ∧ Inside dest p

theorem Holds.inv {env : Env} (hst : ∀ n, env.fails .stat n = false) (hok : DestOK fs dest r) (rf : Nat) (ix : Ix)
    (clobber : Bool)
    (hln : ∀ o d dis, readDirItems rf ix o d = .ok dis → ∀ di ∈ dis, DirItem.typ di ≠ .ok FtSymlink) :
    RecInv env rf ix clobber (Holds fs r) (CTarget dest) (fun fd => fs.Below r fd ∨ fs.inodes.length ≤ fd)
      (fun di => DirItem.typ di ≠ .ok FtSymlink) where
  calls s n h := h
  cache s l c r _ h := h
  warn s p h := h
  visit s o d p _ h _ := h
  mkdirAll p hp := Holds.mkdirAll hst hok _ _ (WayPath.of_target hok.clean hp.1 hp.2.1 hp.2.2)
  openFile p s hp hs _ := by
    unfold wp sysOpen
    simp only [bind_def, note, modify_run, tick]
    by_cases hf : env.fails .open s.calls = true
    · simp only [hf, if_true, pure_run]; exact ⟨hs, fun _ h => (by cases h)⟩
    · simp only [hf, Bool.false_eq_true, if_false, bind_def, get_run]
      cases hm : s.fs.openTrunc p with
      | none => exact ⟨hs, fun _ h => (by cases h)⟩
      | some x =>
        obtain ⟨f, i⟩ := x
        obtain ⟨B, h1, h2⟩ := target_split hp.2.1 hp.2.2
        obtain ⟨h3, h4⟩ := Contained.openTrunc hok hs.1 hp.2.2.1 h1 h2 hm
        exact ⟨hs.step h3, fun fd h => (by cases h; exact h4)⟩
  write fd b off hfd := by
    have happ : ∀ b off, Keeps (Holds fs r) (Cmd.get >>= fun s => applyFS (s.fs.write fd off b)) := by
      intro b off s hs
      rw [wp_bind, wp_get]
      unfold HostFS.write
      cases hi : s.fs.inodes[fd]? with
      | none => exact hs
      | some nd =>
        cases nd with
        | dir _ _ => exact hs
        | link _ => exact hs
        | file x => exact hs.step (hs.1.put hfd hi)
    unfold sysWrite
    refine Keeps.ite (fun _ => Keeps.pure) fun _ => Keeps.ite (fun _ => Keeps.pure) fun _ => ?_
    refine Keeps.bind Keeps.get fun s0 => Keeps.bind (Keeps.tick fun _ _ h => h) fun _ => Keeps.ite (fun _ => ?_) fun _ =>
      Keeps.ite (fun _ => Keeps.pure) fun _ => happ _ _
    intro s hs
    have := happ (b.take (env.short s0.calls)) off.toNat s hs
    rw [wp_bind, wp_get] at this ⊢
    exact wp_bind.mpr (wp_mono this (fun _ _ h => h) fun _ h => h)
  truncate fd n hfd := by
    unfold sysTruncate
    refine Keeps.bind (Keeps.tick fun _ _ h => h) fun _ => Keeps.ite (fun _ => Keeps.pure) fun _ =>
      Keeps.ite (fun _ => Keeps.pure) fun _ => ?_
    intro s hs
    rw [wp_bind, wp_get]
    unfold HostFS.truncate
    cases hi : s.fs.inodes[fd]? with
    | none => exact hs
    | some nd =>
      cases nd with
      | dir _ _ => exact hs
      | link _ => exact hs
      | file x => exact hs.step (hs.1.put hfd hi)
  link owner inode p di _ hdi ht := absurd ht hdi
  items o d dis h := hln o d dis h
  join p di n hp _ _ hn := by
    obtain ⟨h1, h2⟩ := Target.join (dest := dest) (p := p) ⟨hp.1, Or.inr hp.2⟩ hn
    rcases h2 with h2 | h2
    · rw [h2] at h1 ⊢; exact ⟨h1, hok.clean, Inside.refl _⟩
    · exact ⟨h1, h2⟩

end

/-- C57 (what is proved): recover changes nothing outside. Given a destination that is a
directory, with no symbolic links below it; no symbolic links among the directory entries in
the index; and that `stat` does not fail for no reason — whatever else fails, with or
without `--clobber`, and whatever else the index holds: at no time during the run has
anything changed about a file, directory or link that existed at the start and was not
below the destination. Missing: indexes with symbolic links, which
lead outside (`C57_link_escapes`). -/
theorem C57_contained_partial (env : Env) (hst : ∀ n, env.fails .stat n = false) (rf fuel : Nat) (ix : Ix) (clobber : Bool)
    (hln : ∀ o d dis, readDirItems rf ix o d = .ok dis → ∀ di ∈ dis, DirItem.typ di ≠ .ok FtSymlink)
    (dest : Bytes) (fs : HostFS) (r : Nat) (hok : DestOK fs dest r) (f : HostFS)
    (hf : (doRecoverFiles env rf fuel ix clobber dest (RecState.start fs)).state.reached f)
    (i : Nat) (hi : i < fs.inodes.length) (ho : ¬ fs.Below r i) : f.inodes[i]? = fs.inodes[i]? := by
  have hd : CTarget dest dest := by
    refine ⟨?_, hok.clean, Inside.refl _⟩
    rintro rfl
    obtain ⟨e, he⟩ := hok.found
    cases he
  have hinv := Holds.inv hst hok rf ix clobber hln
  have hsub : ∀ o, CTarget dest (subvolDest dest o) := by
    intro o
    obtain ⟨h1, h2⟩ := Target.join (dest := dest) (p := dest) ⟨hd.1, Or.inl rfl⟩ (subvol_name o.toNat)
    rcases h2 with h2 | h2
    · exact absurd (show subvolDest dest o = dest from h2) (fun h => by
        have := goJoin_plain dest (ascii "subvol_" ++ decimal o.toNat) hd.1 ?_
        · have h3 := this.1
          rw [show goJoin dest (ascii "subvol_" ++ decimal o.toNat) = dest from h] at h3
          have := congrArg List.length h3
          simp at this
        · have hs := subvol_name o.toNat
          simp only [skipName, Bool.or_eq_false_iff, beq_eq_false_iff_ne, List.contains_eq_mem, decide_eq_false_iff_not] at hs
          exact ⟨by simp [ascii], hs.1.1.1, hs.1.1.2, hs.1.2⟩)
    · exact ⟨h1, h2⟩
  have hall := (hinv.all fuel hd hsub).state (s := RecState.start fs) ⟨Contained.start hok.nolink, fun f hf => by cases hf⟩
  rcases hf with rfl | hf
  · exact hall.1.out i hi ho
  · exact (hall.2 f hf).out i hi ho

/-! ## In terms of what is stored -/

/-- The directory entries recover reads are stored directory items of that directory. -/
theorem readDirItems_mem {b : Bucket} (hb : b.WF) {m : Bytes} (hm : b.stores metadataVersionKey m)
    (hok : ∀ o id off, b.hasKey o ⟨id, 84, off⟩ → b.RangeOK o (KL2 84 id)) {G : UInt64} {rf : Nat} {o d : UInt64}
    {dis : List DirItem} (h : readDirItems rf ⟨b, G⟩ o d = .ok dis) : ∀ di ∈ dis, b.dirItem o d di := by
  obtain ⟨l, hl, rfl⟩ := hb.exists_abs
  unfold readDirItems at h
  simp only [Go.bind_eq_ok] at h
  obtain ⟨rd, hrd, x, hx, hdis⟩ := h
  cases hdis
  have he : (Ix.mk l.enc G).dirItems o d = (Ix.mk l.enc G).range o (KF 84 d) (KL2 84 d) := rfl
  rw [he] at hrd
  by_cases hk : ∃ off, l.enc.hasKey o ⟨d, 84, off⟩
  · obtain ⟨off, hk⟩ := hk
    obtain ⟨rd', items, hr', hy, -, hs⟩ := range_yields hl (first := KF 84 d) ⟨m, hm⟩ (hok o d off hk) G
    rw [hrd] at hr'
    cases hr'
    have hf := rangeLoop_fold _ hy hx
    rw [foldCollect] at hf
    cases hf
    intro di hdi
    simp only [List.nil_append, List.map_map, List.mem_map, Function.comp] at hdi
    obtain ⟨⟨⟨w, y⟩, s'⟩, hmem, rfl⟩ := hdi
    rcases hs with ⟨-, rfl⟩ | ⟨k0, g0, h4, -, h6⟩
    · cases hmem
    · obtain ⟨k, rfl, h7, h8, h9, h10, -⟩ := (h6 w y s').mp hmem
      obtain ⟨hkt, hki⟩ := between_same_prefix (k0 := k0) h4.2.1 h4.2.2.1 h9 h10
      obtain ⟨k1, k2, k3⟩ := k
      simp only at hkt hki
      subst hkt; subst hki
      exact ⟨k3, g0, y, h7, h8⟩
  · have hn := range_absent hl (KL2_before (t := 84) (by decide)) (by
      rintro ⟨⟨i, t, off⟩, hk', h1, h2⟩
      simp only [KF] at h1 h2
      subst h1; subst h2
      exact hk ⟨off, hk'⟩) hrd
    have hf := rangeLoop_fold _ (items := []) (show Range.Yields rd [] from .done hn) hx
    cases hf
    exact fun di h => (by cases h)

/-- C57 (what is proved), in terms of what is stored: no stored directory entry is a
symbolic link. -/
theorem C57_contained_stored_partial (b : Bucket) (hb : b.WF) (m : Bytes) (hm : b.stores metadataVersionKey m)
    (hok : b.RecoverOK) (hln : ∀ o d di, b.dirItem o d di → DirItem.typ di ≠ .ok FtSymlink) (G : UInt64)
    (env : Env) (hst : ∀ n, env.fails .stat n = false) (rf fuel : Nat) (clobber : Bool)
    (dest : Bytes) (fs : HostFS) (r : Nat) (hd : DestOK fs dest r) (f : HostFS)
    (hf : (doRecoverFiles env rf fuel ⟨b, G⟩ clobber dest (RecState.start fs)).state.reached f)
    (i : Nat) (hi : i < fs.inodes.length) (ho : ¬ fs.Below r i) : f.inodes[i]? = fs.inodes[i]? :=
  C57_contained_partial env hst rf fuel ⟨b, G⟩ clobber
    (fun o d _ hdis di hdi => hln o d di (readDirItems_mem hb hm hok.dirs hdis di hdi)) dest fs r hd f hf i hi ho

/-! ## Examples and refutations -/

/-- `/d` with a file "a", and a file "b" outside. -/
def exTwoHost : HostFS :=
  ⟨[.dir [([100], 1), ([98], 3)] 0, .dir [([97], 2)] 0, .file [111, 108, 100], .file [107]], 0⟩

/-- The hypotheses on the host hold: inode 3 is outside. -/
example : DestOK exTwoHost (ascii "/d") 1 ∧ ¬ exTwoHost.Below 1 3 := by
  have hb : ∀ i, exTwoHost.Below 1 i → i = 1 ∨ i = 2 := by
    intro i h
    induction h with
    | root => exact Or.inl rfl
    | @entry d es par n j _ h1 h2 ih =>
      rcases ih with rfl | rfl
      · simp only [exTwoHost, List.getElem?_cons_succ, List.getElem?_cons_zero, Option.some.injEq, INode.dir.injEq] at h1
        rw [← h1.1] at h2
        simp only [List.mem_singleton, Prod.mk.injEq] at h2
        exact Or.inr h2.2
      · simp [exTwoHost] at h1
  refine ⟨⟨by decide +kernel, by decide, ⟨some (0, [100]), by decide +kernel⟩, ⟨_, _, rfl⟩, fun i t h => ?_⟩, fun h => ?_⟩
  · rcases hb i h with rfl | rfl <;> simp [exTwoHost]
  · rcases hb 3 h with h | h <;> cases h

/-- The run does something: the file in the destination is truncated. -/
example : (doRecoverFiles quietEnv 9 9 ⟨exOneFile.enc, ~~~0⟩ true (ascii "/d") (RecState.start exTwoHost)).state.fs.inodes =
    [.dir [([100], 1), ([98], 3)] 0, .dir [([97], 2)] 0, .file [], .file [107]] := by decide +kernel

/-- A file tree with a link "subvol_256" to the root of the host, and a subvolume 256 that
is not mounted anywhere, with a file "b". -/
def exSubLink : AStore :=
  [(⟨1, ⟨256, 132, 0⟩, 9⟩, mkItem ⟨256, 132, 0⟩ []),
   (⟨5, ⟨256, 84, 1⟩, 10⟩, mkItem ⟨256, 84, 1⟩ (exEntry ⟨257, 1, 0⟩ 7 (ascii "subvol_256"))),
   (⟨5, ⟨256, 96, 2⟩, 10⟩, mkItem ⟨256, 96, 2⟩ []),
   (⟨5, ⟨257, 108, 0⟩, 10⟩, mkItem ⟨257, 108, 0⟩ ((InlineExtentRec.mk 7 1 0 0 0).layout ++ [47])),
   (⟨256, ⟨256, 84, 1⟩, 10⟩, mkItem ⟨256, 84, 1⟩ (exEntry ⟨257, 1, 0⟩ 1 [98])),
   (⟨256, ⟨256, 96, 2⟩, 10⟩, mkItem ⟨256, 96, 2⟩ []),
   (metadataVersionKey, [])]

/-- C57 is false of the code: a recovered link is followed when something is recovered to a
path through it. Here a file outside of the destination is overwritten with `--clobber` ... -/
theorem C57_link_escapes : exTwoHost.readFile (ascii "/b") = some [107] ∧
    (doRecoverFiles quietEnv 9 9 ⟨exSubLink.enc, ~~~0⟩ true (ascii "/d") (RecState.start exTwoHost)).state.fs.readFile
      (ascii "/b") = some [] := by decide +kernel

/-- ... and one is made outside without. -/
theorem C57_link_creates_outside : exHost.readFile (ascii "/b") = none ∧
    (doRecoverFiles quietEnv 9 9 ⟨exSubLink.enc, ~~~0⟩ false (ascii "/d") (RecState.start exHost)).state.fs.readFile
      (ascii "/b") = some [] := by decide +kernel

/-- A link without a name. -/
def exNoName : AStore :=
  [(⟨5, ⟨256, 84, 1⟩, 10⟩, mkItem ⟨256, 84, 1⟩ (exEntry ⟨257, 1, 0⟩ 7 [])),
   (⟨5, ⟨256, 96, 2⟩, 10⟩, mkItem ⟨256, 96, 2⟩ []),
   (⟨5, ⟨257, 108, 0⟩, 10⟩, mkItem ⟨257, 108, 0⟩ ((InlineExtentRec.mk 7 1 0 0 0).layout ++ [47])),
   (metadataVersionKey, [])]

/-- C57: with `--clobber` an entry with an empty name replaces the (empty) destination
itself by a link. -/
theorem C57_empty_name_replaces_dest :
    (HostFS.mk [.dir [([100], 1)] 0, .dir [] 0] 0).listDir (ascii "/d") = some [] ∧
    (doRecoverFiles quietEnv 9 9 ⟨exNoName.enc, ~~~0⟩ true (ascii "/d")
      (RecState.start ⟨[.dir [([100], 1)] 0, .dir [] 0], 0⟩)).state.fs.readLink (ascii "/d") = some [47] := by
  decide +kernel

end Btrfscue
