import Verif.Proof.WholeRun
/-!
# Recovering to an empty destination, when nothing is in the way
-/

namespace Btrfscue

open Cmd

/-- A path the host accepts. -/
def GoodPath (p : Bytes) : Prop := 0 ∉ p ∧ p.length < 4096

theorem parentPath_short {p : Bytes} (hp : p ≠ []) : (parentPath p).length < p.length := by
  obtain ⟨⟨rest, h⟩, -⟩ := parentPath_prefix p
  have hl := congrArg List.length h
  rw [List.length_append] at hl
  rcases Nat.lt_or_ge (parentPath p).length p.length with h1 | h1
  · exact h1
  · exfalso
    have hr : rest = [] := List.eq_nil_of_length_eq_zero (by omega)
    rw [hr, List.append_nil] at h
    unfold parentPath at h
    have h2 := congrArg List.reverse h
    rw [List.reverse_reverse] at h2
    -- the last character is dropped, whatever it is
    cases hrev : p.reverse with
    | nil => exact hp (by simpa using hrev)
    | cons c l =>
      rw [hrev] at h2
      have h3 : ((c :: l).dropWhile (· == 47)).length ≤ (c :: l).length := (List.dropWhile_suffix _).length_le
      have h4 := congrArg List.length h2
      by_cases hc : c = 47
      · rw [List.dropWhile_cons, if_pos (by simp [hc])] at h4
        have h5 : (l.dropWhile (· == 47)).length ≤ l.length := (List.dropWhile_suffix _).length_le
        have h6 : ((l.dropWhile (· == 47)).dropWhile (· != 47)).length ≤ (l.dropWhile (· == 47)).length := (List.dropWhile_suffix _).length_le
        simp only [List.length_cons] at h4
        omega
      · rw [List.dropWhile_cons, if_neg (by simp [hc]), List.dropWhile_cons, if_pos (by simp [hc])] at h4
        have h6 : (l.dropWhile (· != 47)).length ≤ l.length := (List.dropWhile_suffix _).length_le
        simp only [List.length_cons] at h4
        omega

theorem GoodPath.parent {p : Bytes} (h : GoodPath p) : GoodPath (parentPath p) := by
  obtain ⟨⟨rest, hr⟩, -⟩ := parentPath_prefix p
  refine ⟨fun h0 => h.1 (by rw [hr]; exact List.mem_append_left _ h0), ?_⟩
  have := congrArg List.length hr
  rw [List.length_append] at this
  have := h.2
  omega

section
variable {ix : Ix} {fs : HostFS} {dest : Bytes} {r rf : Nat} {env : Env} {f : HostFS} {A : List Bytes}

/-- Where a good path made of names leads. -/
theorem Shape.leads_dir (hD : ix.Distinct dest) (hok : DestOK fs dest r) (hg : Grown fs f) (h : Shape ix dest r f)
    (hA : DirAt ix dest A) (hne : A ≠ []) {p : Bytes} (hp : WayNames dest A p) (hgood : GoodPath p) (follow : Bool) :
    ∃ tail, Leads' f r A tail (f.resolve follow p) := by
  obtain ⟨hpn, hroot, ⟨-, h'⟩ | ⟨tail, h1, h2, -, h4⟩⟩ := hp
  · exact absurd h' hne
  · rcases resolve_names (follow := follow) hok hg hroot h4 h2 h1 hne (h.nolinks_dir hD hok hA _) with ⟨-, hb⟩ | hl
    · rcases hb with hb | hb | hb
      · exact absurd hb hpn
      · exact absurd hb hgood.1
      · have := hgood.2; omega
    · exact ⟨tail, hl⟩

/-- A directory that is there is found. -/
theorem Shape.stat_way (hD : ix.Distinct dest) (hok : DestOK fs dest r) (hg : Grown fs f) (h : Shape ix dest r f)
    (hA : DirAt ix dest A) {p : Bytes} (hp : WayNames dest A p) (hgood : GoodPath p) (hne : A ≠ []) {i : Nat}
    (hi : f.down r A = some i) (follow : Bool) : f.stat follow p = some true := by
  obtain ⟨tail, hl⟩ := h.leads_dir hD hok hg hA hne hp hgood follow
  have hd := h.dir hD hok hA hi
  obtain ⟨e, he⟩ := hl.there i hi (Or.inr hd)
  obtain ⟨es, par, hd⟩ := isDirAt_iff.mp hd
  exact stat_dir.mpr ⟨i, e, es, par, he, hd⟩

/-- What is found is there. -/
theorem Shape.way_stat (hD : ix.Distinct dest) (hok : DestOK fs dest r) (hg : Grown fs f) (h : Shape ix dest r f)
    (hA : DirAt ix dest A) {p : Bytes} (hp : WayNames dest A p) (hgood : GoodPath p)
    (hs : f.stat true p ≠ none) : ∃ i, f.down r A = some i := by
  by_cases hne : A = []
  · subst hne; exact ⟨r, rfl⟩
  · obtain ⟨tail, hl⟩ := h.leads_dir hD hok hg hA hne hp hgood true
    unfold HostFS.stat at hs
    cases hr : f.resolve true p with
    | fail => rw [hr] at hs; exact absurd rfl hs
    | missing _ _ _ => rw [hr] at hs; exact absurd rfl hs
    | found i e => exact ⟨i, hl.found i e hr⟩

/-- `os.Stat` when it does not fail. -/
theorem sysStat_run (hq : ∀ k n, env.fails k n = false) (p : Bytes) (s : RecState) :
    sysStat env p s = .ok (s.fs.stat true p) { s with calls := s.calls + 1 } := by
  unfold sysStat
  simp only [bind_def, tick, hq, Bool.false_eq_true, if_false, get_run, pure_run]

theorem sysLstat_run (hq : ∀ k n, env.fails k n = false) (p : Bytes) (s : RecState) :
    sysLstat env p s = .ok (s.fs.stat false p) { s with calls := s.calls + 1 } := by
  unfold sysLstat
  simp only [bind_def, tick, hq, Bool.false_eq_true, if_false, get_run, pure_run]

/-- The last step of `MkdirAll`. -/
theorem wp_mkdirLast_quiet (hq : ∀ k n, env.fails k n = false) (hD : ix.Distinct dest) (hok : DestOK fs dest r)
    {N : List Bytes} {c p : Bytes} (hA : DirAt ix dest (N ++ [c])) (hp : WayNames dest (N ++ [c]) p) (hgood : GoodPath p)
    {s : RecState} (hs : Shape ix dest r s.fs) (hg : Grown fs s.fs) (hN : ∃ j, s.fs.down r N = some j) :
    wp (mkdirLast env p) (fun ok _ => ok = true) (fun _ => False) s := by
  obtain ⟨j, hj⟩ := hN
  obtain ⟨tail, hl⟩ := hs.leads_dir hD hok hg hA (by simp) hp hgood false
  have hjd := hs.dir hD hok (hA.front hD hok.clean hok.ne) hj
  unfold wp mkdirLast sysMkdir
  simp only [bind_def, Btrfscue.note, modify_run, tick, hq, Bool.false_eq_true, if_false, get_run]
  cases hi : s.fs.down r (N ++ [c]) with
  | none =>
    obtain ⟨sl, hsl⟩ := hl.gone N c j rfl hj hjd hi
    obtain ⟨es, par, hjd⟩ := isDirAt_iff.mp hjd
    have : ∃ f', s.fs.mkdir p = some f' := by
      unfold HostFS.mkdir
      rw [hsl]
      simp only [HostFS.create, hjd, Option.map_some]
      exact ⟨_, rfl⟩
    obtain ⟨f', hf'⟩ := this
    rw [hf']
    simp [applyFS, setFS, bind_def]
  | some i =>
    have hst := hs.stat_way hD hok hg hA hp hgood (by simp) hi false
    obtain ⟨e, he⟩ := hl.there i hi (Or.inr (hs.dir hD hok hA hi))
    have hmk : s.fs.mkdir p = none := by
      unfold HostFS.mkdir
      rw [he]
    rw [hmk]
    simp [applyFS, sysLstat_run hq, bind_def, hst]

attribute [local irreducible] Cmd.wp

/-- `MkdirAll` succeeds. -/
theorem wp_mkdirAll_quiet (hq : ∀ k n, env.fails k n = false) (hD : ix.Distinct dest) (hok : DestOK fs dest r) :
    ∀ (n : Nat) (A : List Bytes) (p : Bytes), p.length < n → DirAt ix dest A → WayNames dest A p → GoodPath p →
      ∀ s : RecState, Shape ix dest r s.fs → Grown fs s.fs → CacheOK rf ix s → (∀ f ∈ s.past, Shape ix dest r f) →
      wp (mkdirAllAux env n p) (fun ok t => ok = true ∧ Within ix fs dest r rf (DirAt ix dest) s t ∧ ∃ i, t.fs.down r A = some i)
        (fun _ => False) s := by
  intro n
  induction n with
  | zero => intro A p h; omega
  | succ n ih =>
    intro A p hn hA hp hgood s hs hg hc hpa
    have hwith := Within.mkdirAll (rf := rf) (fun k => hq .stat k) hD hok (n + 1) A p hA hp s (Within.refl hs hg hc hpa)
    suffices h : wp (mkdirAllAux env (n + 1) p) (fun ok t => ok = true ∧ t.fs.stat true p = some true) (fun _ => False) s by
      refine wp_mono (wp_and hwith h) ?_ fun _ h => h.2
      rintro ok t ⟨h1, rfl, h2⟩
      exact ⟨rfl, h1, h1.shape.way_stat hD hok h1.grown hA hp hgood (by rw [h2]; simp)⟩
    unfold mkdirAllAux
    rw [wp_bind]
    have hsr := sysStat_run (env := env) hq p s
    have hstep : ∀ {Q : Option Bool → RecState → Prop} {E : RecState → Prop}, Q (s.fs.stat true p) { s with calls := s.calls + 1 } →
        wp (sysStat env p) Q E s := by
      intro Q E h
      unfold wp
      rw [hsr]
      exact h
    refine hstep ?_
    cases hst : s.fs.stat true p with
    | some b =>
      simp only
      refine wp_pure' ?_
      have hb : s.fs.stat true p = some true := by
        rcases hp.parent' hok hg with h | ⟨N, c, rfl, -⟩
        · exact h
        · obtain ⟨i, hi⟩ := hs.way_stat hD hok hg hA hp hgood (by rw [hst]; simp)
          exact hs.stat_way hD hok hg hA hp hgood (by simp) hi true
      rw [hst] at hb
      cases hb
      exact ⟨rfl, hst⟩
    | none =>
      simp only
      rcases hp.parent' hok hg with h | ⟨N, c, rfl, hpar⟩
      · rw [hst] at h; cases h
      · have hlast : ∀ t : RecState, Shape ix dest r t.fs → Grown fs t.fs → (∃ j, t.fs.down r N = some j) →
            wp (mkdirLast env p) (fun ok t => ok = true ∧ t.fs.stat true p = some true) (fun _ => False) t := by
          intro t h1 h2 h3
          refine wp_mono (wp_and (wp_mkdirLast_quiet hq hD hok hA hp hgood h1 h2 h3) wp_mkdirLast) ?_ fun _ h => h.1
          rintro ok u ⟨h4, h5⟩
          exact ⟨h4, h5 h4⟩
        by_cases hpp : parentPath p = []
        · rw [if_pos hpp]
          refine hlast _ hs hg ?_
          have hN : N = [] := by
            obtain ⟨hpn, hroot, ⟨-, h'⟩ | ⟨tail, h1, h2, -, h4⟩⟩ := hp
            · simp at h'
            · have h5 : splitSlash p = (destComps dest ++ N) ++ c :: tail := by rw [h4]; simp
              obtain ⟨-, h7⟩ := parentPath_split h5 (h1 c (by simp)).1 h2
              by_cases hC : destComps dest ++ N = []
              · exact (List.append_eq_nil_iff.mp hC).2
              · have := h7 hC
                rw [hpp] at this
                have := congrArg List.length this
                rw [List.length_append] at this
                have hl : 0 < (destComps dest ++ N).length := List.length_pos_iff.mpr hC
                simp only [splitSlash, List.length_cons, List.length_nil] at this
                omega
          subst hN
          exact ⟨r, rfl⟩
        · rw [if_neg hpp, wp_bind]
          have hsh := parentPath_short hp.1
          refine wp_mono (ih N (parentPath p) (by omega) (hA.front hD hok.clean hok.ne) (hpar.resolve_left hpp) hgood.parent
            { s with calls := s.calls + 1 } hs hg hc hpa) ?_ fun _ h => h
          rintro ok t ⟨rfl, h1, h2⟩
          simp only [if_true]
          exact hlast t h1.shape h1.grown h2

/-- Opening a file succeeds where its directory is. -/
theorem Shape.open_some (hD : ix.Distinct dest) (hok : DestOK fs dest r) (hg : Grown fs f) (h : Shape ix dest r f)
    {o n : UInt64} (hA : EntryAt ix dest 1 o n A) {q : Bytes} (hq : Named dest A q) (hgood : GoodPath q)
    (hX : ∀ X c, A = X ++ [c] → ∃ j, f.down r X = some j) : f.openTrunc q ≠ none := by
  rcases h.resolve_entry hD hok hg hA hq (follow := true) (Or.inl rfl) with ⟨-, hb⟩ | hl
  · exfalso
    rcases hb with hb | hb | hb
    · exact hq.ne hb
    · exact hgood.1 hb
    · have := hgood.2; omega
  · unfold HostFS.openTrunc
    cases hi : f.down r A with
    | some i =>
      obtain ⟨e, he⟩ := hl.there i hi (Or.inl rfl)
      obtain ⟨x, hx⟩ := h.file hD hok hA hi
      rw [he]
      simp [hx]
    | none =>
      rcases List.eq_nil_or_concat A with rfl | ⟨X, c, rfl⟩
      · cases hi
      · rw [List.concat_eq_append] at *
        obtain ⟨j, hj⟩ := hX X c rfl
        have hjd := h.dir hD hok (hA.front hD hok.clean hok.ne (by simp)) hj
        obtain ⟨sl, hsl⟩ := hl.gone X c j rfl hj hjd hi
        obtain ⟨-, h2, -⟩ := hl.missing j c sl hsl
        have : sl = false := h2.mpr rfl
        subst this
        obtain ⟨es, par, hjd⟩ := isDirAt_iff.mp hjd
        rw [hsl]
        simp [HostFS.create, hjd]

/-- Making a link succeeds where its directory is and there is nothing yet. -/
theorem Shape.symlink_some (hD : ix.Distinct dest) (hok : DestOK fs dest r) (hg : Grown fs f) (h : Shape ix dest r f)
    {o n : UInt64} (hA : EntryAt ix dest 7 o n A) {q : Bytes} (hq : Named dest A q) (hgood : GoodPath q)
    (hX : ∀ X c, A = X ++ [c] → ∃ j, f.down r X = some j) {x : Bytes} (hx : x ≠ [] ∧ 0 ∉ x ∧ x.length < 4096)
    (hi : f.down r A = none) : ∃ f', f.symlink x q = some f' := by
  rcases h.resolve_entry hD hok hg hA hq (follow := false) (Or.inr rfl) with ⟨-, hb⟩ | hl
  · exfalso
    rcases hb with hb | hb | hb
    · exact hq.ne hb
    · exact hgood.1 hb
    · have := hgood.2; omega
  · unfold HostFS.symlink
    rw [if_neg (by simp only [not_or, Nat.not_le]; exact hx)]
    rcases List.eq_nil_or_concat A with rfl | ⟨X, c, rfl⟩
    · cases hi
    · rw [List.concat_eq_append] at *
      obtain ⟨j, hj⟩ := hX X c rfl
      have hjd := h.dir hD hok (hA.front hD hok.clean hok.ne (by simp)) hj
      obtain ⟨sl, hsl⟩ := hl.gone X c j rfl hj hjd hi
      obtain ⟨-, h2, -⟩ := hl.missing j c sl hsl
      have : sl = false := h2.mpr rfl
      subst this
      obtain ⟨es, par, hjd⟩ := isDirAt_iff.mp hjd
      rw [hsl]
      simp [HostFS.create, hjd]

/-- Something that is there is found. -/
theorem Shape.entry_stat (hD : ix.Distinct dest) (hok : DestOK fs dest r) (hg : Grown fs f) (h : Shape ix dest r f)
    {o n : UInt64} (hA : EntryAt ix dest 7 o n A) {q : Bytes} (hq : Named dest A q) (hgood : GoodPath q) {i : Nat}
    (hi : f.down r A = some i) : f.stat false q ≠ none := by
  rcases h.resolve_entry hD hok hg hA hq (follow := false) (Or.inr rfl) with ⟨-, hb⟩ | hl
  · exfalso
    rcases hb with hb | hb | hb
    · exact hq.ne hb
    · exact hgood.1 hb
    · have := hgood.2; omega
  · obtain ⟨e, he⟩ := hl.there i hi (Or.inl rfl)
    obtain ⟨x, hx⟩ := h.link hD hok hA hi
    unfold HostFS.stat
    rw [he]
    simp [hx]

/-! ## No warnings -/

theorem Silent.calls (s : RecState) (n : Nat) (h : s.silent) : RecState.silent { s with calls := n } := h

theorem Silent.op (k : Sys) (p : Bytes) : Keeps RecState.silent (note (.op k p)) := Keeps.modify fun _ h q hq => by
  rcases List.mem_cons.mp hq with hq | hq
  · cases hq
  · exact h q hq

theorem Silent.applyFS (r : Option HostFS) : Keeps RecState.silent (applyFS r) := by
  cases r with
  | none => exact Keeps.pure
  | some f => exact Keeps.bind (Keeps.modify fun s h => h) fun _ => Keeps.pure

theorem Silent.mkdir (p : Bytes) : Keeps RecState.silent (sysMkdir env p) :=
  Keeps.bind (Silent.op _ _) fun _ => Keeps.bind (Keeps.tick Silent.calls) fun _ => Keeps.ite (fun _ => Keeps.pure) fun _ =>
    Keeps.bind Keeps.get fun _ => Silent.applyFS _

theorem Silent.remove (p : Bytes) : Keeps RecState.silent (sysRemove env p) :=
  Keeps.bind (Silent.op _ _) fun _ => Keeps.bind (Keeps.tick Silent.calls) fun _ => Keeps.ite (fun _ => Keeps.pure) fun _ =>
    Keeps.bind Keeps.get fun _ => Silent.applyFS _

theorem Silent.symlink (t p : Bytes) : Keeps RecState.silent (sysSymlink env t p) :=
  Keeps.bind (Silent.op _ _) fun _ => Keeps.bind (Keeps.tick Silent.calls) fun _ => Keeps.ite (fun _ => Keeps.pure) fun _ =>
    Keeps.bind Keeps.get fun _ => Silent.applyFS _

theorem Silent.openFile (p : Bytes) : Keeps RecState.silent (sysOpen env p) := by
  refine Keeps.bind (Silent.op _ _) fun _ => Keeps.bind (Keeps.tick Silent.calls) fun _ => Keeps.ite (fun _ => Keeps.pure) fun _ =>
    Keeps.bind Keeps.get fun s => ?_
  cases s.fs.openTrunc p with
  | none => exact Keeps.pure
  | some x => exact Keeps.bind (Keeps.modify fun s h => h) fun _ => Keeps.pure

theorem Silent.write (fd : Nat) (b : Bytes) (off : Int) : Keeps RecState.silent (sysWrite env fd b off) := by
  unfold sysWrite
  refine Keeps.ite (fun _ => Keeps.pure) fun _ => Keeps.ite (fun _ => Keeps.pure) fun _ => ?_
  refine Keeps.bind Keeps.get fun _ => Keeps.bind (Keeps.tick Silent.calls) fun _ => Keeps.ite (fun _ => ?_) fun _ =>
    Keeps.ite (fun _ => Keeps.pure) fun _ => Keeps.bind Keeps.get fun _ => Silent.applyFS _
  exact Keeps.bind Keeps.get fun _ => Keeps.bind (Silent.applyFS _) fun _ => Keeps.pure

theorem Silent.truncate (fd : Nat) (n : Int) : Keeps RecState.silent (sysTruncate env fd n) :=
  Keeps.bind (Keeps.tick Silent.calls) fun _ => Keeps.ite (fun _ => Keeps.pure) fun _ =>
    Keeps.ite (fun _ => Keeps.pure) fun _ => Keeps.bind Keeps.get fun _ => Silent.applyFS _

theorem Silent.fileInv {clobber : Bool} : FileInv env rf ix clobber RecState.silent (fun _ => True) (fun _ => True) where
  calls := Silent.calls
  cache _ _ _ _ _ h := h
  openFile p s _ hs _ := wp_mono (Silent.openFile p s hs) (fun r t ht => ⟨ht, fun _ _ => trivial⟩) fun _ h => h
  write fd b off _ := Silent.write fd b off
  truncate fd n _ := Silent.truncate fd n

theorem Silent.link {clobber : Bool} (o i : UInt64) (p : Bytes) : Keeps RecState.silent (recoverSymlink env rf ix clobber o i p) :=
  Keeps.recoverSymlink Silent.calls rf ix (fun _ _ _ _ _ h => h) (fun _ => Silent.remove p) (fun t => Silent.symlink t p) o i

theorem Silent.mkdirAll (p : Bytes) : Keeps RecState.silent (mkdirAll env p) :=
  Keeps.mkdirAll Silent.calls fun _ => Silent.mkdir _

/-- Reporting nothing. -/
theorem wpE_report_none {c : Rec (Option RecErr)} {p : Bytes} {s : RecState} {Q : Unit → RecState → Prop} {E : Stop → RecState → Prop}
    {E' : Stop → RecState → Prop} (h1 : wpE c (fun e t => e = none ∧ t.silent) E' s) (h2 : wpE (c >>= report p) Q E s) :
    wpE (c >>= report p) (fun u t => Q u t ∧ t.silent) E' s := by
  rw [wpE_bind] at h2 ⊢
  unfold wpE at h1 h2 ⊢
  cases hc : c s with
  | ok e t =>
    rw [hc] at h1 h2
    obtain ⟨rfl, h3⟩ := h1
    exact ⟨h2, h3⟩
  | exit t => rw [hc] at h1; exact h1
  | crash t => rw [hc] at h1; exact h1
  | hang t => rw [hc] at h1; exact h1

variable {FD LD : Fate}

/-- The run, when nothing is in the way. `hfile` and `hlink` say what becomes of one file
and one link, that this works for those listed, and does not crash. -/
theorem quietRun (hq : ∀ k n, env.fails k n = false) (hD : ix.Distinct dest) (hok : DestOK fs dest r) (hF : Fates FD LD)
    (hN : NoCrash rf ix dest)
    (hdirs : ∀ o d p, ix.Placed dest o d p → GoodPath p)
    (hentries : ∀ t o i q, t = 1 ∨ t = 7 → ix.HasEntry dest t o i q → GoodPath q)
    (hfile : ∀ o i q s, ix.HasEntry dest 1 o i q → CacheOK rf ix s → wp (recoverFile env rf ix false o i q)
      (fun e t => (e = none → (s.fs.stat true q ≠ none ∧ t.fs = s.fs) ∨ FD t o i q) ∧ (s.fs.openTrunc q ≠ none → e = none)) (fun _ => False) s)
    (hlink : ∀ o i q s, ix.HasEntry dest 7 o i q → CacheOK rf ix s → wp (recoverSymlink env rf ix false o i q)
      (fun e t => e = none → (s.fs.stat false q ≠ none ∧ t.fs = s.fs) ∨ LD t o i q) (fun _ => True) s)
    (hmade : ∀ o i q s, ix.HasEntry dest 7 o i q → s.fs.stat false q ≠ none ∨ (∀ x, x ≠ [] ∧ 0 ∉ x ∧ x.length < 4096 → ∃ f', s.fs.symlink x q = some f') →
      wp (recoverSymlink env rf ix false o i q) (fun e _ => e = none) (fun _ => False) s) :
    RunInv env rf ix false dest (fun s => WholeInv ix fs dest r rf FD LD s ∧ s.silent) (fun k _ => k = .hang) (Went Preserved) FD LD := by
  have hst := fun n => hq .stat n
  have hw := wholeRun (rf := rf) hst hD hok hF (fun o i q s h1 h2 => wp_mono (hfile o i q s h1 h2) (fun _ _ h => h.1) fun _ h => h.elim) hlink
  have hparent : ∀ {s : RecState} {A : List Bytes} {o d : UInt64} {p n : Bytes}, WholeInv ix fs dest r rf FD LD s → ix.Placed dest o d p →
      s.fs.stat true p = some true → Named dest A (goJoin p n) → Plain n → ∀ X c, A = X ++ [c] → ∃ j, s.fs.down r X = some j := by
    intro s A o d p n hs hp hsp hA hn X c hAX
    obtain ⟨Y, hY⟩ := hp.named hD hok.clean hok.ne
    have h1 := hA.names (hY.join hn)
    rw [hAX] at h1
    obtain ⟨rfl, -⟩ := snoc_inj h1
    have hwn := WayNames.of_target hok.clean hY.ne hY.clean hY.rooted hY.plain hY.parts
    exact hs.shape.way_stat hD hok hs.kept.grown ⟨o, d, p, hp, hY⟩ hwn (hdirs _ _ _ hp) (by rw [hsp]; simp)
  exact {
    hang := fun _ _ => rfl
    crash := fun _ _ h => absurd hN h
    refl := hw.refl
    trans := hw.trans
    logs := hw.logs
    once := fun s h => hw.once s h.1
    placed := fun s h => hw.placed s h.1
    visit := fun s o d p h hp hv => ⟨⟨(hw.visit s o d p h.1 hp hv).1, fun q hq => by
      rcases List.mem_cons.mp hq with hq | hq
      · cases hq
      · exact h.2 q hq⟩, (hw.visit s o d p h.1 hp hv).2⟩
    mkdirAll := fun o d p s hp hs => by
      obtain ⟨A, hA⟩ := hp.named hD hok.clean hok.ne
      have hwn := WayNames.of_target hok.clean hA.ne hA.clean hA.rooted hA.plain hA.parts
      have h1 := wp_mkdirAll_quiet (rf := rf) hq hD hok (p.length + 1) A p (by omega) ⟨o, d, p, hp, hA⟩ hwn (hdirs _ _ _ hp) s
        hs.1.shape hs.1.kept.grown hs.1.cache hs.1.past
      refine wpE_mono (wpE_and (hw.mkdirAll o d p s hp hs.1) (wpE_iff.mpr (wp_and h1 (Silent.mkdirAll p s hs.2)))) ?_ fun _ _ h => h.2.1.elim
      rintro ok t ⟨⟨h2, h3, h4, -⟩, ⟨rfl, -⟩, h5⟩
      exact ⟨⟨h2, h5⟩, h3, h4, fun h => by cases h⟩
    file := fun s o d p di n i hs he hsp hm hi => by
      have hp := hs.1.once.2 o d p he
      obtain ⟨A, hA, hE⟩ := hm.entryAt hD hok.clean hok.ne hp hi
      have hH : ix.HasEntry dest 1 o i (goJoin p n) := by
        obtain ⟨q, hq, hqA⟩ := hE
        rw [hA.path hqA]; exact hq
      have hn : Plain n := by
        obtain ⟨dis, h1, h2⟩ := hm.listed
        obtain ⟨k, hk, -⟩ := hi.loc
        exact usable_plain (skipName_false.mp hm.kept).1 (hD.nonempty _ _ _ _ _ _ _ hp ((readDirItems_lists h1 di).mp h2) ⟨hm.name, hi.typ, hk⟩)
      have hopen := hs.1.shape.open_some hD hok hs.1.kept.grown hE hA (hentries _ _ _ _ (Or.inl rfl) hH) (hparent hs.1 hp hsp hA hn)
      have h1 : wpE (recoverFile env rf ix false o i (goJoin p n)) (fun e t => e = none ∧ t.silent) (fun k _ => k = .hang) s := by
        refine wpE_of (wp_and (hfile o i _ s hH hs.1.cache) (Silent.fileInv.file o i trivial s hs.2)) ?_ fun _ _ h => h.1.elim
        rintro e t ⟨h1, h2⟩
        exact ⟨h1.2 hopen, h2⟩
      refine wpE_mono (wpE_report_none h1 (hw.file s o d p di n i hs.1 he hsp hm hi)) ?_ fun _ _ h => h
      rintro u t ⟨⟨h1, h2, h3, h4⟩, h5⟩
      exact ⟨⟨h1, h5⟩, h2, h3, h4⟩
    link := fun s o d p di n i hs he hsp hm hi => by
      have hp := hs.1.once.2 o d p he
      obtain ⟨A, hA, hE⟩ := hm.entryAt hD hok.clean hok.ne hp hi
      have hH : ix.HasEntry dest 7 o i (goJoin p n) := by
        obtain ⟨q, hq, hqA⟩ := hE
        rw [hA.path hqA]; exact hq
      have hn : Plain n := by
        obtain ⟨dis, h1, h2⟩ := hm.listed
        obtain ⟨k, hk, -⟩ := hi.loc
        exact usable_plain (skipName_false.mp hm.kept).1 (hD.nonempty _ _ _ _ _ _ _ hp ((readDirItems_lists h1 di).mp h2) ⟨hm.name, hi.typ, hk⟩)
      have hgood := hentries _ _ _ _ (Or.inr rfl) hH
      have h1 : wpE (recoverSymlink env rf ix false o i (goJoin p n)) (fun e t => e = none ∧ t.silent) (fun k _ => k = .hang) s := by
        refine wpE_of (wp_and (hmade o i _ s hH ?_) (Silent.link o i _ s hs.2)) ?_ fun _ _ h => h.1.elim
        · cases hd : s.fs.down r A with
          | some j => exact Or.inl (hs.1.shape.entry_stat hD hok hs.1.kept.grown hE hA hgood hd)
          | none => exact Or.inr fun x hx => hs.1.shape.symlink_some hD hok hs.1.kept.grown hE hA hgood (hparent hs.1 hp hsp hA hn) hx hd
        · rintro e t ⟨h1, h2⟩
          exact ⟨h1, h2⟩
      refine wpE_mono (wpE_report_none h1 (hw.link s o d p di n i hs.1 he hsp hm hi)) ?_ fun _ _ h => h
      rintro u t ⟨⟨h1, h2, h3, h4⟩, h5⟩
      exact ⟨⟨h1, h5⟩, h2, h3, h4⟩
    dmono := hw.dmono
    fmono := hw.fmono
    lmono := hw.lmono }

end

end Btrfscue
