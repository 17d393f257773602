import Verif.Proof.RecoverTold
/-!
# What `recover --verbose` says: directories and the whole run
-/

namespace Btrfscue

open Cmd

variable {ix : Ix} {clobber : Bool} {dest : Bytes}

theorem Talk.Later.isEntry {t t' : Talk} (h : t.Later t') {q : Bytes} {ty : UInt8} {o i : UInt64} (he : t.isEntry ix q ty o i) :
    t'.isEntry ix q ty o i := by
  obtain ⟨d, p, di, name, loc, h1, h2⟩ := he
  exact ⟨d, p, di, name, loc, h.log _ h1, h2⟩

theorem Talk.Later.isTrue {t t' : Talk} (h : t.Later t') {l : Line} (hl : t.isTrue ix clobber dest l) : t'.isTrue ix clobber dest l := by
  cases l with
  | root o => exact hl
  | subvol o p => exact hl
  | special q ty =>
    obtain ⟨h1, h2, h3, o, i, h4⟩ := hl
    exact ⟨h1, h2, h3, o, i, h.isEntry h4⟩
  | fileExists q =>
    obtain ⟨h1, ⟨o, i, h2⟩, f, h3, h4⟩ := hl
    exact ⟨h1, ⟨o, i, h.isEntry h2⟩, f, h.once f h3, h4⟩
  | file q n =>
    obtain ⟨o, i, h1, h2, h3⟩ := hl
    exact ⟨o, i, h.isEntry h1, h.log _ h2, h3⟩
  | linkExists q =>
    obtain ⟨h1, ⟨o, i, h2⟩, f, h3, h4⟩ := hl
    exact ⟨h1, ⟨o, i, h.isEntry h2⟩, f, h.once f h3, h4⟩
  | link q x =>
    obtain ⟨o, i, h1, h2, h3⟩ := hl
    exact ⟨o, i, h.isEntry h1, h.log _ h2, h3⟩
  | stripe a b c => exact hl

theorem Talk.Later.tellsOf {t t' : Talk} (h : t.Later t') {q : Bytes} {ty : UInt8} (hl : t.tellsOf q ty) : t'.tellsOf q ty := by
  rcases hl with k | ⟨k1, k | ⟨n, k⟩⟩ | ⟨k1, k | ⟨n, k⟩⟩ | k
  · exact .inl (h.log _ k)
  · exact .inr (.inl ⟨k1, .inl (h.said _ k)⟩)
  · exact .inr (.inl ⟨k1, .inr ⟨n, h.said _ k⟩⟩)
  · exact .inr (.inr (.inl ⟨k1, .inl (h.said _ k)⟩))
  · exact .inr (.inr (.inl ⟨k1, .inr ⟨n, h.said _ k⟩⟩))
  · exact .inr (.inr (.inr (h.said _ k)))

theorem Talk.Later.entered {t t' : Talk} (h : t.Later t') {o d : UInt64} (he : t.entered o d) : t'.entered o d := by
  obtain ⟨p, hp⟩ := he
  exact ⟨p, h.log _ hp⟩

/-- What is to be said of one entry. -/
def entryDone (t : Talk) (o : UInt64) (p : Bytes) (di : DirItem) : Prop :=
  ∀ name ty loc, DirItem.says di name ty loc → usable name → 92 ∉ name →
    (loc.typ = 132 → t.entered loc.objectID 256) ∧
    (loc.typ ≠ 132 → ty = 2 → t.entered o loc.objectID) ∧
    (loc.typ ≠ 132 → ty ≠ 2 → t.tellsOf (goJoin p name) ty)

theorem Talk.Later.entryDone {t t' : Talk} (h : t.Later t') {o : UInt64} {p : Bytes} {di : DirItem} (he : entryDone t o p di) :
    Btrfscue.entryDone t' o p di := fun name ty loc h1 h2 h3 =>
  ⟨fun k => h.entered ((he name ty loc h1 h2 h3).1 k), fun k k' => h.entered ((he name ty loc h1 h2 h3).2.1 k k'),
    fun k k' => h.tellsOf ((he name ty loc h1 h2 h3).2.2 k k')⟩

theorem Talk.Later.dirDone {t t' : Talk} (h : t.Later t') {o d : UInt64} {p : Bytes} (he : t.dirDone ix o d p) : t'.dirDone ix o d p :=
  fun di name ty loc hl h1 h2 h3 => h.entryDone (fun name ty loc => he di name ty loc hl) name ty loc h1 h2 h3

/-- All that was said so far is true, and all directories entered were dealt with, but for those in `pend`. -/
structure Reported (ix : Ix) (clobber : Bool) (dest : Bytes) (pend : List (UInt64 × UInt64 × Bytes)) (t : Talk) : Prop where
  truth : ∀ l ∈ t.said, t.isTrue ix clobber dest l
  dirs : ∀ o d p, Ev.enter o d p ∈ t.rs.log → (o, d, p) ∈ pend ∨ Ev.warn p ∈ t.rs.log ∨ t.dirDone ix o d p
  visited : ∀ o d, (o, d) ∈ t.rs.visited → t.entered o d

variable {pend : List (UInt64 × UInt64 × Bytes)}

theorem Reported.calm {t t' : Talk} {P : Line → Prop} (h : Reported ix clobber dest pend t) (hc : t.Calm P t') (hP : ∀ l, P l → t'.isTrue ix clobber dest l) :
    Reported ix clobber dest pend t' where
  truth l hl := (hc.only l hl).elim (fun k => hc.isTrue (h.truth l k)) fun k => k.elim (fun k => by
    cases l <;> simp only [Line.isStripe, Bool.false_eq_true] at k; trivial) fun k => hP l k
  dirs o d p hp := (h.dirs o d p (hc.enter o d p hp)).imp_right fun k => k.imp (hc.log _) hc.dirDone
  visited o d hv := hc.entered (h.visited o d (hc.visited ▸ hv))

theorem Reported.mono {t : Talk} (h : Reported ix clobber dest pend t) {pend' : List (UInt64 × UInt64 × Bytes)} (hp : ∀ x ∈ pend, x ∈ pend') :
    Reported ix clobber dest pend' t := ⟨h.truth, fun o d p k => (h.dirs o d p k).imp_left (hp _), h.visited⟩

theorem Reported.done {t : Talk} {o d : UInt64} {p : Bytes} (h : Reported ix clobber dest ((o, d, p) :: pend) t)
    (hd : Ev.warn p ∈ t.rs.log ∨ t.dirDone ix o d p) : Reported ix clobber dest pend t :=
  ⟨h.truth, fun o' d' p' k => by
    rcases h.dirs o' d' p' k with k | k
    · rcases List.mem_cons.mp k with k | k
      · simp only [Prod.mk.injEq] at k
        obtain ⟨rfl, rfl, rfl⟩ := k
        exact .inr hd
      · exact .inl k
    · exact .inr k, h.visited⟩

/-- A warning. -/
theorem wp_sayReport {q : Bytes} {e : Option RecErr} {t : Talk} :
    wp (quietly (report q e)) (fun _ t' => t.Calm (fun _ => False) t' ∧ (e ≠ none → Ev.warn q ∈ t'.rs.log)) (fun _ => True) t := by
  refine wp_quietly.mpr ?_
  cases e with
  | none => exact ⟨Talk.Calm.refl t, fun h => absurd rfl h⟩
  | some e =>
    refine wp_note.mpr ⟨⟨⟨fun e he => List.mem_cons_of_mem _ he, fun _ h => h, fun _ h => h⟩, rfl, fun o d p h =>
      (List.mem_cons.mp h).resolve_left (by intro h; cases h), fun _ h => .inl h⟩, fun _ => List.mem_cons_self ..⟩

/-- What `sayDir` does. -/
def DirSaid (ix : Ix) (clobber : Bool) (dest : Bytes) (pend : List (UInt64 × UInt64 × Bytes)) (t : Talk) (o d : UInt64) (p : Bytes) (e : Option RecErr)
    (t' : Talk) : Prop :=
  t.Later t' ∧ t'.entered o d ∧ (e = none → Reported ix clobber dest pend t') ∧
    (e ≠ none → Reported ix clobber dest ((o, d, p) :: pend) t') ∧ ((o, d) ∉ t.rs.visited → Ev.enter o d p ∈ t'.rs.log)

/-- The result is reported. -/
theorem wp_reportDir {o d : UInt64} {p : Bytes} {e : Option RecErr} {t t1 : Talk} (h : DirSaid ix clobber dest pend t o d p e t1) :
    wp (quietly (report p e)) (fun _ t' => t.Later t' ∧ t'.entered o d ∧ Reported ix clobber dest pend t' ∧
      ((o, d) ∉ t.rs.visited → Ev.enter o d p ∈ t'.rs.log)) (fun _ => True) t1 := by
  obtain ⟨h1, h2, h3, h4, h5⟩ := h
  refine wp_mono wp_sayReport (fun _ t' hr => ?_) fun _ h => h
  refine ⟨h1.trans hr.1.toLater, hr.1.toLater.entered h2, ?_, fun k => hr.1.log _ (h5 k)⟩
  by_cases he : e = none
  · exact (h3 he).calm hr.1 fun _ h => h.elim
  · exact ((h4 he).calm hr.1 fun _ h => h.elim).done (.inl (hr.2 he))

section

variable (env : Env) (rf : Nat)

theorem wp_sayNamed {rec : UInt64 → UInt64 → Bytes → Say (Option RecErr)}
    (hrec : ∀ pend t o d p, Reported ix clobber dest pend t → wp (rec o d p) (DirSaid ix clobber dest pend t o d p) (fun _ => True) t)
    {o d : UInt64} {p : Bytes} {di : DirItem} {name : Bytes} (hl : ix.lists o d di) (hn : DirItem.name di = .ok name) (hu : usable name)
    (hb : 92 ∉ name) {t : Talk} (ht : Reported ix clobber dest pend t) (he : Ev.enter o d p ∈ t.rs.log) :
    wp (sayNamed rec true env rf ix clobber o (goJoin p name) di) (fun _ t' => t.Later t' ∧ Reported ix clobber dest pend t' ∧ entryDone t' o p di)
      (fun _ => True) t := by
  unfold sayNamed
  refine wp_bind.mpr (wp_lift_of (fun isDir h1 => ?_) trivial)
  refine wp_bind.mpr (wp_lift_of (fun isSub h2 => ?_) trivial)
  refine wp_bind.mpr (wp_lift_of (fun loc h3 => ?_) trivial)
  refine wp_bind.mpr (wp_lift_of (fun ty h4 => ?_) trivial)
  obtain ⟨ty', h5, h6⟩ := isDir_eq.mp h1
  rw [h4] at h5; cases h5
  obtain ⟨loc', h7, h8⟩ := isSub_eq.mp h2
  rw [h3] at h7; cases h7
  have hsays : ∀ {name' ty' loc'}, DirItem.says di name' ty' loc' → name' = name ∧ ty' = ty ∧ loc' = loc := by
    rintro name' ty' loc' ⟨k1, k2, k3⟩
    rw [hn] at k1; rw [h4] at k2; rw [h3] at k3
    cases k1; cases k2; cases k3
    exact ⟨rfl, rfl, rfl⟩
  have hdir : isDir = true ↔ ty = 2 := by rw [← h6]; exact beq_iff_eq
  have hsub : isSub = true ↔ loc.typ = 132 := by rw [← h8]; exact beq_iff_eq
  by_cases hd : (isDir || isSub) = true
  · rw [if_pos hd]
    refine wp_bind.mpr (wp_mono (hrec pend t _ _ _ ht) (fun e t1 hr => ?_) fun _ h => h)
    refine wp_mono (wp_reportDir hr) (fun _ t' h => ⟨h.1, h.2.2.1, ?_⟩) fun _ h => h
    intro name' ty' loc' hs hu' hb'
    obtain ⟨rfl, rfl, rfl⟩ := hsays hs
    have hent := h.2.1
    cases hisSub : isSub with
    | true =>
      have hty := hsub.mp hisSub
      rw [hisSub] at hent
      exact ⟨fun _ => hent, fun k => absurd hty k, fun k => absurd hty k⟩
    | false =>
      have hty : loc'.typ ≠ 132 := fun k => by rw [hsub.mpr k] at hisSub; cases hisSub
      rw [hisSub] at hent hd
      rw [Bool.or_false] at hd
      exact ⟨fun k => absurd k hty, fun _ _ => hent, fun _ k => absurd (hdir.mp hd) k⟩
  · rw [if_neg hd]
    simp only [Bool.or_eq_true, hdir, hsub, not_or] at hd
    have hent : ∀ {t' : Talk}, t.Later t' → t'.isEntry ix (goJoin p name) ty o loc.objectID := fun h =>
      ⟨d, p, di, name, loc, h.log _ he, hl, ⟨hn, h4, h3⟩, hd.2, hu, hb, rfl, rfl⟩
    have hfin : ∀ t' : Talk, t'.tellsOf (goJoin p name) ty → entryDone t' o p di := by
      intro t' hto name' ty' loc' hs hu' hb'
      obtain ⟨rfl, rfl, rfl⟩ := hsays hs
      exact ⟨fun k => absurd k hd.2, fun _ k => absurd k hd.1, fun _ _ => hto⟩
    by_cases hf : ty = FtRegFile
    · rw [if_pos hf]
      have hf : ty = 1 := hf
      subst hf
      refine wp_bind.mpr (wp_mono (wp_sayFile env rf ix clobber o loc.objectID (goJoin p name) t) (fun e t1 h => ?_) fun _ h => h)
      refine wp_mono wp_sayReport (fun _ t' hr => ?_) fun _ h => h
      have hrep : Reported ix clobber dest pend t1 := ht.calm h.1 fun l hl => by
        rcases hl with ⟨rfl, k1, k2⟩ | ⟨size, k1, rfl, k2⟩
        · exact ⟨k1, ⟨_, _, hent h.1.toLater⟩, k2⟩
        · exact ⟨_, _, hent h.1.toLater, k2, size, k1, rfl⟩
      refine ⟨h.1.toLater.trans hr.1.toLater, hrep.calm hr.1 fun _ h => h.elim, hfin _ ?_⟩
      by_cases hx : e = none
      · exact hr.1.toLater.tellsOf (.inr (.inl ⟨rfl, h.2 hx⟩))
      · exact .inl (hr.2 hx)
    · rw [if_neg hf]
      by_cases hs : ty = FtSymlink
      · rw [if_pos hs]
        have hs : ty = 7 := hs
        subst hs
        refine wp_bind.mpr (wp_mono (wp_saySymlink env rf ix clobber o loc.objectID (goJoin p name) t) (fun e t1 h => ?_) fun _ h => h)
        refine wp_mono wp_sayReport (fun _ t' hr => ?_) fun _ h => h
        have hrep : Reported ix clobber dest pend t1 := ht.calm h.1 fun l hl => by
          rcases hl with ⟨rfl, k1, k2⟩ | ⟨x, rfl, k2, k3⟩
          · exact ⟨k1, ⟨_, _, hent h.1.toLater⟩, k2⟩
          · exact ⟨_, _, hent h.1.toLater, k2, k3⟩
        refine ⟨h.1.toLater.trans hr.1.toLater, hrep.calm hr.1 fun _ h => h.elim, hfin _ ?_⟩
        by_cases hx : e = none
        · exact hr.1.toLater.tellsOf (.inr (.inr (.inl ⟨rfl, h.2 hx⟩)))
        · exact .inl (hr.2 hx)
      · rw [if_neg hs]
        have hk : wp (sayVerbose true (.special (goJoin p name) ty) : Say Unit) (fun _ t' =>
            t.Calm (fun l => l = .special (goJoin p name) ty) t' ∧ Line.special (goJoin p name) ty ∈ t'.said) (fun _ => True) t :=
          ⟨calm_say t true (l := .special (goJoin p name) ty) (P := fun l => l = .special (goJoin p name) ty) rfl _ (Talk.Calm.refl t), said_mem _ _⟩
        refine wp_mono hk (fun _ t' h => ⟨h.1.toLater, ht.calm h.1 fun l hl => ?_, hfin _ (.inr (.inr (.inr h.2)))⟩) fun _ h => h
        subst hl
        exact ⟨hf, hd.1, hs, _, _, hent h.1.toLater⟩

theorem wp_sayEntries {rec : UInt64 → UInt64 → Bytes → Say (Option RecErr)}
    (hrec : ∀ pend t o d p, Reported ix clobber dest pend t → wp (rec o d p) (DirSaid ix clobber dest pend t o d p) (fun _ => True) t)
    {o d : UInt64} {p : Bytes} : ∀ (dis : List DirItem), (∀ di ∈ dis, ix.lists o d di) → ∀ t, Reported ix clobber dest pend t →
      Ev.enter o d p ∈ t.rs.log →
      wp (sayEntries rec true env rf ix clobber o p dis) (fun _ t' => t.Later t' ∧ Reported ix clobber dest pend t' ∧ ∀ di ∈ dis, entryDone t' o p di)
        (fun _ => True) t := by
  intro dis
  induction dis with
  | nil => exact fun _ t ht _ => ⟨.refl t, ht, fun _ h => by cases h⟩
  | cons di r ih =>
    intro hl t ht he
    unfold sayEntries
    refine wp_bind.mpr ?_
    have h1 : wp (sayEntry rec true env rf ix clobber o p di) (fun _ t' => t.Later t' ∧ Reported ix clobber dest pend t' ∧ entryDone t' o p di)
        (fun _ => True) t := by
      unfold sayEntry
      refine wp_bind.mpr (wp_lift_of (fun name hn => ?_) trivial)
      by_cases hs : skipName name = true
      · rw [if_pos hs]
        refine ⟨.refl t, ht, fun name' ty loc hs' hu hb => ?_⟩
        have := hs'.1
        rw [hn] at this
        cases this
        rw [skipName_false.mpr ⟨hu, hb⟩] at hs
        cases hs
      · rw [if_neg hs]
        obtain ⟨hu, hb⟩ := skipName_false.mp (by simpa using hs)
        exact wp_sayNamed env rf hrec (hl di (List.mem_cons_self ..)) hn hu hb ht he
    refine wp_mono h1 (fun _ t1 h => ?_) fun _ h => h
    refine wp_mono (ih (fun x hx => hl x (List.mem_cons_of_mem _ hx)) t1 h.2.1 (h.1.log _ he)) (fun _ t2 h2 => ?_) fun _ h => h
    refine ⟨h.1.trans h2.1, h2.2.1, fun x hx => ?_⟩
    rcases List.mem_cons.mp hx with rfl | hx
    · exact h2.1.entryDone h.2.2
    · exact h2.2.2 x hx

theorem wp_enterDir {o d : UInt64} {p : Bytes} {t : Talk} (ht : Reported ix clobber dest pend t) :
    wp (quietly (enterDir env o d p)) (fun _ t' => t.Later t' ∧ Reported ix clobber dest ((o, d, p) :: pend) t' ∧ Ev.enter o d p ∈ t'.rs.log)
      (fun _ => True) t := by
  let t1 : Talk := ⟨{ t.rs with visited := (o, d) :: t.rs.visited, log := .enter o d p :: t.rs.log }, t.said⟩
  have hlater : t.Later t1 := ⟨fun e he => List.mem_cons_of_mem _ he, fun _ h => h, fun _ h => h⟩
  have hrep : Reported ix clobber dest ((o, d, p) :: pend) t1 := ⟨fun l hl => hlater.isTrue (ht.truth l hl), fun o' d' p' hp => by
    rcases List.mem_cons.mp hp with hp | hp
    · cases hp
      exact .inl (List.mem_cons_self ..)
    · exact (ht.dirs o' d' p' hp).imp (List.mem_cons_of_mem _) fun k => k.imp (hlater.log _) hlater.dirDone, fun o' d' hv => by
    rcases List.mem_cons.mp hv with hv | hv
    · cases hv
      exact ⟨p, List.mem_cons_self ..⟩
    · exact hlater.entered (ht.visited o' d' hv)⟩
  refine wp_quietly.mpr (wp_bind.mpr (wp_modify.mpr (wp_bind.mpr (wp_note.mpr ?_))))
  refine wp_mono ((calm_host (P := fun _ => False) t1 t.said).mkdirAll env p _ (Talk.Calm.refl t1)) (fun _ r h => ?_) fun _ _ => trivial
  exact ⟨hlater.trans h.toLater, hrep.calm h fun _ h => h.elim, h.log _ (List.mem_cons_self ..)⟩

theorem wp_sayDir (fuel : Nat) : ∀ (pend : List (UInt64 × UInt64 × Bytes)) (t : Talk) (o d : UInt64) (p : Bytes), Reported ix clobber dest pend t →
    wp (sayDir true env rf ix clobber fuel o d p) (DirSaid ix clobber dest pend t o d p) (fun _ => True) t := by
  induction fuel with
  | zero => exact fun _ _ _ _ _ _ => trivial
  | succ fuel ih =>
    intro pend t o d p ht
    unfold sayDir
    refine wp_bind.mpr (wp_get.mpr ?_)
    by_cases hv : t.rs.visited.contains (o, d) = true
    · rw [if_pos hv]
      have hv : (o, d) ∈ t.rs.visited := by simpa using hv
      exact ⟨.refl t, ht.visited o d hv, fun _ => ht, fun h => absurd rfl h, fun h => absurd hv h⟩
    · rw [if_neg hv]
      refine wp_bind.mpr (wp_mono (wp_enterDir env ht) (fun b t1 h => ?_) fun _ h => h)
      by_cases hb : b = true
      · rw [if_pos hb]
        refine wp_bind.mpr (wp_lift_of (fun dis hdis => ?_) trivial)
        have hmem := readDirItems_lists hdis
        refine wp_bind.mpr (wp_mono (wp_sayEntries env rf ih dis (fun di hdi => (hmem di).mp hdi) t1 h.2.1 h.2.2) (fun _ t2 h2 => ?_) fun _ h => h)
        exact ⟨h.1.trans h2.1, ⟨p, h2.1.log _ h.2.2⟩, fun _ => h2.2.1.done (.inr fun di name ty loc hl =>
          h2.2.2 di ((hmem di).mpr hl) name ty loc), fun h => absurd rfl h, fun _ => h2.1.log _ h.2.2⟩
      · rw [if_neg hb]
        exact ⟨h.1, ⟨p, h.2.2⟩, fun h => (by cases h), fun _ => h.2.1, fun _ => h.2.2⟩

theorem wp_saySubvol (fuel : Nat) {rd : Range × Slice} (hrd : ix.subvolumes = .ok rd) {x : Range × Slice} (hx : Range.Visits rd x) {t : Talk}
    (ht : Reported ix clobber dest [] t) :
    wp (saySubvol true env rf fuel ix clobber dest x.1 x.2) (fun e t' => e = none ∧ t.Later t' ∧ Reported ix clobber dest [] t' ∧
      ∀ k, x.1.rKey = .ok k → t'.entered k.objectID 256) (fun _ => True) t := by
  unfold saySubvol
  refine wp_bind.mpr (wp_lift_of (fun k hk => ?_) trivial)
  refine wp_bind.mpr (wp_get.mpr ?_)
  by_cases hv : t.rs.visited.contains (k.objectID, FirstFreeObjectID) = true
  · rw [if_pos hv]
    refine ⟨rfl, .refl t, ht, fun k' hk' => ?_⟩
    rw [hk] at hk'; cases hk'
    exact ht.visited _ FirstFreeObjectID (by simpa using hv)
  · rw [if_neg hv]
    have h0 : wp (sayVerbose true (.subvol k.objectID (subvolDest dest k.objectID)) : Say Unit) (fun _ t' =>
        t.Calm (fun l => l = .subvol k.objectID (subvolDest dest k.objectID)) t') (fun _ => True) t :=
      calm_say t true (l := .subvol k.objectID (subvolDest dest k.objectID)) (P := fun l => l = .subvol k.objectID (subvolDest dest k.objectID)) rfl _
        (Talk.Calm.refl t)
    refine wp_bind.mpr (wp_mono h0 (fun _ t1 h1 => ?_) fun _ h => h)
    have ht1 := ht.calm h1 fun l hl => by
      subst hl
      exact ⟨⟨rd, x, k, hrd, hx, hk, rfl⟩, rfl⟩
    refine wp_bind.mpr (wp_mono (wp_sayDir env rf fuel [] t1 _ _ _ ht1) (fun e t2 h2 => ?_) fun _ h => h)
    refine wp_bind.mpr (wp_mono (wp_reportDir h2) (fun _ t3 h3 => ?_) fun _ h => h)
    refine ⟨rfl, h1.toLater.trans h3.1, h3.2.2.1, fun k' hk' => ?_⟩
    rw [hk] at hk'; cases hk'
    exact h3.2.1

theorem wp_subvols (fuel : Nat) {rd0 : Range × Slice} (hrd : ix.subvolumes = .ok rd0) (n : Nat) : ∀ rd, (∀ x, Range.Visits rd x → Range.Visits rd0 x) →
    ∀ t : Talk, Reported ix clobber dest [] t →
      wp (rangeLoopSay (saySubvol true env rf fuel ix clobber dest) n rd) (fun _ t' => t.Later t' ∧ Reported ix clobber dest [] t' ∧
        ∀ x k, Range.Visits rd x → x.1.rKey = .ok k → t'.entered k.objectID 256) (fun _ => True) t := by
  induction n with
  | zero => exact fun _ _ _ _ => trivial
  | succ n ih =>
    intro rd hv t ht
    unfold rangeLoopSay
    by_cases hn : rd.1.hasNext = true
    · rw [if_pos hn]
      refine wp_bind.mpr (wp_mono (wp_saySubvol env rf fuel hrd (hv rd (.here hn)) ht) (fun e t1 h => ?_) fun _ h => h)
      obtain ⟨rfl, h1, h2, h3⟩ := h
      simp only
      refine wp_bind.mpr (wp_lift_of (fun rd' hrd' => ?_) trivial)
      refine wp_mono (ih rd' (fun x hx => hv x (.step hn hrd' hx)) t1 h2) (fun _ t2 g => ?_) fun _ h => h
      refine ⟨h1.trans g.1, g.2.1, fun x k hx hk => ?_⟩
      cases hx with
      | here _ => exact g.1.entered (h3 k hk)
      | step _ k2 k3 =>
        rw [hrd'] at k2; cases k2
        exact g.2.2 x k k3 hk
    · rw [if_neg hn]
      refine ⟨.refl t, ht, fun x k hx => ?_⟩
      cases hx with
      | here h => exact absurd h hn
      | step h _ _ => exact absurd h hn

/-- The messages of the whole run. -/
theorem wp_sayRecover (fuel : Nat) {t : Talk} (ht : Reported ix clobber dest [] t) :
    wp (sayRecoverFiles true env rf fuel ix clobber dest) (fun _ t' => Reported ix clobber dest [] t' ∧ t'.entered 5 256 ∧
      Line.root 5 ∈ t'.said ∧ ∀ o, ix.listsSubvolume o → t'.entered o 256) (fun _ => True) t := by
  unfold sayRecoverFiles
  refine wp_bind.mpr (wp_mono (calm_quietly (P := fun _ => False) t (fun _ h => h.mkdirAll env dest) _ (Talk.Calm.refl t)) (fun b t0 h0 => ?_) fun _ _ => trivial)
  by_cases hb : b = true
  · rw [if_pos hb]
    have ht0 := ht.calm h0 fun _ h => h.elim
    refine wp_bind.mpr ?_
    have hk : wp (sayVerbose true (.root FSTreeObjectID) : Say Unit) (fun _ t' =>
        t0.Calm (fun l => l = .root 5) t' ∧ Line.root 5 ∈ t'.said) (fun _ => True) t0 :=
      ⟨calm_say t0 true (l := .root 5) (P := fun l => l = .root 5) rfl _ (Talk.Calm.refl t0), said_mem _ _⟩
    refine wp_mono hk (fun _ t1 h1 => ?_) fun _ h => h
    have ht1 := ht0.calm h1.1 fun l hl => by subst hl; exact (rfl : (5 : UInt64) = 5)
    refine wp_bind.mpr (wp_mono (wp_sayDir env rf fuel [] t1 _ _ dest ht1) (fun e t2 h2 => ?_) fun _ h => h)
    refine wp_bind.mpr (wp_mono (wp_reportDir h2) (fun _ t3 h3 => ?_) fun _ h => h)
    refine wp_bind.mpr (wp_lift_of (fun rd hrd => ?_) trivial)
    refine wp_bind.mpr (wp_mono (wp_subvols env rf fuel hrd rf rd (fun _ h => h) t3 h3.2.2.1) (fun _ t4 h4 => ?_) fun _ h => h)
    refine ⟨h4.2.1, h4.1.entered h3.2.1, h4.1.said _ (h3.1.said _ h1.2), ?_⟩
    rintro o ⟨rd', x, k, g1, g2, g3, rfl⟩
    rw [hrd] at g1; cases g1
    exact h4.2.2 x k g2 g3
  · rw [if_neg hb]
    exact trivial

end

end Btrfscue
