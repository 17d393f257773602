import Verif.Props.LsShown
import Verif.Props.RecoverSeen
import Verif.Proof.SameTree
import Verif.Proof.More
/-!
# `ls` and recover see the same tree
-/

namespace Btrfscue

variable {b : Bucket} {dest : Bytes} {ft : Time → Bytes} {si : Bool}

/-- What a listing has in it. -/
theorem Bucket.ShownTree.mem (hok : b.DirsOK) {o : UInt64} (ho : o ≠ ~~~0) {dir : UInt64} {ts : List Shown}
    (h : b.ShownTree ft si o dir ts) {s : Shown} (hs : s ∈ ts) :
    (∃ e cols, b.entrySeen o dir s.name e ∧ s.typ = e.typ ∧ s.ino = e.location.objectID ∧ b.columns ft o s.typ s.ino cols ∧
      s.cols = (if si then [decimal s.ino.toNat] else []) ++ cols) ∧
    (s.typ = 2 → b.ShownTree ft si o s.ino s.inside) := by
  cases h with
  | @mk _ vs es _ h1 h2 h3 h4 h5 h6 =>
    refine ⟨?_, h5 s hs⟩
    obtain ⟨d, hd, e, cols, k1, k2⟩ := forall2_mem_right h3 hs
    refine ⟨e, cols, ?_, k2⟩
    obtain ⟨⟨off, sl⟩, hv, rfl⟩ := List.mem_map.mp (h2.mem_iff.mp hd)
    obtain ⟨g, x, g1, g2, g3⟩ := (h1.2 off sl).mp hv
    obtain ⟨y, hy⟩ := (hok.ranges o _ ho ⟨g, x, g2⟩ rfl).intact _ _ g2 rfl
    obtain ⟨s', h5, rfl⟩ := hy.data
    rw [g3] at h5
    cases h5
    exact ⟨off, g, x, _, g1, g2, hy, k1⟩

theorem Bucket.ShownTree.of_seen {o : UInt64} {dir : UInt64} {ts : List Shown}
    (h : b.ShownTree ft si o dir ts) {name : Bytes} {e : DirItemRec} (he : b.entrySeen o dir name e) :
    ∃ s ∈ ts, s.name = name ∧ s.typ = e.typ ∧ s.ino = e.location.objectID := by
  cases h with
  | @mk _ vs es _ h1 h2 h3 h4 h5 h6 =>
    obtain ⟨off, g, x, p, k1, k2, k3, k4⟩ := he
    obtain ⟨sl, h7, rfl⟩ := k3.data
    have hv : (off, sl) ∈ vs := (h1.2 off sl).mpr ⟨g, x, k1, k2, h7⟩
    obtain ⟨s, hs, e', cols, g1, g2, g3, -⟩ := forall2_mem_left h3 (h2.mem_iff.mpr (List.mem_map.mpr ⟨_, hv, rfl⟩))
    obtain ⟨h8, rfl⟩ := startsEntry_unique g1 k4
    exact ⟨s, hs, h8, g2, g3⟩

/-- In the listing `ts`, `us` is the part at the end of the names. -/
inductive PartAt (ts : List Shown) : List Bytes → List Shown → Prop
  | here : PartAt ts [] ts
  | step {A : List Bytes} {us : List Shown} {s : Shown} : PartAt ts A us → s ∈ us → s.typ = 2 → PartAt ts (A ++ [s.name]) s.inside

theorem PartAt.path {ts us : List Shown} {A : List Bytes} (h : PartAt ts A us) {B : List Bytes} {s : Shown} (hs : HasPath us B s) :
    HasPath ts (A ++ B) s := by
  induction h generalizing B with
  | here => exact hs
  | step _ h1 h2 ih =>
    rw [List.append_assoc]
    exact ih (.step h1 h2 hs)

/-- Every place of a directory is in the listing. -/
theorem LsSameOK.place (hs : LsSameOK b dest) (hd : goClean dest = dest)
    (hne : dest ≠ []) {ts : List Shown} (ht : b.ShownTree ft si 5 256 ts) {o d : UInt64} {p : Bytes} (hp : b.SeenAt dest o d p) :
    ∃ A, Named dest A p ∧ (b.inSubvolume A ∨ (o = 5 ∧ ∃ us, PartAt ts A us ∧ b.ShownTree ft si 5 d us ∧
      (A ≠ [] → ∃ s, HasPath ts A s ∧ s.typ = 2))) := by
  have plain : ∀ {o d p name e}, b.SeenAt dest o d p → b.entrySeen o d name e → usable name → Plain name := by
    intro o d p name e hp he hu
    exact usable_plain hu (by
      rintro rfl
      exact hs.readable.nonempty _ _ _ _ hp he)
  induction hp with
  | main => exact ⟨[], .refl hd hne, Or.inr ⟨rfl, ts, .here, ht, fun h => absurd rfl h⟩⟩
  | @subvolume o h => exact ⟨_, (Named.refl hd hne).join (subvol_plain o.toNat), Or.inl ⟨o, h, rfl⟩⟩
  | @dir o d p name e hp he h1 h2 h3 h4 ih =>
    obtain ⟨A, g1, g2⟩ := ih
    refine ⟨A ++ [name], g1.join (plain hp he h3), ?_⟩
    rcases g2 with g2 | ⟨rfl, us, g3, g4, -⟩
    · exact Or.inl (g2.snoc _)
    · obtain ⟨s, k1, rfl, k3, k4⟩ := g4.of_seen he
      refine Or.inr ⟨rfl, s.inside, .step g3 k1 (k3.trans h1), ?_, fun _ => ⟨s, g3.path (.last k1), k3.trans h1⟩⟩
      rw [← k4]
      exact (g4.mem hs.dirs (by decide) k1).2 (k3.trans h1)
  | @tree o d p name e hp he h2 h3 h4 ih =>
    obtain ⟨A, g1, g2⟩ := ih
    refine ⟨A ++ [name], g1.join (plain hp he h3), ?_⟩
    rcases g2 with g2 | ⟨rfl, us, g3, g4, -⟩
    · exact Or.inl (g2.snoc _)
    · exact absurd h2 (hs.plain _ _ _ he)

/-- Every file and link that has a place is in the listing. -/
theorem LsSameOK.object (hs : LsSameOK b dest) (hd : goClean dest = dest)
    (hne : dest ≠ []) {ts : List Shown} (ht : b.ShownTree ft si 5 256 ts) {t : UInt8} {o i : UInt64} {q : Bytes}
    (hq : b.ObjectAt dest t o i q) :
    ∃ A, Named dest A q ∧ (b.inSubvolume A ∨ (o = 5 ∧ ∃ s, HasPath ts A s ∧ s.typ = t ∧ s.ino = i)) := by
  obtain ⟨d, p, name, e, h1, h2, rfl, h4, rfl, h6, h7, rfl⟩ := hq
  obtain ⟨A, g1, g2⟩ := hs.place hd hne ht h1
  have hpl : Plain name := usable_plain h6 (by
    rintro rfl
    exact hs.readable.nonempty _ _ _ _ h1 h2)
  refine ⟨A ++ [name], g1.join hpl, ?_⟩
  rcases g2 with g2 | ⟨rfl, us, g3, g4, -⟩
  · exact Or.inl (g2.snoc _)
  · obtain ⟨s, k1, rfl, k3, k4⟩ := g4.of_seen h2
    exact Or.inr ⟨rfl, s, g3.path (.last k1), k3, k4⟩

/-- Everything in the listing has a place, if recover can use the names. -/
theorem LsSameOK.listed (hs : LsSameOK b dest) {ts : List Shown} {A : List Bytes} {s : Shown} (hA : HasPath ts A s) :
    ∀ {d : UInt64} {p : Bytes}, b.ShownTree ft si 5 d ts → b.SeenAt dest 5 d p → (∀ n ∈ A, usable n ∧ 92 ∉ n) →
    ∃ d' q name e cols, b.SeenAt dest 5 d' q ∧ b.entrySeen 5 d' name e ∧ s.typ = e.typ ∧ s.ino = e.location.objectID ∧
      b.columns ft 5 s.typ s.ino cols ∧ s.cols = (if si then [decimal s.ino.toNat] else []) ++ cols ∧
      usable name ∧ 92 ∉ name ∧ pathOf p A = goJoin q name := by
  induction hA with
  | @last ts s h =>
    intro d p ht hp hA
    obtain ⟨⟨e, cols, h1, h2, h3, h4, h5⟩, -⟩ := ht.mem hs.dirs (by decide) h
    obtain ⟨h6, h7⟩ := hA s.name (by simp)
    exact ⟨d, p, s.name, e, cols, hp, h1, h2, h3, h4, h5, h6, h7, rfl⟩
  | @step ts s s' rest h ht2 _ ih =>
    intro d p ht hp hA
    obtain ⟨⟨e, cols, h1, h2, h3, -, -⟩, h4⟩ := ht.mem hs.dirs (by decide) h
    obtain ⟨h6, h7⟩ := hA s.name (by simp)
    have hp' := Bucket.SeenAt.dir hp h1 (h2.symm.trans ht2) (hs.plain _ _ _ h1) h6 h7
    rw [← h3] at hp'
    exact ih (h4 ht2) hp' fun n hn => hA n (List.mem_cons_of_mem _ hn)

end Btrfscue
