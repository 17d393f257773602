import Verif.Spec.RecoverWhole
import Verif.Props.RecoverInside
import Mathlib.Data.List.Induction
/-!
# The places of directories, files and links
-/

namespace Btrfscue

/-- `p` is `dest` followed by the names `A`. -/
structure Named (dest : Bytes) (A : List Bytes) (p : Bytes) : Prop where
  ne : p ≠ []
  clean : goClean p = p
  rooted : isRooted p = isRooted dest
  plain : ∀ n ∈ A, Plain n
  parts : pathParts p = pathParts dest ++ A

theorem snoc_inj {α : Type} {X Y : List α} {a b : α} (h : X ++ [a] = Y ++ [b]) : X = Y ∧ a = b := by
  obtain ⟨h1, h2⟩ := List.append_inj' h rfl
  exact ⟨h1, by simpa using h2⟩

section
variable {dest : Bytes} {A B : List Bytes} {p q n : Bytes}

theorem Named.names (h : Named dest A p) (h' : Named dest B p) : A = B :=
  List.append_cancel_left (h.parts.symm.trans h'.parts)

theorem Named.path (h : Named dest A p) (h' : Named dest A q) : p = q :=
  clean_ext h.clean h'.clean (h.rooted.trans h'.rooted.symm) (h.parts.trans h'.parts.symm)

theorem Named.refl (hd : goClean dest = dest) (hne : dest ≠ []) : Named dest [] dest :=
  ⟨hne, hd, rfl, by simp, by simp⟩

theorem Named.join (h : Named dest A p) (hn : Plain n) : Named dest (A ++ [n]) (goJoin p n) := by
  obtain ⟨h1, h2, h3⟩ := goJoin_plain p n h.ne hn
  refine ⟨goJoin_ne_nil p n h.ne, h3, h2.trans h.rooted, fun m hm => ?_, by rw [h1, h.parts, List.append_assoc]⟩
  rcases List.mem_append.mp hm with hm | hm
  · exact h.plain m hm
  · rw [List.mem_singleton.mp hm]; exact hn

end

theorem usable_plain {n : Bytes} (h : usable n) (hn : n ≠ []) : Plain n := ⟨hn, h.1, h.2.1, h.2.2⟩

theorem subvol_plain (n : Nat) : Plain (ascii "subvol_" ++ decimal n) := by
  have hs := subvol_name n
  simp only [skipName, Bool.or_eq_false_iff, beq_eq_false_iff_ne, List.contains_eq_mem, decide_eq_false_iff_not] at hs
  exact ⟨by simp [ascii], hs.1.1.1, hs.1.1.2, hs.1.2⟩

section
variable {ix : Ix} {dest : Bytes}

theorem Ix.Placed.named (hD : ix.Distinct dest) (hd : goClean dest = dest) (hne : dest ≠ []) {o d : UInt64} {p : Bytes}
    (h : ix.Placed dest o d p) : ∃ A, Named dest A p := by
  induction h with
  | main => exact ⟨[], .refl hd hne⟩
  | subvolume => exact ⟨_, (Named.refl hd hne).join (subvol_plain _)⟩
  | dir hp hl hs _ hu _ ih =>
    obtain ⟨A, hA⟩ := ih
    exact ⟨_, hA.join (usable_plain hu (hD.nonempty _ _ _ _ _ _ _ hp hl hs))⟩
  | tree hp hl hs _ hu _ ih =>
    obtain ⟨A, hA⟩ := ih
    exact ⟨_, hA.join (usable_plain hu (hD.nonempty _ _ _ _ _ _ _ hp hl hs))⟩

/-- An entry `n` of the directory placed at the names `X` leads to directory `d` of tree `o`. -/
structure Ix.Sub (ix : Ix) (dest : Bytes) (X : List Bytes) (n : Bytes) (o d : UInt64) : Prop where
  ex : ∃ o1 d1 p1 di t loc, ix.Placed dest o1 d1 p1 ∧ Named dest X p1 ∧ ix.lists o1 d1 di ∧ DirItem.says di n t loc ∧
    ((t = 2 ∧ loc.typ ≠ 132 ∧ o = o1 ∧ d = loc.objectID) ∨ (loc.typ = 132 ∧ o = loc.objectID ∧ d = 256))

theorem Ix.Placed.inv (hD : ix.Distinct dest) (hd : goClean dest = dest) (hne : dest ≠ []) {o d : UInt64} {p : Bytes}
    (h : ix.Placed dest o d p) {A : List Bytes} (hA : Named dest A p) :
    (A = [] ∧ o = 5 ∧ d = 256) ∨ (A = [ascii "subvol_" ++ decimal o.toNat] ∧ d = 256 ∧ ix.listsSubvolume o) ∨
    ∃ X n, A = X ++ [n] ∧ ix.Sub dest X n o d := by
  cases h with
  | main => exact Or.inl ⟨hA.names (.refl hd hne), rfl, rfl⟩
  | subvolume hs => exact Or.inr (Or.inl ⟨hA.names ((Named.refl hd hne).join (subvol_plain _)), rfl, hs⟩)
  | @dir o d p di name loc hp hl hs ht hu _ =>
    obtain ⟨X, hX⟩ := hp.named hD hd hne
    refine Or.inr (Or.inr ⟨X, name, hA.names (hX.join (usable_plain hu (hD.nonempty _ _ _ _ _ _ _ hp hl hs))), ?_⟩)
    exact ⟨_, _, _, _, _, _, hp, hX, hl, hs, Or.inl ⟨rfl, ht, rfl, rfl⟩⟩
  | @tree o d p di name t loc hp hl hs ht hu _ =>
    obtain ⟨X, hX⟩ := hp.named hD hd hne
    refine Or.inr (Or.inr ⟨X, name, hA.names (hX.join (usable_plain hu (hD.nonempty _ _ _ _ _ _ _ hp hl hs))), ?_⟩)
    exact ⟨_, _, _, _, _, _, hp, hX, hl, hs, Or.inr ⟨ht, rfl, rfl⟩⟩

/-- One directory at a place. -/
theorem Ix.Placed.unique (hD : ix.Distinct dest) (hd : goClean dest = dest) (hne : dest ≠ []) (A : List Bytes) :
    ∀ {o d o' d' : UInt64} {p p' : Bytes}, ix.Placed dest o d p → ix.Placed dest o' d' p' → Named dest A p → Named dest A p' →
      o = o' ∧ d = d' := by
  induction A using List.reverseRecOn with
  | nil =>
    intro o d o' d' p p' h h' hA hA'
    rcases h.inv hD hd hne hA with ⟨-, rfl, rfl⟩ | ⟨h, -⟩ | ⟨X, n, h, -⟩
    · rcases h'.inv hD hd hne hA' with ⟨-, rfl, rfl⟩ | ⟨h, -⟩ | ⟨X, n, h, -⟩
      · exact ⟨rfl, rfl⟩
      · cases h
      · simp at h
    · cases h
    · simp at h
  | append_singleton A c ih =>
    have key : ∀ {o d o' : UInt64}, A ++ [c] = [ascii "subvol_" ++ decimal o'.toNat] → ix.listsSubvolume o' →
        ix.Sub dest A c o d → False := by
      intro o d o' hc hl hs
      obtain ⟨o1, d1, p1, di, t, loc, h1, h2, h3, h4, -⟩ := hs.ex
      have h5 : A = [] ∧ c = ascii "subvol_" ++ decimal o'.toNat := by
        cases A with
        | nil => simpa using hc
        | cons a A => simp at hc
      obtain ⟨rfl, rfl⟩ := h5
      obtain ⟨rfl, rfl⟩ := ih h1 .main h2 (.refl hd hne)
      exact hD.reserved _ hl _ _ _ _ h3 h4 rfl
    intro o d o' d' p p' h h' hA hA'
    rcases h.inv hD hd hne hA with ⟨hn, -⟩ | ⟨hn, rfl, hl⟩ | ⟨X, n, hn, hs⟩
    · simp at hn
    · rcases h'.inv hD hd hne hA' with ⟨hm, -⟩ | ⟨hm, rfl, hl'⟩ | ⟨X, n, hm, hs⟩
      · simp at hm
      · refine ⟨?_, rfl⟩
        rw [hn] at hm
        simp only [List.cons.injEq, and_true] at hm
        exact UInt64.toNat_inj.mp (decimal_inj (List.append_cancel_left hm))
      · obtain ⟨rfl, rfl⟩ := snoc_inj hm
        exact (key hn hl hs).elim
    · obtain ⟨rfl, rfl⟩ := snoc_inj hn
      rcases h'.inv hD hd hne hA' with ⟨hm, -⟩ | ⟨hm, rfl, hl'⟩ | ⟨X, n, hm, hs'⟩
      · simp at hm
      · exact (key hm hl' hs).elim
      · obtain ⟨rfl, rfl⟩ := snoc_inj hm
        obtain ⟨o1, d1, p1, di, t, loc, h1, h2, h3, h4, h5⟩ := hs.ex
        obtain ⟨o2, d2, p2, di', t', loc', k1, k2, k3, k4, k5⟩ := hs'.ex
        obtain ⟨rfl, rfl⟩ := ih h1 k1 h2 k2
        obtain ⟨rfl, rfl⟩ := hD.once _ _ _ _ _ _ _ _ _ _ h1 h3 k3 h4 k4
        rcases h5 with ⟨rfl, ht, rfl, rfl⟩ | ⟨ht, rfl, rfl⟩ <;> rcases k5 with ⟨k, kt, rfl, rfl⟩ | ⟨kt, rfl, rfl⟩
        · exact ⟨rfl, rfl⟩
        · exact absurd kt ht
        · exact absurd ht kt
        · exact ⟨rfl, rfl⟩

/-- A directory has its place there. -/
def DirAt (ix : Ix) (dest : Bytes) (A : List Bytes) : Prop := ∃ o d p, ix.Placed dest o d p ∧ Named dest A p

/-- An entry of type `t`, leading to object `i` of tree `o`, has its place there. -/
def EntryAt (ix : Ix) (dest : Bytes) (t : UInt8) (o i : UInt64) (A : List Bytes) : Prop :=
  ∃ q, ix.HasEntry dest t o i q ∧ Named dest A q

theorem EntryAt.inv (hD : ix.Distinct dest) (hd : goClean dest = dest) (hne : dest ≠ []) {t : UInt8} {o i : UInt64}
    {A : List Bytes} (h : EntryAt ix dest t o i A) : ∃ X n d p di loc, A = X ++ [n] ∧ ix.Placed dest o d p ∧ Named dest X p ∧
      ix.lists o d di ∧ DirItem.says di n t loc ∧ loc.typ ≠ 132 ∧ loc.objectID = i := by
  obtain ⟨q, ⟨d, p, di, n, loc, h1, h2, h3, h4, h5, h6, -, rfl⟩, hA⟩ := h
  obtain ⟨X, hX⟩ := h1.named hD hd hne
  exact ⟨X, n, d, p, di, loc, hA.names (hX.join (usable_plain h6 (hD.nonempty _ _ _ _ _ _ _ h1 h2 h3))), h1, hX, h2, h3, h4, h5⟩

theorem DirAt.front (hD : ix.Distinct dest) (hd : goClean dest = dest) (hne : dest ≠ []) {A B : List Bytes}
    (h : DirAt ix dest (A ++ B)) : DirAt ix dest A := by
  induction B using List.reverseRecOn with
  | nil => simpa using h
  | append_singleton B c ih =>
    refine ih ?_
    obtain ⟨o, d, p, h1, h2⟩ := h
    rw [← List.append_assoc] at h2
    rcases h1.inv hD hd hne h2 with ⟨h, -⟩ | ⟨h, -⟩ | ⟨X, n, h, hs⟩
    · simp at h
    · have : A ++ B = [] := by
        cases hAB : A ++ B with
        | nil => rfl
        | cons a l => rw [hAB] at h; simp at h
      rw [this]
      exact ⟨_, _, _, .main, .refl hd hne⟩
    · obtain ⟨h, -⟩ := List.append_inj' h rfl
      obtain ⟨o1, d1, p1, di, t, loc, h1, h2, -⟩ := hs.ex
      rw [h]
      exact ⟨_, _, _, h1, h2⟩

theorem EntryAt.front (hD : ix.Distinct dest) (hd : goClean dest = dest) (hne : dest ≠ []) {t : UInt8} {o i : UInt64}
    {A B : List Bytes} (h : EntryAt ix dest t o i (A ++ B)) (hB : B ≠ []) : DirAt ix dest A := by
  obtain ⟨X, n, d, p, di, loc, h1, h2, h3, -⟩ := h.inv hD hd hne
  rcases List.eq_nil_or_concat B with rfl | ⟨B', c, rfl⟩
  · exact absurd rfl hB
  · rw [List.concat_eq_append, ← List.append_assoc] at h1
    obtain ⟨h1, -⟩ := List.append_inj' h1 rfl
    have : DirAt ix dest (A ++ B') := ⟨o, d, p, h2, h1 ▸ h3⟩
    exact this.front hD hd hne

theorem EntryAt.unique (hD : ix.Distinct dest) (hd : goClean dest = dest) (hne : dest ≠ []) {t t' : UInt8} {o o' i i' : UInt64}
    {A : List Bytes} (h : EntryAt ix dest t o i A) (h' : EntryAt ix dest t' o' i' A) : t = t' ∧ o = o' ∧ i = i' := by
  obtain ⟨X, n, d, p, di, loc, rfl, h2, h3, h4, h5, h6, rfl⟩ := h.inv hD hd hne
  obtain ⟨X', n', d', p', di', loc', k1, k2, k3, k4, k5, k6, rfl⟩ := h'.inv hD hd hne
  obtain ⟨rfl, rfl⟩ := snoc_inj k1
  obtain ⟨rfl, rfl⟩ := h2.unique hD hd hne X k2 h3 k3
  obtain ⟨rfl, rfl⟩ := hD.once _ _ _ _ _ _ _ _ _ _ h2 h4 k4 h5 k5
  exact ⟨rfl, rfl, rfl⟩

theorem EntryAt.not_dir (hD : ix.Distinct dest) (hd : goClean dest = dest) (hne : dest ≠ []) {t : UInt8} {o i : UInt64}
    {A : List Bytes} (h : EntryAt ix dest t o i A) (ht : t ≠ 2) : ¬ DirAt ix dest A := by
  rintro ⟨o', d', p', h', hA'⟩
  obtain ⟨X, n, d, p, di, loc, rfl, h2, h3, h4, h5, h6, rfl⟩ := h.inv hD hd hne
  rcases h'.inv hD hd hne hA' with ⟨h', -⟩ | ⟨h', rfl, hl'⟩ | ⟨X', n', h', hs'⟩
  · simp at h'
  · have h7 : X = [] ∧ n = ascii "subvol_" ++ decimal o'.toNat := by
      cases X with
      | nil => simpa using h'
      | cons a A => simp at h'
    obtain ⟨rfl, rfl⟩ := h7
    obtain ⟨rfl, rfl⟩ := h2.unique hD hd hne [] .main h3 (.refl hd hne)
    exact hD.reserved _ hl' _ _ _ _ h4 h5 rfl
  · obtain ⟨rfl, rfl⟩ := snoc_inj h'
    obtain ⟨o2, d2, p2, di', t', loc', k1, k2, k3, k4, k5⟩ := hs'.ex
    obtain ⟨rfl, rfl⟩ := h2.unique hD hd hne X k1 h3 k2
    obtain ⟨rfl, rfl⟩ := hD.once _ _ _ _ _ _ _ _ _ _ h2 h4 k3 h5 k4
    rcases k5 with ⟨k, -⟩ | ⟨k, -⟩
    · exact ht k
    · exact h6 k

end

end Btrfscue
