import Verif.Proof.RecoverToldDir
import Verif.Props.Verbose
import Verif.Props.RecoverSeenEx
/-!
# C111: what `recover --verbose` says is true, and it accounts for every entry
-/

namespace Btrfscue

open Cmd

/-- How the program calls the command. -/
theorem program_says {F : Type} [LinearOrder F] (m : Machine F) (g : Globals) (clobber : Bool) (img dest : Bytes) (w : World)
    (hg : g.metadata ≠ []) {v : Ix} (hv : MetadataView w.db v) {d : Device} (hd : m.openFile img = some d) {w' : World}
    (h : program m { g with verbose := true } (.recover clobber) [img, dest] w = .ok () w') :
    ∃ t, sayRecoverFiles true { m.env with dev := fun _ => d.reader } m.rf m.fuel v clobber dest ⟨w.rs, []⟩ = .ok () t ∧
      w' = ⟨w.db, t.rs, w.out ++ (t.said.map Line.text).flatten⟩ := by
  have hp : program m { g with verbose := true } (.recover clobber) [img, dest] w =
      (needMetadata { g with verbose := true } >>= fun _ => withIndex fun ix => openDevice m img >>= fun d =>
      talking (sayRecoverFiles true { m.env with dev := fun _ => d.reader } m.rf m.fuel ix clobber dest)) w := rfl
  have hn : needMetadata { g with verbose := true } = pure () := by
    unfold needMetadata; rw [if_neg (by simpa using hg)]
  rw [hp, hn, Cmd.bind_def, Cmd.pure_run] at h
  simp only at h
  rw [withIndex_view hv fun v => .bind (.openDevice _ _) fun d => .talking _, Cmd.bind_def] at h
  simp only [openDevice, hd, Cmd.pure_run, talking] at h
  cases hx : sayRecoverFiles true { m.env with dev := fun _ => d.reader } m.rf m.fuel v clobber dest ⟨w.rs, []⟩ with
  | ok a t =>
    simp only [hx, Out.ok.injEq, true_and] at h
    exact ⟨t, rfl, h.symm⟩
  | exit t => simp only [hx] at h; cases h
  | crash t => simp only [hx] at h; cases h
  | hang t => simp only [hx] at h; cases h

theorem Line.text_reads (l : Line) : l.text = l.reads := by
  have hr : ∀ l : Line, l.reads = fillIn l.wording.1 l.wording.2 := fun _ => rfl
  cases l <;> rw [hr] <;> simp only [Line.wording, Line.text, fillIn, ascii, String.toUTF8, List.map_cons, List.map_nil, List.cons_append, List.nil_append] <;> rfl

theorem Line.texts_read (ls : List Line) : (ls.map Line.text).flatten = (ls.map Line.reads).flatten := by
  rw [show Line.text = Line.reads from funext Line.text_reads]

/-- C111: a run of `recover --verbose` that ends prints the text of messages each of which is true; and of every directory it entered
it deals with every entry with a usable name without backslash: directories and trees are entered as well, and for everything else it
says what became of it, or warns. Unless it warned about the directory itself. -/
theorem C111_messages_partial {F : Type} [LinearOrder F] (m : Machine F) (g : Globals) (clobber : Bool) (img dest : Bytes) (db : DBFile)
    (fs : HostFS) (out : Bytes) (hg : g.metadata ≠ []) {v : Ix} (hv : MetadataView db v) {d : Device} (hd : m.openFile img = some d) {w : World}
    (h : program m { g with verbose := true } (.recover clobber) [img, dest] ⟨db, RecState.start fs, out⟩ = .ok () w) :
    ∃ t : Talk, w.rs = t.rs ∧ w.out = out ++ (t.said.map Line.reads).flatten ∧
      (∀ l ∈ t.said, t.isTrue v clobber dest l) ∧
      (∀ o d p, Ev.enter o d p ∈ t.rs.log → Ev.warn p ∈ t.rs.log ∨ t.dirDone v o d p) ∧
      t.entered 5 256 ∧ ∀ o, v.listsSubvolume o → t.entered o 256 := by
  obtain ⟨t, ht, rfl⟩ := program_says m g clobber img dest _ hg hv hd h
  have hw := wp_sayRecover { m.env with dev := fun _ => d.reader } m.rf (ix := v) (clobber := clobber) (dest := dest) m.fuel
    (t := ⟨RecState.start fs, []⟩) ⟨fun l hl => (by cases hl), fun o d p hp => (by cases hp), fun o d hv => (by cases hv)⟩
  unfold wp at hw
  rw [ht] at hw
  obtain ⟨h1, h2, -, h3⟩ := hw
  exact ⟨t, rfl, by rw [← Line.texts_read], h1.truth, fun o d p hp => (h1.dirs o d p hp).resolve_left (by intro h; cases h), h2, h3⟩

/-- C111 in terms of the items of the index: if there was no warning, then every directory seen was entered, and there the user was told
of every file, link and special file seen in it. -/
theorem C111_everything_seen_partial {F : Type} [LinearOrder F] (m : Machine F) (g : Globals) (clobber : Bool) (img dest : Bytes) (db : DBFile)
    (fs : HostFS) (out : Bytes) (hg : g.metadata ≠ []) {b : Bucket} (hv : MetadataView db ⟨b, ~~~0⟩) {d : Device} (hd : m.openFile img = some d)
    (hb : b.WF) {r : Bytes} (hm : b.stores metadataVersionKey r) (hu : b.TreeReadable dest) {w : World}
    (h : program m { g with verbose := true } (.recover clobber) [img, dest] ⟨db, RecState.start fs, out⟩ = .ok () w) (hs : w.rs.silent) :
    ∃ t : Talk, w.rs = t.rs ∧ w.out = out ++ (t.said.map Line.reads).flatten ∧
      ∀ o d p0, b.SeenAt dest o d p0 → ∃ p, Ev.enter o d p ∈ t.rs.log ∧
        ∀ name e, b.entrySeen o d name e → usable name → 92 ∉ name → e.location.typ ≠ 132 → e.typ ≠ 2 → t.tellsOf (goJoin p name) e.typ := by
  obtain ⟨t, h1, h2, h3, h4, h5, h6⟩ := C111_messages_partial m g clobber img dest db fs out hg hv hd h
  refine ⟨t, h1, h2, fun o d p0 hp0 => ?_⟩
  rw [h1] at hs
  have hent : ∀ o d p0, (Ix.mk b (~~~0)).Placed dest o d p0 → t.entered o d := by
    intro o d p0 hp
    induction hp with
    | main => exact h5
    | subvolume h => exact h6 _ h
    | @dir o d p di name loc _ hl hsay hty hu hb ih =>
      obtain ⟨p', hp'⟩ := ih
      exact (((h4 _ _ _ hp').resolve_left (hs _)) di name 2 loc hl hsay hu hb).2.1 hty rfl
    | @tree o d p di name ty loc _ hl hsay hty hu hb ih =>
      obtain ⟨p', hp'⟩ := ih
      exact (((h4 _ _ _ hp').resolve_left (hs _)) di name ty loc hl hsay hu hb).1 hty
  obtain ⟨p, hp⟩ := hent o d p0 ((hu.placed hb hm).mpr hp0)
  refine ⟨p, hp, fun name e he hus hbs hty ht => ?_⟩
  obtain ⟨di, k1, k2⟩ := (hu.lists hb hm hp0 (hp0.ordinary hu)).2 name e he
  exact ((h4 _ _ _ hp).resolve_left (hs _) di name e.typ e.location k1 k2 hus hbs).2.2 hty ht

end Btrfscue
