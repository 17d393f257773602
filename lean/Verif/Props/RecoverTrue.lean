import Verif.Proof.TrueRun
import Verif.Props.RecoverSeenEx
/-!
# C108: recovering makes nothing up, whatever fails and whenever it is stopped
-/

namespace Btrfscue

open Cmd

/-- Which bytes a file may have. -/
def pieceBytes (b : Bucket) (D : Bytes) : UInt64 → UInt64 → Bytes → Prop := fun o i x =>
  ∀ size, b.FileReadable o i size → TrueOrZero (b.anyPieceByte o i D) x

/-- Which target a link may have. -/
def linkTarget (b : Bucket) : UInt64 → UInt64 → Bytes → Prop := fun o i x => ∀ y, b.targetSeen o i y → x = y

/-- A link has one target. -/
theorem targetSeen_unique {b : Bucket} (hb : b.WF) {m : Bytes} (hm : b.stores metadataVersionKey m) {o i : UInt64} {y z : Bytes}
    (hy : b.targetSeen o i y) (hz : b.targetSeen o i z) : y = z := by
  obtain ⟨ho, g, w, d, k1, k2, k3, f, rest, rfl, k4, k5⟩ := hy
  obtain ⟨-, g', w', d', k1', k2', k3', f', rest', rfl, k4', k5'⟩ := hz
  obtain ⟨t1, ht1⟩ := findData_newest hb hm ho k1 k2 k3
  obtain ⟨t2, ht2⟩ := findData_newest hb hm ho k1' k2' k3'
  have e1 := (inline_data f y rest t1 k4 k5).1
  have e2 := (inline_data f' z rest' t2 k4' k5').1
  have e3 := Option.some.inj (Go.ok.inj (ht1.symm.trans ht2))
  rw [e3] at e1
  exact Go.ok.inj (e1.symm.trans e2)

/-- C108: when recovering to an empty directory, at every point of the run — whether it ends, stops
with an error, crashes or is killed —, whatever the device fails to deliver and whichever of the
host's calls fail: every file below the destination is one that is seen at this place in the index,
and each of its bytes is zero, or one that an extent of this file gives for this position; every
link is one seen at this place, and has its target. Files may be incomplete, but nothing is made up,
and nothing of one file gets into another. (If the extent items of the file can be read, and the
target is in the item of the link; and if stat(2) does not fail.) -/
theorem C108_nothing_made_up (b : Bucket) (hb : b.WF) (m : Bytes) (hm : b.stores metadataVersionKey m)
    (hcr : b.RangeOK 3 (KL2 228 256)) (hci : b.SeenIntact) :
    ∃ N, ∀ rf, N ≤ rf → ∀ env D, Truthful env D → (∀ n, env.fails .stat n = false) → ∀ fuel fs dest r,
      EmptyDest fs dest r → b.TreeReadable dest →
      ∀ f, (doRecoverFiles env rf fuel ⟨b, ~~~0⟩ false dest (RecState.start fs)).state.reached f →
      ∀ A i, f.down r A = some i →
        (∀ x, f.inodes[i]? = some (.file x) → ∃ o n, b.ObjectAt dest 1 o n (pathOf dest A) ∧
          ((∃ size, b.FileReadable o n size) → ∀ j v, x[j]? = some v → v = 0 ∨ b.anyPieceByte o n D j v)) ∧
        (∀ x, f.inodes[i]? = some (.link x) → ∃ o n, b.ObjectAt dest 7 o n (pathOf dest A) ∧
          ∀ y, b.targetSeen o n y → x = y) := by
  obtain ⟨N, map, hM⟩ := placeOK hb hm hcr hci
  refine ⟨N + b.length + 2, fun rf hrf env D hh hst fuel fs dest r he hu f hf A i hi => ?_⟩
  have hD := hu.distinct hb hm
  have htrue : wp (doRecoverFiles env rf fuel ⟨b, ~~~0⟩ false dest) (fun _ t =>
      Sound ⟨b, ~~~0⟩ dest r anyFate anyFate t ∧ TrueRun ⟨b, ~~~0⟩ dest r (pieceBytes b D) (linkTarget b) t)
      (fun t => Sound ⟨b, ~~~0⟩ dest r anyFate anyFate t ∧ TrueRun ⟨b, ~~~0⟩ dest r (pieceBytes b D) (linkTarget b) t) (RecState.start fs) := by
    have h1 := wpE_iff.mp <| (trueRun (FP := pieceBytes b D) (LP := linkTarget b) (rf := rf) hst hD he.ok (fun o i q s _ hc => by
        by_cases hx : ∃ size, b.FileReadable o i size
        · obtain ⟨size, hx⟩ := hx
          refine wp_mono (file_true_pieces hb hm hx hM (D := D) (by omega) (by omega) hh false q (hM.cache (by omega) hc)) ?_ (fun _ h => h.elim)
          rintro _ t ⟨-, h⟩ f hf
          rcases h f hf with h | ⟨d, h, h'⟩
          · exact Or.inl h
          · exact Or.inr (Or.inl ⟨d, h, fun _ _ => h'⟩)
        · exact wp_mono (Q := fun _ _ => True) (E := fun _ => True) (by unfold wp; split <;> trivial)
            (fun _ _ _ _ _ => Or.inr (Or.inr fun x size h => absurd ⟨size, h⟩ hx)) fun _ _ _ _ => Or.inr (Or.inr fun x size h => absurd ⟨size, h⟩ hx))
      (fun o i q s _ => by
        by_cases hx : ∃ y, b.targetSeen o i y
        · obtain ⟨y, hy⟩ := hx
          refine wp_mono (link_true hb hm hy) ?_ (fun _ h => h.elim)
          intro _ t h f hf
          rcases h f hf with h | h
          · exact Or.inl h
          · refine Or.inr (Or.inl ⟨y, h, fun z hz => ?_⟩)
            exact targetSeen_unique hb hm hy hz
        · exact wp_mono (Q := fun _ _ => True) (E := fun _ => True) (by unfold wp; split <;> trivial)
            (fun _ _ _ _ _ => Or.inr (Or.inr fun x y h => absurd ⟨y, h⟩ hx)) fun _ _ _ _ => Or.inr (Or.inr fun x y h => absurd ⟨y, h⟩ hx))).all
      fuel ⟨WholeInv.start he hD, TrueRun.start he hD⟩
    have h2 := wpE_iff.mp <| (wholeRun (rf := rf) (env := env) hst hD he.ok any_fates
      (fun o i q s _ _ => by unfold wp; split <;> first | trivial | exact fun _ => Or.inr trivial)
      (fun o i q s _ _ => by unfold wp; split <;> first | trivial | exact fun _ => Or.inr trivial)).all fuel (WholeInv.start he hD)
    exact wp_mono (wp_and h2 h1) (fun _ t h => ⟨h.1.1.inv.sound, h.2.1.inv.2⟩) fun _ h => h
  have hst' : Sound ⟨b, ~~~0⟩ dest r anyFate anyFate (doRecoverFiles env rf fuel ⟨b, ~~~0⟩ false dest (RecState.start fs)).state ∧
      TrueRun ⟨b, ~~~0⟩ dest r (pieceBytes b D) (linkTarget b) (doRecoverFiles env rf fuel ⟨b, ~~~0⟩ false dest (RecState.start fs)).state := by
    unfold wp at htrue
    cases hrun : doRecoverFiles env rf fuel ⟨b, ~~~0⟩ false dest (RecState.start fs) with
    | ok u s => rw [hrun] at htrue; exact htrue
    | exit s => rw [hrun] at htrue; exact htrue
    | crash s => rw [hrun] at htrue; exact htrue
    | hang s => rw [hrun] at htrue; exact htrue
  obtain ⟨k1, k2⟩ := hst'.2 f hf A i hi
  rcases (hst'.1 f hf).1.kind A i hi with ⟨-, h3⟩ | ⟨o, n, y, ⟨q, h1, h2⟩, h3⟩ | ⟨o, n, y, ⟨q, h1, h2⟩, h3⟩
  · obtain ⟨es, par, h3⟩ := isDirAt_iff.mp h3
    refine ⟨fun x hx => ?_, fun x hx => ?_⟩ <;> · rw [hx] at h3; cases h3
  · have hq := h2.pathOf he.clean he.ok.ne
    refine ⟨fun x hx => ⟨o, n, (hu.hasEntry hb hm).mp (hq ▸ h1), fun ⟨size, hr⟩ => k1 x hx o n ⟨q, h1, h2⟩ size hr⟩, fun x hx => ?_⟩
    rw [hx] at h3; cases h3
  · have hq := h2.pathOf he.clean he.ok.ne
    refine ⟨fun x hx => ?_, fun x hx => ⟨o, n, (hu.hasEntry hb hm).mp (hq ▸ h1), fun y hy => k2 x hx o n ⟨q, h1, h2⟩ y hy⟩⟩
    rw [hx] at h3; cases h3

/-- The hypotheses are met by `exSeen`, whose items are of several generations, with a device that
delivers what it likes of its four bytes, and any failures but of stat(2). With a device that fails
after two bytes of the extent at its third byte, the run that is killed before it has cut the file
to its size leaves some of its bytes; that at position 3 is zero or 5, if it is there. -/
example (env : Env) (h : Truthful env [4, 5, 6, 7]) (hst : ∀ n, env.fails .stat n = false) :
    ∃ N, ∀ rf, N ≤ rf → ∀ fuel f, (doRecoverFiles env rf fuel ⟨exSeen.enc, ~~~0⟩ false (ascii "/d") (RecState.start exEmptyDir)).state.reached f →
      ∀ A i x, f.down 1 A = some i → f.inodes[i]? = some (.file x) → x[3]? = none ∨ x[3]? = some 0 ∨ x[3]? = some 5 := by
  obtain ⟨N, hN⟩ := C108_nothing_made_up exSeen.enc exSeen_wf [] exSeen_meta exSeen_range3 exSeen_chunks
  refine ⟨N, fun rf hrf fuel f hf A i x hi hx => ?_⟩
  obtain ⟨o, n, h1, h2⟩ := (hN rf hrf env _ h hst fuel _ _ _ exEmptyDir_ok exSeen_readable f hf A i hi).1 x hx
  obtain ⟨-, rfl, rfl⟩ := (exSeen_object h1).1.resolve_left (by decide)
  cases hv : x[3]? with
  | none => exact Or.inl rfl
  | some v =>
    right
    rcases h2 ⟨some 6, exSeen_file⟩ 3 v hv with rfl | ⟨off, p, k1, k2, k3⟩
    · exact Or.inl rfl
    · rcases exSeen_cases k1 with ⟨rfl, rfl⟩ | ⟨rfl, rfl⟩
      · exact absurd k2.2 (by decide)
      · rcases k3 with ⟨z, -⟩ | ⟨-, dev, phys, k4, k5⟩
        · exact absurd z (by decide)
        · rw [exSeen_phys k4] at k5
          exact Or.inr k5.symm

/-- The run does write the file: without failures it is there in the end, and there is a point at
which it has been made but holds nothing yet. -/
example : ∃ s', doRecoverFiles (imageEnv [4, 5, 6, 7]) 30 9 ⟨exSeen.enc, ~~~0⟩ false (ascii "/d") (RecState.start exEmptyDir) = .ok () s' ∧
    s'.fs.readFile (ascii "/d/s/c") = some [1, 2, 4, 5, 6, 7] ∧ ∃ f, s'.reached f ∧ f.readFile (ascii "/d/s/c") = some [] := by
  have h : (doRecoverFiles (imageEnv [4, 5, 6, 7]) 30 9 ⟨exSeen.enc, ~~~0⟩ false (ascii "/d") (RecState.start exEmptyDir)).silentOk = true ∧
    (doRecoverFiles (imageEnv [4, 5, 6, 7]) 30 9 ⟨exSeen.enc, ~~~0⟩ false (ascii "/d") (RecState.start exEmptyDir)).state.fs.readFile (ascii "/d/s/c") = some [1, 2, 4, 5, 6, 7] ∧
    ((doRecoverFiles (imageEnv [4, 5, 6, 7]) 30 9 ⟨exSeen.enc, ~~~0⟩ false (ascii "/d") (RecState.start exEmptyDir)).state.past.any fun f =>
      f.readFile (ascii "/d/s/c") == some []) = true := by decide +kernel
  obtain ⟨s, h1, -⟩ := silent_of h.1
  refine ⟨s, h1, ?_, ?_⟩
  · have := h.2.1; rw [h1] at this; exact this
  · have := h.2.2
    rw [h1] at this
    obtain ⟨f, hf, hr⟩ := List.any_eq_true.mp this
    exact ⟨f, Or.inr hf, by simpa using hr⟩

end Btrfscue
