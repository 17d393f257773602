import Verif.Props.RecoverTold
import Verif.Proof.SameSeen
/-!
# C111: examples, and what `recover --verbose` does not mention
-/

namespace Btrfscue

/-- The items of `exSeen`, with the metadata record recon writes. -/
def exSeenMeta : AStore := exSeen.dropLast ++ [(metadataVersionKey, exMeta)]

theorem exSeenMeta_wf : exSeenMeta.enc.WF := AStore.enc_wf (sorted_of_before (by decide +kernel))

theorem exSeenMeta_same : exSeen.enc.SameItems exSeenMeta.enc := by
  have hv : exSeen.map Prod.fst = exSeenMeta.map Prod.fst := by decide +kernel
  have h1 : ∀ e ∈ exSeen, e.1 ≠ metadataVersionKey → e ∈ exSeenMeta := by decide +kernel
  have h2 : ∀ e ∈ exSeenMeta, e.1 ≠ metadataVersionKey → e ∈ exSeen := by decide +kernel
  refine ⟨exSeen_wf, exSeenMeta_wf, fun v => ?_, fun v d hm => ⟨?_, ?_⟩⟩
  · simp only [enc_stores]
    have h : ∀ l : AStore, (∃ x, (v, x) ∈ l) ↔ v ∈ l.map Prod.fst := fun l =>
      ⟨fun ⟨x, hx⟩ => List.mem_map.mpr ⟨_, hx, rfl⟩, fun h => by obtain ⟨⟨_, x⟩, hx, rfl⟩ := List.mem_map.mp h; exact ⟨x, hx⟩⟩
    rw [h, h, hv]
  · rintro ⟨x, hx, hd⟩
    exact ⟨x, enc_stores.mpr (h1 _ (enc_stores.mp hx) hm), hd⟩
  · rintro ⟨x, hx, hd⟩
    exact ⟨x, enc_stores.mpr (h2 _ (enc_stores.mp hx) hm), hd⟩

theorem exSeenMeta_view : MetadataView (.db (some exSeenMeta.enc)) ⟨exSeenMeta.enc, ~~~0⟩ := by
  have h1 : OpenReadOnly (.db (some exSeenMeta.enc)) = .ok (.db (some exSeenMeta.enc), .ok
      ⟨true, some exSeenMeta.enc, some ⟨false, some exSeenMeta.enc⟩, true, 0, ~~~0⟩) := by decide +kernel
  exact ⟨_, _, h1, view_ro exSeenMeta (~~~0)⟩

/-- The machine for the examples. -/
def exTalker : Machine Nat :=
  { exMachine with rf := 30, openFile := fun p => if p = ascii "/dev/x" then some ⟨imageReader [4, 5, 6, 7], some 4⟩ else none }

/-- The run ends normally, and without a warning. -/
def Out.quietOk : Out World Unit → Bool
  | .ok _ w => w.rs.log.all fun e => match e with | .warn _ => false | _ => true
  | _ => false

/-- What a run that ends normally prints. -/
def Out.text : Out World Unit → Option Bytes
  | .ok _ w => some w.out
  | _ => none

-- A run for C111, and what it prints: the file "c" in "s" is mentioned.
example : ∃ w, program exTalker { metadata := ascii "m", verbose := true } (.recover false) [ascii "/dev/x", ascii "/d"]
      ⟨.db (some exSeenMeta.enc), RecState.start exEmptyDir, []⟩ = .ok () w ∧ w.rs.silent ∧
    w.out = ascii "Recovering root directory tree from subvolume 5...\nrecovering file: /d/s/c (size: 6)\nstripe: 16 => 0 @ 7\n" ∧
    exSeenMeta.enc.WF ∧ exSeenMeta.enc.stores metadataVersionKey exMeta ∧ exSeenMeta.enc.TreeReadable (ascii "/d") ∧
    exSeenMeta.enc.SeenAt (ascii "/d") 5 258 (ascii "/d/s") ∧ ∃ e, exSeenMeta.enc.entrySeen 5 258 [99] e ∧ e.typ = 1 := by
  have hs : exSeen.enc.SeenAt (ascii "/d") 5 258 (goJoin (ascii "/d") [115]) :=
    .dir .main exSeen_s rfl (by decide) (by refine ⟨?_, ?_, ?_⟩ <;> decide) (by decide)
  have hj : goJoin (ascii "/d") [115] = ascii "/d/s" := by decide +kernel
  rw [hj] at hs
  have h1 : (program exTalker { metadata := ascii "m", verbose := true } (.recover false) [ascii "/dev/x", ascii "/d"]
      ⟨.db (some exSeenMeta.enc), RecState.start exEmptyDir, []⟩).quietOk = true := by decide +kernel
  have h2 : (program exTalker { metadata := ascii "m", verbose := true } (.recover false) [ascii "/dev/x", ascii "/d"]
      ⟨.db (some exSeenMeta.enc), RecState.start exEmptyDir, []⟩).text =
      some (ascii "Recovering root directory tree from subvolume 5...\nrecovering file: /d/s/c (size: 6)\nstripe: 16 => 0 @ 7\n") := by
    decide +kernel
  revert h1 h2
  cases program exTalker { metadata := ascii "m", verbose := true } (.recover false) [ascii "/dev/x", ascii "/d"]
      ⟨.db (some exSeenMeta.enc), RecState.start exEmptyDir, []⟩ with
  | ok u w =>
    intro h1 h2
    refine ⟨w, rfl, fun p hp => ?_, Option.some.inj h2, exSeenMeta_wf, enc_stores.mpr (by simp [exSeenMeta]),
      exSeenMeta_same.treeReadable exSeen_readable, exSeenMeta_same.seenAt hs, _, exSeenMeta_same.entrySeen exSeen_c, rfl⟩
    have := List.all_eq_true.mp h1 _ hp
    simp at this
  | exit w => intro h1; cases h1
  | crash w => intro h1; cases h1
  | hang w => intro h1; cases h1

/-- An index with one file in its top directory, of the given name; with the metadata record recon writes. -/
def exNamed (name : Bytes) : AStore :=
  [(⟨5, ⟨257, 1, 0⟩, 10⟩, mkItem ⟨257, 1, 0⟩ (exInode 3).layout),
   (⟨5, ⟨256, 84, (NameHash name).toUInt64⟩, 10⟩, mkItem ⟨256, 84, (NameHash name).toUInt64⟩ (exEntry ⟨257, 1, 0⟩ 1 name)),
   (⟨5, ⟨257, 108, 0⟩, 10⟩, mkItem ⟨257, 108, 0⟩ (exInline 3 [1, 2, 3])),
   (⟨5, ⟨258, 132, 0⟩, 10⟩, mkItem ⟨258, 132, 0⟩ []),
   (metadataVersionKey, exMeta)]

/-- C111 is false of the code for names with a backslash, which btrfs allows: the file is not recovered, and `recover --verbose` says
nothing of it, not even a warning. With another name it is recovered. -/
theorem C111_backslash_refuted :
    ((program exTalker { metadata := ascii "m", verbose := true } (.recover false) [ascii "/dev/x", ascii "/d"]
        ⟨.db (some (exNamed (ascii "a\\b")).enc), RecState.start exEmptyDir, []⟩).quietOk = true ∧
      (program exTalker { metadata := ascii "m", verbose := true } (.recover false) [ascii "/dev/x", ascii "/d"]
        ⟨.db (some (exNamed (ascii "a\\b")).enc), RecState.start exEmptyDir, []⟩).shows (ascii "/d/a\\b") =
        (some 0, ascii "Recovering root directory tree from subvolume 5...\n", none)) ∧
    (program exTalker { metadata := ascii "m", verbose := true } (.recover false) [ascii "/dev/x", ascii "/d"]
        ⟨.db (some (exNamed (ascii "a-b")).enc), RecState.start exEmptyDir, []⟩).shows (ascii "/d/a-b") =
        (some 0, ascii "Recovering root directory tree from subvolume 5...\nrecovering file: /d/a-b (size: 3)\n", some [1, 2, 3]) := by
  decide +kernel

end Btrfscue
