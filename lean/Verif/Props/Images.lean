import Verif.Spec.Images
import Verif.Props.ReconMore
import Verif.Props.EndToEndSeen
/-!
# C121: from several images to the recovered files
-/

namespace Btrfscue

/-- Two indexes of the same images, in whatever order, say the same. -/
theorem Bucket.IndexOfAll.same {a b : Bucket} {devs devs' : List Bytes} {bs : Nat} {id : UUID} (hd : ∀ x, x ∈ devs ↔ x ∈ devs')
    (ha : a.IndexOfAll devs bs id) (hb : b.IndexOfAll devs' bs id) : a.SameItems b := by
  have hI : ∀ v d, imagesItem devs bs id v d ↔ imagesItem devs' bs id v d := fun v d =>
    ⟨fun ⟨x, h1, h2⟩ => ⟨x, (hd x).mp h1, h2⟩, fun ⟨x, h1, h2⟩ => ⟨x, (hd x).mpr h1, h2⟩⟩
  refine ⟨ha.wf, hb.wf, fun v => ⟨?_, ?_⟩, fun v d hv => ⟨?_, ?_⟩⟩
  · rintro ⟨x, hx⟩
    by_cases hv : v = metadataVersionKey
    · subst hv; exact hb.metadata
    · obtain ⟨d, -, h2⟩ := ha.sound v x hx hv
      obtain ⟨y, hy, -⟩ := hb.complete v d ((hI v d).mp h2)
      exact ⟨y, hy⟩
  · rintro ⟨x, hx⟩
    by_cases hv : v = metadataVersionKey
    · subst hv; exact ha.metadata
    · obtain ⟨d, -, h2⟩ := hb.sound v x hx hv
      obtain ⟨y, hy, -⟩ := ha.complete v d ((hI v d).mpr h2)
      exact ⟨y, hy⟩
  · rintro ⟨x, hx, hxd⟩
    obtain ⟨d', h1, h2⟩ := ha.sound v x hx hv
    rw [hxd.unique h1]
    exact hb.complete v d' ((hI v d').mp h2)
  · rintro ⟨x, hx, hxd⟩
    obtain ⟨d', h1, h2⟩ := hb.sound v x hx hv
    rw [hxd.unique h1]
    exact ha.complete v d' ((hI v d').mpr h2)

/-- What one scan after the other does to an index that is there. -/
theorem reconEach_ops {bs : UInt64} {id : UUID} : ∀ devs : List Bytes,
    (∀ d ∈ devs, ReconArgs d bs id ∧ soundDevice d bs id ∧ sparesDevice d bs id) →
    ∃ os, (∀ v x, lastValue os v = some x → ∃ d ∈ devs, onDevice d bs.toNat id v x) ∧
      (∀ v x d, d ∈ devs → onDevice d bs.toNat id v x → ∃ y, lastValue os v = some y) ∧ sparesMetadata os ∧
      ∀ fuel, (∀ d ∈ devs, d.length < fuel) → ∀ p, sparesMetadata p →
        reconEach fuel bs id devs (.db (some ((AStore.init (reconOptions bs id)).apply p).enc)) =
          some (.db (some ((AStore.init (reconOptions bs id)).apply (p ++ os)).enc)) := by
  intro devs
  induction devs with
  | nil =>
    intro _
    exact ⟨[], fun v x h => (by cases h), fun v x d h => (by cases h), rfl, fun fuel _ p _ => by rw [List.append_nil]; rfl⟩
  | cons d rest ih =>
    intro h
    obtain ⟨a, s, sp⟩ := h d List.mem_cons_self
    obtain ⟨o, h1, -, h3⟩ := recon_ops a s
    have m1 := (h1.fromDevice (dev := d) fun _ hb => hb).spares sp
    obtain ⟨os, k1, k2, k3, k4⟩ := ih fun x hx => h x (List.mem_cons_of_mem _ hx)
    have happ : ∀ {a b : List IxOp}, sparesMetadata a → sparesMetadata b → sparesMetadata (a ++ b) := fun {a b} ha hb => by
      unfold sparesMetadata at *
      rw [lastValue_append, hb]; exact ha
    refine ⟨o ++ os, fun v x hx => ?_, fun v x e he hx => ?_, happ m1 k3, fun fuel hf p hp => ?_⟩
    · rw [lastValue_append] at hx
      cases e2 : lastValue os v with
      | some y =>
        rw [e2] at hx
        cases hx
        obtain ⟨e, h4, h5⟩ := k1 v _ e2
        exact ⟨e, List.mem_cons_of_mem _ h4, h5⟩
      | none =>
        rw [e2] at hx
        exact ⟨d, List.mem_cons_self, lastValue_scan h1 hx⟩
    · rw [lastValue_append]
      cases e2 : lastValue os v with
      | some y => exact ⟨y, rfl⟩
      | none =>
        rcases List.mem_cons.mp he with rfl | he
        · exact lastValue_complete h1 hx
        · obtain ⟨y, hy⟩ := k2 v x e he hx
          rw [e2] at hy; cases hy
    · unfold reconEach
      rw [h3 p hp fuel (hf d List.mem_cons_self)]
      simp only
      rw [k4 fuel (fun x hx => hf x (List.mem_cons_of_mem _ hx)) (p ++ o) (happ hp m1), List.append_assoc]

/-- What scanning one image after the other makes is the index of all of them. -/
theorem reconEach_indexOf {devs : List Bytes} {bs : UInt64} {id : UUID} (hne : devs ≠ [])
    (ha : ∀ d ∈ devs, ReconArgs d bs id ∧ wellFormedDevice d bs id) (hg : imagesAgree devs bs.toNat id)
    (hsp : ∀ d, ¬ imagesItem devs bs.toNat id metadataVersionKey d) :
    ∃ r : Bucket, r.IndexOfAll devs bs.toNat id ∧
      (∀ f : DBFile, f.fresh → ∀ fuel, (∀ d ∈ devs, d.length < fuel) → reconEach fuel bs id devs f = some (.db (some r))) ∧
      ∃ ix, OpenReadOnly (.db (some r)) = .ok (.db (some r), .ok ix) ∧ ix.view = .ok ⟨r, ~~~0⟩ := by
  have hall : ∀ d ∈ devs, ReconArgs d bs id ∧ soundDevice d bs id ∧ sparesDevice d bs id := fun d hd =>
    ⟨(ha d hd).1, (ha d hd).2.sound (ha d hd).1, fun x hx => by
      obtain ⟨y, -, hy⟩ := wellFormed_item (ha d hd).1 (ha d hd).2 hx
      exact hsp y ⟨d, hd, hy⟩⟩
  have main : ∃ ops, (∀ v x, lastValue ops v = some x → ∃ d ∈ devs, onDevice d bs.toNat id v x) ∧
      (∀ v x d, d ∈ devs → onDevice d bs.toNat id v x → ∃ y, lastValue ops v = some y) ∧ sparesMetadata ops ∧
      ∀ f : DBFile, f.fresh → ∀ fuel, (∀ d ∈ devs, d.length < fuel) → reconEach fuel bs id devs f =
        some (.db (some ((AStore.init (reconOptions bs id)).apply ops).enc)) := by
    cases devs with
    | nil => exact absurd rfl hne
    | cons d rest =>
      obtain ⟨os, k1, k2, k3, -⟩ := reconEach_ops (d :: rest) hall
      obtain ⟨a, s, sp⟩ := hall d List.mem_cons_self
      obtain ⟨o, h1, h2, -⟩ := recon_ops a s
      have m1 := (h1.fromDevice (dev := d) fun _ hb => hb).spares sp
      obtain ⟨os', q1, q2, q3, q4⟩ := reconEach_ops rest fun x hx => hall x (List.mem_cons_of_mem _ hx)
      refine ⟨o ++ os', fun v x hx => ?_, fun v x e he hx => ?_, ?_, fun f hf fuel hfu => ?_⟩
      · rw [lastValue_append] at hx
        cases e2 : lastValue os' v with
        | some y =>
          rw [e2] at hx
          cases hx
          obtain ⟨e, h4, h5⟩ := q1 v _ e2
          exact ⟨e, List.mem_cons_of_mem _ h4, h5⟩
        | none =>
          rw [e2] at hx
          exact ⟨d, List.mem_cons_self, lastValue_scan h1 hx⟩
      · rw [lastValue_append]
        cases e2 : lastValue os' v with
        | some y => exact ⟨y, rfl⟩
        | none =>
          rcases List.mem_cons.mp he with rfl | he
          · exact lastValue_complete h1 hx
          · obtain ⟨y, hy⟩ := q2 v x e he hx
            rw [e2] at hy; cases hy
      · unfold sparesMetadata at *
        rw [lastValue_append, q3]; exact m1
      · unfold reconEach
        rw [h2 f hf fuel (hfu d List.mem_cons_self)]
        simp only
        exact q4 fuel (fun x hx => hfu x (List.mem_cons_of_mem _ hx)) o m1
  obtain ⟨ops, h1, h2, h3, h4⟩ := main
  have hsnd : ∀ v x, Bucket.stores ((AStore.init (reconOptions bs id)).apply ops).enc v x → v ≠ metadataVersionKey →
      ∃ d, holdsItem x d ∧ imagesItem devs bs.toNat id v d := by
    intro v x hx hv
    rcases fresh_stores.mp hx with k | ⟨-, k, -⟩
    · obtain ⟨d, hd, hon⟩ := h1 v x k
      obtain ⟨y, hy1, hy2⟩ := wellFormed_item (ha d hd).1 (ha d hd).2 hon
      exact ⟨y, hy1, d, hd, hy2⟩
    · exact absurd k hv
  refine ⟨_, ⟨AStore.enc_wf (AStore.apply_sorted (AStore.init_sorted _) ops),
      ⟨_, fresh_stores.mpr (Or.inr ⟨h3, rfl, rfl⟩)⟩, hsp, hsnd, fun v d hd => ?_⟩, h4, _, openReadOnly_holds h3, rfl⟩
  have hd0 := hd
  obtain ⟨e, he, hi⟩ := hd0
  obtain ⟨x, hx⟩ := imageItem_onDevice (ha e he).1 hi
  obtain ⟨y, hy⟩ := h2 v x e he hx
  have hst := fresh_stores (o := reconOptions bs id).mpr (Or.inl hy)
  have hv : v ≠ metadataVersionKey := by
    rintro rfl
    exact hsp d hd
  obtain ⟨d', hd1, hd2⟩ := hsnd v y hst hv
  rw [hg v d d' hd hd2]
  exact ⟨y, hst, hd1⟩

/-- C121: several images of a file system — of its devices, or partial copies of one — that do not disagree about an item are scanned
one after the other into one index file, in any order (`devs'` are the images `devs` in the order in which they are scanned), and
then everything is recovered to an empty directory from a device `D`, no system call failing. Then all is recovered that iterating
over the items of all images together gets to (`b` is their index, see `Bucket.IndexOfAll.same`), each file with the
contents that these items give it, and nothing else; whatever the order. -/
theorem C121_images_seen (devs devs' : List Bytes) (bs : UInt64) (id : UUID) (hne : devs ≠ []) (hord : ∀ x, x ∈ devs ↔ x ∈ devs')
    (ha : ∀ d ∈ devs, ReconArgs d bs id ∧ wellFormedDevice d bs id) (hg : imagesAgree devs bs.toNat id) (b : Bucket)
    (hb : b.IndexOfAll devs bs.toNat id) (hcr : b.RangeOK 3 (KL2 228 256)) (hci : b.SeenIntact) (hok : b.RecoverOK) :
    ∃ N, ∀ rf fuel, N ≤ rf → N ≤ fuel → ∀ env D, Quiet env D → ∀ fs dest r, EmptyDest fs dest r → b.TreeReadable dest →
      b.SeenRecoverable D dest →
      ∃ f s', reconEach fuel bs id devs' .absent = some f ∧
        recoverCommand env rf fuel (some f) true false dest (RecState.start fs) = .ok () s' ∧ s'.silent ∧
        (∀ o d p0, b.SeenAt dest o d p0 → ∃ p, b.SeenAt dest o d p ∧ s'.fs.stat true p = some true ∧
          ∀ name e, b.entrySeen o d name e → e.location.typ ≠ 132 → usable name → 92 ∉ name →
            (e.typ = 1 → ∃ x size, s'.fs.readFile (goJoin p name) = some x ∧ b.knownSize o e.location.objectID size ∧
              b.fileSeen o e.location.objectID size D x) ∧
            (e.typ = 7 → ∃ x, s'.fs.readLink (goJoin p name) = some x ∧ b.targetSeen o e.location.objectID x)) ∧
        ∀ A i, s'.fs.down r A = some i →
          (s'.fs.isDirAt i = true ∧ ∃ o d, b.SeenAt dest o d (pathOf dest A)) ∨
          (∃ x o n size, s'.fs.inodes[i]? = some (.file x) ∧ b.ObjectAt dest 1 o n (pathOf dest A) ∧ b.knownSize o n size ∧
            b.fileSeen o n size D x) ∨
          ∃ x o n, s'.fs.inodes[i]? = some (.link x) ∧ b.ObjectAt dest 7 o n (pathOf dest A) ∧ b.targetSeen o n x := by
  have hI : ∀ v d, imagesItem devs' bs.toNat id v d → imagesItem devs bs.toNat id v d := fun v d ⟨x, h1, h2⟩ => ⟨x, (hord x).mpr h1, h2⟩
  have hne' : devs' ≠ [] := by
    rintro rfl
    obtain ⟨x, hx⟩ := List.exists_mem_of_ne_nil _ hne
    cases (hord x).mp hx
  obtain ⟨c, hc, h1, ix, h2, h3⟩ := reconEach_indexOf hne' (fun d hd => ha d ((hord d).mpr hd))
    (fun v d d' k1 k2 => hg v d d' (hI v d k1) (hI v d' k2)) (fun d hd => hb.spared d (hI _ d hd))
  have hs := hb.same hord hc
  obtain ⟨m, hm⟩ := hc.metadata
  obtain ⟨N, hN⟩ := C83_recovers_seen c hc.wf m hm (hs.rangeOK hcr) (hs.seenIntact hci) (hs.recoverOK hok)
  obtain ⟨L, hL⟩ : ∃ L, ∀ d ∈ devs', d.length < L := by
    have : ∀ l : List Bytes, ∃ L, ∀ d ∈ l, d.length < L := by
      intro l
      induction l with
      | nil => exact ⟨0, by simp⟩
      | cons x r ih =>
        obtain ⟨L, h⟩ := ih
        refine ⟨L + x.length + 1, fun d hd => ?_⟩
        rcases List.mem_cons.mp hd with rfl | hd
        · omega
        · have := h d hd
          omega
    exact this devs'
  refine ⟨N + L, fun rf fuel hrf hfuel env D hq fs dest r he ht hr => ?_⟩
  obtain ⟨s', k1, k2, k3, k4⟩ := hN rf (by omega) fuel (by omega) env D hq fs dest r he (hs.treeReadable ht) (hs.seenRecoverable hr)
  refine ⟨_, s', h1 .absent (Or.inl rfl) fuel (fun d hd => by have := hL d hd; omega), ?_, k2, fun o d p0 hp0 => ?_, fun A i hi => ?_⟩
  · have hopen : (openView (some (.db (some c))) : Rec Ix) (RecState.start fs) = .ok ⟨c, ~~~0⟩ (RecState.start fs) := by
      simp only [openView, h2, h3, Cmd.lift_ok]
    simp only [recoverCommand, Cmd.bind_def, hopen, if_true]
    exact k1
  · obtain ⟨p, l1, l2, l3⟩ := k3 o d p0 (hs.seenAt hp0)
    refine ⟨p, hs.symm.seenAt l1, l2, fun name e hen ht hun hbs => ?_⟩
    obtain ⟨l4, l5⟩ := l3 name e (hs.entrySeen hen) ht hun hbs
    refine ⟨fun h => ?_, fun h => ?_⟩
    · obtain ⟨x, size, l6, l7, l8⟩ := l4 h
      exact ⟨x, size, l6, hs.symm.knownSize l7, hs.symm.fileSeen l8⟩
    · obtain ⟨x, l6, l7⟩ := l5 h
      exact ⟨x, l6, hs.symm.targetSeen l7⟩
  · rcases k4 A i hi with ⟨l1, o, d, l2⟩ | ⟨x, o, n, size, l1, l2, l3, l4⟩ | ⟨x, o, n, l1, l2, l3⟩
    · exact Or.inl ⟨l1, o, d, hs.symm.seenAt l2⟩
    · exact Or.inr (Or.inl ⟨x, o, n, size, l1, hs.symm.objectAt l2, hs.symm.knownSize l3, hs.symm.fileSeen l4⟩)
    · exact Or.inr (Or.inr ⟨x, o, n, l1, hs.symm.objectAt l2, hs.symm.targetSeen l3⟩)

/-- The leaves of `exSeen` on two devices. -/
def exSplit : List Bytes := [leavesDevice (exSeenLeaves.take 3), leavesDevice (exSeenLeaves.drop 3)]

theorem exSplit_item {v : VKey} {d : Bytes} : imagesItem exSplit (4096 : UInt64).toNat uuidAllFs v d ↔ (v, d) ∈ leafItems exSeenLeaves := by
  have h1 : LeavesOK (exSeenLeaves.take 3) := fun l hl => exSeenLeaves_ok l (List.mem_of_mem_take hl)
  have h2 : LeavesOK (exSeenLeaves.drop 3) := fun l hl => exSeenLeaves_ok l (List.mem_of_mem_drop hl)
  have hs : leafItems exSeenLeaves = leafItems (exSeenLeaves.take 3) ++ leafItems (exSeenLeaves.drop 3) := by
    unfold leafItems
    rw [← List.flatMap_append, List.take_append_drop]
  rw [hs, List.mem_append]
  constructor
  · rintro ⟨x, hx, hi⟩
    simp only [exSplit, List.mem_cons, List.not_mem_nil, or_false] at hx
    rcases hx with rfl | rfl
    · exact Or.inl ((leaves_item h1).mp hi)
    · exact Or.inr ((leaves_item h2).mp hi)
  · rintro (h | h)
    · exact ⟨_, List.mem_cons_self, (leaves_item h1).mpr h⟩
    · exact ⟨_, List.mem_cons_of_mem _ List.mem_cons_self, (leaves_item h2).mpr h⟩

theorem exSplit_indexOf : exSeen.enc.IndexOfAll exSplit (4096 : UInt64).toNat uuidAllFs where
  wf := exSeen_indexOf.wf
  metadata := exSeen_indexOf.metadata
  spared d hd := exSeen_indexOf.spared d ((leaves_item exSeenLeaves_ok).mpr (exSplit_item.mp hd))
  sound v x hx hv := by
    obtain ⟨d, h1, h2⟩ := exSeen_indexOf.sound v x hx hv
    exact ⟨d, h1, exSplit_item.mpr ((leaves_item exSeenLeaves_ok).mp h2)⟩
  complete v d hd := exSeen_indexOf.complete v d ((leaves_item exSeenLeaves_ok).mpr (exSplit_item.mp hd))

/-- The hypotheses are met by the leaves of `exSeen` on two devices, scanned in the other order. Neither device alone has the file "c"
and the directory it is in. -/
example : exSplit ≠ [] ∧ (∀ x, x ∈ exSplit ↔ x ∈ exSplit.reverse) ∧
    (∀ d ∈ exSplit, ReconArgs d 4096 uuidAllFs ∧ wellFormedDevice d 4096 uuidAllFs) ∧ imagesAgree exSplit (4096 : UInt64).toNat uuidAllFs ∧
    exSeen.enc.IndexOfAll exSplit (4096 : UInt64).toNat uuidAllFs ∧ exSeen.enc.RangeOK 3 (KL2 228 256) ∧ exSeen.enc.SeenIntact ∧
    exSeen.enc.RecoverOK ∧ Quiet (imageEnv [4, 5, 6, 7]) [4, 5, 6, 7] ∧ EmptyDest exEmptyDir (ascii "/d") 1 ∧
    exSeen.enc.TreeReadable (ascii "/d") ∧ exSeen.enc.SeenRecoverable [4, 5, 6, 7] (ascii "/d") := by
  have h1 : LeavesOK (exSeenLeaves.take 3) := fun l hl => exSeenLeaves_ok l (List.mem_of_mem_take hl)
  have h2 : LeavesOK (exSeenLeaves.drop 3) := fun l hl => exSeenLeaves_ok l (List.mem_of_mem_drop hl)
  refine ⟨by simp [exSplit], fun x => List.mem_reverse.symm, fun d hd => ?_, fun v d d' k1 k2 => ?_, exSplit_indexOf, exSeen_range3,
    exSeen_chunks, exSeen_ends, ⟨fun _ _ => rfl, fun _ => rfl⟩, exEmptyDir_ok, exSeen_readable, exSeen_recoverable (by decide)⟩
  · simp only [exSplit, List.mem_cons, List.not_mem_nil, or_false] at hd
    rcases hd with rfl | rfl
    · exact ⟨leaves_args h1 (by decide), leaves_wellFormed h1⟩
    · exact ⟨leaves_args h2 (by decide), leaves_wellFormed h2⟩
  · exact exSeen_agrees v d d' ((leaves_item exSeenLeaves_ok).mpr (exSplit_item.mp k1)) ((leaves_item exSeenLeaves_ok).mpr (exSplit_item.mp k2))

end Btrfscue
