import Verif.Props.MountCrash
import Verif.Props.OpenExact
/-!
# C55: what opening a file of the mounted file system leads to
-/

namespace Btrfscue

/-- `d` is the payload of the extent item that iterating over the extents of inode `i` gets to
first. -/
def Bucket.firstExtent (b : Bucket) (o i : UInt64) (d : Bytes) : Prop :=
  ∃ off, b.seenData o 108 i off d ∧ ∀ off' d', b.seenData o 108 i off' d' → off ≤ off'

/-- C55, exactly, whatever the extent items contain: opening is answered with ENOENT if and only if
the inode has no extent item at all; otherwise there is a first one, and if its data is in it the
file has these bytes; if it is of another type and all extent items are there with all their
fields, and can be placed, the file consists of extents on the device; in every other case the
process ends. -/
theorem C55_open_outcome (b : Bucket) (hb : b.WF) (m : Bytes) (hm : b.stores metadataVersionKey m) (o i : UInt64) (h : b.Askable o i) :
    ((∃ off, b.hasKey o ⟨i, 108, off⟩) → ∃ d, b.firstExtent o i d) ∧
    ∃ N, ∀ fuel, N ≤ fuel →
      ((∃ c e, (newRescueNode o i).open fuel ⟨b, ~~~0⟩ none = .ok (c, .error e)) ↔ ∀ off, ¬ b.hasKey o ⟨i, 108, off⟩) ∧
      (∀ c e, (newRescueNode o i).open fuel ⟨b, ~~~0⟩ none = .ok (c, .error e) → e = .ENOENT) ∧
      ∀ d, b.firstExtent o i d →
        (∀ data, (Piece.inline data).heldBy d → (newRescueNode o i).open fuel ⟨b, ~~~0⟩ none = .ok (none, .ok (.data data))) ∧
        (∀ t, d[20]? = some t → t ≠ 0 → (∀ off' d', b.seenData o 108 i off' d' → b.mappable d') →
          ∃ c es, (newRescueNode o i).open fuel ⟨b, ~~~0⟩ none = .ok (c, .ok (.extents es))) ∧
        ((∀ data, ¬ (Piece.inline data).heldBy d) → ¬ (∃ t, d[20]? = some t ∧ t ≠ 0 ∧ ∀ off' d', b.seenData o 108 i off' d' → b.mappable d') →
          (newRescueNode o i).open fuel ⟨b, ~~~0⟩ none = .panic) := by
  obtain ⟨rd, its, hr, hy, hp, hk, hs⟩ := seen_run hb hm h.extents (fun v x hv ho => h.exact v x hv (ho ▸ h.entries.ordinary))
  obtain ⟨N0, hN⟩ := mappable_body hb hm h
  have hkey : (∃ off, b.hasKey o ⟨i, 108, off⟩) → ∃ off d, b.seenData o 108 i off d := by
    intro hk
    obtain ⟨off, g, h1, x, h2⟩ := run_first hk
    obtain ⟨d, hd⟩ := h.exact _ x h2 h.entries.ordinary
    exact ⟨off, d, g, x, h1, h2, hd⟩
  have hkey' : ∀ off d, b.seenData o 108 i off d → b.hasKey o ⟨i, 108, off⟩ := fun off d ⟨g, x, _, h2, _⟩ => ⟨g, x, h2⟩
  have hr' : (Ix.mk b (~~~0)).fileExtentItems o i = .ok rd := hr
  rcases yields_head hy with ⟨hnil, hno⟩ | ⟨rest, hcons, hyes⟩
  · obtain rfl : its = [] := List.map_eq_nil_iff.mp hnil
    have hnone : ∀ off d, ¬ b.seenData o 108 i off d := fun off d k => by
      obtain ⟨r, hr''⟩ := (hs off d).mpr k
      cases hr''
    have hnk : ∀ off, ¬ b.hasKey o ⟨i, 108, off⟩ := fun off k => by
      obtain ⟨off, d, k⟩ := hkey ⟨off, k⟩
      exact hnone off d k
    refine ⟨fun ⟨off, k⟩ => absurd k (hnk off), 0, fun fuel _ => ?_⟩
    have hopen : (newRescueNode o i).open fuel ⟨b, ~~~0⟩ none = .ok (none, .error .ENOENT) := by
      unfold RescueNode.open newRescueNode
      rw [hr']
      simp only [Go.ok_bind]
      rw [hno]
      rfl
    rw [hopen]
    refine ⟨⟨fun _ => hnk, fun _ => ⟨_, _, rfl⟩⟩, ?_, fun d ⟨off, k, _⟩ => absurd k (hnone off d)⟩
    intro c e he
    simp only [Go.ok.injEq, Prod.mk.injEq, Except.error.injEq] at he
    exact he.2.symm
  · cases its with
    | nil => cases hcons
    | cons e its =>
      obtain ⟨off, r, d⟩ := e
      have hcons' := hcons
      simp only [List.map_cons, List.cons.injEq] at hcons
      obtain ⟨rfl, -⟩ := hcons
      have hseen : b.seenData o 108 i off d := (hs off d).mp ⟨r, List.mem_cons_self⟩
      rw [List.pairwise_cons] at hp
      have hmin : ∀ off' d', b.seenData o 108 i off' d' → off ≤ off' := by
        intro off' d' k1
        obtain ⟨r', hr''⟩ := (hs off' d').mpr k1
        rcases List.mem_cons.mp hr'' with h | h
        · simp only [Prod.mk.injEq] at h
          rw [h.1]; exact UInt64.le_refl _
        · exact UInt64.le_of_lt (hp.1 _ h)
      have huniq : ∀ d', b.firstExtent o i d' → d' = d := by
        rintro d' ⟨off', k1, k2⟩
        have hge := k2 off d hseen
        obtain ⟨r', hr''⟩ := (hs off' d').mpr k1
        rcases List.mem_cons.mp hr'' with h | h
        · simp only [Prod.mk.injEq] at h
          exact h.2.2
        · have := hp.1 _ h
          rw [UInt64.le_iff_toNat_le] at hge
          rw [UInt64.lt_iff_toNat_lt] at this
          simp only at this
          omega
      refine ⟨fun _ => ⟨d, off, hseen, hmin⟩, max N0 (its.length + 2), fun fuel hf => ?_⟩
      have hfold := fold_good (body := extentMapBody fuel ⟨b, ~~~0⟩) b.mappable (fun s => StripesKept fuel ⟨b, ~~~0⟩ s.2) ((off, r, d) :: its)
        (fun e he hg s hI => (hN fuel (by omega) _ _ _ (hk e he) s hI).1 hg)
        (fun e he hg s hI => (hN fuel (by omega) _ _ _ (hk e he) s hI).2 hg) ([], none) (fun _ h => by cases h)
      have hopen : (newRescueNode o i).open fuel ⟨b, ~~~0⟩ none =
          (FileExtentItem.isInline ⟨d, []⟩ >>= fun il => if il then (FileExtentItem.data ⟨d, []⟩ >>= fun x => .ok (none, .ok (.data x)))
            else (foldRange (extentMapBody fuel ⟨b, ~~~0⟩) ([], none) (((off, r, d) :: its).map fun e => (e.2.1, ⟨e.2.2, []⟩)) >>=
              fun s => .ok (s.1.2, .ok (.extents s.1.1)))) := by
        unfold RescueNode.open newRescueNode newExtentFile
        rw [hr']
        simp only [Go.ok_bind]
        rw [rangeLoop_eq _ hy fuel _ (by rw [List.length_map, List.length_cons]; omega)]
        simp only at hyes
        simp only [hyes, Bool.not_true, Bool.false_eq_true, if_false]
        cases FileExtentItem.isInline ⟨d, []⟩ with
        | panic => rfl
        | hang => rfl
        | ok il =>
          cases il with
          | true => rfl
          | false =>
            simp only [Go.ok_bind, Bool.false_eq_true, if_false]
            cases foldRange (extentMapBody fuel ⟨b, ~~~0⟩) ([], none) (((off, r, d) :: its).map fun e => (e.2.1, ⟨e.2.2, []⟩)) <;> rfl
      have hnoerr : ¬ ∃ c e, (newRescueNode o i).open fuel ⟨b, ~~~0⟩ none = .ok (c, .error e) := by
        rw [hopen]
        rintro ⟨c, e, he⟩
        obtain ⟨il, -, he⟩ := Go.bind_eq_ok.mp he
        cases il with
        | true =>
          rw [if_pos rfl] at he
          obtain ⟨x, -, he⟩ := Go.bind_eq_ok.mp he
          simp only [Go.ok.injEq, Prod.mk.injEq, reduceCtorEq, and_false] at he
        | false =>
          rw [if_neg (by decide)] at he
          obtain ⟨x, -, he⟩ := Go.bind_eq_ok.mp he
          simp only [Go.ok.injEq, Prod.mk.injEq, reduceCtorEq, and_false] at he
      refine ⟨⟨fun h => absurd h hnoerr, fun h => absurd (hkey' off d hseen) (h off)⟩, fun c e h => absurd ⟨c, e, h⟩ hnoerr, ?_⟩
      intro d' hd'
      obtain rfl := huniq d' hd'
      rw [hopen]
      refine ⟨?_, ?_, ?_⟩
      · rintro data ⟨f, rest', rfl, k1, k2⟩
        obtain ⟨i1, i2⟩ := inline_data f data rest' [] k1 k2
        rw [i2, i1]
        rfl
      · intro t ht hz hall
        have : FileExtentItem.isInline ⟨d', []⟩ = .ok false := by
          rw [isInline_eq, ht]
          simp only [beq_eq_false_iff_ne.mpr hz]
        rw [this]
        simp only [Go.ok_bind, Bool.false_eq_true, if_false]
        rcases hfold with ⟨⟨⟨off1, r1, d1⟩, e1, e2⟩, -⟩ | ⟨-, s', -, e3⟩
        · exact absurd (hall off1 d1 ((hs _ _).mp ⟨r1, e1⟩)) e2
        · rw [e3]
          exact ⟨_, _, rfl⟩
      · intro h1 h2
        by_cases hft : firstThere d'
        · obtain ⟨t, ht, h0⟩ := hft
          have hz : t ≠ 0 := fun hz => by
            obtain ⟨data, hd⟩ := h0 hz
            exact h1 data hd
          have : FileExtentItem.isInline ⟨d', []⟩ = .ok false := by
            rw [isInline_eq, ht]
            simp only [beq_eq_false_iff_ne.mpr hz]
          rw [this]
          simp only [Go.ok_bind, Bool.false_eq_true, if_false]
          rcases hfold with ⟨-, e3⟩ | ⟨e1, -⟩
          · rw [e3]; rfl
          · refine absurd ⟨t, ht, hz, fun off1 d1 k => ?_⟩ h2
            obtain ⟨r1, hr1⟩ := (hs _ _).mpr k
            exact e1 _ hr1
        · rcases first_bad hft with k1 | ⟨k1, k2⟩
          · rw [k1]; rfl
          · rw [k1, k2]; rfl

/-- The hypotheses are met by the store of `Props/MountCrash.lean`, for the file "a" and for the
directory, which has no extents: opening that one is answered with ENOENT. -/
example : ∃ N, ∀ fuel, N ≤ fuel → ∃ c e, (newRescueNode 5 256).open fuel ⟨exAsk.enc, ~~~0⟩ none = .ok (c, .error e) := by
  obtain ⟨-, N, h⟩ := C55_open_outcome exAsk.enc (AStore.enc_wf exAsk_sorted) [] (enc_stores.mpr (by simp [exAsk, exOneExtent])) 5 256 (exAsk_askable 256)
  refine ⟨N, fun fuel hf => (h fuel hf).1.mpr fun off hk => ?_⟩
  obtain ⟨g, x, hx⟩ := enc_hasKey.mp hk
  have : ∀ e ∈ exAsk, e.1.key.typ = 108 → e.1.key.objectID = 257 := by decide +kernel
  exact absurd (this _ hx rfl) (show (256 : UInt64) ≠ 257 by decide)

example : ∃ d, exAsk.enc.firstExtent 5 257 d :=
  (C55_open_outcome exAsk.enc (AStore.enc_wf exAsk_sorted) [] (enc_stores.mpr (by simp [exAsk, exOneExtent])) 5 257 (exAsk_askable 257)).1
    ⟨0, enc_hasKey.mpr ⟨10, mkItem ⟨257, 108, 0⟩ (FileExtentItemRec.mk 9 4 0 0 0 1 16 4 0 4).layout,
      by simp only [exAsk, exOneExtent, List.mem_cons, true_or, or_true]⟩⟩

end Btrfscue
