import Verif.Spec.MountHang
import Verif.Props.RecoverHang
import Verif.Proof.MountCrash
/-!
# C120: what keeps a request to a mounted file system from being answered
-/

namespace Btrfscue

/-- A loop ends where the iteration does, if its body ends while an invariant holds. -/
theorem rangeLoop_nhI {σ : Type} {body : σ → Range → Slice → Go (σ × Bool)} (I : σ → Prop) (hb : ∀ s r d, I s → body s r d ≠ .hang)
    (hI : ∀ s r d s' bk, I s → body s r d = .ok (s', bk) → I s') {n : Nat}
    {rd : Range × Slice} (h : Range.EndsIn n rd) : ∀ s, I s → rangeLoop body n s rd ≠ .hang := by
  induction h with
  | @done n rd h =>
    intro s _
    obtain ⟨r, d⟩ := rd
    simp only [rangeLoop]
    simp only at h
    rw [h]; simp
  | @crash n rd h =>
    intro s hs
    obtain ⟨r, d⟩ := rd
    simp only [rangeLoop]
    by_cases hn : r.hasNext = true
    · rw [if_pos hn]
      intro hh
      rcases Go.bind_eq_hang.mp hh with h1 | ⟨⟨s', bk⟩, -, h2⟩
      · exact hb _ _ _ hs h1
      · cases bk with
        | true => simp at h2
        | false => simp only at h; simp [h] at h2
    · rw [if_neg hn]; simp
  | @step n rd rd' h _ ih =>
    intro s hs
    obtain ⟨r, d⟩ := rd
    simp only [rangeLoop]
    by_cases hn : r.hasNext = true
    · rw [if_pos hn]
      intro hh
      rcases Go.bind_eq_hang.mp hh with h1 | ⟨⟨s', bk⟩, h3, h2⟩
      · exact hb _ _ _ hs h1
      · cases bk with
        | true => simp at h2
        | false =>
          simp only at h
          simp only [h, Bool.false_eq_true, if_false, Go.ok_bind] at h2
          exact ih _ (hI _ _ _ _ _ hs h3) h2
    · rw [if_neg hn]; simp

/-- A loop that is not left early does not end where the iteration does not. -/
theorem rangeLoop_endless {σ : Type} {body : σ → Range → Slice → Go (σ × Bool)}
    (hb : ∀ s r d s' bk, body s r d = .ok (s', bk) → bk = false) :
    ∀ (fuel : Nat) (s : σ) (rd : Range × Slice), Range.Endless rd → ∀ x, rangeLoop body fuel s rd ≠ .ok x := by
  intro fuel
  induction fuel with
  | zero => intro s rd _ x h; cases h
  | succ fuel ih =>
    rintro s ⟨r0, d0⟩ h x hx
    have hn : r0.hasNext = true := by
      cases hn : r0.hasNext with
      | true => rfl
      | false => exact absurd (.done hn) (h 1)
    simp only [rangeLoop, if_pos hn] at hx
    obtain ⟨⟨s', bk⟩, h1, hx⟩ := Go.bind_eq_ok.mp hx
    cases hb _ _ _ _ _ h1
    simp only [Bool.false_eq_true, if_false] at hx
    obtain ⟨rd', h2, hx⟩ := Go.bind_eq_ok.mp hx
    exact ih _ _ (fun k hk => h (k + 1) (.step h2 hk)) _ hx

section
variable (ix : Ix)

theorem physical_nh {rf : Nat} {c : Option (List StripeMapEntry)} {l : UInt64}
    (h : c = none → ∀ rd, ix.chunks = .ok rd → Range.EndsIn rf rd) : ix.physical rf c l ≠ .hang := by
  have hrest : ∀ m, NH (lookupStripe m l >>= fun x => (Pure.pure (some m, x) : Go (Option (List StripeMapEntry) × (UInt64 × UInt64)))) :=
    fun m => inferInstance
  unfold Ix.physical
  cases hc : c with
  | some m => exact (hrest m).out
  | none =>
    intro hh
    rcases Go.bind_eq_hang.mp hh with h1 | ⟨m, -, h2⟩
    · simp only [Ix.buildStripeMap] at h1
      rcases Go.bind_eq_hang.mp h1 with h3 | ⟨rd, h4, h3⟩
      · exact (inferInstance : NH ix.chunks).out h3
      · rcases Go.bind_eq_hang.mp h3 with h5 | ⟨x, -, h5⟩
        · exact rangeLoop_nh (fun s r d => inferInstance) (h hc rd h4) _ h5
        · cases h5
    · exact (hrest m).out h2

instance (ix : Ix) (o k : UInt64) : NH (ix.xattrItems o k) := by unfold Ix.xattrItems; infer_instance
instance (m : DirMap) (r : Range) (d : DirItem) : NH (dirMapBody m r d) := by unfold dirMapBody; infer_instance
instance (a : Bytes) (s : Option Bytes) (r : Range) (d : DirItem) : NH (getXAttrBody a s r d) := by
  have : NH (DirItem.dataLen d) := by unfold DirItem.dataLen; infer_instance
  have : NH (DirItem.data d) := by unfold DirItem.data; infer_instance
  unfold getXAttrBody; infer_instance
instance (s : List Bytes) (r : Range) (d : DirItem) : NH (listXAttrBody s r d) := by unfold listXAttrBody; infer_instance

instance (ix : Ix) (n : RescueNode) : NH (n.getAttr ix) := by
  unfold RescueNode.getAttr
  cases n.attr with
  | some a => infer_instance
  | none =>
    refine nh_bind inferInstance fun r => ?_
    cases r <;> infer_instance

instance (ix : Ix) (n : RescueNode) : NH (n.readlink ix) := by
  have : NH (ix.findFileExtentItem n.owner n.ixInode) := by unfold Ix.findFileExtentItem; infer_instance
  unfold RescueNode.readlink
  refine nh_bind inferInstance fun r => ?_
  cases r <;> infer_instance

theorem openDirLoop_nh : ∀ l, NH (openDirLoop l)
  | [] => by unfold openDirLoop; infer_instance
  | e :: r => by
    have := openDirLoop_nh r
    unfold openDirLoop; infer_instance

instance (buf : Bytes) (a b : Int) : NH (zeroAt buf a b) := by unfold zeroAt; infer_instance
instance (rd : ReaderAt) (buf : Bytes) (a b c : Int) : NH (readInto rd buf a b c) := by
  unfold readInto
  split <;> infer_instance
instance (dev : Option ReaderAt) (e : ExtentMapEntry) (buf : Bytes) (a b c : Int) : NH (fillChunk dev e buf a b c) := by
  unfold fillChunk
  split
  · infer_instance
  · split <;> infer_instance

theorem readLoop_nh (dev : Option ReaderAt) (off : Int) : ∀ m n buf, NH (readLoop dev off m n buf)
  | [], _, _ => by unfold readLoop; infer_instance
  | e :: r, n, buf => by
    have := readLoop_nh dev off r
    have hc : ∀ a b c (k : Bytes → Int), NH (fillChunk dev e buf a b c >>= fun x => match x with
        | none => (pure none : Go (Option (Int × Bytes)))
        | some buf' => readLoop dev off r (k buf') buf') := fun a b c k => nh_bind inferInstance fun x => by cases x <;> infer_instance
    unfold readLoop
    dsimp only
    generalize (if off < int64OfU64 e.fileOffset then int64OfU64 e.fileOffset else off) = rs
    generalize (if int64OfU64 (e.fileOffset + e.length) < wrapInt64 (off + (buf.length - n)) then int64OfU64 (e.fileOffset + e.length) else wrapInt64 (off + (buf.length - n))) = re
    split
    · infer_instance
    · split
      · infer_instance
      · split
        · infer_instance
        · exact hc _ _ _ fun _ => _

instance (dev : Option ReaderAt) (m : List ExtentMapEntry) (buf : Bytes) (off : Int) : NH (extentFileRead dev m buf off) := by
  have := readLoop_nh dev off
  unfold extentFileRead
  split
  · infer_instance
  · refine nh_bind inferInstance fun x => ?_
    rcases x with _ | ⟨a, b⟩
    · infer_instance
    · infer_instance

end

/-- C120, for every index, well formed or not: there is a number of iterations such that, however many more are allowed, only
requests for which some iteration does not end are not answered. -/
theorem C120_hang_cause (ix : Ix) (dev : Option ReaderAt) : ∃ N, ∀ fuel ≥ N, ∀ s q,
    mountStep fuel ix dev s q = .hang → ix.holdsUp s q := by
  obtain ⟨N1, hN⟩ := ix.bounded
  obtain ⟨N2, hX⟩ := uniform_bound (p := fun x n => ∀ rd, ix.xattrItems x.1 x.2 = .ok rd → Range.Endless rd ∨ Range.EndsIn n rd)
    (fun x n m hp hm rd hr => endless_or_mono (hp rd hr) hm) fun x => bound_of _
  refine ⟨N1 + N2, fun fuel hf s q hh => ?_⟩
  replace hN := hN.mono (m := fuel) (by omega)
  replace hX := fun o i rd h => endless_or_mono (hX (o, i) rd h) (m := fuel) (by omega)
  have hens : ∀ n : RescueNode, n.ensureDirItems fuel ix = .hang →
      n.dirItems = [] ∧ ∃ rd, ix.dirItems n.owner n.ixInode = .ok rd ∧ Range.Endless rd := by
    intro n hn
    unfold RescueNode.ensureDirItems at hn
    split at hn
    · cases hn
    · rename_i h0
      refine ⟨List.length_eq_zero_iff.mp (by omega), ?_⟩
      rcases Go.bind_eq_hang.mp hn with h1 | ⟨rd, hrd, hn⟩
      · exact absurd h1 NH.out
      refine ⟨rd, hrd, (hN.dirs _ _ rd hrd).resolve_right fun he => ?_⟩
      rcases Go.bind_eq_hang.mp hn with h1 | ⟨x, -, h1⟩
      · exact rangeLoop_nh (fun s r d => inferInstance) he _ h1
      · cases h1
  unfold mountStep at hh
  cases q with
  | getAttr h =>
    simp only [MountReq.target] at hh
    cases hn : s.nodes[h]? with
    | none => rw [hn] at hh; cases hh
    | some n =>
      rw [hn] at hh
      simp only [nodeStep] at hh
      rcases Go.bind_eq_hang.mp hh with h1 | ⟨x, -, h1⟩
      · exact NH.out h1
      · cases h1
  | lookup h name =>
    simp only [MountReq.target] at hh
    cases hn : s.nodes[h]? with
    | none => rw [hn] at hh; cases hh
    | some n =>
      rw [hn] at hh
      simp only [nodeStep] at hh
      refine ⟨n, hn, hens n ?_⟩
      rcases Go.bind_eq_hang.mp hh with h1 | ⟨⟨x, y⟩, -, h1⟩
      · unfold RescueNode.lookup at h1
        rcases Go.bind_eq_hang.mp h1 with h1 | ⟨n', -, h1⟩
        · exact h1
        · exfalso
          cases hf : n'.dirItems.find name with
          | none => rw [hf] at h1; cases h1
          | some d =>
            rw [hf] at h1
            simp only at h1
            exact NH.out h1
      · exfalso
        cases y <;> cases h1
  | openDir h ord =>
    simp only [MountReq.target] at hh
    cases hn : s.nodes[h]? with
    | none => rw [hn] at hh; cases hh
    | some n =>
      rw [hn] at hh
      simp only [nodeStep] at hh
      refine ⟨n, hn, hens n ?_⟩
      rcases Go.bind_eq_hang.mp hh with h1 | ⟨⟨x, y⟩, -, h1⟩
      · unfold RescueNode.openDir at h1
        rcases Go.bind_eq_hang.mp h1 with h1 | ⟨n', -, h1⟩
        · exact h1
        · rcases Go.bind_eq_hang.mp h1 with h1 | ⟨l, -, h1⟩
          · exact absurd h1 (openDirLoop_nh _).out
          · cases h1
      · cases h1
  | «open» h =>
    simp only [MountReq.target] at hh
    cases hn : s.nodes[h]? with
    | none => rw [hn] at hh; cases hh
    | some n =>
      rw [hn] at hh
      simp only [nodeStep] at hh
      rcases Go.bind_eq_hang.mp hh with h1 | ⟨⟨x, y⟩, -, h1⟩
      · unfold RescueNode.open at h1
        rcases Go.bind_eq_hang.mp h1 with h1 | ⟨⟨r, e⟩, hrd, h1⟩
        · exact absurd h1 NH.out
        simp only at h1
        split at h1
        · cases h1
        rename_i hnx
        rcases Go.bind_eq_hang.mp h1 with h1 | ⟨b, hb, h1⟩
        · exact absurd h1 NH.out
        cases b with
        | true =>
          rw [if_pos rfl] at h1
          exact absurd h1 NH.out
        | false =>
          refine ⟨n, (r, e), hn, hrd, by simpa using hnx, hb, ?_⟩
          refine Classical.byContradiction fun hno => ?_
          rw [not_or] at hno
          rw [if_neg (by simp)] at h1
          rcases Go.bind_eq_hang.mp h1 with h1 | ⟨⟨f, c⟩, -, h1⟩
          · unfold newExtentFile at h1
            rw [hrd, Go.ok_bind] at h1
            rw [if_neg (by simpa using hnx)] at h1
            rcases Go.bind_eq_hang.mp h1 with h1 | ⟨⟨f, c⟩, -, h1⟩
            · have hext := (hN.extents _ _ _ hrd).resolve_left fun he => hno.1 he
              refine rangeLoop_nhI (fun st => st.2 = none → s.cache = none) (fun st r d hst => ?_) (fun st r d st' bk hst hb => ?_)
                hext ([], s.cache) (fun h => h) h1
              · have hph : ∀ l, ix.physical fuel st.2 l ≠ .hang := fun l => physical_nh ix fun hc rd hrd =>
                  (hN.chunks rd hrd).resolve_left fun he => hno.2 ⟨hst hc, rd, hrd, he⟩
                have hph : ∀ l, NH (ix.physical fuel st.2 l) := fun l => ⟨hph l⟩
                have : NH (extentMapBody fuel ix st r d) := by
                  unfold extentMapBody; infer_instance
                exact this.out
              · unfold extentMapBody at hb
                obtain ⟨dbn, -, hb⟩ := Go.bind_eq_ok.mp hb
                simp only at hb
                by_cases h0 : 0 < dbn
                · rw [if_pos h0] at hb
                  obtain ⟨⟨c, p1, p2⟩, hp, hb⟩ := Go.bind_eq_ok.mp hb
                  obtain ⟨k, -, hb⟩ := Go.bind_eq_ok.mp hb
                  obtain ⟨nb, -, hb⟩ := Go.bind_eq_ok.mp hb
                  obtain ⟨of, -, hb⟩ := Go.bind_eq_ok.mp hb
                  cases hb
                  have hc : ∃ m, c = some m := by
                    unfold Ix.physical at hp
                    revert hp
                    cases st.2 with
                    | none =>
                      intro hp
                      obtain ⟨m, -, hp⟩ := Go.bind_eq_ok.mp hp
                      obtain ⟨lk, -, hp⟩ := Go.bind_eq_ok.mp hp
                      cases hp
                      exact ⟨m, rfl⟩
                    | some m =>
                      intro hp
                      obtain ⟨m, -, hp⟩ := Go.bind_eq_ok.mp hp
                      obtain ⟨lk, -, hp⟩ := Go.bind_eq_ok.mp hp
                      cases hp
                      exact ⟨m, rfl⟩
                  obtain ⟨m, rfl⟩ := hc
                  intro hh; cases hh
                · rw [if_neg h0, Go.ok_bind] at hb
                  obtain ⟨k, -, hb⟩ := Go.bind_eq_ok.mp hb
                  obtain ⟨nb, -, hb⟩ := Go.bind_eq_ok.mp hb
                  obtain ⟨of, -, hb⟩ := Go.bind_eq_ok.mp hb
                  cases hb
                  exact hst
            · cases h1
          · cases f <;> cases h1
      · exfalso
        cases y <;> cases h1
  | getXAttr h a =>
    simp only [MountReq.target] at hh
    cases hn : s.nodes[h]? with
    | none => rw [hn] at hh; cases hh
    | some n =>
      rw [hn] at hh
      simp only [nodeStep] at hh
      rcases Go.bind_eq_hang.mp hh with h1 | ⟨x, -, h1⟩
      · unfold RescueNode.getXAttr at h1
        rcases Go.bind_eq_hang.mp h1 with h1 | ⟨rd, hrd, h1⟩
        · exact absurd h1 NH.out
        refine ⟨n, rd, hn, hrd, (hX _ _ rd hrd).resolve_right fun he => ?_⟩
        rcases Go.bind_eq_hang.mp h1 with h1 | ⟨⟨x, y⟩, -, h1⟩
        · exact rangeLoop_nh (fun s r d => inferInstance) he _ h1
        · cases x <;> cases h1
      · cases h1
  | listXAttr h =>
    simp only [MountReq.target] at hh
    cases hn : s.nodes[h]? with
    | none => rw [hn] at hh; cases hh
    | some n =>
      rw [hn] at hh
      simp only [nodeStep] at hh
      rcases Go.bind_eq_hang.mp hh with h1 | ⟨x, -, h1⟩
      · unfold RescueNode.listXAttr at h1
        rcases Go.bind_eq_hang.mp h1 with h1 | ⟨rd, hrd, h1⟩
        · exact absurd h1 NH.out
        refine ⟨n, rd, hn, hrd, (hX _ _ rd hrd).resolve_right fun he => ?_⟩
        rcases Go.bind_eq_hang.mp h1 with h1 | ⟨⟨x, y⟩, -, h1⟩
        · exact rangeLoop_nh (fun s r d => inferInstance) he _ h1
        · cases h1
      · cases h1
  | readlink h =>
    simp only [MountReq.target] at hh
    cases hn : s.nodes[h]? with
    | none => rw [hn] at hh; cases hh
    | some n =>
      rw [hn] at hh
      simp only [nodeStep] at hh
      rcases Go.bind_eq_hang.mp hh with h1 | ⟨x, -, h1⟩
      · exact NH.out h1
      · cases h1
  | fileAttr i =>
    simp only [MountReq.target] at hh
    cases hn : s.files[i]? with
    | none => rw [hn] at hh; cases hh
    | some f =>
      rw [hn] at hh
      simp only [fileStep] at hh
      cases hf2 : f.2.2 with
      | data b => rw [hf2] at hh; cases hh
      | extents m =>
        rw [hf2] at hh
        simp only at hh
        rcases Go.bind_eq_hang.mp hh with h1 | ⟨x, -, h1⟩
        · unfold extentFileGetAttr at h1
          rcases Go.bind_eq_hang.mp h1 with h1 | ⟨x, -, h1⟩
          · exact NH.out h1
          · cases x with
            | none => cases h1
            | some ii => exact NH.out h1
        · cases h1
  | read i buf off =>
    simp only [MountReq.target] at hh
    cases hn : s.files[i]? with
    | none => rw [hn] at hh; cases hh
    | some f =>
      rw [hn] at hh
      simp only [fileStep] at hh
      cases hf2 : f.2.2 with
      | data b => rw [hf2] at hh; cases hh
      | extents m =>
        rw [hf2] at hh
        simp only at hh
        rcases Go.bind_eq_hang.mp hh with h1 | ⟨x, -, h1⟩
        · exact NH.out h1
        · cases h1

/-- C120 for a whole session: if it is not finished, however many iterations are allowed, the requests before some request
have been answered, and some iteration that this one starts does not end. -/
theorem C120_session_cause (ix : Ix) (dev : Option ReaderAt) : ∃ N, ∀ fuel ≥ N, ∀ s qs, mountRunAll fuel ix dev s qs = .hang →
    ∃ before q after s' as, qs = before ++ q :: after ∧ mountRunAll fuel ix dev s before = .ok (s', as) ∧ ix.holdsUp s' q := by
  obtain ⟨N, hN⟩ := C120_hang_cause ix dev
  refine ⟨N, fun fuel hf s qs => ?_⟩
  induction qs generalizing s with
  | nil => intro h; cases h
  | cons q r ih =>
    intro h
    rw [mountRunAll] at h
    rcases Go.bind_eq_hang.mp h with h1 | ⟨⟨s', a⟩, h1, h⟩
    · exact ⟨[], q, r, s, [], rfl, rfl, hN fuel hf s q h1⟩
    rcases Go.bind_eq_hang.mp h with h2 | ⟨x, -, h⟩
    · obtain ⟨before, q', after, s'', as, rfl, h3, h4⟩ := ih s' h2
      refine ⟨q :: before, q', after, s'', a :: as, rfl, ?_, h4⟩
      rw [mountRunAll, h1, Go.ok_bind]
      simp only [h3]
      rfl
    · cases h

/-- C120 (what is proved): on an index where wherever there is anything to iterate over the range is well behaved (C33), the requests
of every session are answered, unless one of them ends the process (C116). Missing: indexes where an iteration does not end
(`C120_opendir_hangs`). -/
theorem C120_answered_partial (b : Bucket) (hb : b.WF) (m : Bytes) (hm : b.stores metadataVersionKey m) (h : b.RecoverOK)
    (hx : ∀ o id off, b.hasKey o ⟨id, 24, off⟩ → b.RangeOK o (KL2 24 id)) (G : UInt64) (dev : Option ReaderAt) :
    ∃ N, ∀ fuel ≥ N, ∀ s qs, mountRunAll fuel ⟨b, G⟩ dev s qs ≠ .hang := by
  have hle := h.loopsEnd hb hm G
  have hxs : ∀ o id rd, (Ix.mk b G).xattrItems o id = .ok rd → ∃ n, Range.EndsIn n rd := by
    obtain ⟨l, hl, rfl⟩ := hb.exists_abs
    intro o id rd hr
    refine range_ends hl ⟨m, hm⟩ (KL2_before (t := 24) (by decide)) ?_ hr
    rintro ⟨⟨i, t, off⟩, hk, h1, h2⟩
    simp only [KF] at h1 h2
    subst h1; subst h2
    exact hx _ _ off hk
  obtain ⟨N, hN⟩ := C120_session_cause ⟨b, G⟩ dev
  refine ⟨N, fun fuel hf s qs hh => ?_⟩
  obtain ⟨before, q, after, s', as, -, -, hq⟩ := hN fuel hf s qs hh
  have ends : ∀ {rd : Range × Slice}, (∃ n, Range.EndsIn n rd) → ¬ Range.Endless rd := fun ⟨n, hn⟩ he => he n hn
  cases q with
  | lookup i n => obtain ⟨n, -, -, rd, hrd, he⟩ := hq; exact ends (hle.dirs _ _ _ hrd) he
  | openDir i n => obtain ⟨n, -, -, rd, hrd, he⟩ := hq; exact ends (hle.dirs _ _ _ hrd) he
  | «open» i =>
    obtain ⟨n, rd, -, hrd, -, -, he | ⟨-, rd', hrd', he⟩⟩ := hq
    · exact ends (hle.extents _ _ _ hrd) he
    · exact ends (hle.chunks _ hrd') he
  | getXAttr i a => obtain ⟨n, rd, -, hrd, he⟩ := hq; exact ends (hxs _ _ _ hrd) he
  | listXAttr i => obtain ⟨n, rd, -, hrd, he⟩ := hq; exact ends (hxs _ _ _ hrd) he
  | getAttr i => exact hq
  | readlink i => exact hq
  | fileAttr i => exact hq
  | read i b o => exact hq

/-- The index of `exLoopStore`, with a directory that contains itself, meets these conditions. -/
example (dev : Option ReaderAt) : ∃ N, ∀ fuel ≥ N, ∀ s qs, mountRunAll fuel ⟨exLoopStore.enc, ~~~0⟩ dev s qs ≠ .hang :=
  C120_answered_partial _ exLoopStore_ok.1 [] exLoopStore_ok.2.1 exLoopStore_ok.2.2 (fun o id off hk => absurd hk (no_type_of (by decide +kernel))) _ _

/-- The converse for directories and lists of attributes: where the iteration that the request starts does not end, there is never an
answer. -/
theorem C120_never_answered (ix : Ix) (dev : Option ReaderAt) (s : MountState) (q : MountReq) (h : ix.holdsUp s q)
    (hq : (∃ i n, q = .lookup i n) ∨ (∃ i o, q = .openDir i o) ∨ ∃ i, q = .listXAttr i) :
    ∀ fuel r, mountStep fuel ix dev s q ≠ .ok r := by
  intro fuel r hr
  have hens : ∀ (n n' : RescueNode), n.dirItems = [] → (∃ rd, ix.dirItems n.owner n.ixInode = .ok rd ∧ Range.Endless rd) →
      n.ensureDirItems fuel ix ≠ .ok n' := by
    rintro n n' h0 ⟨rd, hrd, he⟩ hn
    unfold RescueNode.ensureDirItems at hn
    rw [if_neg (by simp [h0]), hrd, Go.ok_bind] at hn
    obtain ⟨x, hx, -⟩ := Go.bind_eq_ok.mp hn
    refine rangeLoop_endless (fun s r d s' bk hb => ?_) _ _ _ he _ hx
    unfold dirMapBody at hb
    obtain ⟨nm, -, hb⟩ := Go.bind_eq_ok.mp hb
    cases hb; rfl
  rcases hq with ⟨i, nm, rfl⟩ | ⟨i, o, rfl⟩ | ⟨i, rfl⟩
  · obtain ⟨n, hn, h0, h⟩ := h
    unfold mountStep at hr
    simp only [MountReq.target, hn, nodeStep] at hr
    obtain ⟨x, hx, -⟩ := Go.bind_eq_ok.mp hr
    unfold RescueNode.lookup at hx
    obtain ⟨n', hn', -⟩ := Go.bind_eq_ok.mp hx
    exact hens _ _ h0 h hn'
  · obtain ⟨n, hn, h0, h⟩ := h
    unfold mountStep at hr
    simp only [MountReq.target, hn, nodeStep] at hr
    obtain ⟨x, hx, -⟩ := Go.bind_eq_ok.mp hr
    unfold RescueNode.openDir at hx
    obtain ⟨n', hn', -⟩ := Go.bind_eq_ok.mp hx
    exact hens _ _ h0 h hn'
  · obtain ⟨n, rd, hn, hrd, he⟩ := h
    unfold mountStep at hr
    simp only [MountReq.target, hn, nodeStep] at hr
    obtain ⟨x, hx, -⟩ := Go.bind_eq_ok.mp hr
    unfold RescueNode.listXAttr at hx
    rw [hrd, Go.ok_bind] at hx
    obtain ⟨x, hx, -⟩ := Go.bind_eq_ok.mp hx
    refine rangeLoop_endless (fun s r d s' bk hb => ?_) _ _ _ he _ hx
    unfold listXAttrBody at hb
    obtain ⟨nm, -, hb⟩ := Go.bind_eq_ok.mp hb
    cases hb; rfl

/-- C120 is false of the code: on an index of three items, the mounted file system never answers the opening of the directory
`rescue`, the first request of a session. -/
theorem C120_opendir_hangs (dev : Option ReaderAt) (ord : DirMap → DirMap) (fuel : Nat) :
    mountStep fuel ⟨exLostMain.enc, ~~~0⟩ dev {} (.openDir 0 ord) = .hang := by
  let E := (VKey.mk 5 (KL2 84 256) (~~~0)).encode
  let i1 : VKey × Bytes := (⟨5, ⟨256, 1, 0⟩, 10⟩, mkItem ⟨256, 1, 0⟩ (List.replicate 160 0))
  let i2 : VKey × Bytes := (⟨5, ⟨256, 84, 1⟩, 10⟩, mkItem ⟨256, 84, 1⟩ (exEntry ⟨257, 1, 0⟩ 1 [97]))
  have hr : (Ix.mk exLostMain.enc (~~~0)).dirItems 5 256 =
      .ok (Range.at exLostMain.enc E i2, ⟨exEntry ⟨257, 1, 0⟩ 1 [97], []⟩) := by decide +kernel
  have hn2 : (Range.at exLostMain.enc E i2).hasNext = true := by decide +kernel
  have hn1 : (Range.at exLostMain.enc E i1).hasNext = true := by decide +kernel
  have hx2 : (Range.at exLostMain.enc E i2).next =
      .ok (Range.at exLostMain.enc E i1, ⟨List.replicate 160 0, []⟩) := by decide +kernel
  have hx1 : (Range.at exLostMain.enc E i1).next =
      .ok (Range.at exLostMain.enc E i2, ⟨exEntry ⟨257, 1, 0⟩ 1 [97], []⟩) := by decide +kernel
  obtain ⟨m1, hm1⟩ : ∃ m, DirItem.name ⟨List.replicate 160 0, []⟩ = .ok m := Go.isOk_iff.mp (by decide +kernel)
  obtain ⟨m2, hm2⟩ : ∃ m, DirItem.name ⟨exEntry ⟨257, 1, 0⟩ 1 [97], []⟩ = .ok m := Go.isOk_iff.mp (by decide +kernel)
  have key : ∀ fuel, (∀ s, rangeLoop dirMapBody fuel s (Range.at exLostMain.enc E i2, ⟨exEntry ⟨257, 1, 0⟩ 1 [97], []⟩) = .hang) ∧
      ∀ s, rangeLoop dirMapBody fuel s (Range.at exLostMain.enc E i1, ⟨List.replicate 160 0, []⟩) = .hang := by
    intro fuel
    induction fuel with
    | zero => exact ⟨fun _ => rfl, fun _ => rfl⟩
    | succ n ih =>
      refine ⟨fun s => ?_, fun s => ?_⟩
      · rw [rangeLoop, if_pos hn2]
        simp only [dirMapBody, hm2, Go.ok_bind, Go.pure_eq, Bool.false_eq_true, if_false, hx2]
        exact ih.2 _
      · rw [rangeLoop, if_pos hn1]
        simp only [dirMapBody, hm1, Go.ok_bind, Go.pure_eq, Bool.false_eq_true, if_false, hx1]
        exact ih.1 _
  unfold mountStep
  simp only [MountReq.target, show (({} : MountState).nodes)[0]? = some topRescueNode from rfl, nodeStep, RescueNode.openDir,
    RescueNode.ensureDirItems]
  rw [if_neg (by decide)]
  rw [show topRescueNode.owner = 5 from rfl, show topRescueNode.ixInode = 256 from rfl, hr, Go.ok_bind, (key fuel).1]
  rfl

/-- The request meets the condition of `C120_hang_cause`. -/
example (ord : DirMap → DirMap) : (Ix.mk exLostMain.enc (~~~0)).holdsUp {} (.openDir 0 ord) :=
  ⟨topRescueNode, rfl, rfl, exLostMain_endless⟩

end Btrfscue
