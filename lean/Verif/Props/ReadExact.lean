import Verif.Props.RescueFile
import Verif.Spec.ShortRead
/-!
# C50: exactly how much a read of a mounted file yields
-/

namespace Btrfscue

theorem Abutting.tail {e : ExtentMapEntry} {r : List ExtentMapEntry} (h : Abutting (e :: r)) :
    0 < e.length.toNat ∧ Abutting r ∧ ∀ x r', r = x :: r' → x.fileOffset.toNat = e.fileEnd := by
  cases r with
  | nil => exact ⟨h, trivial, by simp⟩
  | cons x r => exact ⟨h.1, h.2.2, by rintro x' r' he; cases he; exact h.2.1⟩

theorem Abutting.gapless : ∀ {m : List ExtentMapEntry} {off : Nat} (e : ExtentMapEntry) (r : List ExtentMapEntry),
    m = e :: r → Abutting m → e.fileOffset.toNat ≤ off → ∀ p, off ≤ p → (∃ x ∈ m, x.covers p) ∨ ∀ x ∈ m, x.fileEnd ≤ p := by
  intro m
  induction m with
  | nil => intro _ e r h; cases h
  | cons a m ih =>
    intro off e r he hab ho p hp
    cases he
    obtain ⟨h1, h2, h3⟩ := hab.tail
    by_cases hpe : p < a.fileEnd
    · exact .inl ⟨a, List.mem_cons_self, by omega, hpe⟩
    · cases m with
      | nil => right; intro x hx; rw [List.mem_singleton] at hx; subst hx; omega
      | cons x m =>
        have hx := h3 x m rfl
        rcases ih (off := p) x m rfl h2 (by omega) p (Nat.le_refl _) with ⟨y, hy, hc⟩ | h
        · exact .inl ⟨y, List.mem_cons_of_mem _ hy, hc⟩
        · right
          intro y hy
          rcases List.mem_cons.mp hy with rfl | hy
          · omega
          · exact h y hy

theorem readLoop_count {D : Bytes} {off L : Nat} (hL : off + L < 2 ^ 63) (hL0 : 0 < L) :
    ∀ (m : List ExtentMapEntry) (b : Nat) (buf : Bytes), ExtentsOK D m → Abutting m → buf.length = L → b ≤ L →
      (∀ e r, m = e :: r → off < e.fileEnd ∧ max off e.fileOffset.toNat = off + b) →
      ∃ buf', readLoop (some (imageReader D)) off m (b : Nat) buf =
        .ok (some ((bytesGot L b (m.map fun e => e.fileEnd - off) : Nat), buf')) ∧ buf'.length = L := by
  intro m
  induction m with
  | nil => intro b buf _ _ hb _ _; exact ⟨buf, rfl, hb⟩
  | cons e rest ih =>
    intro b buf hok hab hb hbL hst
    have hbound := hok.bounded e List.mem_cons_self
    have hrest : ExtentsOK D rest := ⟨hok.device, fun x hx => hok.bounded x (List.mem_cons_of_mem _ hx),
      (List.pairwise_cons.mp hok.ordered).2, fun x hx => hok.onDevice x (List.mem_cons_of_mem _ hx)⟩
    have hfe : e.fileEnd = e.fileOffset.toNat + e.length.toNat := rfl
    obtain ⟨h1, h2, h3⟩ := hab.tail
    obtain ⟨hs1, hs2⟩ := hst e rest rfl
    simp only [List.map_cons, bytesGot]
    by_cases hw : off + L - b ≤ off + b
    · -- nothing is wanted of this extent
      have : off + b = e.fileOffset.toNat := by omega
      rw [readLoop_break hbound (by omega) (by omega) hs1 (by omega), if_neg (by omega), show max b (L - b) = b by omega]
      exact ⟨buf, rfl, hb⟩
    · have hstep := readLoop_step (dev := some (imageReader D)) (off := off) (c := b) (e := e) (rest := rest) (buf := buf)
        hbound (by omega) (by omega) (rs := off + b) (re := min e.fileEnd (off + buf.length - b)) hs2.symm rfl (by omega)
      generalize hre : min e.fileEnd (off + buf.length - b) = re at hstep
      obtain ⟨w, hw', hwl, -⟩ := fillChunk_image (D := D) (e := e) (buf := buf) (dest := off + b - off)
        (chunk := re - (off + b)) (skip := off + b - e.fileOffset.toNat) (by omega) hok.device
        (fun hz => by have := hok.onDevice e List.mem_cons_self hz; omega)
      rw [hw', Go.ok_bind] at hstep
      simp only at hstep
      rw [hstep]
      generalize hbuf : buf.take (off + b - off) ++ (w ++ buf.drop (off + b - off + (re - (off + b)))) = buf1
      have hl1 : buf1.length = L := by
        rw [← hbuf]; simp only [List.length_append, List.length_take, hwl, List.length_drop]; omega
      by_cases hc : b + (e.fileEnd - off) ≤ L
      · rw [if_pos hc, show b + (re - (off + b)) = e.fileEnd - off by omega]
        refine ih _ buf1 hrest h2 hl1 (by omega) ?_
        intro x r hxr
        have hx := h3 x r hxr
        have hxp : 0 < x.length.toNat := by subst hxr; exact h2.tail.1
        have : x.fileEnd = x.fileOffset.toNat + x.length.toNat := rfl
        omega
      · rw [if_neg hc, show b + (re - (off + b)) = max b (L - b) by omega]
        cases rest with
        | nil => exact ⟨buf1, rfl, hl1⟩
        | cons x r =>
          have hx := h3 x r rfl
          have hxb := hrest.bounded x List.mem_cons_self
          have hxp : 0 < x.length.toNat := h2.tail.1
          have : x.fileEnd = x.fileOffset.toNat + x.length.toNat := rfl
          rw [readLoop_break hxb (by omega) (by omega) (by omega) (by omega)]
          exact ⟨buf1, rfl, hl1⟩

theorem readLoop_before {dev : Option ReaderAt} {off : Nat} {c : Int} {buf : Bytes} :
    ∀ (pre m : List ExtentMapEntry), (∀ x ∈ pre, x.fileEnd ≤ off) → off < 2 ^ 63 →
      readLoop dev off (pre ++ m) c buf = readLoop dev off m c buf := by
  intro pre
  induction pre with
  | nil => intros; rfl
  | cons e pre ih =>
    intro m h ho
    have he := h e List.mem_cons_self
    have hf : e.fileEnd = e.fileOffset.toNat + e.length.toNat := rfl
    have e2 : int64OfU64 (e.fileOffset + e.length) = (e.fileEnd : Int) := by
      have : (e.fileOffset + e.length).toNat = e.fileEnd := by
        rw [UInt64.toNat_add, Nat.mod_eq_of_lt (by omega)]; rfl
      rw [int64_small (by omega), this]
    rw [List.cons_append, readLoop]
    simp only [e2]
    rw [if_pos (by omega)]
    exact ih m (fun x hx => h x (List.mem_cons_of_mem _ hx)) ho

/-- C50, exactly: a read of `buf.length` bytes at `off`, in an extent after which the
file goes on without gaps, returns right bytes, and `bytesGot` of them, whatever the
number and the lengths of the extents. -/
theorem C50_read_exact (D : Bytes) (pre : List ExtentMapEntry) (e : ExtentMapEntry) (rest : List ExtentMapEntry)
    (buf : Bytes) (off : Nat) (hok : ExtentsOK D (pre ++ e :: rest)) (hab : Abutting (e :: rest)) (hoff : e.covers off)
    (hb : off + buf.length < 2 ^ 63) (hne : buf ≠ []) :
    ∃ d, extentFileRead (some (imageReader D)) (pre ++ e :: rest) buf off = .ok (.ok d) ∧
      d.length = bytesGot buf.length 0 ((e :: rest).map fun x => x.fileEnd - off) ∧
      ∀ i v, d[i]? = some v → fileByte D (pre ++ e :: rest) (off + i) v := by
  obtain ⟨o1, o2, o3⟩ := List.pairwise_append.mp hok.ordered
  have hpre : ∀ x ∈ pre, x.fileEnd ≤ off := fun x hx => by
    have := o3 x hx e List.mem_cons_self; have := hoff.1; omega
  obtain ⟨d, h1, h2, h3, -⟩ := C50_read_prefix_partial D (pre ++ e :: rest) buf off hok
    (by
      intro p p1 p2
      rcases hab.gapless e rest rfl hoff.1 p p1 with ⟨x, hx, hc⟩ | h
      · exact .inl ⟨x, List.mem_append_right _ hx, hc⟩
      · right
        intro x hx
        rcases List.mem_append.mp hx with hx | hx
        · have := hpre x hx; omega
        · exact h x hx) hb hne
  refine ⟨d, h1, ?_, h3⟩
  obtain ⟨buf', h4, h5⟩ := readLoop_count (D := D) (off := off) hb (List.length_pos_iff.mpr hne) (e :: rest) 0 buf
    ⟨hok.device, fun x hx => hok.bounded x (List.mem_append_right _ hx), o2,
      fun x hx => hok.onDevice x (List.mem_append_right _ hx)⟩ hab rfl (Nat.zero_le _)
    (by rintro x r hx; cases hx; have := hoff.1; have := hoff.2; omega)
  rw [← readLoop_before pre (e :: rest) hpre (by omega)] at h4
  have hle : bytesGot buf.length 0 ((e :: rest).map fun x => x.fileEnd - off) ≤ buf'.length := by
    obtain ⟨r, hr1, hr2⟩ := C67_read_never_crashes (some (imageReader D)) (pre ++ e :: rest) buf off (by omega) (by omega)
    by_cases hc : bytesGot buf.length 0 ((e :: rest).map fun x => x.fileEnd - off) ≤ buf'.length
    · exact hc
    · rcases readLoop_total (some (imageReader D)) off (by omega) (by omega) (pre ++ e :: rest) 0 buf (by omega)
        (by omega) (by omega) with h | ⟨c, b, h, h6, h7, h8⟩
      · exact absurd (h4.symm.trans h) (by simp)
      · have := h4.symm.trans h
        simp only [Go.ok.injEq, Option.some.injEq, Prod.mk.injEq] at this
        omega
  have := read_eq _ _ buf off h4 hle
  rw [h1] at this
  simp only [Go.ok.injEq, Except.ok.injEq] at this
  rw [this, List.length_take]
  omega

theorem bytesGot_full (L : Nat) : ∀ (ends : List Nat) (b : Nat), 0 < b → b < L → (b :: ends).Pairwise (· < ·) →
    ∀ init y z, b :: ends = init ++ [y, z] → (bytesGot L b ends = min L z ↔ y + z ≤ L) := by
  intro ends
  induction ends with
  | nil =>
    intro b _ _ _ init y z h
    have := congrArg List.length h
    simp at this
  | cons x r ih =>
    intro b hb hbL hp init y z h
    obtain ⟨p1, p2⟩ := List.pairwise_cons.mp hp
    have hbx := p1 x List.mem_cons_self
    have hz : z ∈ x :: r := by
      cases init with
      | nil =>
        simp only [List.nil_append, List.cons.injEq] at h
        rw [h.2.1, h.2.2]; simp
      | cons a init =>
        simp only [List.cons_append, List.cons.injEq] at h
        rw [h.2]; simp
    have hzx : x ≤ z := by
      rcases List.mem_cons.mp hz with rfl | hz
      · exact Nat.le_refl _
      · exact Nat.le_of_lt ((List.pairwise_cons.mp p2).1 z hz)
    rw [bytesGot]
    by_cases hc : b + x ≤ L
    · rw [if_pos hc]
      cases init with
      | nil =>
        simp only [List.nil_append, List.cons.injEq] at h
        obtain ⟨rfl, rfl, rfl⟩ := h
        simp only [bytesGot]; omega
      | cons a init =>
        simp only [List.cons_append, List.cons.injEq] at h
        exact ih x (by omega) (by omega) p2 init y z h.2
    · rw [if_neg hc]
      have hbz := p1 z hz
      have hyb : b ≤ y := by
        cases init with
        | nil => simp only [List.nil_append, List.cons.injEq] at h; omega
        | cons a init =>
          simp only [List.cons_append, List.cons.injEq] at h
          exact Nat.le_of_lt (p1 y (by rw [h.2]; simp))
      omega

theorem Abutting.increasing : ∀ {m : List ExtentMapEntry} {off : Nat}, Abutting m → (∀ e r, m = e :: r → off < e.fileEnd) →
    (m.map fun x => x.fileEnd - off).Pairwise (· < ·) := by
  intro m
  induction m with
  | nil => intros; exact .nil
  | cons e m ih =>
    intro off hab ho
    obtain ⟨h1, h2, h3⟩ := hab.tail
    have ho' := ho e m rfl
    have hn : ∀ x r, m = x :: r → e.fileEnd < x.fileEnd := by
      intro x r hx
      have := h3 x r hx
      have hxp : 0 < x.length.toNat := by subst hx; exact h2.tail.1
      have : x.fileEnd = x.fileOffset.toNat + x.length.toNat := rfl
      omega
    have hi := ih (off := off) h2 (fun x r hx => by have := hn x r hx; omega)
    refine List.pairwise_cons.mpr ⟨?_, hi⟩
    intro b hb
    cases m with
    | nil => simp at hb
    | cons x r =>
      have := hn x r rfl
      rcases List.mem_cons.mp hb with rfl | hb
      · show e.fileEnd - off < x.fileEnd - off
        omega
      · have : x.fileEnd - off < b := (List.pairwise_cons.mp hi).1 b hb
        show e.fileEnd - off < b
        omega

/-- C50: a read that starts in an extent and could go on in others is complete, i.e.
yields all it asks for up to the end of the file, exactly if it ends within the extent it
starts in, or asks for so much that its length is at least the distances of the ends of
the last two extents from its start, taken together. All other reads come back short,
although the file goes on. -/
theorem C50_complete_iff (D : Bytes) (pre : List ExtentMapEntry) (e : ExtentMapEntry) (rest init : List ExtentMapEntry)
    (y z : ExtentMapEntry) (hl : e :: rest = init ++ [y, z])
    (buf : Bytes) (off : Nat) (hok : ExtentsOK D (pre ++ e :: rest)) (hab : Abutting (e :: rest)) (hoff : e.covers off)
    (hb : off + buf.length < 2 ^ 63) (hne : buf ≠ []) :
    ∃ d, extentFileRead (some (imageReader D)) (pre ++ e :: rest) buf off = .ok (.ok d) ∧
      (d.length = min buf.length (z.fileEnd - off) ↔
        off + buf.length ≤ e.fileEnd ∨ (y.fileEnd - off) + (z.fileEnd - off) ≤ buf.length) := by
  obtain ⟨d, h1, h2, -⟩ := C50_read_exact D pre e rest buf off hok hab hoff hb hne
  refine ⟨d, h1, ?_⟩
  rw [h2]
  have hinc := hab.increasing (off := off) (by rintro x r hx; cases hx; exact hoff.2)
  have hoff2 := hoff.2
  have hlen := List.length_pos_iff.mpr hne
  have hm : (e :: rest).map (fun x => x.fileEnd - off) =
      init.map (fun x => x.fileEnd - off) ++ [y.fileEnd - off, z.fileEnd - off] := by rw [hl]; simp
  rw [List.map_cons] at hinc hm ⊢
  have hz : e.fileEnd - off < z.fileEnd - off ∧ e.fileEnd - off ≤ y.fileEnd - off := by
    have p1 := (List.pairwise_cons.mp hinc).1
    cases hi : init.map (fun x => x.fileEnd - off) with
    | nil =>
      rw [hi] at hm
      simp only [List.nil_append, List.cons.injEq] at hm
      refine ⟨p1 _ (by rw [hm.2]; simp), by omega⟩
    | cons a i =>
      rw [hi] at hm
      simp only [List.cons_append, List.cons.injEq] at hm
      exact ⟨p1 _ (by rw [hm.2]; simp), Nat.le_of_lt (p1 _ (by rw [hm.2]; simp))⟩
  rw [bytesGot, Nat.zero_add]
  by_cases c1 : e.fileEnd - off ≤ buf.length
  · rw [if_pos c1]
    by_cases c2 : e.fileEnd - off = buf.length
    · have : bytesGot buf.length (e.fileEnd - off) (rest.map fun x => x.fileEnd - off) = buf.length := by
        rw [c2]
        cases rest with
        | nil => rfl
        | cons x r =>
          have := (List.pairwise_cons.mp hinc).1 (x.fileEnd - off) (by simp)
          rw [List.map_cons, bytesGot, if_neg (by omega)]; omega
      rw [this]; omega
    · rw [bytesGot_full buf.length _ _ (by omega) (by omega) hinc _ _ _ hm]
      omega
  · rw [if_neg c1]; omega

/-- The hypotheses are met: a file of three extents of 4, 2 and 6 bytes. -/
def exThree : List ExtentMapEntry := [⟨0, 4, 2, 1, 1⟩, ⟨4, 2, 0, 0, 0⟩, ⟨6, 6, 0, 0, 0⟩]

theorem exThree_ok : ExtentsOK [9, 9, 1, 2, 3, 4] ([] ++ exThree) ∧ Abutting exThree := by
  refine ⟨⟨by decide, ?_, by simp [exThree, ExtentMapEntry.fileEnd], ?_⟩, by simp [exThree, Abutting, ExtentMapEntry.fileEnd]⟩
  · simp [exThree, ExtentMapEntry.fileEnd]
  · simp [exThree]

/-- Asking for eight bytes at offset 3 yields five of the nine left, for eleven eight; to get them all one has to
ask for twelve. -/
example : bytesGot 8 0 [1, 3, 9] = 5 ∧ bytesGot 11 0 [1, 3, 9] = 8 ∧ bytesGot 12 0 [1, 3, 9] = 9 := by decide

example : ∃ d, extentFileRead (some (imageReader [9, 9, 1, 2, 3, 4])) ([] ++ exThree) (List.replicate 8 7) 3 = .ok (.ok d) ∧
    d.length = 5 := by
  obtain ⟨d, h1, h2, -⟩ := C50_read_exact _ [] _ _ (List.replicate 8 7) 3 exThree_ok.1 exThree_ok.2
    ⟨by decide, by decide⟩ (by decide) (by decide)
  exact ⟨d, h1, h2.trans (by decide)⟩

end Btrfscue
