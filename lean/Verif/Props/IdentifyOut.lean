import Verif.Model.Output
import Verif.Proof.Tabwriter
import Verif.Proof.ToString
import Verif.Props.Identify
import Verif.Props.Uuid
/-!
# C93: what `identify` prints
-/

namespace Btrfscue

variable {F : Type}

/-- The fields of an entry as they are to be shown. -/
def FSEntry.fields (fe : F → Bytes) (e : FSEntry F) : List Bytes :=
  [e.fsid.toText, decimal e.count.toNat, fe e.entropy, decimal e.blockSize.toNat]

/-- The width of text on the screen, if it is ASCII. -/
def AsciiWidth (wd : Bytes → Nat) : Prop := ∀ c : Bytes, (∀ b ∈ c, b < 128) → wd c = c.length

/-- An entropy is shown as some ASCII text without blanks, tabs and line ends. -/
def EntropyText (fe : F → Bytes) : Prop := ∀ x, fe x ≠ [] ∧ ∀ b ∈ fe x, 33 ≤ b.toNat ∧ b.toNat < 127

theorem uuid_bytes (u : UUID) : ∀ b ∈ u.toText, 33 ≤ b.toNat ∧ b.toNat < 127 := by
  rw [C05_uuid_text_canonical]
  have hd : ∀ n, n < 16 → 33 ≤ (lowerDigit n).toNat ∧ (lowerDigit n).toNat < 127 := by decide
  have hx : ∀ l : Bytes, ∀ b ∈ hexOf l, 33 ≤ b.toNat ∧ b.toNat < 127 := by
    intro l b hb
    obtain ⟨v, -, hv⟩ := List.mem_flatMap.mp hb
    have hlt := v.toNat_lt
    simp only [List.mem_cons, List.not_mem_nil, or_false] at hv
    rcases hv with rfl | rfl
    · exact hd _ (by omega)
    · exact hd _ (by omega)
  have h45 : ∀ b ∈ ([45] : Bytes), 33 ≤ b.toNat ∧ b.toNat < 127 := by decide
  have happ : ∀ x y : Bytes, (∀ b ∈ x, 33 ≤ b.toNat ∧ b.toNat < 127) → (∀ b ∈ y, 33 ≤ b.toNat ∧ b.toNat < 127) →
      ∀ b ∈ x ++ y, 33 ≤ b.toNat ∧ b.toNat < 127 := by
    intro x y h1 h2 b hb
    rcases List.mem_append.mp hb with h | h
    · exact h1 b h
    · exact h2 b h
  unfold canonicalText
  exact happ _ _ (happ _ _ (happ _ _ (happ _ _ (happ _ _ (happ _ _ (happ _ _ (happ _ _ (hx _) h45) (hx _)) h45) (hx _)) h45)
    (hx _)) h45) (hx _)

theorem visible_plain {c : Bytes} (h : ∀ b ∈ c, 33 ≤ b.toNat ∧ b.toNat < 127) : plainText c := by
  intro b hb
  have := h b hb
  refine ⟨?_, ?_, ?_, ?_, ?_⟩ <;> rintro rfl <;> simp at this

theorem fields_visible {fe : F → Bytes} (hfe : EntropyText fe) (e : FSEntry F) :
    ∀ c ∈ e.fields fe, c ≠ [] ∧ ∀ b ∈ c, 33 ≤ b.toNat ∧ b.toNat < 127 := by
  have hdec : ∀ n, decimal n ≠ [] ∧ ∀ b ∈ decimal n, 33 ≤ b.toNat ∧ b.toNat < 127 := fun n =>
    ⟨decimal_ne_nil n, fun b hb => by have := decimal_digit hb; omega⟩
  simp only [FSEntry.fields, List.forall_mem_cons]
  refine ⟨⟨?_, uuid_bytes _⟩, hdec _, hfe _, hdec _, by simp⟩
  intro h
  have := C05_uuid_text_length e.fsid
  rw [h] at this; cases this

theorem entryLine_eq (fe : F → Bytes) (e : FSEntry F) : entryLine fe e = tabLine (e.fields fe) := by
  simp [entryLine, FSEntry.fields, tabLine]

/-- C93: without `--machine`, an aligned table: a line of headings, then one line for each
entry. -/
theorem C93_table (wd : Bytes → Nat) (fe : F → Bytes) (hfe : EntropyText fe) (occ : List (FSEntry F)) :
    alignedTable wd ([ascii "fsid", ascii "count", ascii "entropy", ascii "block size"] :: occ.map (FSEntry.fields fe))
      (printEntries false wd fe occ) := by
  have h := tabwrite_aligned (p := tabParams 32) (wd := wd) rfl rfl rfl
    ([ascii "fsid", ascii "count", ascii "entropy", ascii "block size"] :: occ.map (FSEntry.fields fe)) 4 (by omega)
    (by
      intro r hr
      rcases List.mem_cons.mp hr with rfl | hr
      · rfl
      · obtain ⟨e, -, rfl⟩ := List.mem_map.mp hr; rfl)
    (by
      intro r hr
      rcases List.mem_cons.mp hr with rfl | hr
      · decide
      · obtain ⟨e, -, rfl⟩ := List.mem_map.mp hr
        exact fun c hc => visible_plain (fields_visible hfe e c hc).2)
  have e1 : tabLine [ascii "fsid", ascii "count", ascii "entropy", ascii "block size"] =
      ascii "fsid\tcount\tentropy\tblock size\n" := by decide
  rw [List.map_cons, List.flatten_cons, List.map_map, e1] at h
  have e2 : (tabLine ∘ FSEntry.fields fe) = entryLine fe := by funext e; exact (entryLine_eq fe e).symm
  rw [e2] at h
  exact h

/-- The tabs after a cell of width `w` in a column whose widest cell has width `m`. -/
theorem tabPad_tabs {w m : Nat} (h : w ≤ m) : tabPad (tabParams 9) w (m + 1) = List.replicate (m / 4 - w / 4 + 1) 9 := by
  unfold tabPad tabParams
  simp only [↓reduceIte]
  rw [if_neg (by decide)]
  congr 1
  have h1 : (m + 1 + 4 - 1) / 4 * 4 - w + 4 - 1 = 4 * (m / 4 + 1) + 3 - w := by omega
  omega

theorem printEntries_machine (wd : Bytes → Nat) (fe : F → Bytes) (hfe : EntropyText fe) (occ : List (FSEntry F)) :
    printEntries true wd fe occ =
      (occ.map fun e => tabRow (tabParams 9) wd (tableWidth (tabParams 9) wd (occ.map (FSEntry.fields fe))) 0 (e.fields fe) ++
        [10]).flatten := by
  have e2 : entryLine fe = (tabLine ∘ FSEntry.fields fe) := by funext e; exact entryLine_eq fe e
  unfold printEntries
  simp only [Bool.not_true, Bool.false_eq_true, if_false, if_true, List.nil_append]
  rw [e2, ← List.map_map, tabwrite_table (occ.map (FSEntry.fields fe)) 4 (by omega)
    (by
      intro r hr
      obtain ⟨e, -, rfl⟩ := List.mem_map.mp hr; rfl)
    (by
      intro r hr
      obtain ⟨e, -, rfl⟩ := List.mem_map.mp hr
      exact fun c hc => visible_plain (fields_visible hfe e c hc).2), List.map_map]
  rfl

/-- `m` is the length of the longest text among `l`. -/
def longest (l : List Bytes) (m : Nat) : Prop := (∀ c ∈ l, c.length ≤ m) ∧ ∃ c ∈ l, c.length = m

/-- C93, `--machine`: there is no line of headings, and one line for each entry: FSID,
count, entropy, block size. The FSID is followed by one tab; the count by one tab, and one more for
each multiple of four digits that the longest count has more; likewise the entropy. -/
theorem C93_machine_partial (wd : Bytes → Nat) (hwd : AsciiWidth wd) (fe : F → Bytes) (hfe : EntropyText fe)
    (occ : List (FSEntry F)) (hne : occ ≠ []) :
    ∃ mc me, longest (occ.map fun e => decimal e.count.toNat) mc ∧ longest (occ.map fun e => fe e.entropy) me ∧
      printEntries true wd fe occ = (occ.map fun e =>
        e.fsid.toText ++ ([9] ++
          (decimal e.count.toNat ++ (List.replicate (mc / 4 - (decimal e.count.toNat).length / 4 + 1) 9 ++
            (fe e.entropy ++ (List.replicate (me / 4 - (fe e.entropy).length / 4 + 1) 9 ++
              (decimal e.blockSize.toNat ++ [10]))))))).flatten := by
  have hw : ∀ e : FSEntry F, ∀ c ∈ e.fields fe, wd c = c.length := fun e c hc =>
    hwd c fun b hb => by
      have := ((fields_visible hfe e c hc).2 b hb).2
      rw [UInt8.lt_iff_toNat_lt]; show _ < 128; omega
  generalize hW : tableWidth (tabParams 9) wd (occ.map (FSEntry.fields fe)) = W
  have hcol : ∀ j < 4, ∃ m, W j = m + 1 ∧ longest (occ.map fun e => (e.fields fe).getD j []) m := by
    intro j hj
    have h := tableWidth_spec (p := tabParams 9) (wd := wd) (occ.map (FSEntry.fields fe)) 4 j
      (by intro r hr; obtain ⟨e, -, rfl⟩ := List.mem_map.mp hr; rfl) hj rfl rfl (by simpa using hne)
    rw [hW] at h
    have hg : ∀ e : FSEntry F, (e.fields fe)[j]? = some ((e.fields fe).getD j []) := by
      intro e
      have : j < (e.fields fe).length := hj
      simp [List.getD, this]
    obtain ⟨h1, r, hr, c, h2, h3⟩ := h
    refine ⟨c.length, ?_, ?_, ?_⟩
    · obtain ⟨e, -, rfl⟩ := List.mem_map.mp hr
      rw [h3, hw e c (List.mem_of_getElem? h2)]
    · intro c' hc'
      obtain ⟨e, he, rfl⟩ := List.mem_map.mp hc'
      have := h1 _ (List.mem_map.mpr ⟨e, he, rfl⟩) _ (hg e)
      obtain ⟨e', -, rfl⟩ := List.mem_map.mp hr
      rw [h3, hw e' c (List.mem_of_getElem? h2), hw e _ (List.mem_of_getElem? (hg e))] at this
      omega
    · obtain ⟨e, he, rfl⟩ := List.mem_map.mp hr
      refine ⟨c, List.mem_map.mpr ⟨e, he, ?_⟩, rfl⟩
      rw [hg e] at h2
      exact Option.some.inj h2
  obtain ⟨m0, h0, h0'⟩ := hcol 0 (by omega)
  obtain ⟨m1, h1, h1'⟩ := hcol 1 (by omega)
  obtain ⟨m2, h2, h2'⟩ := hcol 2 (by omega)
  have hm0 : m0 = 36 := by
    obtain ⟨c, hc, rfl⟩ := h0'.2
    obtain ⟨e, -, rfl⟩ := List.mem_map.mp hc
    exact C05_uuid_text_length e.fsid
  subst hm0
  refine ⟨m1, m2, h1', h2', ?_⟩
  rw [printEntries_machine wd fe hfe, hW]
  congr 1
  refine List.map_congr_left fun e he => ?_
  have p0 : wd e.fsid.toText = 36 := by rw [hw e _ (by simp [FSEntry.fields])]; exact C05_uuid_text_length _
  have p1 : wd (decimal e.count.toNat) = (decimal e.count.toNat).length := hw e _ (by simp [FSEntry.fields])
  have p2 : wd (fe e.entropy) = (fe e.entropy).length := hw e _ (by simp [FSEntry.fields])
  have l1 : (decimal e.count.toNat).length ≤ m1 := h1'.1 _ (List.mem_map.mpr ⟨e, he, rfl⟩)
  have l2 : (fe e.entropy).length ≤ m2 := h2'.1 _ (List.mem_map.mpr ⟨e, he, rfl⟩)
  simp only [FSEntry.fields, tabRow, h0, h1, h2, p0, p1, p2, tabPad_tabs l1, tabPad_tabs l2, tabPad_tabs (Nat.le_refl 36),
    List.append_assoc]
  rfl

/-- C93 is false of the code: with `--machine` the fields are not always separated by one
tab. If one FSID was found 1000 times and another 3 times, the count of the second is followed
by two tabs, and a tool that takes the third tab-separated field gets nothing. -/
theorem C93_two_tabs_refuted (wd : Bytes → Nat) (hwd : AsciiWidth wd) (u v : UUID) :
    printEntries true wd (fun _ : Nat => ascii "3.500000") [⟨u, 1000, 0, 16384⟩, ⟨v, 3, 0, 16384⟩] =
      u.toText ++ (ascii "\t1000\t3.500000\t16384\n" ++ (v.toText ++ ascii "\t3\t\t3.500000\t16384\n")) := by
  obtain ⟨mc, me, h1, h2, h3⟩ := C93_machine_partial wd hwd (fun _ : Nat => ascii "3.500000")
    (by have : ascii "3.500000" ≠ [] ∧ ∀ b ∈ ascii "3.500000", 33 ≤ b.toNat ∧ b.toNat < 127 := by decide
        exact fun _ => this) [⟨u, 1000, 0, 16384⟩, ⟨v, 3, 0, 16384⟩] (by simp)
  have hmc : mc = 4 := by
    obtain ⟨a, c, hc, rfl⟩ := h1
    have k := a (decimal 1000) (by simp)
    have k4 : (decimal 1000).length = 4 := by decide
    simp only [List.map_cons, List.map_nil, List.mem_cons, List.not_mem_nil, or_false] at hc
    rcases hc with rfl | rfl
    · decide
    · exact absurd k (by decide)
  have hme : me = 8 := by
    obtain ⟨a, c, hc, rfl⟩ := h2
    simp only [List.map_cons, List.map_nil, List.mem_cons, List.not_mem_nil, or_false, or_self] at hc
    rw [hc]; decide
  subst hmc; subst hme
  rw [h3]
  have e1 : decimal (1000 : UInt64).toNat = ascii "1000" := by decide
  have e2 : decimal (3 : UInt64).toNat = ascii "3" := by decide
  have e3 : decimal (16384 : UInt32).toNat = ascii "16384" := by decide
  simp only [List.map_cons, List.map_nil, e1, e2, e3, List.flatten_cons, List.flatten_nil, List.append_nil, List.append_assoc]
  rfl

theorem replicate_tabs_inj {a c : Nat} {x y : Bytes} (hx : x ≠ [] ∧ ∀ b ∈ x, 33 ≤ b.toNat ∧ b.toNat < 127)
    (hy : y ≠ [] ∧ ∀ b ∈ y, 33 ≤ b.toNat ∧ b.toNat < 127) {r q : Bytes}
    (h : List.replicate a 9 ++ (x ++ r) = List.replicate c 9 ++ (y ++ q)) : a = c ∧ x ++ r = y ++ q := by
  have head : ∀ {x : Bytes}, (x ≠ [] ∧ ∀ b ∈ x, 33 ≤ b.toNat ∧ b.toNat < 127) → ∀ t z : Bytes, ¬ (x ++ t = 9 :: z) := by
    intro x hx t z h
    obtain ⟨b, l, rfl⟩ := List.exists_cons_of_ne_nil hx.1
    have h9 := (List.cons.inj h).1
    have := hx.2 b (by simp)
    rw [h9] at this; simp at this
  induction a generalizing c with
  | zero =>
    cases c with
    | zero => exact ⟨rfl, h⟩
    | succ c => exact absurd h (head hx _ _)
  | succ a ih =>
    cases c with
    | zero => exact absurd h.symm (head hy _ _)
    | succ c =>
      obtain ⟨h1, h2⟩ := ih (c := c) (List.cons.inj h).2
      exact ⟨by rw [h1], h2⟩

/-- C93, `--machine`: the printed text determines the entries (their FSIDs, counts, block sizes,
and entropies as far as they are shown). -/
theorem C93_machine_recoverable (wd : Bytes → Nat) (hwd : AsciiWidth wd) (fe : F → Bytes) (hfe : EntropyText fe)
    (occ occ' : List (FSEntry F)) (h : printEntries true wd fe occ = printEntries true wd fe occ') :
    (occ.map fun e => (e.fsid, e.count, fe e.entropy, e.blockSize)) =
      occ'.map fun e => (e.fsid, e.count, fe e.entropy, e.blockSize) := by
  have hform : ∀ occ : List (FSEntry F), ∃ a c : FSEntry F → Nat, printEntries true wd fe occ = (occ.map fun e =>
        e.fsid.toText ++ (9 ::
          (decimal e.count.toNat ++ (9 :: (List.replicate (a e) 9 ++
            (fe e.entropy ++ (9 :: (List.replicate (c e) 9 ++
              (decimal e.blockSize.toNat ++ [10])))))))) ).flatten := by
    intro occ
    by_cases hne : occ = []
    · subst hne
      exact ⟨fun _ => 0, fun _ => 0, by rw [printEntries_machine wd fe hfe]; rfl⟩
    · obtain ⟨mc, me, -, -, h3⟩ := C93_machine_partial wd hwd fe hfe occ hne
      refine ⟨fun e => mc / 4 - (decimal e.count.toNat).length / 4, fun e => me / 4 - (fe e.entropy).length / 4, ?_⟩
      rw [h3]
      simp only [List.replicate_succ, List.cons_append, List.nil_append]
  obtain ⟨a, c, h1⟩ := hform occ
  obtain ⟨a', c', h2⟩ := hform occ'
  rw [h1, h2] at h
  clear h1 h2 hform
  have hno : ∀ {x : Bytes} {s : UInt8}, (x ≠ [] ∧ ∀ b ∈ x, 33 ≤ b.toNat ∧ b.toNat < 127) → s.toNat < 33 → s ∉ x := by
    intro x s hx hs hm
    have := (hx.2 s hm).1; omega
  induction occ generalizing occ' with
  | nil =>
    cases occ' with
    | nil => rfl
    | cons e' r' =>
      exfalso
      have := congrArg List.length h
      simp at this
  | cons e r ih =>
    cases occ' with
    | nil =>
      exfalso
      have := congrArg List.length h
      simp at this
    | cons e' r' =>
      have v := fields_visible hfe e
      have v' := fields_visible hfe e'
      simp only [FSEntry.fields, List.forall_mem_cons] at v v'
      obtain ⟨v1, v2, v3, v4, -⟩ := v
      obtain ⟨v1', v2', v3', v4', -⟩ := v'
      simp only [List.map_cons, List.flatten_cons, List.append_assoc, List.cons_append, List.nil_append] at h
      obtain ⟨k1, h⟩ := sep_inj (hno v1 (by decide)) (hno v1' (by decide)) h
      obtain ⟨k2, h⟩ := sep_inj (hno v2 (by decide)) (hno v2' (by decide)) h
      obtain ⟨-, h⟩ := replicate_tabs_inj v3 v3' h
      obtain ⟨k3, h⟩ := sep_inj (hno v3 (by decide)) (hno v3' (by decide)) h
      obtain ⟨-, h⟩ := replicate_tabs_inj v4 v4' h
      obtain ⟨k4, h⟩ := sep_inj (hno v4 (by decide)) (hno v4' (by decide)) h
      rw [List.map_cons, List.map_cons, ih r' h, C05_uuid_text_injective _ _ k1, UInt64.toNat_inj.mp (decimal_inj k2), k3,
        UInt32.toNat_inj.mp (decimal_inj k4)]

/-- C93 for the whole command on a roomy device image (see C48): once the samples are chosen,
`identify --machine` prints one line for each FSID of the sampled blocks that occurs often
enough, with its count, highest counts first; the fields are separated by tabs, at least one. -/
theorem C93_image_partial [LinearOrder F] (wd : Bytes → Nat) (hwd : AsciiWidth wd) (fe : F → Bytes) (hfe : EntropyText fe)
    (dev : Bytes) (o : IdentifyOptions) (hb : o.blockSize.toNat < 2 ^ 32)
    (hmin : 126 ≤ o.blockSize.toNat) (hlen : dev.length < 2 ^ 63) (hroom : roomy dev.length o.blockSize.toNat)
    (hn : o.numSamples.toNat ≤ 2 ^ 31)
    (fuel : Nat) (rnd : Nat → Nat) (ordS : List UInt64 → List UInt64) (ordH : FSIDHist → FSIDHist)
    (hoS : MapOrder ordS) (hoH : MapOrder ordH) (ent : UUID → F) (avg : UInt64 → UInt64 → Nat) (t : List UInt64)
    (ht : MakeSampleOffsets fuel rnd ordS (UInt64.ofNat dev.length) o.blockSize o.numSamples = .ok t) :
    ∃ (es : List (FSEntry F)) (lines : List Bytes),
      identifyPrinted true wd fe fuel rnd ordS ordH ent avg (imageReader dev) (some (UInt64.ofNat dev.length)) o () =
        .ok lines.flatten () ∧
      List.Forall₂ (fun e line => ∃ a b c, line = e.fsid.toText ++ (List.replicate (a + 1) 9 ++ (decimal e.count.toNat ++
        (List.replicate (b + 1) 9 ++ (fe e.entropy ++ (List.replicate (c + 1) 9 ++
          (decimal e.blockSize.toNat ++ [10]))))))) es lines ∧
      es.Pairwise FSEntry.ahead ∧
      (∀ u, u ∈ es.map FSEntry.fsid ↔ realFSID u ∧
        leavesOf u (t.map (blockAt dev o.blockSize.toNat)) ≠ [] ∧
        o.minOccurrence.toNat ≤ (leavesOf u (t.map (blockAt dev o.blockSize.toNat))).length) ∧
      ∀ e ∈ es, e.count.toNat = (leavesOf e.fsid (t.map (blockAt dev o.blockSize.toNat))).length := by
  obtain ⟨es, h1, h2, h3, h4⟩ := C48_identify_image_partial dev o hb hmin hlen hroom hn fuel rnd ordS ordH hoS hoH ent avg t ht
  have hrun : identifyPrinted true wd fe fuel rnd ordS ordH ent avg (imageReader dev) (some (UInt64.ofNat dev.length)) o () =
      .ok (printEntries true wd fe es) () := by
    unfold identifyPrinted
    rw [Cmd.bind_ok h1]
    rfl
  by_cases hne : es = []
  · subst hne
    refine ⟨[], [], ?_, .nil, h2, h3, h4⟩
    rw [hrun, printEntries_machine wd fe hfe]; rfl
  · obtain ⟨mc, me, -, -, h5⟩ := C93_machine_partial wd hwd fe hfe es hne
    refine ⟨es, _, by rw [hrun, h5], ?_, h2, h3, h4⟩
    clear hrun h1 h2 h3 h4 h5 hne
    induction es with
    | nil => exact .nil
    | cons e r ih => exact .cons ⟨0, _, _, rfl⟩ ih

-- The assumptions are met by the byte length and a fixed text.
example : AsciiWidth List.length ∧ EntropyText (fun _ : Nat => ascii "3.500000") :=
  have : ascii "3.500000" ≠ [] ∧ ∀ b ∈ ascii "3.500000", 33 ≤ b.toNat ∧ b.toNat < 127 := by decide
  ⟨fun _ _ => rfl, fun _ => this⟩

end Btrfscue
