import Verif.Props.Program
import Verif.Props.Refuted
import Verif.Props.IdentifyOut
/-!
# C106: what `recover` prints; examples for C93, C104, C105, C106
-/

namespace Btrfscue

/-- The lines of debug output for the stripe map `es`, each with the generation of its chunk item. -/
def stripeText (es : List StripeMapEntry) (gens : List UInt64) : Bytes :=
  (List.zipWith (fun e g => ascii "stripe: " ++ (decimal e.logical.toNat ++ (ascii " => " ++ (decimal e.offset.toNat ++
    (ascii " @ " ++ (decimal g.toNat ++ [10])))))) es gens).flatten

/-- The messages for the stripe map `es`. -/
def stripeMessages (es : List StripeMapEntry) (gens : List UInt64) : List Line :=
  List.zipWith (fun e g => Line.stripe e.logical e.offset g) es gens

theorem stripeMessages_text (es : List StripeMapEntry) : ∀ gens, ((stripeMessages es gens).map Line.text).flatten = stripeText es gens := by
  intro gens
  unfold stripeMessages stripeText
  rw [List.map_zipWith]
  rfl

theorem stripeLinesBody_eq {s : List StripeMapEntry} {L : List Line} {r : Range} {c : Chunk} {res : List Line × Bool}
    {res' : List StripeMapEntry × Bool} (h : stripeLinesBody L r c = .ok res) (h' : stripeMapBody s r c = .ok res') :
    res.2 = false ∧ res'.2 = false ∧ ((res.1 = L ∧ res'.1 = s) ∨ ∃ e gen, res'.1 = s ++ [e] ∧ res.1 = L ++ [.stripe e.logical e.offset gen]) := by
  unfold stripeLinesBody at h
  unfold stripeMapBody at h'
  obtain ⟨n, h1, h⟩ := Go.bind_eq_ok.mp h
  rw [h1, Go.ok_bind] at h'
  by_cases hn : n = 0
  · rw [if_pos hn] at h h'
    simp only [Go.pure_eq, Go.ok.injEq] at h h'
    subst h h'
    exact ⟨rfl, rfl, .inl ⟨rfl, rfl⟩⟩
  · rw [if_neg hn] at h h'
    obtain ⟨st, h2, h⟩ := Go.bind_eq_ok.mp h
    obtain ⟨k, h3, h⟩ := Go.bind_eq_ok.mp h
    obtain ⟨o, h4, h⟩ := Go.bind_eq_ok.mp h
    obtain ⟨g, h5, h⟩ := Go.bind_eq_ok.mp h
    simp only [Go.pure_eq, Go.ok.injEq] at h
    subst h
    simp only [h2, h3, h4, Go.ok_bind] at h'
    obtain ⟨d, h6, h'⟩ := Go.bind_eq_ok.mp h'
    simp only [Go.pure_eq, Go.ok.injEq] at h'
    subst h'
    exact ⟨rfl, rfl, .inr ⟨_, _, rfl, rfl⟩⟩

theorem stripeLoop (fuel : Nat) : ∀ (s : List StripeMapEntry) (L : List Line) (rd : Range × Slice) {res : List Line × Bool}
    {res' : List StripeMapEntry × Bool}, rangeLoop stripeLinesBody fuel L rd = .ok res → rangeLoop stripeMapBody fuel s rd = .ok res' →
    (∃ gens, s.length = gens.length ∧ L = stripeMessages s gens) → ∃ gens, res'.1.length = gens.length ∧ res.1 = stripeMessages res'.1 gens := by
  induction fuel with
  | zero => intro s L rd res res' h; cases h
  | succ fuel ih =>
    intro s L rd res res' h h' hx
    unfold rangeLoop at h h'
    cases hn : rd.1.hasNext with
    | false =>
      simp only [hn, Bool.false_eq_true, if_false, Go.pure_eq, Go.ok.injEq] at h h'
      subst h h'
      exact hx
    | true =>
      simp only [hn, if_true] at h h'
      obtain ⟨⟨L1, b1⟩, h1, h⟩ := Go.bind_eq_ok.mp h
      obtain ⟨⟨s1, b2⟩, h1', h'⟩ := Go.bind_eq_ok.mp h'
      obtain ⟨k1, k2, k3⟩ := stripeLinesBody_eq h1 h1'
      simp only at k1 k2 k3
      subst k1 k2
      simp only [Bool.false_eq_true, if_false] at h h'
      obtain ⟨rd', h2, h⟩ := Go.bind_eq_ok.mp h
      rw [h2, Go.ok_bind] at h'
      refine ih _ _ _ h h' ?_
      obtain ⟨gens, hl, rfl⟩ := hx
      rcases k3 with ⟨rfl, rfl⟩ | ⟨e, gen, rfl, rfl⟩
      · exact ⟨gens, hl, rfl⟩
      · refine ⟨gens ++ [gen], by simp [hl], ?_⟩
        unfold stripeMessages
        rw [List.zipWith_append (by exact hl)]
        simp

theorem physicalLines_ok {rf : Nat} {ix : Ix} {es : List StripeMapEntry} (h : ix.buildStripeMap rf = .ok es) :
    physicalLines rf ix none = [] ∨ ∃ gens, es.length = gens.length ∧ physicalLines rf ix none = stripeMessages es gens := by
  unfold physicalLines
  simp only
  cases hs : ix.stripeLines rf with
  | panic => exact .inl rfl
  | hang => exact .inl rfl
  | ok L =>
    right
    unfold Ix.stripeLines at hs
    unfold Ix.buildStripeMap at h
    obtain ⟨rd, h1, hs⟩ := Go.bind_eq_ok.mp hs
    obtain ⟨res, h2, hs⟩ := Go.bind_eq_ok.mp hs
    rw [h1, Go.ok_bind] at h
    obtain ⟨res', h3, h⟩ := Go.bind_eq_ok.mp h
    simp only [Go.pure_eq, Go.ok.injEq] at hs h
    subst hs h
    exact stripeLoop rf [] [] rd h2 h3 ⟨[], rfl, rfl⟩

/-- C106 for what the code does: without `--verbose`, a run of `recover` that ends prints
nothing, or one line of debug output for each chunk of the index, once. Nothing, if no
address had to be mapped. -/
theorem C106_recover_partial {F : Type} [LinearOrder F] (m : Machine F) (g : Globals) (clobber : Bool) (img dest : Bytes) (w t : World)
    (hv : g.verbose = false) (hg : g.metadata ≠ []) {v : Ix} (hm : MetadataView w.db v) {d : Device} (hd : m.openFile img = some d)
    (h : program m g (.recover clobber) [img, dest] w = .ok () t) :
    (t.out = w.out ∨ ∃ es gens, v.buildStripeMap m.rf = .ok es ∧ es.length = gens.length ∧ t.out = w.out ++ stripeText es gens) ∧
    (t.rs.cache = none → t.out = w.out) := by
  obtain ⟨L, hL, hS⟩ := C105_recover m g clobber img dest w hg hm hd
  have hL := hL false
  rw [show ({ g with verbose := false } : Globals) = g by cases g; simp_all, h] at hL
  cases hx : doRecoverFiles { m.env with dev := fun _ => d.reader } m.rf m.fuel v clobber dest w.rs with
  | exit s => rw [hx] at hL; cases hL
  | crash s => rw [hx] at hL; cases hL
  | hang s => rw [hx] at hL; cases hL
  | ok a s =>
    rw [hx] at hL hS
    simp only [Out.inWorld, Out.ok.injEq, true_and] at hL
    subst hL
    have hf : heard false L = L.filter Line.isStripe := rfl
    simp only [hf]
    rcases hS with ⟨k1, -⟩ | ⟨k1, k2, k3⟩
    · rw [k1]; exact ⟨.inl (by simp), fun _ => by simp⟩
    · obtain ⟨es, k4, k5⟩ := k3 (.inl ⟨_, _, rfl⟩)
      simp only [Out.state] at k5
      rw [k1]
      refine ⟨?_, fun h => by rw [k5] at h; cases h⟩
      rcases physicalLines_ok k4 with k | ⟨gens, k6, k7⟩
      · exact .inl (by rw [k]; simp)
      · exact .inr ⟨es, gens, k4, k6, by rw [k7, stripeMessages_text]⟩

/-! ## Examples -/

/-- A machine on which `/dev/x` holds the four bytes 1 to 4. -/
def exMachine : Machine Nat where
  openFile p := if p = ascii "/dev/x" then some ⟨imageReader [1, 2, 3, 4], some 4⟩ else none
  env := quietEnv
  rf := 9
  fuel := 9
  rnd k := k
  ordS := id
  ordH := id
  ent _ := 0
  avg _ _ := 4096
  wd := List.length
  fe _ := ascii "0.000000"
  srt := id
  ft _ := []
  mountOK := true
  unmountOK := true

/-- An index with one file of one extent in its top directory; with the metadata record recon writes. -/
def exOneExtentFile : DBFile := .db (some (AStore.enc
  ((exOneExtent 4 ⟨9, 4, 0, 0, 0, 1, 16, 4, 0, 4⟩).dropLast ++ [(metadataVersionKey, exMeta)])))

/-- The metadata file of `exOneExtentFile` on a host with an empty directory `/d`. -/
def exWorld : World := ⟨exOneExtentFile, RecState.start exEmptyDir, []⟩

/-- The outcome: the status, the text printed, and a file on the host. -/
def Out.shows (p : Bytes) : Out World Unit → Option Nat × Bytes × Option Bytes
  | .ok _ w => (some 0, w.out, w.rs.fs.readFile p)
  | .exit w => (some 1, w.out, w.rs.fs.readFile p)
  | .crash w => (some 2, w.out, w.rs.fs.readFile p)
  | .hang w => (none, w.out, w.rs.fs.readFile p)

/-- C106 is false of the code: `recover` without `--verbose` recovers a file and prints the
stripe map on stdout. -/
theorem C106_stripes_refuted :
    (program exMachine { metadata := ascii "m" } (.recover false) [ascii "/dev/x", ascii "/d"] exWorld).shows (ascii "/d/a") =
      (some 0, ascii "stripe: 16 => 0 @ 7\n", some [1, 2, 3, 4]) := by decide +kernel

-- The other commands on the same metadata file: all of them are accepted.
example : ((program exMachine { metadata := ascii "m" } (.ls ⟨false, false⟩) [] exWorld).shows []).1 = some 0 ∧
    ((program exMachine { metadata := ascii "m" } (.ls ⟨false, false⟩) [] exWorld).shows []).2.1.getLast? = some 10 := by decide +kernel
example : ((program exMachine { metadata := ascii "m" } .dumpIndex [] exWorld).shows []).1 = some 0 ∧
    (program exMachine { metadata := ascii "m", verbose := true } .mount [ascii "/mnt"] exWorld).shows [] =
      (some 0, ascii "mounted rescue FS on /mnt\n", none) := by decide +kernel

-- Bad command lines.
example : badLine exMachine { metadata := ascii "m" } (.recover false) [ascii "/dev/y", ascii "/d"] exWorld.db :=
  .inr (.inr (.inr (by decide)))
example : badLine exMachine {} (.recover false) [ascii "/dev/x", ascii "/d"] exWorld.db := .inr (.inl ⟨trivial, rfl⟩)
example : badLine exMachine { metadata := ascii "m" } (.recon ⟨uuidAllFs, false⟩) [ascii "/dev/x"] .absent := by
  refine .inr (.inr (.inr (.inl fun d size hd hs => ?_)))
  simp only [exMachine, if_pos, Option.some.injEq] at hd
  subst hd
  cases hs
  decide

example : badLine exMachine { metadata := ascii "m" } (.recon ⟨uuidAllZero, false⟩) [ascii "/dev/x"] .invalid :=
  .inr (.inr (.inr (.inr ⟨by decide, .invalid, .openFailed, rfl⟩)))

-- A successful run of `identify --machine --verbose`: a device of 128 MiB with no leaves.
example : ∃ fuel t, program { exMachine with
      openFile := fun _ => some ⟨imageReader (List.replicate 0x8000000 0), some (UInt64.ofNat (List.replicate 0x8000000 (0 : UInt8)).length)⟩, fuel := fuel }
    { verbose := true, machine := true } (.identify ⟨0, 0, 1000, 1000000, 4⟩) [ascii "/dev/x"] exWorld = .ok () t := by
  have hlen : (List.replicate 0x8000000 (0 : UInt8)).length = 0x8000000 := List.length_replicate ..
  obtain ⟨fuel, t, ht⟩ := C47_samples_terminates 0x8000000 16384 1000 (by decide) (by decide) (by decide) (by decide) (by decide) (fun k => k)
    (fun j hj => ⟨j, Nat.mod_eq_of_lt hj⟩) id mapOrder_id
  have ht := ht fuel (Nat.le_refl _)
  have hwd : AsciiWidth List.length := fun _ _ => rfl
  have hfe : EntropyText (fun _ : Nat => ascii "0.000000") := fun _ =>
    (by decide : ascii "0.000000" ≠ [] ∧ ∀ b ∈ ascii "0.000000", 33 ≤ b.toNat ∧ b.toNat < 127)
  obtain ⟨es, lines, h, -⟩ := C93_image_partial List.length hwd _ hfe (List.replicate 0x8000000 0) ⟨16384, 0, 1000, 1000000, 4⟩
    (by decide) (by decide) (by rw [hlen]; decide) (by rw [hlen]; unfold roomy; decide) (by decide) fuel (fun k => k) id id mapOrder_id mapOrder_id
    (fun _ => 0) (fun _ _ => 4096) t (by rw [hlen]; exact ht)
  exact ⟨fuel, _, (C93_stdout _ _ _ _ _ _).mpr ⟨_, _, rfl, h, rfl⟩⟩

end Btrfscue
