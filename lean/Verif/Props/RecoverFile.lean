import Verif.Spec.RecoverFile
import Verif.Proof.RecFile
import Verif.Props.RescueOpen
import Verif.Props.RecoverKeep
/-!
# C58, C59: the contents of recovered files
-/

namespace Btrfscue

open Cmd

section
variable {env : Env} {D : Bytes} {fd : Nat} {C : Option (List StripeMapEntry) → Prop}

/-- The command writes `w` to file `fd` (if it reports no error), `ok` being needed for
this. -/
def Fills (env : Env) (D : Bytes) (C : Option (List StripeMapEntry) → Prop) (fd : Nat) (w : Nat × Bytes) (ok : Prop)
    (c : Rec (Option RecErr)) : Prop :=
  ∀ (s : RecState) (d0 : Bytes), s.fs.inodes[fd]? = some (.file d0) → C s.cache →
    wp c (fun r t => Wrote fd s t ∧ C t.cache ∧
      (r = none → t.fs.inodes[fd]? = some (.file (pwrite d0 w.1 w.2)) ∧ ok) ∧
      (Quiet env D → ok → r = none)) (fun _ => False) s

/-- The bytes an extent stands for. -/
def extentBytes (D : Bytes) (f : FileExtentItemRec) (phys : UInt64) : Bytes :=
  if f.diskByteNr = 0 then List.replicate f.numBytes.toNat 0
  else (D.drop (phys + f.offset).toNat).take f.numBytes.toNat

theorem fills_extent (hh : Honest env D) {rf : Nat} {ix : Ix} {size : Option UInt64} {r : Range} {off ino : UInt64}
    {f : FileExtentItemRec} {rest tail : Bytes} {phys : UInt64}
    (hk : r.rKey = .ok ⟨ino, 108, off⟩) (ht : f.typ ≠ 0) (hs : off.toNat + f.numBytes.toNat < 2 ^ 63)
    (hz : f.diskByteNr = 0 → f.numBytes.toNat ≤ 2 ^ 48)
    (ha : f.diskByteNr ≠ 0 → (phys + f.offset).toNat + f.numBytes.toNat < 2 ^ 63)
    (hp : f.diskByteNr ≠ 0 → ∀ c, C c → ∃ c' dev, ix.physical rf c f.diskByteNr = .ok (c', dev, phys) ∧ C c') :
    Fills env D C fd (off.toNat, extentBytes D f phys)
      (f.diskByteNr ≠ 0 → f.numBytes ≠ 0 → (phys + f.offset).toNat + f.numBytes.toNat ≤ D.length)
      (recoverExtent env rf ix fd size r ⟨f.layout ++ rest, tail⟩) := by
  intro s d0 hf hC
  obtain ⟨-, -, -, -, -, -, -, d7, -, d9, d10⟩ := C07_FileExtentItem_decodes f rest tail
  have hin : FileExtentItem.isInline ⟨f.layout ++ rest, tail⟩ = .ok false := by
    rw [C07_FileExtentItem_isInline]; simp [ht]
  unfold recoverExtent
  simp only [hk, hin, d10, d7, wp_bind, wp_lift_ok, Bool.false_eq_true, if_false]
  by_cases hd : f.diskByteNr = 0
  · rw [if_pos hd]
    unfold recoverHole
    have hmk : goMake f.numBytes = .ok (List.replicate f.numBytes.toNat 0) := by
      unfold goMake; rw [if_neg (by have := hz hd; omega)]
    rw [hmk, wp_bind, wp_lift_ok]
    rw [wp_bind, int64_small (x := off) (by omega)]
    refine wp_mono (wp_sysWrite hf (by omega) (by rw [List.length_replicate]; omega)) ?_ fun _ h => h
    rintro ok t ⟨h1, h2, h3, h4⟩
    cases ok with
    | false => exact ⟨h1, h2 ▸ hC, fun h => (by cases h), fun hq _ => by have := h4 hq.calls; cases this⟩
    | true =>
      refine ⟨h1, h2 ▸ hC, fun _ => ⟨?_, fun h => absurd hd h⟩, fun _ _ => rfl⟩
      have := h3 rfl
      rwa [Int.toNat_natCast, show List.replicate f.numBytes.toNat (0 : UInt8) = extentBytes D f phys by
        unfold extentBytes; rw [if_pos hd]] at this
  · rw [if_neg hd]
    unfold recoverData
    simp only [d7, d9, wp_bind, wp_lift_ok]
    obtain ⟨c', dev, hp1, hp2⟩ := hp hd s.cache hC
    unfold wp recPhysical
    rw [hp1]
    have hsm := ha hd
    have := wp_copyLoop (env := env) (D := D) (fd := fd) hh (fo := off) (so := phys + f.offset) (nb := f.numBytes) hs hsm (d0 := d0)
      (f.numBytes.toNat / 1048576 + 1) 0 { s with cache := c' } (Nat.zero_le _)
      (by have := Nat.div_add_mod f.numBytes.toNat 1048576
          have := Nat.mod_lt f.numBytes.toNat (show 0 < 1048576 by decide)
          show f.numBytes.toNat - 0 ≤ _
          omega)
      (Or.inr rfl) (by
        show s.fs.inodes[fd]? = some (.file (pwrite d0 off.toNat (List.take 0 _)))
        rw [List.take_zero, pwrite_nil]; exact hf)
    show wp _ _ _ _
    rw [show chunkSize.toNat = 1048576 from rfl]
    refine wp_mono this ?_ fun _ h => h
    rintro x t ⟨h1, h2, h3, h4⟩
    refine ⟨⟨h1.grown, h1.others, h1.visited⟩, by rw [h2]; exact hp2, fun hx => ⟨?_, fun _ hn => ?_⟩, fun hq hok => ?_⟩
    · rw [(h3 hx).1]
      unfold extentBytes
      rw [if_neg hd]
    · refine (h3 hx).2 ?_
      rw [UInt64.lt_iff_toNat_lt]
      have : f.numBytes.toNat ≠ 0 := fun h => hn (UInt64.toNat_inj.mp h)
      show 0 < _
      omega
    · refine h4 hq fun hlt => hok hd fun hn => ?_
      rw [hn] at hlt
      exact absurd hlt (by decide)

/-- Running the loop body over given items until one reports an error. -/
def foldRec (body : Range → Slice → Rec (Option RecErr)) : List (Range × Slice) → Rec (Option RecErr)
  | [] => Pure.pure none
  | e :: r => do
    match ← body e.1 e.2 with
    | some x => return some x
    | none => foldRec body r

theorem rangeLoopRec_yields {body : Range → Slice → Rec (Option RecErr)} {rd : Range × Slice} {items : List (Range × Slice)}
    (h : Range.Yields rd items) : ∀ (fuel : Nat) (s : RecState), items.length < fuel →
      rangeLoopRec body fuel rd s = foldRec body items s := by
  induction h with
  | @done r d h =>
    intro fuel s hf
    cases fuel with
    | zero => omega
    | succ n => simp [rangeLoopRec, h, foldRec]
  | @step r d r' d' rest h1 h2 _ ih =>
    intro fuel s hf
    cases fuel with
    | zero => omega
    | succ n =>
      simp only [rangeLoopRec, h1, if_true, foldRec, bind_def]
      cases body r d s with
      | ok a t =>
        cases a with
        | some x => rfl
        | none =>
          simp only [h2, bind_def, lift_ok]
          exact ih n t (by simp only [List.length_cons] at hf; omega)
      | exit t => rfl
      | crash t => rfl
      | hang t => rfl

theorem fills_fold {body : Range → Slice → Rec (Option RecErr)} {ι : Type} {it : ι → Range × Slice} {w : ι → Nat × Bytes}
    {ok : ι → Prop} : ∀ (its : List ι), (∀ e ∈ its, Fills env D C fd (w e) (ok e) (body (it e).1 (it e).2)) →
      ∀ (s : RecState) (d0 : Bytes), s.fs.inodes[fd]? = some (.file d0) → C s.cache →
        wp (foldRec body (its.map it)) (fun r t => Wrote fd s t ∧ C t.cache ∧
          (r = none → t.fs.inodes[fd]? = some (.file (writes d0 (its.map w))) ∧ ∀ e ∈ its, ok e) ∧
          (Quiet env D → (∀ e ∈ its, ok e) → r = none)) (fun _ => False) s := by
  intro its
  induction its with
  | nil =>
    intro _ s d0 hf hC
    exact ⟨Wrote.refl _ _, hC, fun _ => ⟨hf, by simp⟩, fun _ _ => rfl⟩
  | cons e its ih =>
    intro hall s d0 hf hC
    simp only [List.map_cons, foldRec]
    rw [wp_bind]
    refine wp_mono (hall e List.mem_cons_self s d0 hf hC) ?_ fun _ h => h
    rintro r t ⟨h1, h2, h3, h4⟩
    cases r with
    | some x => exact ⟨h1, h2, fun h => (by cases h), fun hq hok => by have := h4 hq (hok e List.mem_cons_self); cases this⟩
    | none =>
      simp only
      refine wp_mono (ih (fun x hx => hall x (List.mem_cons_of_mem _ hx)) t _ (h3 rfl).1 h2) ?_ fun _ h => h
      rintro r u ⟨g1, g2, g3, g4⟩
      refine ⟨h1.trans g1, g2, fun hr => ⟨(g3 hr).1, fun x hx => ?_⟩, fun hq hok => g4 hq fun x hx => hok x (List.mem_cons_of_mem _ hx)⟩
      rcases List.mem_cons.mp hx with rfl | hx
      · exact (h3 rfl).2
      · exact (g3 hr).2 x hx

end

/-- After opening, the path leads to the open file, which is empty. -/
theorem openTrunc_resolve {fs fs' : HostFS} {p : Bytes} {i : Nat} (h : fs.openTrunc p = some (fs', i)) :
    fs'.inodes[i]? = some (.file []) ∧ ∃ e, fs'.resolve true p = .found i e := by
  unfold HostFS.openTrunc at h
  cases hr : fs.resolve true p with
  | fail => rw [hr] at h; cases h
  | missing d n sl =>
    rw [hr] at h
    cases sl with
    | true => cases h
    | false =>
      simp only at h
      exact ⟨(create_get h).2.1, _, resolve_create h (Or.inr (by intro t ht; cases ht)) hr⟩
  | found j e =>
    rw [hr] at h
    simp only at h
    cases hj : fs.inodes[j]? with
    | none => rw [hj] at h; cases h
    | some nd =>
      rw [hj] at h
      cases nd with
      | dir _ _ => cases h
      | link _ => cases h
      | file x =>
        simp only [Option.some.injEq, Prod.mk.injEq] at h
        obtain ⟨rfl, rfl⟩ := h
        exact ⟨put_get_self (List.getElem?_eq_some_iff.mp hj).1, e, resolve_grown (put_grown hj) hr ⟨_, hj⟩⟩

theorem inodeSize_is {b : Bucket} (hb : b.WF) {m : Bytes} (hm : b.stores metadataVersionKey m) {o ino size : UInt64}
    (ho : o ≠ ~~~0) (h : b.inodeSizeIs o ino size) :
    (do inodeSize (← (Ix.mk b (~~~0)).findInodeItem o ino) : Go (Option UInt64)) = .ok (some size) := by
  obtain ⟨g, x, f, rest, hn, hs, hd, rfl⟩ := h
  obtain ⟨t, ht⟩ := findData_newest hb hm ho hn hs hd
  have hi : (Ix.mk b (~~~0)).findInodeItem o ino = .ok (some ⟨f.layout ++ rest, t⟩) := ht
  obtain ⟨-, -, -, d3, -⟩ := C07_InodeItem_decodes f rest t
  rw [hi, Go.ok_bind]
  simp only [inodeSize, d3, Go.ok_bind]
  rfl

/-- Opening a file. -/
theorem wp_sysOpen {env : Env} {p : Bytes} {s : RecState} :
    wp (sysOpen env p) (fun r t => t.cache = s.cache ∧
      (∀ fd, r = some fd → s.fs.openTrunc p = some (t.fs, fd)) ∧
      (r = none → t.fs = s.fs) ∧
      ((∀ k n, env.fails k n = false) → s.fs.openTrunc p ≠ none → r ≠ none)) (fun _ => False) s := by
  unfold wp sysOpen
  simp only [bind_def, note, modify_run, tick]
  by_cases hf : env.fails .open s.calls = true
  · simp only [hf, if_true, pure_run]
    exact ⟨trivial, fun _ h => (by cases h), fun _ => trivial, fun h => by rw [h] at hf; cases hf⟩
  · simp only [hf, Bool.false_eq_true, if_false, bind_def, get_run]
    cases ho : s.fs.openTrunc p with
    | none => exact ⟨rfl, fun _ h => (by cases h), fun _ => rfl, fun _ h => absurd rfl h⟩
    | some x =>
      obtain ⟨f, i⟩ := x
      exact ⟨rfl, fun fd h => (by cases h; rfl), fun h => (by cases h), fun _ _ h => (by cases h)⟩

/-- Chunks give one address. -/
theorem translated_unique {b : Bucket} (hb : b.WF) {m : Bytes} (hm : b.stores metadataVersionKey m) {gc : UInt64}
    (ha : b.AddrOK gc) {x dev phys dev' phys' : UInt64} (h : b.translated gc x dev phys)
    (h' : b.translated gc x dev' phys') : dev = dev' ∧ phys = phys' := by
  obtain ⟨N0, map, hphys⟩ := C36_physical_partial b hb m hm ha.range gc ha.chunks ha.disjoint
  rcases h with ⟨z, r1, r2⟩ | ⟨nz, st, c, s1, ss, r1, r2, r3, r4, r5⟩
  · rcases h' with ⟨_, t1, t2⟩ | ⟨nz, _⟩
    · exact ⟨r1.trans t1.symm, r2.trans t2.symm⟩
    · exact absurd z nz
  · rcases h' with ⟨z, _⟩ | ⟨_, st', c', s1', ss', t1, t2, t3, t4, t5⟩
    · exact absurd z nz
    · have p1 := hphys N0 (Nat.le_refl _) none (Or.inl rfl) st c s1 ss _ r1 r2 r3
      have p2 := hphys N0 (Nat.le_refl _) none (Or.inl rfl) st' c' s1' ss' _ t1 t2 t3
      rw [p1] at p2
      injection p2 with p2
      injection p2 with _ p2
      injection p2 with p3 p4
      exact ⟨by rw [r4, t4, p3], by rw [r5, t5, p4]⟩

theorem wp_congr {σ α : Type} {c c' : Cmd σ α} {Q : α → σ → Prop} {E : σ → Prop} {s : σ} (h : c s = c' s) (hw : wp c' Q E s) :
    wp c Q E s := by
  unfold wp at hw ⊢
  rw [h]; exact hw

/-- Does the file have extents, or does `truncate` at least work? -/
def sized (b : Bucket) (env : Env) (owner ino : UInt64) : Prop :=
  (∃ off, b.hasKey owner ⟨ino, 108, off⟩) ∨ ∀ n, env.fails .truncate n = false

attribute [local irreducible] Cmd.wp

/-- There are no more items than entries in the index. -/
theorem items_le {l : AStore} {items : List ((VKey × Bytes) × Slice)} (hp : items.Pairwise (fun a b => a.1.1.num < b.1.1.num))
    (hm : ∀ e ∈ items, e.1 ∈ l) : items.length ≤ l.length := by
  have hn : (items.map (·.1)).Nodup := by
    rw [List.nodup_iff_pairwise_ne, List.pairwise_map]
    exact hp.imp fun h he => by rw [he] at h; exact absurd h (Nat.lt_irrefl _)
  have hs : items.map (·.1) ⊆ l := fun x hx => by
    obtain ⟨e, he, rfl⟩ := List.mem_map.mp hx
    exact hm e he
  have := (List.subperm_of_subset hn hs).length_le
  rwa [List.length_map] at this

set_option maxHeartbeats 800000 in
/-- Filling an open file from its extents. -/
theorem contents_gen {b : Bucket} (hb : b.WF) {m : Bytes} (hm : b.stores metadataVersionKey m)
    {owner ino g gc : UInt64} (ha : b.AddrOK gc) (hf : b.FileOK owner ino g gc) (hp : b.ExtentsPlain owner ino g gc)
    {size : Option UInt64} (hlt : ∀ sz, size = some sz → sz.toNat < 2 ^ 63)
    {N0 : Nat} {map : List StripeMapEntry} (hM : MapOK b gc N0 map) :
    ∀ (D : Bytes) (rf : Nat), N0 ≤ rf → b.length < rf → ∀ env, Honest env D → ∀ (fd : Nat) (s : RecState),
      s.fs.inodes[fd]? = some (.file []) → (s.cache = none ∨ s.cache = some map) →
      wp (recoverContents env rf ⟨b, ~~~0⟩ owner ino fd size) (fun r t => Wrote fd s t ∧
        (t.cache = none ∨ t.cache = some map) ∧
        (r = none → (size = none ∨ sized b env owner ino) → ∃ d, t.fs.inodes[fd]? = some (.file d) ∧
          (∀ sz, size = some sz → d.length = sz.toNat) ∧ (size = none → b.endsAt owner ino g d.length) ∧
          ∀ i v, d[i]? = some v → b.fileByte owner ino g gc D i v) ∧
        (r = none → ∀ off f dev phys, b.extentAt owner ino g off f → f.diskByteNr ≠ 0 → f.numBytes ≠ 0 →
          b.translated gc f.diskByteNr dev phys → (phys + f.offset).toNat + f.numBytes.toNat ≤ D.length) ∧
        (Quiet env D → b.OnDevice owner ino g gc D → r = none)) (fun _ => False) s := by
  have htu := fun {x dev phys dev' phys' : UInt64} => translated_unique (x := x) (dev := dev) (phys := phys) (dev' := dev')
    (phys' := phys') hb hm ha
  have hphys := hM.phys
  obtain ⟨l, hl, rfl⟩ := hb.exists_abs
  obtain ⟨rd, items, hr, hy, hpw, hs⟩ := rangeAll_single hl ⟨m, hm⟩ hf.range hf.newest
  have hdec : ∀ e : (VKey × Bytes) × Slice, e ∈ items → ∃ (off : UInt64) (f : FileExtentItemRec) (rest : Bytes) (phys dev : UInt64)
      (t : Bytes), e.1.1 = ⟨owner, ⟨ino, 108, off⟩, g⟩ ∧
      l.enc.extentAt owner ino g off f ∧ f.typ ≠ 0 ∧ l.enc.translated gc f.diskByteNr dev phys ∧
      e.2 = ⟨f.layout ++ rest, t⟩ := by
    rintro ⟨⟨w, y⟩, s⟩ he
    obtain ⟨off, rfl, h1, h2⟩ := (hs _ _ _).mp he
    obtain ⟨f, ⟨x, d, rest, h3, h4, h5⟩, h6, dev, phys, h7⟩ := hf.intact off ⟨g, y, h1⟩
    obtain rfl := hl.unique (enc_stores.mp h1) (enc_stores.mp h3)
    obtain ⟨⟨sd, st⟩, h8, h9⟩ := h4.data
    rw [h8] at h2
    cases h2
    simp only at h9
    subst h9; subst h5
    exact ⟨off, f, rest, phys, dev, st, rfl, ⟨y, _, rest, h3, h4, rfl⟩, h6, h7, rfl⟩
  have : Nonempty FileExtentItemRec := ⟨⟨0, 0, 0, 0, 0, 0, 0, 0, 0, 0⟩⟩
  choose! off f rest phys dev tl h1 h2 h3 h4 h5 using hdec
  have hmem : ∀ o' f', l.enc.extentAt owner ino g o' f' → ∃ e ∈ items, off e = o' ∧ f e = f' := by
    intro o' f' hat
    obtain ⟨x, d, r', k1, k2, k3⟩ := id hat
    obtain ⟨s', k4, -⟩ := k2.data
    have hm' := (hs _ _ _).mpr ⟨o', rfl, k1, k4⟩
    refine ⟨_, hm', ?_⟩
    have e1 : off ((⟨owner, ⟨ino, 108, o'⟩, g⟩, x), s') = o' := by
      have := h1 _ hm'
      injection this with _ hk _
      injection hk with _ _ hk
      exact hk.symm
    have h2' := h2 _ hm'
    rw [e1] at h2'
    exact ⟨e1, extentAt_unique hl h2' hat⟩
  have hile : items.length ≤ l.enc.length := by
    rw [show l.enc.length = l.length from List.length_map _]
    exact items_le hpw fun e he => enc_stores.mp ((hs _ _ _).mp he).choose_spec.2.1
  intro D rf hrf hrf' env hh fd s hfd hc
  obtain ⟨w, hw⟩ : ∃ w : (VKey × Bytes) × Slice → Nat × Bytes, ∀ e, w e = ((off e).toNat, extentBytes D (f e) (phys e)) :=
    ⟨_, fun _ => rfl⟩
  obtain ⟨ok, hokdef⟩ : ∃ ok : (VKey × Bytes) × Slice → Prop, ∀ e, ok e = ((f e).diskByteNr ≠ 0 → (f e).numBytes ≠ 0 →
    (phys e + (f e).offset).toNat + (f e).numBytes.toNat ≤ D.length) := ⟨_, fun _ => rfl⟩
  have hfill : ∀ e ∈ items, Fills env D (fun c => c = none ∨ c = some map) fd (w e) (ok e)
      (recoverExtent env rf ⟨l.enc, ~~~0⟩ fd size
        (Range.at l.enc (VKey.mk owner (KL2 108 ino) (~~~0)).encode e.1) e.2) := by
    intro e he
    rw [h5 e he, hw, hokdef]
    have hs' := hp.small _ _ (h2 e he)
    have hz' := hp.holes _ _ (h2 e he)
    have ha' := fun hz => hp.addr _ _ _ _ (h2 e he) hz (h4 e he)
    have ht' := h3 e he
    have hk : (Range.at l.enc (VKey.mk owner (KL2 108 ino) (~~~0)).encode e.1).rKey = .ok ⟨ino, 108, off e⟩ := by
      simp only [Range.at, Range.rKey, h1 e he, key_encode]
    have hph : (f e).diskByteNr ≠ 0 → ∀ c, (c = none ∨ c = some map) →
        ∃ c' dev, (Ix.mk l.enc (~~~0)).physical rf c (f e).diskByteNr = .ok (c', dev, phys e) ∧ (c' = none ∨ c' = some map) := by
      intro hz c hc
      rcases h4 e he with ⟨z, -⟩ | ⟨-, start, ch, st, ss, i1, i2, i3, -, i5⟩
      · exact absurd z hz
      · refine ⟨some map, st.devID, ?_, Or.inr rfl⟩
        rw [hphys rf (by omega) c hc start ch st ss _ i1 i2 i3, i5]
    refine fills_extent hh hk ?_ ?_ ?_ ?_ ?_
    · exact ht'
    · exact hs'
    · exact hz'
    · exact ha'
    · exact hph
  have hlenD : ∀ e ∈ items, ok e → (extentBytes D (f e) (phys e)).length = (f e).numBytes.toNat := by
    intro e he hok
    rw [hokdef] at hok
    unfold extentBytes
    by_cases hz : (f e).diskByteNr = 0
    · rw [if_pos hz, List.length_replicate]
    · rw [if_neg hz, List.length_take, List.length_drop]
      by_cases hn : (f e).numBytes = 0
      · rw [hn]; simp
      · have := hok hz hn
        omega
  have hws : (∀ e ∈ items, ok e) → (items.map w).Pairwise (fun a b => a.1 + a.2.length ≤ b.1) := by
    intro hok
    rw [List.pairwise_map]
    refine List.Pairwise.imp_of_mem ?_ hpw
    intro x y hx hy hxy
    rw [hw x, hw y]
    show (off x).toNat + (extentBytes D (f x) (phys x)).length ≤ (off y).toNat
    rw [hlenD x hx (hok x hx)]
    refine hp.disjoint _ _ _ _ (h2 x hx) (h2 y hy) ?_
    rw [h1 x hx, h1 y hy, VKey.num_eq, VKey.num_eq, VKey.p25_eq, VKey.p25_eq] at hxy
    have h17 : (VKey.mk owner ⟨ino, 108, off x⟩ g).p17 = (VKey.mk owner ⟨ino, 108, off y⟩ g).p17 :=
      VKey.p17_inj.mpr ⟨rfl, rfl, rfl⟩
    rw [h17] at hxy
    rw [UInt64.lt_iff_toNat_lt]
    simp only at hxy
    omega
  have hcontent : (∀ e ∈ items, ok e) → ∀ n i v, (ptruncate (writes [] (items.map w)) n)[i]? = some v →
      l.enc.fileByte owner ino g gc D i v := by
    intro hok n i v hi
    rcases truncated_writes (hws hok) hi with ⟨x, hx, hc, hv⟩ | ⟨hn, rfl⟩
    · obtain ⟨e, he, rfl⟩ := List.mem_map.mp hx
      rw [hw e] at hc hv
      left
      refine ⟨off e, f e, h2 e he, ⟨hc.1, ?_⟩, ?_⟩
      · have := hc.2
        rwa [show ((off e).toNat, extentBytes D (f e) (phys e)).2.length = (f e).numBytes.toNat from hlenD e he (hok e he)] at this
      · by_cases hz : (f e).diskByteNr = 0
        · left
          refine ⟨Or.inl hz, ?_⟩
          have hv' : (extentBytes D (f e) (phys e))[i - (off e).toNat]? = some v := hv
          unfold extentBytes at hv'
          rw [if_pos hz, List.getElem?_replicate] at hv'
          split at hv'
          · cases hv'; rfl
          · cases hv'
        · right
          refine ⟨hz, hp.plain _ _ (h2 e he), dev e, phys e, h4 e he, ?_⟩
          have hv' : (extentBytes D (f e) (phys e))[i - (off e).toNat]? = some v := hv
          unfold extentBytes at hv'
          rw [if_neg hz, List.getElem?_take] at hv'
          split at hv'
          · rwa [List.getElem?_drop] at hv'
          · cases hv'
    · right
      refine ⟨fun o' f' hat hin => ?_, rfl⟩
      obtain ⟨e, he, rfl, rfl⟩ := hmem o' f' hat
      have hn' := hn _ (List.mem_map_of_mem he)
      rw [hw e] at hn'
      refine hn' ⟨hin.1, ?_⟩
      rw [show ((off e).toNat, extentBytes D (f e) (phys e)).2.length = (f e).numBytes.toNat from hlenD e he (hok e he)]
      exact hin.2
  have hokD : (∀ e ∈ items, ok e) → ∀ o' f' dev' phys', l.enc.extentAt owner ino g o' f' → f'.diskByteNr ≠ 0 → f'.numBytes ≠ 0 →
      l.enc.translated gc f'.diskByteNr dev' phys' → (phys' + f'.offset).toNat + f'.numBytes.toNat ≤ D.length := by
    intro hok o' f' dev' phys' hat hz hn htr
    obtain ⟨e, he, rfl, rfl⟩ := hmem o' f' hat
    have := (htu htr (h4 e he)).2
    rw [this]
    have hok' := hok e he
    rw [hokdef] at hok'
    exact hok' hz hn
  unfold recoverContents
  rw [show (Ix.mk l.enc (~~~0)).fileExtentItems owner ino = .ok rd from hr, wp_bind, wp_lift_ok]
  have hlenw : (∀ e ∈ items, ok e) → l.enc.endsAt owner ino g (writes [] (items.map w)).length := by
    intro hok
    obtain ⟨-, a1, a2⟩ := writes_length (items.map w) []
    have hlw : ∀ e ∈ items, (w e).2.length = (f e).numBytes.toNat := fun e he => by
      rw [hw e]; exact hlenD e he (hok e he)
    have hne : ∀ e ∈ items, ((w e).2 ≠ [] ↔ (f e).numBytes ≠ 0) := fun e he => by
      rw [Ne, ← List.length_eq_zero_iff, hlw e he, Ne, ← UInt64.toNat_inj]; rfl
    have hoff : ∀ e, (w e).1 = (off e).toNat := fun e => by rw [hw e]
    constructor
    · intro o' f' hat hn
      obtain ⟨e, he, rfl, rfl⟩ := hmem o' f' hat
      have := a1 (w e) (List.mem_map_of_mem he) ((hne e he).mpr hn)
      rwa [hlw e he, hoff] at this
    · rcases a2 with a2 | ⟨x, hx, hx1, hx2⟩
      · exact Or.inl a2
      · obtain ⟨e, he, rfl⟩ := List.mem_map.mp hx
        exact Or.inr ⟨off e, f e, h2 e he, (hne e he).mp hx1, by rw [hx2, hlw e he, hoff]⟩
  have hraw : (∀ e ∈ items, ok e) → ∀ i v, (writes [] (items.map w))[i]? = some v → l.enc.fileByte owner ino g gc D i v := by
    intro hok i v hv
    rw [← ptruncate_self (writes [] (items.map w))] at hv
    exact hcontent hok _ i v hv
  rcases yields_head hy with ⟨hnil, hnx⟩ | ⟨rest', hcons, hnx⟩
  · have hin : items = [] := List.map_eq_nil_iff.mp hnil
    have hno : ∀ off, ¬ l.enc.hasKey owner ⟨ino, 108, off⟩ := by
      rintro off' ⟨g', x, hx⟩
      obtain ⟨f', hat, -⟩ := hf.intact off' ⟨g', x, hx⟩
      obtain ⟨e, he, -⟩ := hmem _ _ hat
      rw [hin] at he; cases he
    subst hin
    simp only [hnx, Bool.not_false, if_true]
    cases size with
    | none =>
      simp only [finishEmpty]
      exact wp_pure' ⟨Wrote.refl _ _, hc, fun _ _ => ⟨[], hfd, fun _ h => (by cases h), fun _ => hlenw (by simp),
        fun i v hv => (by cases hv)⟩, fun _ => hokD (by simp), fun _ _ => rfl⟩
    | some size =>
      have hlt' := hlt size rfl
      have h63 : int64OfU64 size = (size.toNat : Int) := int64_small hlt'
      simp only [finishEmpty]
      rw [wp_bind, h63]
      refine wp_mono (wp_sysTruncate hfd (by omega)) ?_ fun _ h => h
      rintro okt t ⟨g1, g2, g3, g4⟩
      refine wp_pure' ⟨g1, g2 ▸ hc, fun _ hsz => ?_, fun _ => hokD (by simp), fun _ _ => rfl⟩
      rcases hsz with h | ⟨off', h⟩ | hsz
      · cases h
      · exact absurd h (hno off')
      · refine ⟨_, g3 (g4 hsz), ?_, fun h => (by cases h), ?_⟩
        · intro sz h
          injection h with h
          rw [Int.toNat_natCast, ← h]; exact ptruncate_length _ _
        · rw [Int.toNat_natCast]; exact hcontent (by simp) _
  · simp only [hnx, Bool.not_true, Bool.false_eq_true, if_false]
    rw [wp_bind]
    have hloop : wp (rangeLoopRec (recoverExtent env rf ⟨l.enc, ~~~0⟩ fd size) rf rd) (fun r t => Wrote fd s t ∧
        (t.cache = none ∨ t.cache = some map) ∧
        (r = none → t.fs.inodes[fd]? = some (.file (writes [] (items.map w))) ∧ ∀ e ∈ items, ok e) ∧
        (Quiet env D → (∀ e ∈ items, ok e) → r = none)) (fun _ => False) s := by
      have hlen : (items.map fun e => (Range.at l.enc (VKey.mk owner (KL2 108 ino) (~~~0)).encode e.1, e.2)).length < rf := by
        rw [List.length_map]; omega
      refine wp_congr (rangeLoopRec_yields hy rf s hlen) ?_
      have hF := @fills_fold env D fd (fun c => c = none ∨ c = some map) (recoverExtent env rf ⟨l.enc, ~~~0⟩ fd size)
        ((VKey × Bytes) × Slice) (fun e => (Range.at l.enc (VKey.mk owner (KL2 108 ino) (~~~0)).encode e.1, e.2)) w ok items
      have hF2 := hF hfill
      have hF3 := hF2 s [] hfd hc
      exact hF3
    refine wp_mono hloop ?_ fun _ h => h
    rintro r t ⟨g1, g2, g3, g4⟩
    have hokq : l.enc.OnDevice owner ino g gc D → ∀ e ∈ items, ok e := fun hon e he => by
      rw [hokdef]; exact fun hz _ => hon _ _ _ _ (h2 e he) hz (h4 e he)
    cases r with
    | some x => exact wp_pure' ⟨g1, g2, fun h => (by cases h), fun h => (by cases h), fun hq hon => by have := g4 hq (hokq hon); cases this⟩
    | none =>
      obtain ⟨g5, g6⟩ := g3 rfl
      cases size with
      | none =>
        simp only [finishFile]
        exact wp_pure' ⟨g1, g2, fun _ _ => ⟨_, g5, fun _ h => (by cases h), fun _ => hlenw g6, hraw g6⟩,
          fun _ => hokD g6, fun _ _ => rfl⟩
      | some size =>
        have hlt' := hlt size rfl
        have h63 : int64OfU64 size = (size.toNat : Int) := int64_small hlt'
        simp only [finishFile]
        rw [wp_bind, h63]
        refine wp_mono (wp_sysTruncate g5 (by omega)) ?_ fun _ h => h
        rintro okt u ⟨k1, k2, k3, k4⟩
        cases okt with
        | false => exact wp_pure' ⟨g1.trans k1, by rw [k2]; exact g2, fun h => (by cases h), fun h => (by cases h), fun hq hon => by have := k4 (hq.calls .truncate); cases this⟩
        | true =>
          refine wp_pure' ⟨g1.trans k1, by rw [k2]; exact g2, fun _ _ => ⟨_, k3 rfl, ?_, fun h => (by cases h), ?_⟩, fun _ => hokD g6, fun _ _ => rfl⟩
          · intro sz h
            injection h with h
            rw [Int.toNat_natCast, ← h]; exact ptruncate_length _ _
          · rw [Int.toNat_natCast]; exact hcontent g6 _

/-- Filling an open file from its extents, its size being known. -/
theorem contents_core {b : Bucket} (hb : b.WF) {m : Bytes} (hm : b.stores metadataVersionKey m)
    {owner ino g gc : UInt64} (ha : b.AddrOK gc) (hf : b.FileOK owner ino g gc) (hp : b.ExtentsPlain owner ino g gc)
    {size : UInt64} (hlt : size.toNat < 2 ^ 63)
    {N0 : Nat} {map : List StripeMapEntry} (hM : MapOK b gc N0 map) :
    ∀ (D : Bytes) (rf : Nat), N0 ≤ rf → b.length < rf → ∀ env, Honest env D → ∀ (fd : Nat) (s : RecState),
      s.fs.inodes[fd]? = some (.file []) → (s.cache = none ∨ s.cache = some map) →
      wp (recoverContents env rf ⟨b, ~~~0⟩ owner ino fd (some size)) (fun r t => Wrote fd s t ∧
        (t.cache = none ∨ t.cache = some map) ∧
        (r = none → sized b env owner ino → ∃ d, t.fs.inodes[fd]? = some (.file d) ∧ d.length = size.toNat ∧
          ∀ i v, d[i]? = some v → b.fileByte owner ino g gc D i v) ∧
        (r = none → ∀ off f dev phys, b.extentAt owner ino g off f → f.diskByteNr ≠ 0 → f.numBytes ≠ 0 →
          b.translated gc f.diskByteNr dev phys → (phys + f.offset).toNat + f.numBytes.toNat ≤ D.length) ∧
        (Quiet env D → b.OnDevice owner ino g gc D → r = none)) (fun _ => False) s := by
  intro D rf hrf hrf' env hh fd s hfd hc
  refine wp_mono (contents_gen hb hm ha hf hp (size := some size) (fun sz h => by injection h with h; rw [← h]; exact hlt)
    hM D rf hrf hrf' env hh fd s hfd hc) ?_ fun _ h => h
  rintro r t ⟨h1, h2, h3, h4, h5⟩
  refine ⟨h1, h2, fun hr hs => ?_, h4, h5⟩
  obtain ⟨d, k1, k2, -, k3⟩ := h3 hr (Or.inr hs)
  exact ⟨d, k1, k2 size rfl, k3⟩

end Btrfscue
