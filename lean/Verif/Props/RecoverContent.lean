import Verif.Props.RecoverFile
/-!
# C58, C59: the contents of recovered files
-/

namespace Btrfscue

open Cmd

theorem wp_statAt {env : Env} {p : Bytes} {s : RecState} :
    wp (sysStat env p) (fun r t => t.fs = s.fs ∧ t.cache = s.cache ∧ (r.isSome = true → s.fs.stat true p ≠ none)) (fun _ => False) s := by
  unfold wp sysStat
  simp only [bind_def, tick]
  by_cases hf : env.fails .stat s.calls = true
  · simp only [hf, if_true, pure_run]
    exact ⟨by simp, by simp, fun h => by cases h⟩
  · simp only [hf, Bool.false_eq_true, if_false, bind_def, get_run, pure_run]
    exact ⟨by simp, by simp, fun h hn => by rw [hn] at h; cases h⟩

attribute [local irreducible] Cmd.wp

/-- What recovering a file leaves. -/
theorem file_uniform {b : Bucket} (hb : b.WF) {m : Bytes} (hm : b.stores metadataVersionKey m)
    {owner ino g gc : UInt64} (ho : owner ≠ ~~~0) (ha : b.AddrOK gc) (hf : b.FileOK owner ino g gc)
    (hp : b.ExtentsPlain owner ino g gc) {size : UInt64} (hsz : b.inodeSizeIs owner ino size) (hlt : size.toNat < 2 ^ 63)
    {N0 : Nat} {map : List StripeMapEntry} (hM : MapOK b gc N0 map) :
    ∀ (D : Bytes) (rf : Nat), N0 ≤ rf → b.length < rf → ∀ env, Honest env D → ∀ (clobber : Bool) (target : Bytes) (s : RecState),
      (s.cache = none ∨ s.cache = some map) →
      wp (recoverFile env rf ⟨b, ~~~0⟩ clobber owner ino target) (fun r t =>
        (r = none → (clobber = false ∧ s.fs.stat true target ≠ none ∧ t.fs = s.fs) ∨
          ((sized b env owner ino → ∃ d, t.fs.readFile target = some d ∧ d.length = size.toNat ∧
            ∀ i v, d[i]? = some v → b.fileByte owner ino g gc D i v) ∧
           (∀ off f dev phys, b.extentAt owner ino g off f → f.diskByteNr ≠ 0 → f.numBytes ≠ 0 →
            b.translated gc f.diskByteNr dev phys → (phys + f.offset).toNat + f.numBytes.toNat ≤ D.length))) ∧
        (Quiet env D → b.OnDevice owner ino g gc D → s.fs.openTrunc target ≠ none → r = none)) (fun _ => False) s := by
  have hcore := contents_core hb hm ha hf hp hlt hM
  intro D rf hrf hrf' env hh clobber target s hc
  unfold recoverFile
  rw [wp_bind]
  refine wp_mono wp_statAt ?_ fun _ h => h
  rintro st t ⟨t1, t2, t3⟩
  by_cases hst : (st.isSome && !clobber) = true
  · rw [if_pos hst]
    rw [Bool.and_eq_true, Bool.not_eq_true'] at hst
    exact wp_pure' ⟨fun _ => Or.inl ⟨hst.2, t3 hst.1, t1⟩, fun _ _ _ => rfl⟩
  · rw [if_neg hst, inodeSize_is hb hm ho hsz, wp_bind, wp_lift_ok, wp_bind]
    refine wp_mono wp_sysOpen ?_ fun _ h => h
    rintro r u ⟨u1, u2, u3, u4⟩
    cases r with
    | none =>
      refine wp_pure' ⟨fun h => (by cases h), fun hq _ ho => ?_⟩
      rw [← t1] at ho
      exact absurd rfl (u4 hq.calls ho)
    | some fd =>
      obtain ⟨h1, e, h2⟩ := openTrunc_resolve (u2 fd rfl)
      simp only
      have hcu : u.cache = none ∨ u.cache = some map := by rw [u1, t2]; exact hc
      have hw := hcore D rf hrf hrf' env hh fd u h1 hcu
      generalize recoverContents env rf ⟨b, ~~~0⟩ owner ino fd (some size) = c at hw ⊢
      refine wp_mono hw ?_ fun _ h => h
      rintro r v ⟨w1, w2, w3, w4, w5⟩
      refine ⟨fun hr => Or.inr ⟨fun hs => ?_, w4 hr⟩, fun hq hon _ => w5 hq hon⟩
      obtain ⟨d, hd, hl, hby⟩ := w3 hr hs
      refine ⟨d, ?_, hl, hby⟩
      unfold HostFS.readFile
      rw [resolve_grown w1.grown h2 ⟨_, h1⟩]
      simp only [hd]

theorem file_core {b : Bucket} (hb : b.WF) {m : Bytes} (hm : b.stores metadataVersionKey m)
    {owner ino g gc : UInt64} (ho : owner ≠ ~~~0) (ha : b.AddrOK gc) (hf : b.FileOK owner ino g gc)
    (hp : b.ExtentsPlain owner ino g gc) {size : UInt64} (hsz : b.inodeSizeIs owner ino size) (hlt : size.toNat < 2 ^ 63) :
    ∃ N map, ∀ (D : Bytes) (rf : Nat), N ≤ rf → ∀ env, Honest env D → ∀ (clobber : Bool) (target : Bytes) (s : RecState),
      (s.cache = none ∨ s.cache = some map) →
      wp (recoverFile env rf ⟨b, ~~~0⟩ clobber owner ino target) (fun r t =>
        (r = none → (clobber = false ∧ s.fs.stat true target ≠ none ∧ t.fs = s.fs) ∨
          ((sized b env owner ino → ∃ d, t.fs.readFile target = some d ∧ d.length = size.toNat ∧
            ∀ i v, d[i]? = some v → b.fileByte owner ino g gc D i v) ∧
           (∀ off f dev phys, b.extentAt owner ino g off f → f.diskByteNr ≠ 0 → f.numBytes ≠ 0 →
            b.translated gc f.diskByteNr dev phys → (phys + f.offset).toNat + f.numBytes.toNat ≤ D.length))) ∧
        (Quiet env D → b.OnDevice owner ino g gc D → s.fs.openTrunc target ≠ none → r = none)) (fun _ => False) s := by
  obtain ⟨N, map, hM⟩ := mapOK hb hm ha.range ha.chunks ha.disjoint
  refine ⟨max N (b.length + 1), map, fun D rf hrf => ?_⟩
  exact file_uniform hb hm ho ha hf hp hsz hlt hM D rf (by omega) (by omega)

/-! ## C58 -/

/-- C58 (the part that holds): if recovering a file reports no error, then the file at its
path has the size the inode says, and its bytes are those of its extents, zero where there
is none — unless, without `--clobber`, something was there before, which is left as it
was. This holds whatever system calls fail and whatever parts of the image `D` the device
delivers, as long as its only error is the end of the device, for a file whose extents are
uncompressed and in known chunks. Missing: files with preallocated, compressed or
encrypted extents (`C58_prealloc_shows_old_data`, `C58_compressed_data_is_copied_raw`),
and a file without extents when `Truncate` fails (`C58_truncate_error_dropped`); inline
files have their own theorem, `C58_inline_partial`. -/
theorem C58_content_partial (b : Bucket) (hb : b.WF) (m : Bytes) (hm : b.stores metadataVersionKey m)
    (owner ino g gc : UInt64) (ho : owner ≠ ~~~0) (ha : b.AddrOK gc) (hf : b.FileOK owner ino g gc)
    (hp : b.ExtentsPlain owner ino g gc) (size : UInt64) (hsz : b.inodeSizeIs owner ino size) (hlt : size.toNat < 2 ^ 63) :
    ∃ N, ∀ (D : Bytes) (rf : Nat), N ≤ rf → ∀ env, Honest env D → sized b env owner ino →
      ∀ (clobber : Bool) (target : Bytes) (s s' : RecState), s.cache = none →
      recoverFile env rf ⟨b, ~~~0⟩ clobber owner ino target s = .ok none s' →
      (clobber = false ∧ s.fs.stat true target ≠ none ∧ s'.fs = s.fs) ∨
      ∃ d, s'.fs.readFile target = some d ∧ d.length = size.toNat ∧
        ∀ i v, d[i]? = some v → b.fileByte owner ino g gc D i v := by
  obtain ⟨N, map, h⟩ := file_core hb hm ho ha hf hp hsz hlt
  refine ⟨N, fun D rf hrf env hh hs clobber target s s' hc hrun => ?_⟩
  have := h D rf hrf env hh clobber target s (Or.inl hc)
  unfold wp at this
  rw [hrun] at this
  rcases this.1 rfl with h | ⟨h, -⟩
  · exact Or.inl h
  · exact Or.inr (h hs)

/-- C58: and if no system call fails, the device is complete and the file can be opened,
it is recovered: there is no error, no crash. -/
theorem C58_recovered (b : Bucket) (hb : b.WF) (m : Bytes) (hm : b.stores metadataVersionKey m)
    (owner ino g gc : UInt64) (ho : owner ≠ ~~~0) (ha : b.AddrOK gc) (hf : b.FileOK owner ino g gc)
    (hp : b.ExtentsPlain owner ino g gc) (size : UInt64) (hsz : b.inodeSizeIs owner ino size) (hlt : size.toNat < 2 ^ 63) :
    ∃ N, ∀ (D : Bytes) (rf : Nat), N ≤ rf → ∀ env, Quiet env D → b.OnDevice owner ino g gc D →
      ∀ (clobber : Bool) (target : Bytes) (s : RecState), s.cache = none → s.fs.openTrunc target ≠ none →
      clobber = true ∨ s.fs.stat true target = none →
      ∃ s', recoverFile env rf ⟨b, ~~~0⟩ clobber owner ino target s = .ok none s' ∧
        ∃ d, s'.fs.readFile target = some d ∧ d.length = size.toNat ∧
        ∀ i v, d[i]? = some v → b.fileByte owner ino g gc D i v := by
  obtain ⟨N, map, h⟩ := file_core hb hm ho ha hf hp hsz hlt
  refine ⟨N, fun D rf hrf env hq hon clobber target s hc hop hcl => ?_⟩
  have := h D rf hrf env hq.honest clobber target s (Or.inl hc)
  unfold wp at this
  cases hrun : recoverFile env rf ⟨b, ~~~0⟩ clobber owner ino target s with
  | ok r s' =>
    rw [hrun] at this
    obtain ⟨h1, h2⟩ := this
    obtain rfl := h2 hq hon hop
    refine ⟨s', rfl, ?_⟩
    rcases h1 rfl with ⟨c1, c2, -⟩ | ⟨h1, -⟩
    · rcases hcl with h | h
      · rw [h] at c1; cases c1
      · exact absurd h c2
    · exact h1 (Or.inr (hq.calls .truncate))
  | exit s' => rw [hrun] at this; exact this.elim
  | crash s' => rw [hrun] at this; exact this.elim
  | hang s' => rw [hrun] at this; exact this.elim

/-! ## C59 -/

/-- C59 (the part that holds): if the device ends before the data of some extent does,
recovering the file reports an error — unless it was skipped because, without `--clobber`,
something was there. Missing: other read errors (`C59_read_error_is_silent`). -/
theorem C59_truncated_image_partial (b : Bucket) (hb : b.WF) (m : Bytes) (hm : b.stores metadataVersionKey m)
    (owner ino g gc : UInt64) (ho : owner ≠ ~~~0) (ha : b.AddrOK gc) (hf : b.FileOK owner ino g gc)
    (hp : b.ExtentsPlain owner ino g gc) (size : UInt64) (hsz : b.inodeSizeIs owner ino size) (hlt : size.toNat < 2 ^ 63) :
    ∃ N, ∀ (D : Bytes) (rf : Nat), N ≤ rf → ∀ env, Honest env D →
      ∀ off f dev phys, b.extentAt owner ino g off f → f.diskByteNr ≠ 0 → f.numBytes ≠ 0 →
        b.translated gc f.diskByteNr dev phys → D.length < (phys + f.offset).toNat + f.numBytes.toNat →
      ∀ (clobber : Bool) (target : Bytes) (s : RecState), s.cache = none →
      clobber = true ∨ s.fs.stat true target = none →
      ∃ e s', recoverFile env rf ⟨b, ~~~0⟩ clobber owner ino target s = .ok (some e) s' := by
  obtain ⟨N, map, h⟩ := file_core hb hm ho ha hf hp hsz hlt
  refine ⟨N, fun D rf hrf env hh off f dev phys hat hz hn htr hD clobber target s hc hcl => ?_⟩
  have := h D rf hrf env hh clobber target s (Or.inl hc)
  unfold wp at this
  cases hrun : recoverFile env rf ⟨b, ~~~0⟩ clobber owner ino target s with
  | ok r s' =>
    rw [hrun] at this
    cases r with
    | some e => exact ⟨e, s', rfl⟩
    | none =>
      exfalso
      rcases this.1 rfl with ⟨c1, c2, -⟩ | ⟨-, h1⟩
      · rcases hcl with h | h
        · rw [h] at c1; cases c1
        · exact c2 h
      · have := h1 off f dev phys hat hz hn htr
        omega
  | exit s' => rw [hrun] at this; exact this.elim
  | crash s' => rw [hrun] at this; exact this.elim
  | hang s' => rw [hrun] at this; exact this.elim

/-! ### The hypotheses can be met -/

theorem exFileStore_extents {g off : UInt64} {f : FileExtentItemRec} (h : exFileStore.enc.extentAt 5 257 g off f) :
    (off = 0 ∧ f = FileExtentItemRec.mk 9 8192 0 0 0 1 0x1001000 8192 4096 4096) ∨
    (off = 4096 ∧ f = FileExtentItemRec.mk 9 4096 0 0 0 1 0 0 0 4096) := by
  obtain ⟨x, d, rest, h1, h2, h3⟩ := id h
  have hx := enc_stores.mp h1
  have hg := (exFileStore_gens _ hx (by show ¬ (5 : UInt64) = ~~~0; decide)).2.2 rfl
  simp only at hg
  subst hg
  have hx' := hx
  simp only [exFileStore, List.mem_cons, List.not_mem_nil, or_false, Prod.mk.injEq, VKey.mk.injEq, Key.mk.injEq] at hx'
  rcases hx' with ⟨⟨h', -⟩, -⟩ | ⟨⟨h', -⟩, -⟩ | ⟨⟨h', -⟩, -⟩ | ⟨⟨h', -⟩, -⟩ | ⟨⟨-, ⟨-, h', -⟩, -⟩, -⟩ |
    ⟨⟨-, ⟨-, -, rfl⟩, -⟩, rfl⟩ | ⟨⟨-, ⟨-, -, rfl⟩, -⟩, rfl⟩ | ⟨⟨-, ⟨h', -⟩, -⟩, -⟩ | ⟨h', -⟩
  · exact absurd h' (by decide)
  · exact absurd h' (by decide)
  · exact absurd h' (by decide)
  · exact absurd h' (by decide)
  · exact absurd h' (by decide)
  · exact Or.inl ⟨rfl, extentAt_unique exFileStore_sorted h
      ⟨_, _, [], h1, mkItem_holds _ _ (by decide), (List.append_nil _).symm⟩⟩
  · exact Or.inr ⟨rfl, extentAt_unique exFileStore_sorted h
      ⟨_, _, [], h1, mkItem_holds _ _ (by decide), (List.append_nil _).symm⟩⟩
  · exact absurd h' (by decide)
  · exact absurd (congrArg VKey.owner h') (by show ¬ (5 : UInt64) = ~~~0; decide)

theorem exFileStore_phys {dev phys : UInt64} (h : exFileStore.enc.translated 7 0x1001000 dev phys) : phys = 0x101000 :=
  (translated_unique (AStore.enc_wf exFileStore_sorted) (m := []) (enc_stores.mpr (by simp [exFileStore])) exFileStore_addr h
    (dev' := 1) (Or.inr ⟨by decide, 0x1000000, _, _, _, exChunk_at (len := 0x800000) (dev := 1) (off := 0x100000)
          (by simp only [exFileStore, List.mem_cons]; right; left; trivial), by decide +kernel, by decide +kernel, rfl, by decide +kernel⟩)).2

theorem exFileStore_plain : exFileStore.enc.ExtentsPlain 5 257 10 7 where
  disjoint off f off' f' h h' hlt := by
    rcases exFileStore_extents h with ⟨rfl, rfl⟩ | ⟨rfl, rfl⟩ <;> rcases exFileStore_extents h' with ⟨rfl, rfl⟩ | ⟨rfl, rfl⟩
    · exact absurd hlt (by decide)
    · decide
    · exact absurd hlt (by decide)
    · exact absurd hlt (by decide)
  plain off f h := by
    rcases exFileStore_extents h with ⟨rfl, rfl⟩ | ⟨rfl, rfl⟩ <;> exact ⟨rfl, rfl, rfl, rfl⟩
  small off f h := by
    rcases exFileStore_extents h with ⟨rfl, rfl⟩ | ⟨rfl, rfl⟩ <;> decide
  holes off f h := by
    rcases exFileStore_extents h with ⟨rfl, rfl⟩ | ⟨rfl, rfl⟩ <;> decide
  addr off f dev phys h hz htr := by
    rcases exFileStore_extents h with ⟨rfl, rfl⟩ | ⟨rfl, rfl⟩
    · rw [exFileStore_phys htr]; decide
    · exact absurd rfl hz

theorem exFileStore_size : exFileStore.enc.inodeSizeIs 5 257 5000 :=
  ⟨10, _, exInode 5000, [], exFileStore_newest (by decide) (fun e he ho => (exFileStore_gens e he (by rw [ho]; decide)).2.2 ho)
      (enc_hasKey.mpr ⟨10, _, by simp only [exFileStore, List.mem_cons]; right; right; right; right; left; rfl⟩),
    enc_stores.mpr (by simp only [exFileStore, List.mem_cons]; right; right; right; right; left; rfl),
    by rw [List.append_nil]; exact mkItem_holds _ _ (by decide +kernel), rfl⟩

/-- C58 applies to `exFileStore` and an image of sevens: 4096 of them and a hole cut off
at 5000 are written to a new file on a host with an empty root directory. -/
example : ∃ N, ∀ rf, N ≤ rf →
    ∃ s', recoverFile { quietEnv with dev := fun _ => imageReader (List.replicate 0x200000 7) } rf ⟨exFileStore.enc, ~~~0⟩
        false 5 257 (ascii "/a") (RecState.start exEmptyHost) = .ok none s' ∧
      ∃ d, s'.fs.readFile (ascii "/a") = some d ∧ d.length = 5000 ∧ d[4095]? = some 7 ∧ d[4096]? = some 0 := by
  obtain ⟨N, h⟩ := C58_recovered exFileStore.enc (AStore.enc_wf exFileStore_sorted) [] (enc_stores.mpr (by simp [exFileStore]))
    5 257 10 7 (by decide) exFileStore_addr exFileStore_ok exFileStore_plain 5000 exFileStore_size (by decide)
  refine ⟨N, fun rf hrf => ?_⟩
  obtain ⟨s', hs, d, hd, hl, hb⟩ := h (List.replicate 0x200000 7) rf hrf { quietEnv with dev := fun _ => imageReader (List.replicate 0x200000 7) }
    ⟨fun _ _ => rfl, fun _ => rfl⟩ (by
      intro off f dev phys hx hz htr
      rcases exFileStore_extents hx with ⟨rfl, rfl⟩ | ⟨rfl, rfl⟩
      · rw [exFileStore_phys htr, List.length_replicate]; decide
      · exact absurd rfl hz) false (ascii "/a") (RecState.start exEmptyHost) rfl (by decide +kernel) (Or.inr (by decide +kernel))
  have hlen : d.length = 5000 := hl
  have hget : ∀ i, i < 5000 → d[i]? = some 7 ∧ i < 4096 ∨ d[i]? = some 0 ∧ 4096 ≤ i := by
    intro i hi
    have hv := List.getElem?_eq_getElem (l := d) (i := i) (by omega)
    rcases hb i _ hv with ⟨off, f, hx, hin, hval⟩ | ⟨hno, -⟩
    · rcases exFileStore_extents hx with ⟨rfl, rfl⟩ | ⟨rfl, rfl⟩
      · left
        have h1 : i < 4096 := by simpa using hin.2
        rcases hval with ⟨h | h, -⟩ | ⟨-, -, dev, phys, htr, hval⟩
        · exact absurd h (by decide)
        · exact absurd h (by decide)
        · have := (List.getElem?_eq_some_iff.mp hval)
          obtain ⟨hlt, hval⟩ := this
          rw [List.getElem_replicate] at hval
          exact ⟨by rw [hv, ← hval], h1⟩
      · right
        have h1 : 4096 ≤ i := by simpa using hin.1
        rcases hval with ⟨-, h⟩ | ⟨h, -⟩
        · exact ⟨by rw [hv, h], h1⟩
        · exact absurd rfl h
    · exfalso
      by_cases h1 : i < 4096
      · exact hno 0 _ ⟨_, _, [], enc_stores.mpr (by simp only [exFileStore, List.mem_cons]; right; right; right; right; right; left; rfl),
          mkItem_holds _ _ (by decide), (List.append_nil _).symm⟩ ⟨by simp, by simpa using h1⟩
      · exact hno 4096 _ ⟨_, _, [], enc_stores.mpr (by simp only [exFileStore, List.mem_cons]; right; right; right; right; right; right; left; rfl),
          mkItem_holds _ _ (by decide), (List.append_nil _).symm⟩ ⟨by simpa using Nat.le_of_not_lt h1, by simp; omega⟩
  refine ⟨s', hs, d, hd, hlen, ?_, ?_⟩
  · rcases hget 4095 (by omega) with h | h
    · exact h.1
    · omega
  · rcases hget 4096 (by omega) with h | h
    · omega
    · exact h.1

end Btrfscue
