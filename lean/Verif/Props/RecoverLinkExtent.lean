import Verif.Props.RecoverContent
import Verif.Props.RecoverLink
/-!
# C62: symbolic links whose target is in a regular extent
-/

namespace Btrfscue

open Cmd

/-- The end of reading a target of `n` bytes. -/
def readDone (n : Nat) (r : Bytes × Option IOErr) : Rec (Except RecErr Bytes) :=
  if r.2 = none then return .ok (goCopy (List.replicate n 0) r.1) else return .error .readTarget

/-- The target read from the device. -/
theorem wp_symlinkTarget {b : Bucket} {gc : UInt64} {N : Nat} {map : List StripeMapEntry} (hM : MapOK b gc N map)
    {f : FileExtentItemRec} {rest tail : Bytes} (ht : f.typ ≠ 0) {dev phys : UInt64} (hz : f.diskByteNr ≠ 0)
    (htr : b.translated gc f.diskByteNr dev phys) (hsm : (phys + f.offset).toNat + f.numBytes.toNat < 2 ^ 63)
    (hmk : f.numBytes.toNat ≤ 2 ^ 48) {env : Env} {D : Bytes} (hh : Honest env D) {rf : Nat} (hrf : N ≤ rf) {s : RecState}
    (hc : s.cache = none ∨ s.cache = some map) :
    wp (symlinkTarget env rf ⟨b, ~~~0⟩ ⟨f.layout ++ rest, tail⟩) (fun t s' => s'.fs = s.fs ∧
      (∀ x, t = .ok x → x = (D.drop (phys + f.offset).toNat).take f.numBytes.toNat ∧
        (f.numBytes ≠ 0 → (phys + f.offset).toNat + f.numBytes.toNat ≤ D.length)) ∧
      (Quiet env D → (phys + f.offset).toNat + f.numBytes.toNat ≤ D.length → ∃ x, t = .ok x)) (fun _ => False) s := by
  obtain ⟨-, -, -, -, -, -, -, d7, -, d9, d10⟩ := C07_FileExtentItem_decodes f rest tail
  have hin : FileExtentItem.isInline ⟨f.layout ++ rest, tail⟩ = .ok false := by
    rw [C07_FileExtentItem_isInline]; simp [ht]
  have hpos : 0 < f.diskByteNr := by
    rw [UInt64.lt_iff_toNat_lt]
    have : f.diskByteNr.toNat ≠ 0 := fun h => hz (UInt64.toNat_inj.mp h)
    show 0 < _
    omega
  have hph : (Ix.mk b (~~~0)).physical rf s.cache f.diskByteNr = .ok (some map, dev, phys) := by
    rcases htr with ⟨z, -⟩ | ⟨-, start, c, st, ss, h1, h2, h3, h4, h5⟩
    · exact absurd z hz
    · rw [hM.phys rf hrf _ hc start c st ss _ h1 h2 h3, h4, h5]
  have hmk' : goMake f.numBytes = .ok (List.replicate f.numBytes.toNat 0) := by
    unfold goMake; rw [if_neg (by omega)]
  have h63 : int64OfU64 (phys + f.offset) = ((phys + f.offset).toNat : Int) := int64_small (by omega)
  have hrun : symlinkTarget env rf ⟨b, ~~~0⟩ ⟨f.layout ++ rest, tail⟩ s =
      readDone f.numBytes.toNat (osReadAt (env.dev s.calls) ((phys + f.offset).toNat : Int) f.numBytes.toNat)
        { s with cache := some map, calls := s.calls + 1 } := by
    have hpr : recPhysical rf ⟨b, ~~~0⟩ f.diskByteNr s = .ok (dev, phys) { s with cache := some map } := by
      unfold recPhysical; rw [hph]
    unfold symlinkTarget readTarget readDone
    simp only [bind_def, hin, lift_ok, Bool.false_eq_true, if_false, d7, hpos, if_true, hpr, d9, d10, Go.ok_bind, hmk',
      List.length_replicate, h63, devRead]
  unfold wp
  rw [hrun]
  obtain ⟨j, h1, h2, h3, h4⟩ := osReadAt_spec hh s.calls (off := (phys + f.offset).toNat) (k := f.numBytes.toNat)
  have hq := fun hq : Quiet env D => osReadAt_quiet hq s.calls (off := (phys + f.offset).toNat) (k := f.numBytes.toNat)
  generalize osReadAt (env.dev s.calls) ((phys + f.offset).toNat : Int) f.numBytes.toNat = r at h1 h2 h3 h4 hq ⊢
  obtain ⟨d, er⟩ := r
  simp only at h1 h4 hq
  unfold readDone
  rcases h4 with ⟨h4, rfl⟩ | ⟨h4, h5⟩
  · rw [if_pos h4]
    refine ⟨rfl, ?_, fun _ _ => ⟨_, rfl⟩⟩
    intro x hx
    injection hx with hx
    subst hx h1
    have hl : ((D.drop (phys + f.offset).toNat).take f.numBytes.toNat).length = f.numBytes.toNat := by
      rw [List.length_take, List.length_drop]; omega
    constructor
    · unfold goCopy
      have hdr : (List.replicate f.numBytes.toNat (0 : UInt8)).drop f.numBytes.toNat = [] :=
        List.drop_of_length_le (by rw [List.length_replicate])
      rw [List.length_replicate, List.take_of_length_le (Nat.le_of_eq hl), hl, hdr, List.append_nil]
    · intro hn
      have : f.numBytes.toNat ≠ 0 := fun h => hn (UInt64.toNat_inj.mp h)
      omega
  · rw [if_neg (by rw [h4]; exact fun h => by cases h)]
    refine ⟨rfl, fun x hx => (by cases hx), fun q1 q2 => ?_⟩
    rw [hq q1 q2] at h4
    cases h4

/-- C62: if recovering a link whose target is in a regular extent reports no error, its
target is all of the bytes the extent stands for on the device — unless, without
`--clobber`, something was there before, which is left as it was. Whatever system calls
fail and whatever part of the image the device delivers. -/
theorem C62_link_extent_target (b : Bucket) (hb : b.WF) (m : Bytes) (hm : b.stores metadataVersionKey m)
    (owner inode : UInt64) (ho : owner ≠ ~~~0) (g gc : UInt64) (ha : b.AddrOK gc) (x : Bytes) (f : FileExtentItemRec) (rest : Bytes)
    (hn : b.newest owner ⟨inode, 108, 0⟩ g) (hs : b.stores ⟨owner, ⟨inode, 108, 0⟩, g⟩ x)
    (hd : holdsItem x (f.layout ++ rest)) (ht : f.typ ≠ 0) (dev phys : UInt64) (hz : f.diskByteNr ≠ 0)
    (htr : b.translated gc f.diskByteNr dev phys) (hsm : (phys + f.offset).toNat + f.numBytes.toNat < 2 ^ 63)
    (hmk : f.numBytes.toNat ≤ 2 ^ 48) :
    ∃ N, ∀ (D : Bytes) (rf : Nat), N ≤ rf → ∀ env, Honest env D →
      ∀ (clobber : Bool) (p : Bytes) (s s' : RecState), s.cache = none →
      recoverSymlink env rf ⟨b, ~~~0⟩ clobber owner inode p s = .ok none s' →
      (s'.fs.readLink p = some ((D.drop (phys + f.offset).toNat).take f.numBytes.toNat) ∧
        (f.numBytes ≠ 0 → (phys + f.offset).toNat + f.numBytes.toNat ≤ D.length)) ∨
      (clobber = false ∧ s'.fs = s.fs ∧ s.fs.stat false p ≠ none) := by
  obtain ⟨N, map, hM⟩ := mapOK hb hm ha.range ha.chunks ha.disjoint
  refine ⟨N, fun D rf hrf env hh clobber p s s' hc hrun => ?_⟩
  obtain ⟨t, ht'⟩ := findData_newest hb hm ho hn hs hd
  have hi : (Ix.mk b (~~~0)).findFileExtentItem owner inode = .ok (some ⟨f.layout ++ rest, t⟩) := ht'
  have hlink : ∀ s : RecState, s.cache = none → wp (recoverLink env rf ⟨b, ~~~0⟩ owner inode p) (fun r s' => r = none →
      s'.fs.readLink p = some ((D.drop (phys + f.offset).toNat).take f.numBytes.toNat) ∧
        (f.numBytes ≠ 0 → (phys + f.offset).toNat + f.numBytes.toNat ≤ D.length)) (fun _ => False) s := by
    intro s hc
    unfold recoverLink
    rw [wp_bind, hi, wp_lift_ok]
    simp only
    rw [wp_bind]
    refine wp_mono (wp_symlinkTarget hM ht hz htr hsm hmk hh hrf (Or.inl hc)) (fun t u h => ?_) fun _ h => h
    refine wp_mono wp_makeLink (fun r v h' hr => ?_) fun _ h => h
    obtain ⟨y, hy, hrl⟩ := h' hr
    obtain ⟨e1, e2⟩ := h.2.1 y hy
    exact ⟨e1 ▸ hrl, e2⟩
  have hw : wp (recoverSymlink env rf ⟨b, ~~~0⟩ clobber owner inode p) (fun r s' => r = none →
      (s'.fs.readLink p = some ((D.drop (phys + f.offset).toNat).take f.numBytes.toNat) ∧
        (f.numBytes ≠ 0 → (phys + f.offset).toNat + f.numBytes.toNat ≤ D.length)) ∨
      (clobber = false ∧ s'.fs = s.fs ∧ s.fs.stat false p ≠ none)) (fun _ => False) s := by
    unfold recoverSymlink
    rw [wp_bind]
    have hl : wp (sysLstat env p) (fun r t => t.fs = s.fs ∧ t.cache = s.cache ∧ (r.isSome → s.fs.stat false p ≠ none)) (fun _ => False) s := by
      unfold wp sysLstat
      simp only [bind_def, tick]
      by_cases hf : env.fails .lstat s.calls = true
      · simp only [hf, if_true, pure_run]
        exact ⟨by simp, by simp, fun h => by cases h⟩
      · simp only [hf, Bool.false_eq_true, if_false, bind_def, get_run, pure_run]
        exact ⟨by simp, by simp, fun h hn => by rw [hn] at h; cases h⟩
    refine wp_mono hl (fun st t ht => ?_) fun _ h => h
    by_cases hst : st.isSome = true
    · simp only [hst, if_true]
      cases clobber with
      | false => exact fun _ => Or.inr ⟨rfl, ht.1, ht.2.2 hst⟩
      | true =>
        simp only [Bool.not_true, Bool.false_eq_true, if_false]
        rw [wp_bind]
        have hrm : wp (sysRemove env p) (fun _ u => u.cache = t.cache) (fun _ => False) t := by
          unfold wp sysRemove
          simp only [bind_def, note, modify_run, tick]
          by_cases hf : env.fails .remove t.calls = true
          · simp only [hf, if_true, pure_run]
          · simp only [hf, Bool.false_eq_true, if_false, bind_def, get_run]
            cases t.fs.remove p <;> simp [applyFS, setFS, bind_def, modify_run, pure_run]
        refine wp_mono hrm (fun _ u hu => ?_) fun _ h => h
        exact wp_mono (hlink u (by rw [hu, ht.2.1, hc])) (fun r s' h hr => Or.inl (h hr)) fun _ h => h
    · simp only [hst, Bool.false_eq_true, if_false]
      exact wp_mono (hlink t (by rw [ht.2.1, hc])) (fun r s' h hr => Or.inl (h hr)) fun _ h => h
  unfold wp at hw
  rw [hrun] at hw
  exact hw rfl

/-- C62: and the link is made if the device is complete, nothing is in its way and no
system call fails. -/
theorem C62_link_extent_made (b : Bucket) (hb : b.WF) (m : Bytes) (hm : b.stores metadataVersionKey m)
    (owner inode : UInt64) (ho : owner ≠ ~~~0) (g gc : UInt64) (ha : b.AddrOK gc) (x : Bytes) (f : FileExtentItemRec) (rest : Bytes)
    (hn : b.newest owner ⟨inode, 108, 0⟩ g) (hs : b.stores ⟨owner, ⟨inode, 108, 0⟩, g⟩ x)
    (hd : holdsItem x (f.layout ++ rest)) (ht : f.typ ≠ 0) (dev phys : UInt64) (hz : f.diskByteNr ≠ 0)
    (htr : b.translated gc f.diskByteNr dev phys) (hsm : (phys + f.offset).toNat + f.numBytes.toNat < 2 ^ 63)
    (hmk : f.numBytes.toNat ≤ 2 ^ 48) :
    ∃ N, ∀ (D : Bytes) (rf : Nat), N ≤ rf → ∀ env, Quiet env D → (phys + f.offset).toNat + f.numBytes.toNat ≤ D.length →
      ∀ (clobber : Bool) (p : Bytes) (s : RecState) (fs' : HostFS), s.cache = none →
      s.fs.symlink ((D.drop (phys + f.offset).toNat).take f.numBytes.toNat) p = some fs' →
      ∃ s', recoverSymlink env rf ⟨b, ~~~0⟩ clobber owner inode p s = .ok none s' ∧ s'.fs = fs' := by
  obtain ⟨N, map, hM⟩ := mapOK hb hm ha.range ha.chunks ha.disjoint
  refine ⟨N, fun D rf hrf env hq hon clobber p s fs' hc hfs => ?_⟩
  obtain ⟨t, ht'⟩ := findData_newest hb hm ho hn hs hd
  have hi : (Ix.mk b (~~~0)).findFileExtentItem owner inode = .ok (some ⟨f.layout ++ rest, t⟩) := ht'
  generalize hdata : (D.drop (phys + f.offset).toNat).take f.numBytes.toNat = data at hfs
  have hst : s.fs.stat false p = none := by
    unfold HostFS.symlink at hfs
    by_cases hc : data = [] ∨ 0 ∈ data ∨ 4096 ≤ data.length
    · rw [if_pos hc] at hfs; cases hfs
    · rw [if_neg hc] at hfs
      unfold HostFS.stat
      cases hres : s.fs.resolve false p with
      | found _ _ => rw [hres] at hfs; cases hfs
      | fail => rfl
      | missing _ _ _ => rfl
  have htg := wp_symlinkTarget (tail := t) (rest := rest) hM ht hz htr hsm hmk hq.honest hrf
    (s := { s with calls := s.calls + 1 }) (Or.inl hc)
  unfold wp at htg
  unfold recoverSymlink sysLstat recoverLink
  simp only [bind_def, tick, hq.calls, Bool.false_eq_true, if_false, get_run, pure_run, hst, Option.isSome_none, hi, lift_ok]
  cases hrun : symlinkTarget env rf ⟨b, ~~~0⟩ ⟨f.layout ++ rest, t⟩ { s with calls := s.calls + 1 } with
  | ok y u =>
    rw [hrun] at htg
    obtain ⟨g1, g2, g3⟩ := htg
    obtain ⟨z, rfl⟩ := g3 hq hon
    obtain ⟨rfl, -⟩ := g2 z rfl
    obtain ⟨s', hs', hfs'⟩ := sysSymlink_quiet (env := env) (hq.calls .symlink) (t := data) (p := p) (s := u) (f := fs')
      (by rw [g1]; exact hfs)
    refine ⟨s', ?_, hfs'⟩
    simp only [makeLink, bind_def, hdata, hs', if_true, pure_run]
  | exit u => rw [hrun] at htg; exact htg.elim
  | crash u => rw [hrun] at htg; exact htg.elim
  | hang u => rw [hrun] at htg; exact htg.elim

/-- The hypotheses can be met: taking inode 257 of `exFileStore` for a link. -/
example : exFileStore.enc.newest 5 ⟨257, 108, 0⟩ 10 ∧
    (∃ x, exFileStore.enc.stores ⟨5, ⟨257, 108, 0⟩, 10⟩ x ∧
      holdsItem x ((FileExtentItemRec.mk 9 8192 0 0 0 1 0x1001000 8192 4096 4096).layout ++ [])) ∧
    exFileStore.enc.translated 7 0x1001000 1 0x101000 :=
  ⟨exFileStore_newest (by decide) (fun e he ho => (exFileStore_gens e he (by rw [ho]; decide)).2.2 ho)
      (enc_hasKey.mpr ⟨10, _, by simp only [exFileStore, List.mem_cons]; right; right; right; right; right; left; rfl⟩),
    ⟨_, enc_stores.mpr (by simp only [exFileStore, List.mem_cons]; right; right; right; right; right; left; rfl),
      by rw [List.append_nil]; exact mkItem_holds _ _ (by decide +kernel)⟩,
    Or.inr ⟨by decide, 0x1000000, _, _, _, exChunk_at (len := 0x800000) (dev := 1) (off := 0x100000)
          (by simp only [exFileStore, List.mem_cons]; right; left; trivial), by decide +kernel, by decide +kernel, rfl, by decide +kernel⟩⟩

end Btrfscue
