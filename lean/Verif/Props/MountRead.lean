import Verif.Props.MountImage
import Verif.Props.MountSession
/-!
# C86: reading files in the course of a mount
-/

namespace Btrfscue

/-- The `n` bytes from `p` on are inside one extent of the file. -/
def Bucket.insideExtent (b : Bucket) (o i : UInt64) (p n : Nat) : Prop :=
  (∃ off g f, b.newest o ⟨i, 108, off⟩ g ∧ b.extentAt o i g off f ∧ f.typ ≠ 0 ∧ off.toNat ≤ p ∧ p + n ≤ off.toNat + f.numBytes.toNat) ∨
  ∃ g data, b.InlineFile o i g 0 data ∧ p + n ≤ data.length

/-- C86: after any requests to the mount, however it got the open file `k` of inode `i`: a read from
it, inside one extent and inside the file, is answered with the bytes of the contents `x` that
recover writes for the file, and if it is inline its size is that of the data. Missing: as for
`C86_same_content_partial`. -/
theorem C86_session_partial (b : Bucket) (hb : b.WF) (m : Bytes) (hm : b.stores metadataVersionKey m) (gc : UInt64)
    (hu : b.Undamaged gc) (D : Bytes) (hD : D.length < 2 ^ 63) (o i : UInt64)
    (hr : b.recoverable gc o i) (hdev : ∀ g, b.FileOK o i g gc → b.OnDevice o i g gc D)
    (hne : ∃ off, b.hasKey o ⟨i, 108, off⟩) (hzero : ∀ g start data, b.InlineFile o i g start data → start = 0)
    (x : Bytes) (hx : b.contentIs gc D o i x) :
    ∃ N, ∀ fuel, N ≤ fuel → ∀ (qs : List MountReq) (s : MountState) (as : List MountAns),
      mountRunAll fuel ⟨b, ~~~0⟩ (some (imageReader D)) {} qs = .ok (s, as) → ∀ (k : Nat) (f : OpenFile), s.files[k]? = some (o, i, f) →
      (∀ (buf : Bytes) (p : Nat), buf ≠ [] → b.insideExtent o i p buf.length → p + buf.length ≤ x.length →
        answer (mountStep fuel ⟨b, ~~~0⟩ (some (imageReader D)) s (.read k buf p)) = .ok (.bytes (.ok ((x.drop p).take buf.length)))) ∧
      ∀ g data, b.InlineFile o i g 0 data →
        answer (mountStep fuel ⟨b, ~~~0⟩ (some (imageReader D)) s (.fileAttr k)) =
          .ok (.attr (.ok { mode := 0o100644, size := UInt64.ofNat data.length })) := by
  obtain ⟨N, h, h1, h2⟩ := open_shows hb hm hu hD hr hdev hne hzero hx
  refine ⟨N, fun fuel hf qs s as hs k f hk => ?_⟩
  obtain ⟨⟨c, hc⟩, -⟩ := C107_open_files_partial fuel _ _ qs s as hs k o i f hk
  obtain ⟨r, hr'⟩ := h1 fuel hf
  rw [hr'] at hc
  simp only [Go.ok.injEq, Prod.mk.injEq, Except.ok.injEq] at hc
  obtain ⟨-, rfl⟩ := hc
  rcases h2 with ⟨data, g, hi, rfl, h2⟩ | ⟨ext, g, hfo, rfl, h2⟩
  · refine ⟨fun buf p _ hin hp => ?_, fun g' data' hi' => ?_⟩
    · have hpd : p + buf.length ≤ data.length := by
        rcases hin with ⟨off, g', f, hn, hat, ht, -⟩ | ⟨g', data', hi', hle⟩
        · exfalso
          obtain rfl := hi.only off ⟨g', hn.1⟩
          obtain rfl := newest_unique hn hi.newest
          obtain ⟨y, f', rest, k1, k2, -, -, -, k3⟩ := hi.intact
          obtain ⟨y', d', rest', k1', k2', rfl⟩ := hat
          obtain ⟨l, hl, rfl⟩ := hb.exists_abs
          obtain rfl := hl.unique (enc_stores.mp k1) (enc_stores.mp k1')
          exact regular_not_inline ht k3 hi.short (k2'.unique k2)
        · rw [inlineFile_unique hb hi hi'] at hle
          exact hle
      unfold mountStep
      simp only [MountReq.target, hk, fileStep, answer, dataFileRead]
      congr 3
      refine List.ext_getElem? fun j => ?_
      rw [List.getElem?_take, List.getElem?_take]
      by_cases hj : j < buf.length
      · rw [if_pos hj, if_pos hj, Int.toNat_natCast, List.getElem?_drop, List.getElem?_drop, h2 _ (by omega),
          List.getElem?_eq_getElem (by omega)]
        rfl
      · rw [if_neg hj, if_neg hj]
    · rw [inlineFile_unique hb hi hi']
      unfold mountStep
      simp only [MountReq.target, hk, fileStep, answer]
  · refine ⟨fun buf p hb' hin hp => ?_, fun g' data' hi' => (hfo.not_inline hb hi').elim⟩
    rcases hin with ⟨off, g', f, hn, hat, -, l1, l2⟩ | ⟨g', data', hi', hle⟩
    · unfold mountStep
      simp only [MountReq.target, hk, fileStep, answer, h2 off g' f hn hat buf p hb' l1 l2 hp, Go.ok_bind, Go.pure_eq]
    · exact (hfo.not_inline hb hi').elim

/-! ### The hypotheses can be met -/

/-- Looking up "s/f" and opening it, then reading from it; and the same for "b/c", whose extent is
inline. (That "s/f" meets the other hypotheses is shown in `Props/MountImage.lean`.) -/
def exReadSession : Go (MountState × List MountAns) :=
  mountRunAll 40 ⟨exAll.enc, ~~~0⟩ (some (imageReader [0, 0, 0, 0, 4, 5, 6])) {}
    [.lookup 0 [115], .lookup 1 [102], .open 2, .read 0 [9, 9] 1, .lookup 0 [98], .lookup 3 [99], .open 4, .read 1 [9, 9, 9] 1, .fileAttr 1]

example : (match exReadSession with
    | .ok (s, as) => (s.files.map (fun f => (f.1, f.2.1)), as.map fun a => MountAns.data (.ok a))
    | _ => ([], [])) =
    ([(256, 257), (5, 259)], [none, none, none, some [5, 6], none, none, none, some [46], none]) := by decide +kernel

example : exAll.enc.insideExtent 256 257 1 2 := by
  have hk : exAll.enc.hasKey 256 ⟨257, 108, 0⟩ :=
    enc_hasKey.mpr ⟨11, mkItem ⟨257, 108, 0⟩ (FileExtentItemRec.mk 9 3 0 0 0 1 20 64 0 3).layout, by decide +kernel⟩
  exact Or.inl ⟨0, 11, _, exAll_newest256 hk, exAll_extentAt, by decide, by decide, by decide⟩

end Btrfscue
