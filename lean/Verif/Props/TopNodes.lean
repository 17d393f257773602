import Verif.Model.TopNodes
/-!
# C91: the file `metadata` of the mounted file system
-/

namespace Btrfscue

/-- What a client does with the mounted file `metadata`. -/
inductive MetaOp
  | open (flags : UInt32)
  | read (off n : Nat)
  | write

/-- The index file after the client's operations. -/
def afterMetaOps (may : UInt32 → Bool) : List MetaOp → Option HostFile → Option HostFile
  | [], f => f
  | .open fl :: r, f => afterMetaOps may r (metadataOpen may fl f).1
  | .read _ _ :: r, f => afterMetaOps may r f
  | .write :: r, f => afterMetaOps may r (metadataWrite f).1

/-- C91 (partial): whatever a client does with the mounted file `metadata`, short of opening it
with `O_TRUNC`, the index file stays as it is. Missing: opens with `O_TRUNC`, see
`C91_truncating_open_empties_index`. -/
theorem C91_client_keeps_index_partial (may : UInt32 → Bool) (ops : List MetaOp) (h : HostFile)
    (ht : ∀ fl, MetaOp.open fl ∈ ops → fl &&& O_TRUNC = 0) : afterMetaOps may ops (some h) = some h := by
  induction ops with
  | nil => rfl
  | cons op r ih =>
    have hr := ih fun fl hf => ht fl (List.mem_cons_of_mem _ hf)
    cases op with
    | «open» fl =>
      have h0 := ht fl List.mem_cons_self
      have h1 : (metadataOpen may fl (some h)).1 = some h := by
        simp only [metadataOpen, openFile]
        by_cases hc : fl &&& O_CREAT ≠ 0 ∧ fl &&& O_EXCL ≠ 0
        · rw [if_pos hc]
        · rw [if_neg hc]
          by_cases hm : (!may fl) = true
          · rw [if_pos hm]
          · rw [if_neg hm, if_neg (by simpa using h0)]
      rw [afterMetaOps, h1, hr]
    | read off n => exact hr
    | write => exact hr

/-- C91: reading the mounted file gives the bytes of the index file. -/
theorem C91_reads_index (h : HostFile) (off n : Nat) :
    (metadataRead (some h) off n).length = min n (h.data.length - off) ∧
      ∀ i, i < n → (metadataRead (some h) off n)[i]? = h.data[off + i]? := by
  simp only [metadataRead]
  refine ⟨by rw [List.length_take, List.length_drop], fun i hi => ?_⟩
  rw [List.getElem?_take_of_lt hi, List.getElem?_drop]

/-- C91, refuted in general: opening the mounted file with `O_TRUNC`, in whatever access mode,
destroys the index if the process may write it. -/
theorem C91_truncating_open_empties_index (may : UInt32 → Bool) (flags : UInt32) (hm : may flags = true)
    (ht : flags &&& O_TRUNC ≠ 0) (hc : flags &&& O_EXCL = 0) (h : HostFile) :
    metadataOpen may flags (some h) = (some { h with data := [] }, none) := by
  simp only [metadataOpen, openFile]
  rw [if_neg (by simp [hc]), if_neg (by simp [hm]), if_pos ht]

/-- The hypotheses are met: `O_RDONLY|O_TRUNC`, and `O_RDWR|O_TRUNC`. -/
example : (0x200 : UInt32) &&& O_TRUNC ≠ 0 ∧ (0x200 : UInt32) &&& O_EXCL = 0 ∧ (0x202 : UInt32) &&& O_TRUNC ≠ 0 ∧
    metadataOpen (fun _ => true) 0x200 (some ⟨[1, 2, 3], 0o644⟩) = (some ⟨[], 0o644⟩, none) ∧
    afterMetaOps (fun _ => true) [.open 0, .read 0 10, .open 2, .write] (some ⟨[1, 2, 3], 0o644⟩) =
      some ⟨[1, 2, 3], 0o644⟩ := by decide

/-- C91: the root holds a directory `rescue`, the top of the default subvolume, and a file
`metadata`; nothing in it is shown as writable, and `metadata` is shown with the size the
index file had when it was mounted. -/
theorem C91_root (f : Option HostFile) :
    topChildren = [("rescue", true), ("metadata", false)] ∧
    topRescueNode.owner = 5 ∧ topRescueNode.ixInode = 256 ∧
    newTopNode.getAttr.mode = 0o40555 ∧
    (newMetadataNode f).getAttr.mode &&& 0o222 = 0 ∧
    (newMetadataNode f).getAttr.mode &&& 0o170000 = 0o100000 ∧
    (newMetadataNode f).getAttr.size = UInt64.ofNat ((f.map (·.data)).getD []).length := by
  refine ⟨rfl, by decide, by decide, by decide, ?_, ?_, ?_⟩
  · cases f with
    | none => decide
    | some h =>
      simp only [newMetadataNode, TopAttr.getAttr, ← UInt32.toNat_inj, UInt32.toNat_and, UInt32.toNat_or]
      have : ∀ n : Nat, ((n &&& 0o555) ||| 0o100000) &&& 0o222 = 0 := by
        intro n
        rw [Nat.and_or_distrib_right, Nat.and_assoc]
        simp
      exact this h.mode.toNat
  · cases f with
    | none => decide
    | some h =>
      simp only [newMetadataNode, TopAttr.getAttr, ← UInt32.toNat_inj, UInt32.toNat_and, UInt32.toNat_or]
      have : ∀ n : Nat, ((n &&& 0o555) ||| 0o100000) &&& 0o170000 = 0o100000 := by
        intro n
        rw [Nat.and_or_distrib_right, Nat.and_assoc]
        simp
      exact this h.mode.toNat
  · cases f <;> rfl

end Btrfscue
