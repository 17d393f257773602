import Verif.Spec.Recover
/-!
# Specification: the names of a file
-/

namespace Btrfscue

/-- Inode `k` has the name `n` in the directory that is inode `d`. -/
def HostFS.names (fs : HostFS) (k d : Nat) (n : Bytes) : Prop :=
  ∃ es par, fs.inodes[d]? = some (.dir es par) ∧ (n, k) ∈ es

/-- Every entry of a directory leads to an inode. -/
def HostFS.Sound (fs : HostFS) : Prop := ∀ k d n, fs.names k d n → k < fs.inodes.length

/-- What is new in `f` has one name at most, and what is not new has no new names. -/
structure NoHardLinks (fs f : HostFS) : Prop where
  new : ∀ k, fs.inodes.length ≤ k → ∀ d n d' n', f.names k d n → f.names k d' n' → d = d' ∧ n = n'
  old : ∀ k, k < fs.inodes.length → ∀ d n, f.names k d n → fs.names k d n

end Btrfscue
