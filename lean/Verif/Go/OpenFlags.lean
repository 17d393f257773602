import Verif.Go.Core
/-!
# open(2) on one file

Nothing in this file models `/repo` code; it is part of the trusted base: what Linux
`open`, `pread` and `stat` do to a single file that may be missing. Permissions are
decided by the environment.
-/

namespace Btrfscue

/-- Bits of the flags of open(2) on Linux. -/
abbrev O_WRONLY : UInt32 := 1
abbrev O_RDWR : UInt32 := 2
abbrev O_CREAT : UInt32 := 0x40
abbrev O_EXCL : UInt32 := 0x80
abbrev O_TRUNC : UInt32 := 0x200

/-- A file of the host: missing, or its bytes and permission bits. -/
structure HostFile where
  data : Bytes
  mode : UInt32
  deriving DecidableEq

/-- Errors of open(2). -/
inductive OpenErr | ENOENT | EEXIST | EACCES
  deriving DecidableEq, Repr

/-- open(2) with `flags`. `may` is whether the environment lets the process open the file
for the access it asks for (truncating counts as writing). The result is the file
afterwards and the error, if any. Creating a missing file gives it the permission bits
`perm`. -/
def openFile (may : UInt32 → Bool) (flags perm : UInt32) (f : Option HostFile) : Option HostFile × Option OpenErr :=
  match f with
  | none =>
    if flags &&& O_CREAT = 0 then (none, some .ENOENT)
    else if may flags then (some ⟨[], perm⟩, none) else (none, some .EACCES)
  | some h =>
    if flags &&& O_CREAT ≠ 0 ∧ flags &&& O_EXCL ≠ 0 then (f, some .EEXIST)
    else if !may flags then (f, some .EACCES)
    else if flags &&& O_TRUNC ≠ 0 then (some { h with data := [] }, none)
    else (f, none)

end Btrfscue
