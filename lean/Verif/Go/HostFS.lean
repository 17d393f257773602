import Verif.Go.Path
/-!
# The file system of the host, as seen through Go's `os` package on Linux

Nothing in this file models `/repo` code; it is part of the trusted base. Modelled:
directories, regular files, symbolic links, path resolution as in path_resolution(7)
with at most 40 links. Not modelled: permissions, devices, hard links made by others,
mount points, other processes, and that nothing can be created in a removed directory.
A link before a slash at the end of a path is followed; a directory can be made under a
path that ends in a slash, a file or a link cannot.
-/

namespace Btrfscue

/-- What an inode holds. -/
inductive INode where
  | file (data : Bytes)
  | dir (entries : List (Bytes × Nat)) (parent : Nat)
  | link (target : Bytes)
  deriving DecidableEq

/-- A file system. An inode is named by its position; inode 0 is the root directory.
Inodes are never given up. -/
structure HostFS where
  inodes : List INode
  cwd : Nat
  deriving DecidableEq

/-- The inode an entry of a directory refers to. -/
def hostEntry (es : List (Bytes × Nat)) (n : Bytes) : Option Nat :=
  match es with
  | [] => none
  | e :: r => if e.1 = n then some e.2 else hostEntry r n

/-- Result of resolving a path: an inode (with the directory and name of the entry it
was found under), a missing last component (and whether slashes follow it), or an
error. -/
inductive Look where
  | found (i : Nat) (entry : Option (Nat × Bytes))
  | missing (dir : Nat) (name : Bytes) (slash : Bool)
  | fail
  deriving DecidableEq

/-- Result of resolving a path up to the next link that has to be followed. -/
inductive Walk where
  | done (l : Look)
  | jump (dir : Nat) (comps : List Bytes)
  deriving DecidableEq

/-- Resolve components from inode `d`; `follow` tells whether a link at the end is
followed. -/
def HostFS.walk (fs : HostFS) (follow : Bool) : Nat → Option (Nat × Bytes) → List Bytes → Walk
  | d, e, [] => .done (.found d e)
  | d, e, c :: r =>
    match fs.inodes[d]? with
    | some (.dir es par) =>
      if c = [] ∨ c = dot then fs.walk follow d e r
      else if c = dotdot then fs.walk follow par none r
      else
        match hostEntry es c with
        | none => .done (if r.all List.isEmpty then .missing d c !r.isEmpty else .fail)
        | some i =>
          match fs.inodes[i]? with
          | some (.link t) =>
            if r.isEmpty && !follow then .done (.found i (some (d, c)))
            else if t = [] then .done .fail
            else .jump (if isRooted t then 0 else d) (splitSlash t ++ r)
          | _ => fs.walk follow i (some (d, c)) r
    | _ => .done .fail

/-- Resolve components, following at most `n` links (`n > 0`: one less). -/
def HostFS.resolveFrom (fs : HostFS) (follow : Bool) : Nat → Nat → List Bytes → Look
  | 0, _, _ => .fail
  | n + 1, d, cs =>
    match fs.walk follow d none cs with
    | .done l => l
    | .jump d' cs' => fs.resolveFrom follow n d' cs'

/-- Resolve a path. Empty paths, paths with a NUL byte and paths of 4096 bytes or more
are refused. -/
def HostFS.resolve (fs : HostFS) (follow : Bool) (p : Bytes) : Look :=
  if p = [] ∨ 0 ∈ p ∨ 4096 ≤ p.length then .fail
  else fs.resolveFrom follow 41 (if isRooted p then 0 else fs.cwd) (splitSlash p)

/-- Change what an inode holds. -/
def HostFS.put (fs : HostFS) (i : Nat) (nd : INode) : HostFS := { fs with inodes := fs.inodes.set i nd }

/-- A new inode under a new entry of directory `d`; the result is its number. -/
def HostFS.create (fs : HostFS) (d : Nat) (n : Bytes) (nd : INode) : Option (HostFS × Nat) :=
  match fs.inodes[d]? with
  | some (.dir es par) =>
    some ({ fs with inodes := fs.inodes.set d (.dir (es ++ [(n, fs.inodes.length)]) par) ++ [nd] }, fs.inodes.length)
  | _ => none

/-- Remove an entry. -/
def HostFS.unlink (fs : HostFS) (d : Nat) (n : Bytes) : Option HostFS :=
  match fs.inodes[d]? with
  | some (.dir es par) => some (fs.put d (.dir (es.filter fun e => decide (e.1 ≠ n)) par))
  | _ => none

/-- Is the inode a directory? -/
def HostFS.isDirAt (fs : HostFS) (i : Nat) : Bool :=
  match fs.inodes[i]? with
  | some (.dir _ _) => true
  | _ => false

/-- stat(2) (`follow`) and lstat(2): `none` is an error (also if the file system is so
damaged that the inode does not exist), otherwise whether it is a directory. -/
def HostFS.stat (fs : HostFS) (follow : Bool) (p : Bytes) : Option Bool :=
  match fs.resolve follow p with
  | .found i _ => fs.inodes[i]?.map fun _ => fs.isDirAt i
  | _ => none

/-- mkdir(2) -/
def HostFS.mkdir (fs : HostFS) (p : Bytes) : Option HostFS :=
  match fs.resolve false p with
  | .missing d n _ => (fs.create d n (.dir [] d)).map (·.1)
  | _ => none

/-- symlink(2) -/
def HostFS.symlink (fs : HostFS) (target p : Bytes) : Option HostFS :=
  if target = [] ∨ 0 ∈ target ∨ 4096 ≤ target.length then none
  else
    match fs.resolve false p with
    | .missing d n false => (fs.create d n (.link target)).map (·.1)
    | _ => none

/-- open(2) with `O_CREAT|O_WRONLY|O_TRUNC`: the inode opened. A dangling link at the end
of the path leads to the creation of what it refers to. -/
def HostFS.openTrunc (fs : HostFS) (p : Bytes) : Option (HostFS × Nat) :=
  match fs.resolve true p with
  | .missing d n false => fs.create d n (.file [])
  | .found i _ =>
    match fs.inodes[i]? with
    | some (.file _) => some (fs.put i (.file []), i)
    | _ => none
  | _ => none

/-- `os.Remove`: unlink(2), and rmdir(2) for a directory, which must be empty. -/
def HostFS.remove (fs : HostFS) (p : Bytes) : Option HostFS :=
  match fs.resolve false p with
  | .found i (some (d, n)) =>
    match fs.inodes[i]? with
    | some (.dir es _) => if es.isEmpty then fs.unlink d n else none
    | _ => fs.unlink d n
  | _ => none

/-- The contents of a file after writing `b` at `off`: a gap is filled with zeroes;
writing nothing changes nothing. -/
def pwrite (data : Bytes) (off : Nat) (b : Bytes) : Bytes :=
  if b = [] then data
  else data.take off ++ (List.replicate (off - data.length) 0 ++ (b ++ data.drop (off + b.length)))

/-- The contents of a file after ftruncate(2). -/
def ptruncate (data : Bytes) (size : Nat) : Bytes :=
  data.take size ++ List.replicate (size - data.length) 0

/-- pwrite(2) to an open file: `none` if it is not a regular file. -/
def HostFS.write (fs : HostFS) (i off : Nat) (b : Bytes) : Option HostFS :=
  match fs.inodes[i]? with
  | some (.file d) => some (fs.put i (.file (pwrite d off b)))
  | _ => none

/-- ftruncate(2) -/
def HostFS.truncate (fs : HostFS) (i size : Nat) : Option HostFS :=
  match fs.inodes[i]? with
  | some (.file d) => some (fs.put i (.file (ptruncate d size)))
  | _ => none

end Btrfscue
