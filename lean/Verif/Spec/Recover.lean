import Verif.Model.Recover
import Verif.Proof.Wp
import Verif.Spec.Range
import Verif.Proof.GoPath
/-!
# Specification: what is seen of the host file system
-/

namespace Btrfscue

/-- The contents of the file a path leads to. -/
def HostFS.readFile (fs : HostFS) (p : Bytes) : Option Bytes :=
  match fs.resolve true p with
  | .found i _ =>
    match fs.inodes[i]? with
    | some (.file d) => some d
    | _ => none
  | _ => none

/-- The target of the symbolic link at a path. -/
def HostFS.readLink (fs : HostFS) (p : Bytes) : Option Bytes :=
  match fs.resolve false p with
  | .found i _ =>
    match fs.inodes[i]? with
    | some (.link t) => some t
    | _ => none
  | _ => none

/-- The names in the directory a path leads to. -/
def HostFS.listDir (fs : HostFS) (p : Bytes) : Option (List Bytes) :=
  match fs.resolve true p with
  | .found i _ =>
    match fs.inodes[i]? with
    | some (.dir es _) => some (es.map (·.1))
    | _ => none
  | _ => none

/-- Everything there was in `a` is still there in `b`: at every path that led to a file,
a link or a directory there is the same contents, the same target, a directory with at
least the same names. -/
structure Untouched (a b : HostFS) : Prop where
  files : ∀ p d, a.readFile p = some d → b.readFile p = some d
  links : ∀ p t, a.readLink p = some t → b.readLink p = some t
  dirs : ∀ p ns, a.listDir p = some ns → ∃ ns', b.listDir p = some ns' ∧ ∀ n ∈ ns, n ∈ ns'

/-- `f` is the file system at some point of a run that ended in state `s`: after the
last, or before one of the changes made. -/
def RecState.reached (s : RecState) (f : HostFS) : Prop := f = s.fs ∨ f ∈ s.past

/-- A state before the command starts: nothing has happened. -/
def RecState.start (fs : HostFS) : RecState := { fs := fs }

/-- The loop `for ; r.HasNext(); r.Next()` with an empty body ends before its `n`-th
iteration. -/
inductive Range.EndsIn : Nat → Range × Slice → Prop
  | done {n : Nat} {rd : Range × Slice} : rd.1.hasNext = false → EndsIn (n + 1) rd
  | crash {n : Nat} {rd : Range × Slice} : rd.1.next = .panic → EndsIn (n + 1) rd
  | step {n : Nat} {rd rd' : Range × Slice} : rd.1.next = .ok rd' → EndsIn n rd' → EndsIn (n + 1) rd

/-- The iterations over the index that recover makes end. -/
structure Ix.LoopsEnd (ix : Ix) : Prop where
  dirs : ∀ o id rd, ix.dirItems o id = .ok rd → ∃ n, Range.EndsIn n rd
  extents : ∀ o id rd, ix.fileExtentItems o id = .ok rd → ∃ n, Range.EndsIn n rd
  chunks : ∀ rd, ix.chunks = .ok rd → ∃ n, Range.EndsIn n rd
  subvolumes : ∀ rd, ix.subvolumes = .ok rd → ∃ n, Range.EndsIn n rd

/-- Circumstances under which the iterations of recover end: wherever there is anything
to iterate over, the range is well behaved. -/
structure Bucket.RecoverOK (b : Bucket) : Prop where
  dirs : ∀ o id off, b.hasKey o ⟨id, 84, off⟩ → b.RangeOK o (KL2 84 id)
  extents : ∀ o id off, b.hasKey o ⟨id, 108, off⟩ → b.RangeOK o (KL2 108 id)
  chunks : ∀ off, b.hasKey 3 ⟨256, 228, off⟩ → b.RangeOK 3 (KL2 228 256)
  subvolumes : ∀ off, b.hasKey 1 ⟨256, 132, off⟩ → b.RangeOK 1 (KL2 132 LastFreeObjectID)

/-- The directories entered, latest first. -/
def RecState.entered (s : RecState) : List (UInt64 × UInt64) :=
  s.log.filterMap fun e =>
    match e with
    | .enter o d _ => some (o, d)
    | _ => none

/-- `p` is `dest` or, after cleaning, `dest` followed by names that are not empty, "." or
".." and have no slash. -/
def Inside (dest p : Bytes) : Prop :=
  isRooted p = isRooted dest ∧ ∃ names, (∀ n ∈ names, Plain n) ∧ pathParts p = pathParts dest ++ names

/-- `p` is on the way to `dest`: as written, or after cleaning, it is a front part of it. -/
def OnTheWay (dest p : Bytes) : Prop :=
  (∃ rest, dest = p ++ rest) ∨ (isRooted p = isRooted dest ∧ ∃ rest, pathParts dest = pathParts p ++ rest)

/-- Inode `i` is `r` or lies below directory `r`. -/
inductive HostFS.Below (fs : HostFS) (r : Nat) : Nat → Prop
  | root : Below fs r r
  | entry {d : Nat} {es : List (Bytes × Nat)} {par : Nat} {n : Bytes} {j : Nat} : Below fs r d →
      fs.inodes[d]? = some (.dir es par) → (n, j) ∈ es → Below fs r j

end Btrfscue
