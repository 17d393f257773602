import Verif.Model.TopNodes
/-!
# A mount over time (internal/rescuefs/nodefs.go, files.go)

The requests of clients, one after the other (overlapping ones are in
`Model/Concurrent`), and everything the process remembers between them: the nodes with
their caches, the open files, and the stripe map of the index. go-fuse and the kernel
decide which of the nodes made for a name is asked; here a request names any node made
so far, which covers all their choices. The crash or hang of a request ends the process.
-/

namespace Btrfscue

/-- What the process remembers. A node is referred to by its position, the first one is
that of `rescue` (internal/rescuefs/nodefs.go:34-37). Open files come with the tree and
inode they belong to (internal/rescuefs/files.go:26-32). -/
structure MountState where
  cache : Option (List StripeMapEntry) := none
  nodes : List RescueNode := [topRescueNode]
  files : List (UInt64 × UInt64 × OpenFile) := []
  deriving DecidableEq

/-- Requests. `ord` is the order Go takes for the map of entries, `buf` the buffer
go-fuse hands over, with whatever it contains. -/
inductive MountReq where
  | getAttr (h : Nat)
  | lookup (h : Nat) (name : Bytes)
  | openDir (h : Nat) (ord : DirMap → DirMap)
  | open (h : Nat)
  | getXAttr (h : Nat) (attr : Bytes)
  | listXAttr (h : Nat)
  | readlink (h : Nat)
  | fileAttr (f : Nat)
  | read (f : Nat) (buf : Bytes) (off : Int)

/-- Answers. `noSuch` answers requests for nodes and files that do not exist; these are
never made. -/
inductive MountAns where
  | attr (r : Except FuseErr FuseAttr)
  | found (owner inode : UInt64) (isDir : Bool) (r : Except FuseErr FuseAttr)
  | entries (l : List (Bytes × Bool))
  | opened (f : OpenFile)
  | bytes (r : Except FuseErr Bytes)
  | names (l : List Bytes)
  | error (e : FuseErr)
  | noSuch

/-- `Read` of a file made with `nodefs.NewDataFile` (go-fuse, trusted): the part of the
data from `off` on that fits into the buffer. -/
def dataFileRead (data : Bytes) (buf : Bytes) (off : Int) : Bytes := (data.drop off.toNat).take buf.length

/-- A request to a node: internal/rescuefs/nodefs.go:106-220. `h` is its position. -/
def nodeStep (fuel : Nat) (ix : Ix) (s : MountState) (h : Nat) (n : RescueNode) : MountReq → Go (MountState × MountAns)
  | .getAttr _ => do
    let (n', a) ← n.getAttr ix
    return ({ s with nodes := s.nodes.set h n' }, .attr a)
  | .lookup _ name => do
    match ← n.lookup fuel ix name with
    | (n', .error e) => return ({ s with nodes := s.nodes.set h n' }, .error e)
    | (n', .ok (c, isDir, a)) =>
      return ({ s with nodes := s.nodes.set h n' ++ [c] }, .found c.owner c.ixInode isDir a)
  | .openDir _ ord => do
    let (n', l) ← n.openDir fuel ord ix
    return ({ s with nodes := s.nodes.set h n' }, .entries l)
  | .open _ => do
    match ← n.open fuel ix s.cache with
    | (c, .ok f) => return ({ s with cache := c, files := s.files ++ [(n.owner, n.ixInode, f)] }, .opened f)
    | (c, .error e) => return ({ s with cache := c }, .error e)
  | .getXAttr _ a => do return (s, .bytes (← n.getXAttr fuel ix a))
  | .listXAttr _ => do return (s, .names (← n.listXAttr fuel ix))
  | .readlink _ => do return (s, .bytes (← n.readlink ix))
  | _ => .ok (s, .noSuch)

/-- A request to an open file: internal/rescuefs/files.go:67-159, and for inline files
go-fuse's `dataFile` (trusted). -/
def fileStep (ix : Ix) (dev : Option ReaderAt) (s : MountState) (f : UInt64 × UInt64 × OpenFile) : MountReq → Go (MountState × MountAns)
  | .fileAttr _ =>
    match f.2.2 with
    | .data b => .ok (s, .attr (.ok { mode := 0o100644, size := UInt64.ofNat b.length }))
    | .extents m => do return (s, .attr (.ok (← extentFileGetAttr ix f.1 f.2.1 m)))
  | .read _ buf off =>
    match f.2.2 with
    | .data b => .ok (s, .bytes (.ok (dataFileRead b buf off)))
    | .extents m => do return (s, .bytes (← extentFileRead dev m buf off))
  | _ => .ok (s, .noSuch)

/-- The node or open file a request is for: internal/rescuefs/nodefs.go:106-220 and
internal/rescuefs/files.go:67-159 are methods of it. -/
def MountReq.target : MountReq → Nat ⊕ Nat
  | .getAttr h => .inl h
  | .lookup h _ => .inl h
  | .openDir h _ => .inl h
  | .open h => .inl h
  | .getXAttr h _ => .inl h
  | .listXAttr h => .inl h
  | .readlink h => .inl h
  | .fileAttr f => .inr f
  | .read f _ _ => .inr f

/-- One request: internal/rescuefs/nodefs.go:106-220, internal/rescuefs/files.go:67-159. -/
def mountStep (fuel : Nat) (ix : Ix) (dev : Option ReaderAt) (s : MountState) (q : MountReq) : Go (MountState × MountAns) :=
  match q.target with
  | .inl h => match s.nodes[h]? with
    | some n => nodeStep fuel ix s h n q
    | none => .ok (s, .noSuch)
  | .inr i => match s.files[i]? with
    | some f => fileStep ix dev s f q
    | none => .ok (s, .noSuch)

/-- Requests one after the other, with the answers. -/
def mountRunAll (fuel : Nat) (ix : Ix) (dev : Option ReaderAt) (s : MountState) : List MountReq → Go (MountState × List MountAns)
  | [] => .ok (s, [])
  | q :: r => do
    let (s', a) ← mountStep fuel ix dev s q
    let (s'', as) ← mountRunAll fuel ix dev s' r
    return (s'', a :: as)

end Btrfscue
