# Formal model of btrfscue in Lean 4 — design

The code under study is the Go program in `/repo` (read as text, never built).
Everything here is a model of that code plus theorems about the model.
Property ids (C01…) refer to `properties.jsonl`; the mapping from property to
theorem names and status is `MANIFEST.json`.

## 1. How Go is modelled

* **Integers** are Lean's `UInt8/16/32/64` wherever the Go type is unsigned and
  wrap-around can be observed (`uint64` sums, `uint16` slice arithmetic, `uint32`
  item sizes); Go `int` values that are lengths/indices are `Nat`; signed
  conversions (`int64(x)`, `int(x)`) are explicit functions into `Int`.
* **Run-time panics and non-termination** are values: `Go α = ok a | panic | hang`.
  `hang` is produced only by loops that take a *fuel* argument and run out of it.
  "Terminates" is always stated as "for all large enough fuel the result is not
  `hang`", "never terminates" as "for every fuel the result is `hang`".
* **Slices** are `Slice = {data, tail}`: the bytes in `[0,len)` and those in
  `[len,cap)`. `s[i:j]` panics unless `i ≤ j ≤ cap`, `s[i:]` unless `i ≤ len`,
  `s[i]` unless `i < len` — exactly Go's rules, including that re-slicing may
  expose bytes between `len` and `cap`. nil slices are `none : Option _`
  wherever the code tests for nil.
* **Strings** are byte lists. **Maps** are association lists with unique keys;
  where the code ranges over a map, the theorem quantifies over every
  permutation.
* **bbolt** is a list of (key, value) pairs strictly sorted by `bytes.Compare`,
  with `Get/Put/Seek/Next/Prev/First` as documented; a transaction is a private
  copy, committed atomically.
* **The operating system** (destination tree of `recover`, the device) is an
  explicit state/function, described in the module comments.

## 2. Layers

| Lean module family | contents |
|---|---|
| `Verif/Go/*` | the Go runtime/stdlib fragment above (trusted semantics) |
| `Verif/Model/*` | the code, function by function, with file:line citations |
| `Verif/Spec/*` | small independent specifications (packed layouts, logical order, abstract map, …) |
| `Verif/Proof/*` | helper lemmas |
| `Verif/Props/*` | the property theorems, their non-vacuity examples, and refutations |

## 3. Trusted base

1. **Lean 4.33.0's kernel.** No proof uses `native_decide`, `bv_decide`, an axiom of our
   own or a placeholder. Closed computations use `decide +kernel` or `rfl`, i.e. the
   kernel's own evaluation.
2. **Axioms.** Every theorem listed in `MANIFEST.json` depends on no axiom other than
   `propext`, `Classical.choice` and `Quot.sound` (audited by `vcheck`; `#print axioms`
   shows it). Mathlib is used for `C49` (concavity of the logarithm) and for list and
   arithmetic lemmas.
3. **`Verif/Go/*`: the meaning given to Go and its environment.** What to read if one
   doubts that the model is the program:
   `Core` (panic/hang results, slices with capacity), `Binary` (encoding/binary, bytes),
   `Path` (path/filepath Clean, Join, Split), `Cmd` (a command's run: state, exit, crash,
   hang), `HostFS` (inodes, directories, symbolic links, stat, mkdir, symlink, open with
   O_TRUNC, remove, pwrite, truncate; every call may also fail for any other reason, as
   the environment says), `Threads` (interleaving of atomic steps).
4. **`Verif/Model/*`: the transcription of the code.** Each definition cites file and
   lines and says where it simplifies. This correspondence is by reading, not checked. As a sanity check on it,
   `Props/RepoTests` replays the repository's own unit tests (all but the floating-point
   entropy one) on the model: the same inputs, the same expected outputs.
5. **`Verif/Spec/*`: the meaning of the properties.** Layout encoders, abstract
   map of item versions, what a directory lists, what a file contains. Written without
   reference to the model's helpers, wherever a property permits that.
6. **bbolt** is assumed to be an ordered map with atomic transactions; **sort.Sort** is
   assumed to give some sorted permutation (which one is a parameter); **math/rand** and
   **map iteration order** are parameters; **the device** is an arbitrary reader
   function, restricted by each theorem that needs it (`Honest`, `Quiet`).

### Modelled and not modelled

| Go file | modelled | not modelled |
|---|---|---|
| `pkg/btrfs/btrfs.go` | all accessors, `NewDirItem…` helpers, key and type constants | – |
| `pkg/btrfs/leaf.go`, `slice.go`, `parse_buffer.go`, `util.go`, `to_string.go` | all functions | – |
| `pkg/btrfs/index/key_format.go`, `index_store.go` | all functions; commits that fail in recon (`Model/ReconFault`) | bbolt's file format and locking, failures of `bbolt.Open` and `Begin` |
| `pkg/uuid`, `pkg/ioutil` | all functions | `UUID.Type` (a constant string for the flag parser) |
| `pkg/coding/entropy.go` | all, with every operation rounded and the addition possibly fused; `Spec/Float64` lists what is assumed of rounding and `math.Log2` | the sign of zero (a constant string gives -0) |
| `internal/identify` | `FSIDCollecter`, `MakeSampleOffsets`, `IdentifyFS` | progress bar, float rounding of the sample count |
| `internal/rescuefs` | `extentFile`, `rescueNode`: all FUSE operations; the root and the file `metadata` (mode, size, open, read, write) | go-fuse (taken to answer a failure when `Lookup` returns a status other than OK), the kernel; times and inode numbers of the top nodes |
| `cmd/recon.go`, `recover.go`, `ls.go`, `dump_index.go` | the `do…` functions and everything they call | flag wiring in `init`, wording of error messages and of `recon`'s messages (what `ls`, `dump-index` and `recover` print is modelled) |
| `cmd/mount.go` | the device/no-device choice; its part in a run of the program (`Model/Program`) | signal handling, mounting itself (whether it works is a parameter) |
| `cmd/root.go`, `completion.go`, `btrfscue.go`, `pprof.go`, `cliutil.go` | `Fatalf`/`ReportError` as `exit`, `Warnf` as a recorded warning, `Verbosef` of identify, mount and recover (`Model/RecoverSay`); the checks on the number of arguments; from the parsed command line to the end of the process (`Model/Program`) | flag parsing (cobra), help texts, pprof |

## 4. Plan per property

| id | modelled | proof |
|---|---|---|
| C01–C04 | `newIndexKey`, `keyV1/keyV2` accessors, `NewIndexKeyFromV1`, `KeyCompare`, `bytes.Compare` | big-endian byte strings of equal length are ordered as numbers; round trip by codec lemmas; KeyCompare doc (−1/+1) refuted by witness |
| C05–C06 | `UUID.String/Set/New`, `hex.DecodeString`, `strings.Replace` | digit-by-digit induction |
| C07–C12, C16 | all accessors in `btrfs.go`, `leaf.go`, `slice.go`, `time.Unix` normalisation | independent packed-layout encoders, accessor ∘ encode = field for all suffixes; panic conditions characterised |
| C13–C14 | `Leaf.Len/Item/Key/Data/Items` | independent leaf layout; "never crashes" refuted, exact no-panic condition proved |
| C15 | `NameHash` + table-driven CRC-32C | table step = eight LFSR steps by linearity; injectivity of the LFSR step |
| C17 | `ParseBuffer` as a state machine | simulation by reads at an absolute position |
| C18 | `CheckDeviceSize` | arithmetic |
| C19 | `ReadBlockAt` over an arbitrary reader function | case analysis; "full read never reports EOF" refuted |
| C20–C24 | `InsertItem`, `find`, `FindItem` over the byte store | refinement of the byte store to a map on (owner,key,generation); histories by induction; C21 refuted + partial |
| C25–C30 | `openIndex`, `checkUpdateMetadata`, transaction state machine with crash | invariants over op lists; C29, C30 refuted + partial |
| C31–C35 | `lowerBound`, `find`, `findNext`, `Range*`, `FullRange` | exact characterisation of the iteration; completeness/termination refuted by witnesses + partial theorems under exact conditions |
| C36–C37 | `Physical`, `sort.Search` | binary search correctness by invariant; crash refutation |
| C38–C39 | `FindDirItemForPath` | induction on path components |
| C40–C43 | `doScanFS` | fold over block offsets, refinement to the set of leaf items |
| C44–C48 | `FSIDCollecter`, `Entries`, `MakeSampleOffsets` with the random source as a parameter | induction on block list; permutation invariance; refutations for small/large sample counts and 4th superblock |
| C49 | `ShannonEntropy` with rounded arithmetic | exact value by Mathlib's concavity of the logarithm; forward error analysis term by term and sum by sum; zero-iff by monotone and idempotent rounding; `EntropyFloat` shows truncation to 53 bits meets the assumptions |
| C50–C55 | `extentFile`, `rescueNode` operations | loop invariant; refutations for reads crossing extents, typed-nil device, empty files |
| C56–C62 | `recover*` over a host file-system model with symlinks | invariants over every intermediate state; loop invariants for the chunked copy; fuel bound from the finite set of directories |
| C63–C66 | `inodeModeString`, `listDirectory`, `*String` | bit lemmas, sortedness, cyclic witness, injectivity of decimal representation |
| C67 | `extentFile.Read` | no-panic lemma over every file value and offset |
| C68–C69 | `GetAttr`, `Readlink` | newest version of the inode / extent item in the abstract store |
| C70 | `Lookup`, node construction | induction along a path of lookups; agreement with the stored entry |
| C71 | `Open`, then `Read` | the range over extents as a fold; the loop invariant of C50 |
| C72 | `recoverFile/Symlink` with `--clobber` | case analysis over failing calls; refuted |
| C73 | `dump-index` | FullRange as a fold; decoding injective |
| C74 | `doListFiles` | C38/C39 + C64; refuted for subvolumes |
| C75 | `recoverFile` on damaged items | crash witnesses; weakest-precondition proof otherwise; exact condition (`Spec/FileCrash.lean`): fold over the items seen, sound ones end in every environment, the first other one crashes |
| C76–C77 | shared stripe map and directory map as step machines | invariants over every schedule; refuting schedules |
| C78–C80 | recon histories | last-value semantics of histories; option never read |
| C81–C83 | whole runs of recover | weakest preconditions with a run invariant (`RunInv`, `WholeInv`, `QuietRun`) over the recursion; the fate of every listed entry; nothing but listed entries; exactly, for indexes of any generations, in terms of the tree and contents iterating gets to (`Spec/RecoverSeen.lean`, `Spec/Pieces.lean`) |
| C84 | recon, then recover, from image to recovered files | `recon` and `recoverCommand` composed: the bucket recon makes is the index of the image (`Bucket.IndexOf`), C83 is transferred along `Bucket.SameItems` |
| C85 | the mount shows an undamaged file system | `mountWalk` (Spec/Mount) composes `mountTop` and `RescueNode.lookup`; induction over the path with `NodeOK` (caches are those of a fresh node); transferred to images along `Bucket.SameItems` |
| C86 | mount and recover agree on contents | C71/C55 (opened file) joined with `contentIs`, the specification of what recover writes (C83) |
| C87 | dump-index after recon | C12's fold over the whole store, composed with the index that recon leaves (`recon_indexOf`); the crash on an empty image by computing the item read from the metadata entry |
| C88 | ls after recon | specification of listings as mutual inductives (Spec/LsTree) over directory entries; induction over the rank of directories; `C65_ends_iff` by induction over accessibility of the "is in" relation, with the infinite descent giving the hang; `C65_path_hang_iff` (`ls PATH` without `--recursive`, every index) from the stable answer of `C38_hang_iff` |
| C89 | `recoverFile` without an inode item | the loop invariant of C58 with an unknown size; length of a file written in pieces (`writes_length`) |
| C90 | recon with an oracle for the result of every commit (`Model/ReconFault.lean`); the scan loops are shared with the model without failures | simulation: as long as commits succeed both runs are equal, at the first failure the command ends with an error; the durable content is that of a prefix of the inserts |
| C91 | the two top nodes, open(2) on one host file | case analysis over flags, induction over operations; O_TRUNC refuted by a theorem for all flags containing it |
| C92 | the text of C64/C65/C74 sent through a model of text/tabwriter (all of it that flags 0 reaches) | state invariant over the byte stream; a uniform table is one column block per column |
| C93 | the entries of C44-C48 through the tabwriter model | closed form of the number of tabs; injectivity by splitting at separators |
| C94 | KF, KL with variable argument lists | cases on the number of arguments, lexicographic order |
| C95 | Physical as in C36; separate specification of where each profile stores a byte (Spec/Raid) | C36 plus arithmetic on pieces; exact characterisation for striped profiles on different devices: right iff in the first piece |
| C96 | recoverFile as in C58; contents of all devices as a parameter of the specification | corollary of C58 for files in unstriped chunks whose first stripe is on the given device; two counterexamples |
| C97 | recon as in C40; specification of checksum fields and of CRC-32C checksums of blocks (Spec/Checksum) | relation between blocks equal from byte 32 on, carried through every accessor, the item loop and the block loop |
| C98 | C44–C48 composed with C40/C42 and C05 | identify's samples and recon's blocks lie on the same grid if the block size divides 64 KiB; for the printed block size a device with four leaves as counterexample |
| C99 | exit statuses of `recon` (with failing writes), `recover`, `ls`, `dump-index` | recon: C90's simulation and C42's crash condition; the others: no `os.Exit` behind the first steps, structurally; refuted for `recover` and `ls` |
| C100 | two runs of `doRecoverFiles`, the second begun in the file system the first left | lockstep induction: the second run visits the same directories; everything it meets exists, because the first run did not warn and nothing is removed (`Grown`) |
| C101 | every file system state of a run of `doRecoverFiles` (`RecState.past`) | the invariant of C81/C82 extended to all past states: while a file is written only its path is added and everything older is preserved |
| C102 | a second run of `doRecoverFiles` begun in any state reached by the first | the invariant of C81 started from a partly filled destination, combined with C101; refuted for the one file that was being written |
| C103 | sequences of runs as an inductive relation LeftBy over the model of recover; removal of links in the host file system | invariant that everything below the destination is at its place and new (Base), shown for removal, truncation, creation; a run invariant under which what was repaired stays repaired |
| C104 | `Model/Program`: the whole program from the parsed command line on; `Spec/Program`: `badLine` | case analysis over the commands; the opened index is closed again without change |
| C105 | `Model/Program`: world = metadata file, host file system, stdout | an invariant of each step of the program (`Leaves`); equations of `program` with the models of the commands |
| C106 | `Model/Program.recoverSays`, `Ix.stripeSays`: the debug output when the stripe map is filled | simulation of the loop that fills the stripe map by the one that also prints |
| C107 | `Model/MountSession`: nodes with their caches, open files, the stripe map, requests one after the other; `Spec/MountSession`: the same request to a fresh process | relational invariant over the history: every cache is empty or holds what filling it gives; equal outcomes including panics and endless loops |
| C108 | every file system state of a run of `doRecoverFiles` (`RecState.past`) with a device that fails at will (`Truthful`) | the invariant of C82 (what is where) joined with one on contents (`TrueRun`): a step adds only at one place and preserves the rest; at that place every write is of true bytes (`TrueSince`) |
| C109 | `doRecoverFiles` (Model/Recover) and `RescueNode.lookup` (Model/RescueNode) on one `Bucket`; the paths of the mounted file system as chains of lookups (`MountDir`, Spec/SameTree) | both are shown to follow `entrySeen`: `seen_lookup` for the nodes, the invariant `Shape` of the run for recover; induction on the place of a directory; `C109_image_partial` from an image, both directions (`SameItems`) |
| C110 | the program with its messages (Model/Program, Model/RecoverSay) | a relation between the two runs that is kept by every part of the program (Softer, Tells) |
| C111 | `Model/RecoverSay.lean`, the commands of recover with their messages, in the state `Talk` | An invariant of the run (`Reported`): all that was said is true, and of every directory entered all entries were dealt with; induction over the recursion, with directories still being worked on kept in a list. Stated for the index as the code reads it (`C111_messages_partial`) and for the items seen (`C111_everything_seen_partial`). |
| C112 | `doRecoverFiles` on the host file system `HostFS` with inodes; `HostFS.names`: the names an inode has | Equal contents from C81 for what is seen, and uniqueness of the bytes seen; that nothing created has two names by an invariant of all system calls (`OneName`); that hard links become copies by a run on an index with a file with two names |
| C113 | two runs of `doRecoverFiles` on two buckets | what is seen (`SeenAt`, `fileSeen`, `targetSeen`) in the smaller index is seen in the bigger one when it has only objects new to the first, by induction over the tree; then C83 and C81 for what is seen; `C113_image_partial` the same from two images, through recon (`SameItems` transfers both sides); refuted by a newer version of one directory entry |
| C114 | the ls and recover models; the listing as a tree (`Spec/LsShown.lean`: `Shown`, `listingText`, `HasPath`) | `C88_recursive_exact` (induction on accessibility of directories) gives the tree printed, `seen_sound` and `C83_recovers_seen` the tree recovered; both are read off from the entries seen. Partial: names with a backslash are listed but not recovered, subvolumes make ls loop, `ls PATH` finds entries by hash that neither the listing nor recover gets to (refutations) |
| C115 | `doListFiles` against `mountWalk` (one `Lookup` after the other) | the exact theorems for both lookups (C39/C74 `PathFinds`, C70 `ShownAt`) are compared by induction over the path |
| C116 | the requests of the session model (C107) on an index whose items have arbitrary payloads | the exact condition under which each request panics (`Bucket.crashes`, in terms of the payload bytes): the loops crash at the first item that is not good (`fold_good`), `C107_node_requests` makes it independent of history |
| C117 | `listDirectory`, `doListFiles`, `findDirItemForPath` on an index whose items have arbitrary payloads | each loop crashes exactly if one of its items is not good; for lookups, induction over the names of the path; for recursion, induction over the directories below (accessibility), and induction over the depth for the cause of a crash |
| C118 | `doRecoverFiles` on an index whose items have arbitrary payloads | a crash is traced to what was entered: each directory without damaged items keeps a state free of crashes (`Safe`), induction over the depth; entries without a name make `recoverEntries` crash or not be reached (`Readable`), induction over the depth |
| C119 | open and read as in C71; contents of all devices as a parameter of the specification (as C96) | corollary of C71 for files in unstriped chunks whose first stripe is on the given device; two counterexamples |
| C120 | `mountStep`, `mountRunAll` with a bound on the iterations of a loop | the finitely many iterations a request can start (inode numbers are 64 bits) have one bound unless one of them is endless; induction over the session; refuted by two items that lead to each other |
| C121 | `recon` run on each of a list of images (`reconEach`, Spec/Images), then `recoverCommand` | induction over the images: the history of the index is the concatenation of the scans (`recon_ops`, `lastValue_append`), so it is the index of the items of all images; then C83 for what is seen, transferred by `SameItems` |

When the unchanged code violates a property, the refutation is a theorem with a
concrete witness, and the strongest true part is proved with suffix `_partial`.

## 5. What the code gets wrong

The refutations among the theorems (each a proof about a concrete input, with the
positive part beside it) are the places where the unchanged code does not have the
property a user would rely on:

* 16-bit wrap-around in `DirItem.Data` and `Chunk.Stripe` (C10, C11); crafted leaves crash
  the scan (C14, C42); `ReadBlockAt` may report EOF for a full read (C19).
* lookups at a generation below the maximum choose wrongly (C21), crash after the metadata
  entry (C22), after a commit (C29); a failed `RawTx` is committed later (C30).
* ranges follow the generation of their first item only (C32), run into other owners
  (C31) or forever (C33, C60, C65); `Subvolumes` needs subvolume 256 (C35).
* chunk translation drops chunks of other generations (C36), panics without chunks (C37),
  and fills a shared map without a lock (C76); so does the directory map (C77).
* only the first of several entries with one name hash is ever seen (C39, C83).
* identify misses file systems with few samples, crashes or hangs for odd sample counts,
  and samples outside the device (C46–C48).
* mount: reads crossing extents are short, gaps show old buffer bytes (C50), no device
  means EIO instead of zeroes (C54), empty files cannot be opened (C55).
* recover: a failing stat(2) truncates an existing file (C56), stored links lead outside
  the destination (C57), compressed and preallocated extents are copied raw (C58), read
  errors are silent (C59), names with backslashes are skipped (C61), `--clobber`
  destroys what it cannot replace (C72).
* `ls` of a subvolume lists tree 5 (C74), and `ls --recursive` never ends if the first
  subvolume is in the top directory, the usual place (C88); dump-index shows the index's
  own entry as an item, and crashes if there is no other (C87); recon's `--append` is
  never read (C80).
* C92: `ls` prints names as they are; a line feed in a name imitates further entries (`C92_line_feed_refuted`).
* C93: `identify --machine` pads columns to multiples of four, so counts whose lengths differ are followed by
  different numbers of tabs (`C93_two_tabs_refuted`); splitting at runs of tabs is always right.
* C94: `KL` without an object id stops at the last free object id, so a search up to it misses the special objects
  above (their ids are negative as signed numbers).
* C95: `Physical` ignores the profile and always uses the first stripe at the same offset. In chunks striped over
  several devices (RAID0, RAID10, RAID5, RAID6) it is right only in the first stripe length of the chunk.
* C96: `recover` drops the device id that `Physical` returns and reads from the one image it was given; a file on
  another device is recovered without an error from the wrong bytes.
* C97: recon never compares the checksum of a block; leaves with damaged contents are indexed without a warning
  (`C97_bad_checksum_indexed`).
* C98: identify's block size for a file system seen in few leaves is too small (the first leaf's offset is not
  summed, C46); recon run with it reads leaves cut short and crashes (C98_reported_block_size_crashes). recon's
  grid starts at 64 KiB, identify's at 0: for block sizes that do not divide 64 KiB they differ.
* C99: `recover` ends with exit status 0 even if no file could be recovered, `ls` even if no path was found:
  both only print warnings.
* C93: `identify --machine --verbose` prints "sampling N blocks..." on stdout before the entries
  (`C93_verbose_refuted`).
* C106: `recover` prints debug lines ("stripe: …") on stdout, also without `--verbose`.
* C102: a `recover` that is killed while it writes a file leaves that file truncated; the next run without
  `--clobber` takes it for recovered and skips it without a warning (`C102_truncated_stays`). Everything else is completed.
* C70: if the items of a tree end with those of a directory, iterating over its entries goes on with the first key
  of the next tree; if the directory's tree has an item with this key, that is taken for an entry
  (`C70_inode_item_as_entry`: a mounted directory shows an entry without a name).
* C64, C71, C85: directories and files whose items are of different generations are cut at the first change of
  generation, without a message (`C64_mixed_generations_incomplete`, `C71_mixed_generations_cut`,
  `C85_mixed_generations_incomplete`).
* C58, C83: of a file or directory whose items are of different generations, recover silently loses the items
  after the first that lacks the generation of the first (`C58_mixed_generations_lost`, `C83_mixed_generations_lost`).
* C81, C82: a whole run of recover ends silently although a device error or a preallocated or compressed extent
  made a file wrong (`C81_read_error_is_silent`, `C82_prealloc_shows_old_data`, `C82_compressed_copied_raw`).
* C91: the mounted file `metadata` is opened on the host with the client's own flags; `O_TRUNC` empties the
  index file under the running program (`C91_truncating_open_empties_index`).
* C107: reads from a mounted file can contain what an earlier read, of any other file, left in the buffer
  (`C107_old_bytes_refuted`); everything else a mount remembers is invisible.
* C52, C70, C109: an entry whose target has lost its inode item is listed by the mount, but `Lookup` returns the status
  of `GetAttr`, ENOATTR, with which go-fuse fails the lookup: neither the file nor anything below such a directory can be
  reached in the mount (`C52_no_inode_refuted`), while `recover` recovers all of it without a warning
  (`C109_no_inode_refuted`). For a rescue tool this is a serious gap between the two commands. `GetAttr` also prints
  a left-over debug line "No data for …" to stdout (nodefs.go:110).
* C109: of a file with data in an item and more extents the mount shows the data in the item only
  (`nodefs.go:181` returns at the first inline extent), whereas recover writes all of them
  (`C109_inline_and_more_refuted`).
* C84: with items of mixed generations the whole chain (image, recon, recover) loses data without any
  message (`C84_mixed_generations_lost`).
* C111: names with a backslash (legal in btrfs) are skipped, and so are `.` and `..`, without a warning, and even `--verbose` says nothing of them (`C111_backslash_refuted`).
* C112: hard links are recovered as separate files with equal contents (`C112_separate_files`, `C112_hard_link_refuted`).
* C113: more metadata can mean fewer files: if one node of a large directory was written again, and both versions are indexed, iterating follows the newer generation and ends at the first entry that has only the older one; the rest of the directory is not recovered, and there is no warning, although it would have been without the newer node.
* C114: `ls --recursive` and recover disagree on names with a backslash (listed, but left out by
  recover without a warning) and with subvolumes (listing never ends); `ls PATH` shows a file that is
  found by the hash of its name in a later generation, which neither the listing of its directory nor
  recover gets to.
* C115: `ls PATH` finds entries by the hash of the name that the mounted file system does not show (another generation than the first entry of the directory), and for a file in a subvolume it prints owner, mode and size of the file with the same inode number in the main tree.
* C116: one torn item is enough to end the process that serves a mount: a directory entry or extended attribute that ends inside its header or name (on any lookup or listing in that directory), an inode item of less than 148 bytes (on `stat`, and on looking its name up), an extent item of less than 53 bytes or a chunk item without its first stripe (on `open`).
* C117: whether an entry that is cut off ends a path lookup depends on the order of the entries: `ls /a` may work and `ls /b` crash, in the same directory (`C117_ls_order`).
* C117: one directory entry that is cut off, or an inode item of less than 136 bytes, crashes `ls` of that directory (and `ls -R` of any directory above it); nothing of the listing after it is printed.
* C118: one torn directory entry crashes the whole run of `recover`, wherever it is met: nothing that would have come after it is recovered, no warning is printed. The same goes for an inode item of less than 24 bytes, an extent item of less than 53 bytes, a symbolic link whose extent claims a target of more than 2^48 bytes. An entry for the subvolume with id 2^64-1 makes recover iterate over the metadata of the index itself, which may crash, too.
* C119: a mounted file shows the bytes of whatever image was given to `mount`, whichever device its chunks name: another
  device's bytes, or for striped chunks the wrong stripe, without an error.
* C120: listing the directory `rescue` of a mount hangs for ever, and with it the process that asked, if a directory's items and those of its inode lead the iteration to each other (`C120_opendir_hangs`, an index of three items).

## 6. Tests against wrong programs

`tools/mutate.py` applies an edit to a scratch copy of the model, rebuilds, and records in
`seeded/LOG.jsonl` which theorems fail. Surviving edits led to tightened theorems, noted
in the log line.
