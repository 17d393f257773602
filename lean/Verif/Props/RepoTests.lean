import Verif.Props.RecoverWrong
import Verif.Props.Identify
import Verif.Model.Uuid
import Verif.Model.Commands
/-!
# The repository's unit tests, replayed on the model

Not proofs of properties, but evidence that the model is the program: every assertion of
the tests in /repo that concerns modelled code, evaluated by the kernel on the model's
definitions. Not replayed: the entropy test (floating point).
-/

namespace Btrfscue

section Uuid

def testUuid : UUID := ⟨[0x7d, 0x00, 0x18, 0x96, 0x6b, 0x2d, 0x44, 0xc7, 0xbb, 0x8a, 0xb5, 0xe8, 0x60, 0x1e, 0x8a, 0x7a], by decide⟩

/-- pkg/uuid/uuid_test.go:17-25 TestDefaults -/
example : UUID.isZero uuidAllZero = true ∧ UUID.isAllFs ⟨List.replicate 16 255, by decide⟩ = true := by decide

/-- pkg/uuid/uuid_test.go:27-41 TestFromString -/
example : ∀ v ∈ ["7d001896-6b2d-44c7-bb8a-b5e8601e8a7a", "7d0018966b2d44c7bb8ab5e8601e8a7a",
    "7d-00-18-96-6b-2d-44-c7bb8ab5e8601e8a7a", "7-d00-18966b2d44c7bb8ab5e8601e8a7a---", "7D0018966B2d44c7bb8AB5e8601e8a7a"],
    UUID.new (ascii v) = (testUuid, false) := by decide +kernel

/-- pkg/uuid/uuid_test.go:43-53 TestInvalid -/
example : ∀ v ∈ ["7d001896-6b2d-44c7-bb8a", "7d00zzzzzzzz44c7bb8ab5e8601e8a7a"],
    (UUID.set uuidAllZero (ascii v)).2 = true := by decide +kernel

/-- pkg/uuid/uuid_test.go:55-67 TestFormat -/
example : UUID.toText uuidAllZero = ascii "00000000-0000-0000-0000-000000000000" ∧
    UUID.toText testUuid = ascii "7d001896-6b2d-44c7-bb8a-b5e8601e8a7a" := by decide +kernel

end Uuid

section Keys

/-- pkg/btrfs/btrfs_test.go:12-33 TestKeyCompare -/
example : KeyCompare ⟨6, 84, 0⟩ ⟨6, 84, 0⟩ = 0 ∧ KeyCompare ⟨6, 84, 0⟩ ⟨256, 168, 100⟩ < 0 ∧ KeyCompare ⟨256, 168, 100⟩ ⟨6, 84, 0⟩ > 0 ∧
    KeyCompare ⟨256, 168, 100⟩ ⟨256, 168, 100⟩ = 0 ∧ KeyCompare ⟨1, 12, 6⟩ ⟨5, 12, 6⟩ < 0 := by decide +kernel

end Keys

section Readers

/-- `bytes.Reader`: at or past the end, `io.EOF`. -/
def testReader : ReaderAt := imageReader (ascii "0123456789abcdefghij")

/-- pkg/ioutil/ioutil_test.go:14-39 TestReadBlockAt -/
example : ReadBlockAt testReader (List.replicate 10 0) 0 = (ascii "0123456789", none) ∧
    ReadBlockAt testReader (ascii "0123456789") 10 = (ascii "abcdefghij", none) ∧
    (ReadBlockAt testReader (ascii "abcdefghij") 11).2 = some .eof := by decide +kernel

end Readers

section Index

def testFsid : UUID := ⟨[0xa7, 0xf3, 0x26, 0x75, 0xa3, 0x26, 0x04, 0xf9, 0x2c, 0xd1, 0xe4, 0x8b, 0x6f, 0x93, 0x98, 0xe0], by decide⟩

/-- pkg/btrfs/index/index_store_test.go:17-54 TestCreation -/
def testCreation : Go (Option (UInt32 × UUID × UInt64)) := do
  let (_, r) ← Open .absent { blockSize := 4096, fsid := testFsid, generation := 424242 }
  match r with
  | .error _ => return none
  | .ok ix =>
    let f ← ix.close
    let (_, r) ← OpenReadOnly f
    match r with
    | .error _ => return none
    | .ok ix =>
      match ← ix.metadata with
      | none => return none
      | some m => return some (← metaBlockSize m, ← metaFSID m, ← metaGeneration m)

example : testCreation = .ok (some (4096, testFsid, 424242)) := by decide +kernel

end Index

section Collector

def testBlock (fsid : UUID) (nrItems off : UInt32) : Bytes :=
  putAt (putAt (putAt (List.replicate 4096 0) 32 fsid.val) 96 (le32 nrItems)) 118 (le32 off)

/-- internal/identify/collector_test.go:38-63: FSID, times, items, first offset. -/
def testHeaders : List (String × Nat × UInt32 × UInt32) :=
  [("a2ecf93e-3a35-11ea-a363-4fdb514b33aa", 4, 1, 16191),
   ("d39dcd77-1133-4e69-b69e-197a9976f7f1", 1, 2, 16235),
   ("d39dcd77-1133-4e69-b69e-197a9976f7f1", 1, 3, 16235),
   ("d39dcd77-1133-4e69-b69e-197a9976f7f1", 1, 5, 16235),
   ("d39dcd77-1133-4e69-b69e-197a9976f7f1", 1, 6, 16185),
   ("d39dcd77-1133-4e69-b69e-197a9976f7f1", 1, 6, 16243),
   ("d39dcd77-1133-4e69-b69e-197a9976f7f1", 1, 8, 15844),
   ("d39dcd77-1133-4e69-b69e-197a9976f7f1", 1, 10, 15844),
   ("a0dbfe80-3a38-11ea-b510-2ff108252d04", 15, 10, 16250),
   ("d39dcd77-1133-4e69-b69e-197a9976f7f1", 1, 10, 16259),
   ("d39dcd77-1133-4e69-b69e-197a9976f7f1", 1, 11, 16259),
   ("d39dcd77-1133-4e69-b69e-197a9976f7f1", 1, 12, 16230),
   ("00000000-0000-0000-0000-000000000000", 100, 0, 0),
   ("ffffffff-ffff-ffff-ffff-ffffffffffff", 1, 0, 0),
   ("d39dcd77-1133-4e69-b69e-197a9976f7f1", 1, 12, 16259),
   ("d39dcd77-1133-4e69-b69e-197a9976f7f1", 1, 13, 16230),
   ("65cab3bc-3a39-11ea-80ab-cbca08b47b3b", 7, 28, 16123)]

def testBlocks : List Bytes := testHeaders.flatMap fun (u, n, k, o) => List.replicate n (testBlock (UUID.new (ascii u)).1 k o)

def testId1 : UUID := ⟨[0xa2, 0xec, 0xf9, 0x3e, 0x3a, 0x35, 0x11, 0xea, 0xa3, 0x63, 0x4f, 0xdb, 0x51, 0x4b, 0x33, 0xaa], by decide⟩
def testId2 : UUID := ⟨[0xd3, 0x9d, 0xcd, 0x77, 0x11, 0x33, 0x4e, 0x69, 0xb6, 0x9e, 0x19, 0x7a, 0x99, 0x76, 0xf7, 0xf1], by decide⟩
def testId3 : UUID := ⟨[0xa0, 0xdb, 0xfe, 0x80, 0x3a, 0x38, 0x11, 0xea, 0xb5, 0x10, 0x2f, 0xf1, 0x08, 0x25, 0x2d, 0x04], by decide⟩
def testId4 : UUID := ⟨[0x65, 0xca, 0xb3, 0xbc, 0x3a, 0x39, 0x11, 0xea, 0x80, 0xab, 0xcb, 0xca, 0x08, 0xb4, 0x7b, 0x3b], by decide⟩

theorem testHist : collectAll [] testBlocks = .ok [(testId1, ⟨4, 48573⟩), (testId2, ⟨12, 177823⟩), (testId3, ⟨15, 227500⟩),
    (testId4, ⟨7, 96738⟩)] := by decide +kernel

/-- internal/identify/collector_test.go:29-91 TestCollecter; the average is taken with whole
numbers, the entropy (which decides nothing here) left out. The test looks at the number of
entries and the first entry only; the last one's block size is wrong (C46). -/
example : ∃ h, collectAll [] testBlocks = .ok h ∧ entries (F := Nat) (fun _ => 0) (fun s c => s.toNat / c.toNat + 4096) id h 4 =
    [⟨testId3, 15, 0, 16384⟩, ⟨testId2, 12, 0, 16384⟩, ⟨testId4, 7, 0, 16384⟩, ⟨testId1, 4, 0, 12288⟩] := by
  refine ⟨_, testHist, ?_⟩
  have h : (([(testId1, ⟨4, 48573⟩), (testId2, ⟨12, 177823⟩), (testId3, ⟨15, 227500⟩), (testId4, ⟨7, 96738⟩)] : FSIDHist).filter
      fun e => decide (4 ≤ e.2.count)).map (fun e => (⟨e.1, e.2.count, 0,
        blockSizeGuess (fun s c => s.toNat / c.toNat + 4096) e.2⟩ : FSEntry Nat)) =
      [⟨testId1, 4, 0, 12288⟩, ⟨testId2, 12, 0, 16384⟩, ⟨testId3, 15, 0, 16384⟩, ⟨testId4, 7, 0, 16384⟩] := by decide +kernel
  simp only [entries, id, h]
  simp [List.mergeSort, List.MergeSort.Internal.splitInTwo, List.merge, FSEntry.less]

end Collector

section Samples

/-- internal/identify/identify_test.go:14-35 TestMakeSampleOffsets, for every random source
and map order for which it returns. -/
example (fuel : Nat) (rnd : Nat → Nat) (ord : List UInt64 → List UInt64) (ho : MapOrder ord) (t : List UInt64)
    (h : MakeSampleOffsets fuel rnd ord 335544320 16384 3000 = .ok t) :
    t.length = 3000 ∧ (∀ x ∈ t, x.toNat + 16384 ≤ 335544320) ∧ t.Pairwise (fun a b => a.toNat < b.toNat) := by
  obtain ⟨h1, h2, -⟩ := C47_samples_partial 335544320 16384 3000 (by decide) (by decide) (by decide) fuel rnd ord ho t h
  exact ⟨h1, C48_samples_inside_partial 335544320 16384 3000 (by decide) (by decide) (by decide) (by unfold roomy; decide) fuel rnd ord ho t h, h2⟩

end Samples

section Recover

/-- cmd/recover_test.go:18-24 -/
def testHeader (owner generation : UInt64) (fsid : UUID) : Header :=
  ⟨putAt (putAt (putAt (List.replicate 101 0) 32 fsid.val) 80 (le64 generation)) 88 (le64 owner), []⟩

/-- cmd/recover_test.go:26-34 -/
def testItem (k : Key) (offset size : UInt32) : Bytes :=
  putAt (putAt (putAt (putAt (putAt (List.replicate 25 0) 0 (le64 k.objectID)) 8 [k.typ]) 9 (le64 k.offset)) 17 (le32 offset)) 21 (le32 size)

/-- cmd/recover_test.go:36-41 -/
def testInodeItem (size : UInt64) (mode : UInt32) : Bytes :=
  putAt (putAt (List.replicate 160 0) 16 (le64 size)) 52 (le32 mode)

/-- cmd/recover_test.go:43-54 -/
def testDirItem (loc : Key) (typ : UInt8) (name : Bytes) : Bytes :=
  putAt (putAt (putAt (putAt (putAt (putAt (putAt (List.replicate (30 + name.length) 0) 0 (le64 loc.objectID)) 8 [loc.typ]) 9
    (le64 loc.offset)) 25 (le16 0)) 27 (le16 (UInt16.ofNat name.length))) 29 [typ]) 30 name

/-- cmd/recover_test.go:56-62 -/
def testInline (data : Bytes) : Bytes :=
  putAt (putAt (putAt (List.replicate (21 + data.length) 0) 8 (le64 (UInt64.ofNat data.length))) 20 [0]) 21 data

/-- cmd/recover_test.go:64-73 -/
def testReg (diskByteNr diskNumBytes offset numBytes : UInt64) : Bytes :=
  putAt (putAt (putAt (putAt (putAt (putAt (List.replicate 53 0) 8 (le64 numBytes)) 20 [1]) 21 (le64 diskByteNr)) 29
    (le64 diskNumBytes)) 37 (le64 offset)) 45 (le64 numBytes)

/-- cmd/recover_test.go:75-82 -/
def testChunk (length devID offset : UInt64) : Bytes :=
  putAt (putAt (putAt (putAt (List.replicate 80 0) 0 (le64 length)) 44 (le16 1)) 48 (le64 devID)) 56 (le64 offset)

def testId : UUID := ⟨[1, 2, 3, 4, 5, 6, 7, 8, 9, 10, 11, 12, 13, 14, 15, 16], by decide⟩

/-- The items inserted in cmd/recover_test.go:108-162. -/
def testInserts : List (UInt64 × Key × Bytes) :=
  [(3, ⟨256, 228, 1000000⟩, testChunk 4096 1 10000),
   (5, ⟨256, 84, (NameHash (ascii "test.txt")).toUInt64⟩, testDirItem ⟨257, 1, 0⟩ 1 (ascii "test.txt")),
   (5, ⟨257, 1, 0⟩, testInodeItem 12 0o644),
   (5, ⟨257, 108, 0⟩, testReg 1000000 4096 0 12),
   (5, ⟨256, 84, (NameHash (ascii "inline.txt")).toUInt64⟩, testDirItem ⟨258, 1, 0⟩ 1 (ascii "inline.txt")),
   (5, ⟨258, 1, 0⟩, testInodeItem 5 0o644),
   (5, ⟨258, 108, 0⟩, testInline (ascii "hello"))]

def testInsert (ix : Index) : List (UInt64 × Key × Bytes) → Go Index
  | [] => .ok ix
  | (o, k, d) :: rest => do
    let (ix, _) ← ix.insertItem k (testHeader o 1 testId) (testItem k 0 (UInt32.ofNat d.length)) d
    testInsert ix rest

/-- The metadata file of the test. -/
def testDB : Go DBFile := do
  let (_, r) ← Open .absent { blockSize := 4096, fsid := testId, generation := 1 }
  match r with
  | .error _ => return .invalid
  | .ok ix => (← testInsert ix testInserts).commit.1.close

/-- A host with a directory `/t`. -/
def testHost : HostFS := ⟨[.dir [(ascii "t", 1)] 0, .dir [] 0], 0⟩

def testImage : Bytes := putAt (List.replicate 20000 0) 10000 (ascii "world wide!!")

/-- cmd/recover_test.go:84-186 TestRecoverCommand: the recovered files. -/
def testRecover : Option (Option Bytes × Option Bytes) :=
  match testDB with
  | .ok f =>
    match recoverCommand (imageEnv testImage) 20 20 (some f) true true (ascii "/t/recovered") (RecState.start testHost) with
    | .ok _ s => some (s.fs.readFile (ascii "/t/recovered/test.txt"), s.fs.readFile (ascii "/t/recovered/inline.txt"))
    | _ => none
  | _ => none

example : testRecover = some (some (ascii "world wide!!"), some (ascii "hello")) := by decide +kernel

end Recover

end Btrfscue
