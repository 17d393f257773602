import Verif.Model.Base
/-!
# Textual forms (pkg/btrfs/to_string.go)

Strings are byte strings; all literals are ASCII.
-/

namespace Btrfscue

/-- The bytes of an ASCII literal. -/
def ascii (s : String) : Bytes := s.toList.map fun c => UInt8.ofNat c.toNat

/-- `fmt.Sprint(n)`, `%d` for unsigned values (trusted standard library): decimal. -/
def decimal (n : Nat) : Bytes := (Nat.toDigits 10 n).map fun c => UInt8.ofNat c.toNat

/-- `%d` for signed values (trusted standard library). -/
def decimalInt (i : Int) : Bytes :=
  if i < 0 then 45 :: decimal (-i).toNat else decimal i.toNat

/-- A `switch` over constants returning literals, with `fmt.Sprint` as the default. -/
def switchName (t : List (Nat × String)) (n : Nat) : Bytes :=
  match t with
  | [] => decimal n
  | e :: r => if n = e.1 then ascii e.2 else switchName r n

/-- pkg/btrfs/to_string.go:13-61 with the values of pkg/btrfs/btrfs.go:37-102;
`^uint64(n) + 1` is `2^64 - n`. -/
def objectIDNames : List (Nat × String) :=
  [(1, "ROOT_TREE"), (2, "EXTENT_TREE"), (3, "CHUNK_TREE"), (4, "DEV_TREE"), (5, "FS_TREE"),
   (6, "ROOT_TREE_DIR"), (7, "CSUM_TREE"), (8, "QUOTA_TREE"), (9, "UUID"), (10, "FREES_SPACE_TREE"),
   (0, "DEV_STATS"), (2 ^ 64 - 4, "BALANCE"), (2 ^ 64 - 5, "ORPHAN"), (2 ^ 64 - 6, "TREE_LOG"),
   (2 ^ 64 - 7, "TREE_LOG_FIXUP"), (2 ^ 64 - 8, "TREE_RELOC"), (2 ^ 64 - 9, "DATA_RELOC_TREE"),
   (2 ^ 64 - 10, "EXTENT_CSUM"), (2 ^ 64 - 11, "FREE_SPACE"), (2 ^ 64 - 12, "FREE_INO"),
   (2 ^ 64 - 255, "MULTIPLE"), (256, "FIRST_FREE"), (2 ^ 64 - 256, "LAST_FREE")]

/-- pkg/btrfs/to_string.go:12-63 -/
def ObjectIDString (id : UInt64) : Bytes := switchName objectIDNames id.toNat

/-- pkg/btrfs/to_string.go:66-142 with the values of pkg/btrfs/btrfs.go:130-271. -/
def keyTypeNames : List (Nat × String) :=
  [(1, "INODE_ITEM"), (12, "INODE_REF"), (13, "INODE_EXTREF"), (24, "XATTR_ITEM"), (48, "ORPHAN_ITEM"),
   (60, "DIR_LOG_ITEM"), (72, "DIR_LOG_INDEX"), (84, "DIR_ITEM"), (96, "DIR_INDEX"), (108, "EXTENT_DATA"),
   (128, "EXTENT_CSUM"), (132, "ROOT_ITEM"), (144, "ROOT_BACKREF"), (156, "ROOT_REF"), (168, "EXTENT_ITEM"),
   (169, "METADATA_ITEM"), (176, "TREE_BLOCK_REF"), (178, "EXTENT_DATA_REF"), (180, "EXTENT_REF_V0"),
   (182, "SHARED_BLOCK_REF"), (184, "SHARED_DATA_REF"), (192, "BLOCK_GROUP_ITEM"), (198, "FREE_SPACE_INFO"),
   (199, "FREE_SPACE_EXTENT"), (200, "FREE_SPACE_BITMAP"), (204, "DEV_EXTENT"), (216, "DEV_ITEM"),
   (228, "CHUNK_ITEM"), (240, "QGROUP_STATUS"), (242, "QGROUP_INFO"), (246, "QGROUP_RELATION"),
   (248, "TEMPORARY_ITEM"), (249, "PERSISTENT_ITEM"), (250, "DEV_REPLACE"), (251, "UUID_SUBVOL"),
   (252, "UUID_RECEIVED_SUBVOL"), (253, "STRING_ITEM")]

/-- pkg/btrfs/to_string.go:65-144 -/
def KeyTypeString (t : UInt8) : Bytes := switchName keyTypeNames t.toNat

/-- pkg/btrfs/to_string.go:146-150: `Sprintf("key (%s %s %d)", ...)`. -/
def Key.string (k : Key) : Bytes :=
  ascii "key (" ++ (ObjectIDString k.objectID ++ (32 :: (KeyTypeString k.typ ++ (32 ::
    (decimalInt (int64OfU64 k.offset) ++ [41])))))

end Btrfscue
