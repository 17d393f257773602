/-!
# The names of object ids and key types

Independent of the code: the numbers are those of the btrfs on-disk format
(`btrfs_tree.h`), with the `BTRFS_` prefix and the `_OBJECTID`/`_KEY` suffix dropped.
Three spellings are those of the documented output of btrfscue: object id 9 is `UUID`
and 10 is `FREES_SPACE_TREE`, and key type 244 (quota group limits) has no name.
-/

namespace Btrfscue.Spec

/-- The name of a key type, if it has one. -/
def keyName : Nat → Option String
  | 1 => some "INODE_ITEM" | 12 => some "INODE_REF" | 13 => some "INODE_EXTREF"
  | 24 => some "XATTR_ITEM" | 48 => some "ORPHAN_ITEM" | 60 => some "DIR_LOG_ITEM"
  | 72 => some "DIR_LOG_INDEX" | 84 => some "DIR_ITEM" | 96 => some "DIR_INDEX"
  | 108 => some "EXTENT_DATA" | 128 => some "EXTENT_CSUM" | 132 => some "ROOT_ITEM"
  | 144 => some "ROOT_BACKREF" | 156 => some "ROOT_REF" | 168 => some "EXTENT_ITEM"
  | 169 => some "METADATA_ITEM" | 176 => some "TREE_BLOCK_REF" | 178 => some "EXTENT_DATA_REF"
  | 180 => some "EXTENT_REF_V0" | 182 => some "SHARED_BLOCK_REF" | 184 => some "SHARED_DATA_REF"
  | 192 => some "BLOCK_GROUP_ITEM" | 198 => some "FREE_SPACE_INFO" | 199 => some "FREE_SPACE_EXTENT"
  | 200 => some "FREE_SPACE_BITMAP" | 204 => some "DEV_EXTENT" | 216 => some "DEV_ITEM"
  | 228 => some "CHUNK_ITEM" | 240 => some "QGROUP_STATUS" | 242 => some "QGROUP_INFO"
  | 246 => some "QGROUP_RELATION" | 248 => some "TEMPORARY_ITEM" | 249 => some "PERSISTENT_ITEM"
  | 250 => some "DEV_REPLACE" | 251 => some "UUID_SUBVOL" | 252 => some "UUID_RECEIVED_SUBVOL"
  | 253 => some "STRING_ITEM" | _ => none

/-- The name of an object id seen as a signed number, if it has one. -/
def objectName (i : Int) : Option String :=
  if i = 0 then some "DEV_STATS" else
  if i = 1 then some "ROOT_TREE" else
  if i = 2 then some "EXTENT_TREE" else
  if i = 3 then some "CHUNK_TREE" else
  if i = 4 then some "DEV_TREE" else
  if i = 5 then some "FS_TREE" else
  if i = 6 then some "ROOT_TREE_DIR" else
  if i = 7 then some "CSUM_TREE" else
  if i = 8 then some "QUOTA_TREE" else
  if i = 9 then some "UUID" else
  if i = 10 then some "FREES_SPACE_TREE" else
  if i = 256 then some "FIRST_FREE" else
  if i = -4 then some "BALANCE" else
  if i = -5 then some "ORPHAN" else
  if i = -6 then some "TREE_LOG" else
  if i = -7 then some "TREE_LOG_FIXUP" else
  if i = -8 then some "TREE_RELOC" else
  if i = -9 then some "DATA_RELOC_TREE" else
  if i = -10 then some "EXTENT_CSUM" else
  if i = -11 then some "FREE_SPACE" else
  if i = -12 then some "FREE_INO" else
  if i = -255 then some "MULTIPLE" else
  if i = -256 then some "LAST_FREE" else
  none

end Btrfscue.Spec
