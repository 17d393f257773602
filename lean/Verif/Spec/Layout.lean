import Verif.Model.Base
/-!
# Specification: packed on-disk layouts

Each record type lists the fields of the on-disk C structure in order; `layout`
is the packed little-endian image of a record. Written from the BTRFS on-disk
format, without reference to the offset constants of the code.
-/

namespace Btrfscue

/-- An on-disk timestamp: seconds and nanoseconds. -/
structure DiskTime where
  sec : UInt64
  nsec : UInt32
  deriving DecidableEq, Repr

/-- Packed 16-bit little-endian number. -/
def le16 (v : UInt16) : Bytes := leBytes 2 v.toNat
/-- Packed 32-bit little-endian number. -/
def le32 (v : UInt32) : Bytes := leBytes 4 v.toNat
/-- Packed 64-bit little-endian number. -/
def le64 (v : UInt64) : Bytes := leBytes 8 v.toNat
/-- Packed `struct btrfs_disk_key`. -/
def packKey (k : Key) : Bytes := le64 k.objectID ++ ([k.typ] ++ le64 k.offset)
/-- Packed `struct btrfs_timespec`. -/
def packTime (t : DiskTime) : Bytes := le64 t.sec ++ le32 t.nsec

/-- `t` is the point in time an on-disk timestamp denotes: nanoseconds are below
one second, seconds are a signed 64-bit number and the total is the stored one,
modulo the wrap-around of 64-bit seconds. -/
def IsTime (t : Time) (d : DiskTime) : Prop :=
  t.nanosecond < 1000000000 ∧ -(2 ^ 63) ≤ t.unix ∧ t.unix < 2 ^ 63 ∧
  ((2 ^ 64 * 1000000000 : Nat) : Int) ∣
    (t.unix * 1000000000 + t.nanosecond) - ((d.sec.toNat * 1000000000 + d.nsec.toNat : Nat) : Int)

/-- `struct btrfs_dev_extent`. -/
structure DevExtentRec where
  chunkTree : UInt64
  chunkObjectID : UInt64
  chunkOffset : UInt64
  length : UInt64
  chunkTreeUUID : UUID

/-- Packed image of a `DevExtentRec`. -/
def DevExtentRec.layout (f : DevExtentRec) : Bytes :=
  le64 f.chunkTree ++ (le64 f.chunkObjectID ++ (le64 f.chunkOffset ++ (le64 f.length ++
    (f.chunkTreeUUID.val))))

/-- `struct btrfs_dev_item`. -/
structure DevItemRec where
  devID : UInt64
  totalBytes : UInt64
  bytesUsed : UInt64
  ioAlign : UInt32
  ioWidth : UInt32
  sectorSize : UInt32
  typ : UInt64
  generation : UInt64
  startOffset : UInt64
  devGroup : UInt32
  seekSpeed : UInt8
  bandwidth : UInt8
  uuid : UUID
  fsid : UUID

/-- Packed image of a `DevItemRec`. -/
def DevItemRec.layout (f : DevItemRec) : Bytes :=
  le64 f.devID ++ (le64 f.totalBytes ++ (le64 f.bytesUsed ++ (le32 f.ioAlign ++ (le32
    f.ioWidth ++ (le32 f.sectorSize ++ (le64 f.typ ++ (le64 f.generation ++ (le64 f.startOffset
    ++ (le32 f.devGroup ++ ([f.seekSpeed] ++ ([f.bandwidth] ++ (f.uuid.val ++
    (f.fsid.val)))))))))))))

/-- `struct btrfs_stripe`. -/
structure StripeRec where
  devID : UInt64
  offset : UInt64
  devUUID : UUID

/-- Packed image of a `StripeRec`. -/
def StripeRec.layout (f : StripeRec) : Bytes :=
  le64 f.devID ++ (le64 f.offset ++ (f.devUUID.val))

/-- `struct btrfs_chunk (without the stripe array)`. -/
structure ChunkRec where
  length : UInt64
  owner : UInt64
  stripeLen : UInt64
  typ : UInt64
  ioAlign : UInt32
  ioWidth : UInt32
  sectorSize : UInt32
  numStripes : UInt16
  subStripes : UInt16

/-- Packed image of a `ChunkRec`. -/
def ChunkRec.layout (f : ChunkRec) : Bytes :=
  le64 f.length ++ (le64 f.owner ++ (le64 f.stripeLen ++ (le64 f.typ ++ (le32 f.ioAlign ++
    (le32 f.ioWidth ++ (le32 f.sectorSize ++ (le16 f.numStripes ++ (le16 f.subStripes))))))))

/-- `struct btrfs_inode_item`. -/
structure InodeItemRec where
  generation : UInt64
  transID : UInt64
  size : UInt64
  nbytes : UInt64
  blockGroup : UInt64
  nlink : UInt32
  uid : UInt32
  gid : UInt32
  mode : UInt32
  rdev : UInt64
  flags : UInt64
  sequence : UInt64
  reserved0 : UInt64
  reserved1 : UInt64
  reserved2 : UInt64
  reserved3 : UInt64
  atime : DiskTime
  ctime : DiskTime
  mtime : DiskTime
  rtime : DiskTime

/-- Packed image of a `InodeItemRec`. -/
def InodeItemRec.layout (f : InodeItemRec) : Bytes :=
  le64 f.generation ++ (le64 f.transID ++ (le64 f.size ++ (le64 f.nbytes ++ (le64 f.blockGroup
    ++ (le32 f.nlink ++ (le32 f.uid ++ (le32 f.gid ++ (le32 f.mode ++ (le64 f.rdev ++ (le64
    f.flags ++ (le64 f.sequence ++ (le64 f.reserved0 ++ (le64 f.reserved1 ++ (le64 f.reserved2
    ++ (le64 f.reserved3 ++ (packTime f.atime ++ (packTime f.ctime ++ (packTime f.mtime ++
    (packTime f.rtime)))))))))))))))))))

/-- `struct btrfs_inode_ref (without the name)`. -/
structure InodeRefItemRec where
  index : UInt64
  nameLen : UInt16

/-- Packed image of a `InodeRefItemRec`. -/
def InodeRefItemRec.layout (f : InodeRefItemRec) : Bytes :=
  le64 f.index ++ (le16 f.nameLen)

/-- `struct btrfs_dir_item (without name and data)`. -/
structure DirItemRec where
  location : Key
  transID : UInt64
  dataLen : UInt16
  nameLen : UInt16
  typ : UInt8

/-- Packed image of a `DirItemRec`. -/
def DirItemRec.layout (f : DirItemRec) : Bytes :=
  packKey f.location ++ (le64 f.transID ++ (le16 f.dataLen ++ (le16 f.nameLen ++ ([f.typ]))))

/-- `struct btrfs_block_group_item`. -/
structure BlockGroupItemRec where
  used : UInt64
  chunkObjectID : UInt64
  flags : UInt64

/-- Packed image of a `BlockGroupItemRec`. -/
def BlockGroupItemRec.layout (f : BlockGroupItemRec) : Bytes :=
  le64 f.used ++ (le64 f.chunkObjectID ++ (le64 f.flags))

/-- `struct btrfs_file_extent_item`. -/
structure FileExtentItemRec where
  generation : UInt64
  ramBytes : UInt64
  compression : UInt8
  encryption : UInt8
  otherEncoding : UInt16
  typ : UInt8
  diskByteNr : UInt64
  diskNumBytes : UInt64
  offset : UInt64
  numBytes : UInt64

/-- Packed image of a `FileExtentItemRec`. -/
def FileExtentItemRec.layout (f : FileExtentItemRec) : Bytes :=
  le64 f.generation ++ (le64 f.ramBytes ++ ([f.compression] ++ ([f.encryption] ++ (le16
    f.otherEncoding ++ ([f.typ] ++ (le64 f.diskByteNr ++ (le64 f.diskNumBytes ++ (le64 f.offset
    ++ (le64 f.numBytes)))))))))

/-- `struct btrfs_root_item (after the embedded inode item, 160 bytes)`. -/
structure RootItemRec where
  generation : UInt64
  rootDirID : UInt64
  byteNr : UInt64
  byteLimit : UInt64
  bytesUsed : UInt64
  lastSnapshot : UInt64
  flags : UInt64
  refs : UInt32
  dropProgress : Key
  dropLevel : UInt8
  level : UInt8
  generationV2 : UInt64
  uuid : UUID
  parentUUID : UUID
  receivedUUID : UUID
  cTransID : UInt64
  oTransID : UInt64
  sTransID : UInt64
  rTransID : UInt64
  ctime : DiskTime
  otime : DiskTime
  stime : DiskTime
  rtime : DiskTime
  reserved0 : UInt64
  reserved1 : UInt64
  reserved2 : UInt64
  reserved3 : UInt64
  reserved4 : UInt64
  reserved5 : UInt64
  reserved6 : UInt64
  reserved7 : UInt64

/-- Packed image of a `RootItemRec`. -/
def RootItemRec.layout (f : RootItemRec) : Bytes :=
  le64 f.generation ++ (le64 f.rootDirID ++ (le64 f.byteNr ++ (le64 f.byteLimit ++ (le64
    f.bytesUsed ++ (le64 f.lastSnapshot ++ (le64 f.flags ++ (le32 f.refs ++ (packKey
    f.dropProgress ++ ([f.dropLevel] ++ ([f.level] ++ (le64 f.generationV2 ++ (f.uuid.val ++
    (f.parentUUID.val ++ (f.receivedUUID.val ++ (le64 f.cTransID ++ (le64 f.oTransID ++ (le64
    f.sTransID ++ (le64 f.rTransID ++ (packTime f.ctime ++ (packTime f.otime ++ (packTime
    f.stime ++ (packTime f.rtime ++ (le64 f.reserved0 ++ (le64 f.reserved1 ++ (le64 f.reserved2
    ++ (le64 f.reserved3 ++ (le64 f.reserved4 ++ (le64 f.reserved5 ++ (le64 f.reserved6 ++ (le64
    f.reserved7))))))))))))))))))))))))))))))

/-- `struct btrfs_root_ref (without the name)`. -/
structure RootRefRec where
  dirID : UInt64
  sequence : UInt64
  nameLen : UInt16

/-- Packed image of a `RootRefRec`. -/
def RootRefRec.layout (f : RootRefRec) : Bytes :=
  le64 f.dirID ++ (le64 f.sequence ++ (le16 f.nameLen))

/-- `struct btrfs_extent_item`. -/
structure ExtentItemRec where
  refs : UInt64
  generation : UInt64
  flags : UInt64

/-- Packed image of a `ExtentItemRec`. -/
def ExtentItemRec.layout (f : ExtentItemRec) : Bytes :=
  le64 f.refs ++ (le64 f.generation ++ (le64 f.flags))

/-- `struct btrfs_header`. -/
structure HeaderRec where
  csum : { l : Bytes // l.length = 32 }
  fsid : UUID
  byteNr : UInt64
  flags : UInt64
  chunkTreeUUID : UUID
  generation : UInt64
  owner : UInt64
  nrItems : UInt32
  level : UInt8

/-- Packed image of a `HeaderRec`. -/
def HeaderRec.layout (f : HeaderRec) : Bytes :=
  f.csum.val ++ (f.fsid.val ++ (le64 f.byteNr ++ (le64 f.flags ++ (f.chunkTreeUUID.val ++
    (le64 f.generation ++ (le64 f.owner ++ (le32 f.nrItems ++ ([f.level]))))))))

/-- `struct btrfs_item`. -/
structure ItemRec where
  key : Key
  offset : UInt32
  size : UInt32

/-- Packed image of a `ItemRec`. -/
def ItemRec.layout (f : ItemRec) : Bytes :=
  packKey f.key ++ (le32 f.offset ++ (le32 f.size))

end Btrfscue
