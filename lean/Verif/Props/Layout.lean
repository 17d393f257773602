import Verif.Proof.Access
/-!
# C07: the accessors decode the packed layouts

One theorem per structure: for every record `f`, whatever bytes `rest` follow it
in the slice and whatever spare capacity `tail` there is, every accessor returns
the field. (Generated from a table of the C structures.)
-/

set_option linter.unusedSimpArgs false
set_option maxRecDepth 2000

namespace Btrfscue

/-- C07: `DevExtent` (48 bytes). -/
theorem C07_DevExtent_decodes (f : DevExtentRec) (rest tail : Bytes) :
    f.layout.length = 48 ∧
    DevExtent.chunkTree ⟨f.layout ++ rest, tail⟩ = .ok f.chunkTree ∧
    DevExtent.chunkObjectID ⟨f.layout ++ rest, tail⟩ = .ok f.chunkObjectID ∧
    DevExtent.chunkOffset ⟨f.layout ++ rest, tail⟩ = .ok f.chunkOffset ∧
    DevExtent.length ⟨f.layout ++ rest, tail⟩ = .ok f.length ∧
    DevExtent.chunkTreeUUID ⟨f.layout ++ rest, tail⟩ = .ok f.chunkTreeUUID := by
  refine ⟨by simp [DevExtentRec.layout], ?_, ?_, ?_, ?_, ?_⟩ <;>
    simp [DevExtentRec.layout, DevExtent.chunkTree, DevExtent.chunkObjectID, DevExtent.chunkOffset, DevExtent.length,
      DevExtent.chunkTreeUUID, devExtentChunkTree, devExtentChunkObjectID,
      devExtentChunkOffset, devExtentLength, devExtentChunkTreeUUID, timeAt_spec]

/-- C07: `DevItem` (98 bytes). -/
theorem C07_DevItem_decodes (f : DevItemRec) (rest tail : Bytes) :
    f.layout.length = 98 ∧
    DevItem.devID ⟨f.layout ++ rest, tail⟩ = .ok f.devID ∧
    DevItem.totalBytes ⟨f.layout ++ rest, tail⟩ = .ok f.totalBytes ∧
    DevItem.bytesUsed ⟨f.layout ++ rest, tail⟩ = .ok f.bytesUsed ∧
    DevItem.ioAlign ⟨f.layout ++ rest, tail⟩ = .ok f.ioAlign ∧
    DevItem.ioWidth ⟨f.layout ++ rest, tail⟩ = .ok f.ioWidth ∧
    DevItem.sectorSize ⟨f.layout ++ rest, tail⟩ = .ok f.sectorSize ∧
    DevItem.typ ⟨f.layout ++ rest, tail⟩ = .ok f.typ ∧
    DevItem.generation ⟨f.layout ++ rest, tail⟩ = .ok f.generation ∧
    DevItem.startOffset ⟨f.layout ++ rest, tail⟩ = .ok f.startOffset ∧
    DevItem.devGroup ⟨f.layout ++ rest, tail⟩ = .ok f.devGroup ∧
    DevItem.seekSpeed ⟨f.layout ++ rest, tail⟩ = .ok f.seekSpeed ∧
    DevItem.bandwidth ⟨f.layout ++ rest, tail⟩ = .ok f.bandwidth ∧
    DevItem.uuid ⟨f.layout ++ rest, tail⟩ = .ok f.uuid ∧
    DevItem.fsid ⟨f.layout ++ rest, tail⟩ = .ok f.fsid := by
  refine ⟨by simp [DevItemRec.layout], ?_, ?_, ?_, ?_, ?_, ?_, ?_, ?_, ?_, ?_, ?_, ?_, ?_, ?_⟩ <;>
    simp [DevItemRec.layout, DevItem.devID, DevItem.totalBytes, DevItem.bytesUsed, DevItem.ioAlign, DevItem.ioWidth,
      DevItem.sectorSize, DevItem.typ, DevItem.generation, DevItem.startOffset,
      DevItem.devGroup, DevItem.seekSpeed, DevItem.bandwidth, DevItem.uuid, DevItem.fsid,
      devItemDevID, devItemTotalBytes, devItemBytesUsed, devItemIOAlign, devItemIOWidth,
      devItemSectorSize, devItemType, devItemGeneration, devItemStartOffset, devItemDevGroup,
      devItemSeekSpeed, devItemBandwidth, devItemUUID, devItemFSID, timeAt_spec]

/-- C07: `Stripe` (32 bytes). -/
theorem C07_Stripe_decodes (f : StripeRec) (rest tail : Bytes) :
    f.layout.length = 32 ∧
    Stripe.devID ⟨f.layout ++ rest, tail⟩ = .ok f.devID ∧
    Stripe.offset ⟨f.layout ++ rest, tail⟩ = .ok f.offset ∧
    Stripe.devUUID ⟨f.layout ++ rest, tail⟩ = .ok f.devUUID := by
  refine ⟨by simp [StripeRec.layout], ?_, ?_, ?_⟩ <;>
    simp [StripeRec.layout, Stripe.devID, Stripe.offset, Stripe.devUUID, stripeDevID, stripeOffset, stripeDevUUID, timeAt_spec]

/-- C07: `Chunk` (48 bytes). -/
theorem C07_Chunk_decodes (f : ChunkRec) (rest tail : Bytes) :
    f.layout.length = 48 ∧
    Chunk.length ⟨f.layout ++ rest, tail⟩ = .ok f.length ∧
    Chunk.owner ⟨f.layout ++ rest, tail⟩ = .ok f.owner ∧
    Chunk.stripeLen ⟨f.layout ++ rest, tail⟩ = .ok f.stripeLen ∧
    Chunk.typ ⟨f.layout ++ rest, tail⟩ = .ok f.typ ∧
    Chunk.ioAlign ⟨f.layout ++ rest, tail⟩ = .ok f.ioAlign ∧
    Chunk.ioWidth ⟨f.layout ++ rest, tail⟩ = .ok f.ioWidth ∧
    Chunk.sectorSize ⟨f.layout ++ rest, tail⟩ = .ok f.sectorSize ∧
    Chunk.numStripes ⟨f.layout ++ rest, tail⟩ = .ok f.numStripes ∧
    Chunk.subStripes ⟨f.layout ++ rest, tail⟩ = .ok f.subStripes := by
  refine ⟨by simp [ChunkRec.layout], ?_, ?_, ?_, ?_, ?_, ?_, ?_, ?_, ?_⟩ <;>
    simp [ChunkRec.layout, Chunk.length, Chunk.owner, Chunk.stripeLen, Chunk.typ, Chunk.ioAlign, Chunk.ioWidth,
      Chunk.sectorSize, Chunk.numStripes, Chunk.subStripes, chunkLength, chunkOwner,
      chunkStripeLen, chunkType, chunkIOAlign, chunkIOWidth, chunkSectorSize, chunkNumStripes,
      chunkSubStripes, chunkStripes, timeAt_spec]

/-- C07: `InodeItem` (160 bytes). -/
theorem C07_InodeItem_decodes (f : InodeItemRec) (rest tail : Bytes) :
    f.layout.length = 160 ∧
    InodeItem.generation ⟨f.layout ++ rest, tail⟩ = .ok f.generation ∧
    InodeItem.transID ⟨f.layout ++ rest, tail⟩ = .ok f.transID ∧
    InodeItem.size ⟨f.layout ++ rest, tail⟩ = .ok f.size ∧
    InodeItem.blockGroup ⟨f.layout ++ rest, tail⟩ = .ok f.blockGroup ∧
    InodeItem.nlink ⟨f.layout ++ rest, tail⟩ = .ok f.nlink ∧
    InodeItem.uid ⟨f.layout ++ rest, tail⟩ = .ok f.uid ∧
    InodeItem.gid ⟨f.layout ++ rest, tail⟩ = .ok f.gid ∧
    InodeItem.mode ⟨f.layout ++ rest, tail⟩ = .ok f.mode ∧
    InodeItem.rdev ⟨f.layout ++ rest, tail⟩ = .ok f.rdev ∧
    InodeItem.flags ⟨f.layout ++ rest, tail⟩ = .ok f.flags ∧
    InodeItem.sequence ⟨f.layout ++ rest, tail⟩ = .ok f.sequence ∧
    (∃ t, InodeItem.atime ⟨f.layout ++ rest, tail⟩ = .ok t ∧ IsTime t f.atime) ∧
    (∃ t, InodeItem.ctime ⟨f.layout ++ rest, tail⟩ = .ok t ∧ IsTime t f.ctime) ∧
    (∃ t, InodeItem.mtime ⟨f.layout ++ rest, tail⟩ = .ok t ∧ IsTime t f.mtime) ∧
    (∃ t, InodeItem.rtime ⟨f.layout ++ rest, tail⟩ = .ok t ∧ IsTime t f.rtime) ∧
    InodeItem.reserved ⟨f.layout ++ rest, tail⟩ = .ok [f.reserved0, f.reserved1, f.reserved2, f.reserved3] := by
  refine ⟨by simp [InodeItemRec.layout], ?_, ?_, ?_, ?_, ?_, ?_, ?_, ?_, ?_, ?_, ?_, ?_, ?_, ?_, ?_, ?_⟩ <;>
    simp [InodeItemRec.layout, InodeItem.generation, InodeItem.transID, InodeItem.size, InodeItem.blockGroup,
      InodeItem.nlink, InodeItem.uid, InodeItem.gid, InodeItem.mode, InodeItem.rdev,
      InodeItem.flags, InodeItem.sequence, InodeItem.atime, InodeItem.ctime, InodeItem.mtime,
      InodeItem.rtime, InodeItem.reserved, inodeItemGeneration, inodeItemTransID,
      inodeItemSize, inodeItemNbytes, inodeItemBlockGroup, inodeItemNlink, inodeItemUID,
      inodeItemGID, inodeItemMode, inodeItemRdev, inodeItemFlags, inodeItemSequence,
      inodeItemReserved, inodeItemAtime, inodeItemCtime, inodeItemMtime, inodeItemOtime, timeAt_spec]

/-- C07: `InodeRefItem` (10 bytes). -/
theorem C07_InodeRefItem_decodes (f : InodeRefItemRec) (rest tail : Bytes) :
    f.layout.length = 10 ∧
    InodeRefItem.index ⟨f.layout ++ rest, tail⟩ = .ok f.index ∧
    InodeRefItem.nameLen ⟨f.layout ++ rest, tail⟩ = .ok f.nameLen := by
  refine ⟨by simp [InodeRefItemRec.layout], ?_, ?_⟩ <;>
    simp [InodeRefItemRec.layout, InodeRefItem.index, InodeRefItem.nameLen, inodeRefItemIndex, inodeRefItemNameLen,
      inodeRefItemName, timeAt_spec]

/-- C07: `DirItem` (30 bytes). -/
theorem C07_DirItem_decodes (f : DirItemRec) (rest tail : Bytes) :
    f.layout.length = 30 ∧
    DirItem.location ⟨f.layout ++ rest, tail⟩ = .ok f.location ∧
    DirItem.transID ⟨f.layout ++ rest, tail⟩ = .ok f.transID ∧
    DirItem.dataLen ⟨f.layout ++ rest, tail⟩ = .ok f.dataLen ∧
    DirItem.nameLen ⟨f.layout ++ rest, tail⟩ = .ok f.nameLen ∧
    DirItem.typ ⟨f.layout ++ rest, tail⟩ = .ok f.typ := by
  refine ⟨by simp [DirItemRec.layout], ?_, ?_, ?_, ?_, ?_⟩ <;>
    simp [DirItemRec.layout, DirItem.location, DirItem.transID, DirItem.dataLen, DirItem.nameLen, DirItem.typ,
      dirItemLocation, dirItemTransID, dirItemDataLen, dirItemNameLen, dirItemType,
      dirItemName, timeAt_spec]

/-- C07: `BlockGroupItem` (24 bytes). -/
theorem C07_BlockGroupItem_decodes (f : BlockGroupItemRec) (rest tail : Bytes) :
    f.layout.length = 24 ∧
    BlockGroupItem.used ⟨f.layout ++ rest, tail⟩ = .ok f.used ∧
    BlockGroupItem.chunkObjectID ⟨f.layout ++ rest, tail⟩ = .ok f.chunkObjectID ∧
    BlockGroupItem.flags ⟨f.layout ++ rest, tail⟩ = .ok f.flags := by
  refine ⟨by simp [BlockGroupItemRec.layout], ?_, ?_, ?_⟩ <;>
    simp [BlockGroupItemRec.layout, BlockGroupItem.used, BlockGroupItem.chunkObjectID, BlockGroupItem.flags,
      blockGroupItemUsed, blockGroupItemChunkObjectID, blockGroupItemFlags, timeAt_spec]

/-- C07: `FileExtentItem` (53 bytes). -/
theorem C07_FileExtentItem_decodes (f : FileExtentItemRec) (rest tail : Bytes) :
    f.layout.length = 53 ∧
    FileExtentItem.generation ⟨f.layout ++ rest, tail⟩ = .ok f.generation ∧
    FileExtentItem.ramBytes ⟨f.layout ++ rest, tail⟩ = .ok f.ramBytes ∧
    FileExtentItem.compression ⟨f.layout ++ rest, tail⟩ = .ok f.compression ∧
    FileExtentItem.encryption ⟨f.layout ++ rest, tail⟩ = .ok f.encryption ∧
    FileExtentItem.otherEncoding ⟨f.layout ++ rest, tail⟩ = .ok f.otherEncoding ∧
    FileExtentItem.typ ⟨f.layout ++ rest, tail⟩ = .ok f.typ ∧
    FileExtentItem.diskByteNr ⟨f.layout ++ rest, tail⟩ = .ok f.diskByteNr ∧
    FileExtentItem.diskNumBytes ⟨f.layout ++ rest, tail⟩ = .ok f.diskNumBytes ∧
    FileExtentItem.offset ⟨f.layout ++ rest, tail⟩ = .ok f.offset ∧
    FileExtentItem.numBytes ⟨f.layout ++ rest, tail⟩ = .ok f.numBytes := by
  refine ⟨by simp [FileExtentItemRec.layout], ?_, ?_, ?_, ?_, ?_, ?_, ?_, ?_, ?_, ?_⟩ <;>
    simp [FileExtentItemRec.layout, FileExtentItem.generation, FileExtentItem.ramBytes, FileExtentItem.compression,
      FileExtentItem.encryption, FileExtentItem.otherEncoding, FileExtentItem.typ,
      FileExtentItem.diskByteNr, FileExtentItem.diskNumBytes, FileExtentItem.offset,
      FileExtentItem.numBytes, fileExtentItemGeneration, fileExtentItemRAMBytes,
      fileExtentItemCompression, fileExtentItemEncryption, fileExtentItemOtherEncoding,
      fileExtentItemType, fileExtentItemDiskByteNr, fileExtentItemDiskNumBytes,
      fileExtentItemOffset, fileExtentItemNumBytes, timeAt_spec]

/-- C07: `RootItem` (279 bytes). -/
theorem C07_RootItem_decodes (f : RootItemRec) (inode rest tail : Bytes)
    (hi : inode.length = 160) :
    f.layout.length = 279 ∧
    RootItem.generation ⟨inode ++ (f.layout ++ rest), tail⟩ = .ok f.generation ∧
    RootItem.rootDirID ⟨inode ++ (f.layout ++ rest), tail⟩ = .ok f.rootDirID ∧
    RootItem.byteNr ⟨inode ++ (f.layout ++ rest), tail⟩ = .ok f.byteNr ∧
    RootItem.byteLimit ⟨inode ++ (f.layout ++ rest), tail⟩ = .ok f.byteLimit ∧
    RootItem.bytesUsed ⟨inode ++ (f.layout ++ rest), tail⟩ = .ok f.bytesUsed ∧
    RootItem.lastSnapshot ⟨inode ++ (f.layout ++ rest), tail⟩ = .ok f.lastSnapshot ∧
    RootItem.flags ⟨inode ++ (f.layout ++ rest), tail⟩ = .ok f.flags ∧
    RootItem.refs ⟨inode ++ (f.layout ++ rest), tail⟩ = .ok f.refs ∧
    RootItem.dropProgress ⟨inode ++ (f.layout ++ rest), tail⟩ = .ok f.dropProgress ∧
    RootItem.dropLevel ⟨inode ++ (f.layout ++ rest), tail⟩ = .ok f.dropLevel ∧
    RootItem.level ⟨inode ++ (f.layout ++ rest), tail⟩ = .ok f.level ∧
    RootItem.generationV2 ⟨inode ++ (f.layout ++ rest), tail⟩ = .ok f.generationV2 ∧
    RootItem.uuid ⟨inode ++ (f.layout ++ rest), tail⟩ = .ok f.uuid ∧
    RootItem.parentUUID ⟨inode ++ (f.layout ++ rest), tail⟩ = .ok f.parentUUID ∧
    RootItem.receivedUUID ⟨inode ++ (f.layout ++ rest), tail⟩ = .ok f.receivedUUID ∧
    RootItem.cTransID ⟨inode ++ (f.layout ++ rest), tail⟩ = .ok f.cTransID ∧
    RootItem.oTransID ⟨inode ++ (f.layout ++ rest), tail⟩ = .ok f.oTransID ∧
    RootItem.sTransID ⟨inode ++ (f.layout ++ rest), tail⟩ = .ok f.sTransID ∧
    RootItem.rTransID ⟨inode ++ (f.layout ++ rest), tail⟩ = .ok f.rTransID ∧
    (∃ t, RootItem.ctime ⟨inode ++ (f.layout ++ rest), tail⟩ = .ok t ∧ IsTime t f.ctime) ∧
    (∃ t, RootItem.otime ⟨inode ++ (f.layout ++ rest), tail⟩ = .ok t ∧ IsTime t f.otime) ∧
    (∃ t, RootItem.stime ⟨inode ++ (f.layout ++ rest), tail⟩ = .ok t ∧ IsTime t f.stime) ∧
    (∃ t, RootItem.rtime ⟨inode ++ (f.layout ++ rest), tail⟩ = .ok t ∧ IsTime t f.rtime) ∧
    RootItem.inode ⟨inode ++ (f.layout ++ rest), tail⟩ = .ok ⟨inode ++ (f.layout ++ rest), tail⟩ ∧
    RootItem.reserved ⟨inode ++ (f.layout ++ rest), tail⟩ = .ok [f.reserved0, f.reserved1, f.reserved2, f.reserved3,
      f.reserved4, f.reserved5, f.reserved6, f.reserved7] := by
  refine ⟨by simp [RootItemRec.layout], ?_, ?_, ?_, ?_, ?_, ?_, ?_, ?_, ?_, ?_, ?_, ?_, ?_, ?_, ?_, ?_, ?_, ?_, ?_, ?_, ?_, ?_, ?_, ?_, ?_⟩ <;>
    simp [RootItemRec.layout, RootItem.generation, RootItem.rootDirID, RootItem.byteNr, RootItem.byteLimit,
      RootItem.bytesUsed, RootItem.lastSnapshot, RootItem.flags, RootItem.refs,
      RootItem.dropProgress, RootItem.dropLevel, RootItem.level, RootItem.generationV2,
      RootItem.uuid, RootItem.parentUUID, RootItem.receivedUUID, RootItem.cTransID,
      RootItem.oTransID, RootItem.sTransID, RootItem.rTransID, RootItem.ctime, RootItem.otime,
      RootItem.stime, RootItem.rtime, RootItem.inode, RootItem.reserved, rootItemInode,
      rootItemGeneration, rootItemRootDirID, rootItemByteNr, rootItemByteLimit,
      rootItemBytesUsed, rootItemLastSnapshot, rootItemFlags, rootItemRefs,
      rootItemDropProgress, rootItemDropLevel, rootItemLevel, rootItemGenerationV2,
      rootItemUUID, rootItemParentUUID, rootItemReceivedUUID, rootItemCTransID,
      rootItemOTransID, rootItemSTransID, rootItemRTransID, rootItemCtime, rootItemOtime,
      rootItemStime, rootItemRtime, rootItemReserved, InodeItemLen, inodeItemOtime,
      inodeItemMtime, inodeItemCtime, inodeItemAtime, inodeItemReserved, inodeItemSequence,
      inodeItemFlags, inodeItemRdev, inodeItemMode, inodeItemGID, inodeItemUID,
      inodeItemNlink, inodeItemBlockGroup, inodeItemNbytes, inodeItemSize, inodeItemTransID,
      inodeItemGeneration, hi, timeAt_spec]

/-- C07: `RootRef` (18 bytes). -/
theorem C07_RootRef_decodes (f : RootRefRec) (rest tail : Bytes) :
    f.layout.length = 18 ∧
    RootRef.dirID ⟨f.layout ++ rest, tail⟩ = .ok f.dirID ∧
    RootRef.sequence ⟨f.layout ++ rest, tail⟩ = .ok f.sequence ∧
    RootRef.nameLen ⟨f.layout ++ rest, tail⟩ = .ok f.nameLen := by
  refine ⟨by simp [RootRefRec.layout], ?_, ?_, ?_⟩ <;>
    simp [RootRefRec.layout, RootRef.dirID, RootRef.sequence, RootRef.nameLen, rootRefDirID, rootRefSequence,
      rootRefNameLen, rootRefName, timeAt_spec]

/-- C07: `ExtentItem` (24 bytes). -/
theorem C07_ExtentItem_decodes (f : ExtentItemRec) (rest tail : Bytes) :
    f.layout.length = 24 ∧
    ExtentItem.refs ⟨f.layout ++ rest, tail⟩ = .ok f.refs ∧
    ExtentItem.generation ⟨f.layout ++ rest, tail⟩ = .ok f.generation ∧
    ExtentItem.flags ⟨f.layout ++ rest, tail⟩ = .ok f.flags := by
  refine ⟨by simp [ExtentItemRec.layout], ?_, ?_, ?_⟩ <;>
    simp [ExtentItemRec.layout, ExtentItem.refs, ExtentItem.generation, ExtentItem.flags, extentItemRefs,
      extentItemGeneration, extentItemFlags, timeAt_spec]

/-- C07: `Header` (101 bytes). -/
theorem C07_Header_decodes (f : HeaderRec) (rest tail : Bytes) :
    f.layout.length = 101 ∧
    Header.csum ⟨f.layout ++ rest, tail⟩ = .ok f.csum.val ∧
    Header.fsid ⟨f.layout ++ rest, tail⟩ = .ok f.fsid ∧
    Header.byteNr ⟨f.layout ++ rest, tail⟩ = .ok f.byteNr ∧
    Header.flags ⟨f.layout ++ rest, tail⟩ = .ok f.flags ∧
    Header.chunkTreeUUID ⟨f.layout ++ rest, tail⟩ = .ok f.chunkTreeUUID ∧
    Header.generation ⟨f.layout ++ rest, tail⟩ = .ok f.generation ∧
    Header.owner ⟨f.layout ++ rest, tail⟩ = .ok f.owner ∧
    Header.nrItems ⟨f.layout ++ rest, tail⟩ = .ok f.nrItems ∧
    Header.level ⟨f.layout ++ rest, tail⟩ = .ok f.level := by
  refine ⟨by simp [HeaderRec.layout], ?_, ?_, ?_, ?_, ?_, ?_, ?_, ?_, ?_⟩ <;>
    simp [HeaderRec.layout, Header.csum, Header.fsid, Header.byteNr, Header.flags, Header.chunkTreeUUID,
      Header.generation, Header.owner, Header.nrItems, Header.level, headerCSum, headerFSID,
      headerByteNr, headerFlags, headerChunkTreeUUID, headerGeneration, headerOwner,
      headerNrItems, headerLevel, CSumSize, KeyLen, timeAt_spec]

/-- C07: `Item` (25 bytes). -/
theorem C07_Item_decodes (f : ItemRec) (rest tail : Bytes) :
    f.layout.length = 25 ∧
    Item.key ⟨f.layout ++ rest, tail⟩ = .ok f.key ∧
    Item.offset ⟨f.layout ++ rest, tail⟩ = .ok f.offset ∧
    Item.size ⟨f.layout ++ rest, tail⟩ = .ok f.size := by
  refine ⟨by simp [ItemRec.layout], ?_, ?_, ?_⟩ <;>
    simp [ItemRec.layout, Item.key, Item.offset, Item.size, itemKey, itemOffset, itemSize, CSumSize, KeyLen, timeAt_spec]

example : (List.replicate 160 (0 : UInt8)).length = 160 := by simp

end Btrfscue
