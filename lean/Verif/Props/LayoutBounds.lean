import Verif.Proof.Bounds
/-!
# C08: accessors panic exactly when the field does not fit

For a slice without spare capacity (`cap == len`, every index value): an accessor
yields a value if and only if its field lies inside the slice. One theorem per
structure, generated from the table of C structures. `Props/Bounds` has the
theorems for slices with spare capacity.
-/

set_option linter.unusedSimpArgs false

namespace Btrfscue

/-- C08 for `DevExtent`. -/
theorem C08_DevExtent_bounds (b : Bytes) :
    ((DevExtent.chunkTree ⟨b, []⟩).isOk ↔ 8 ≤ b.length) ∧
    ((DevExtent.chunkObjectID ⟨b, []⟩).isOk ↔ 16 ≤ b.length) ∧
    ((DevExtent.chunkOffset ⟨b, []⟩).isOk ↔ 24 ≤ b.length) ∧
    ((DevExtent.length ⟨b, []⟩).isOk ↔ 32 ≤ b.length) ∧
    ((DevExtent.chunkTreeUUID ⟨b, []⟩).isOk ↔ 48 ≤ b.length) := by
  refine ⟨?_, ?_, ?_, ?_, ?_⟩ <;>
    simp only [DevExtent.chunkTree, DevExtent.chunkObjectID, DevExtent.chunkOffset, DevExtent.length,
      DevExtent.chunkTreeUUID, devExtentChunkTree, devExtentChunkObjectID,
      devExtentChunkOffset, devExtentLength, devExtentChunkTreeUUID,
      isOk_u8, isOk_u16, isOk_u32, isOk_u64, isOk_uuid, isOk_key, isOk_time, isOk_csum, isOk_bind_pure, isOk_u64_bind, List.length_nil] <;> (try omega)

/-- C08 for `DevItem`. -/
theorem C08_DevItem_bounds (b : Bytes) :
    ((DevItem.devID ⟨b, []⟩).isOk ↔ 8 ≤ b.length) ∧
    ((DevItem.totalBytes ⟨b, []⟩).isOk ↔ 16 ≤ b.length) ∧
    ((DevItem.bytesUsed ⟨b, []⟩).isOk ↔ 24 ≤ b.length) ∧
    ((DevItem.ioAlign ⟨b, []⟩).isOk ↔ 28 ≤ b.length) ∧
    ((DevItem.ioWidth ⟨b, []⟩).isOk ↔ 32 ≤ b.length) ∧
    ((DevItem.sectorSize ⟨b, []⟩).isOk ↔ 36 ≤ b.length) ∧
    ((DevItem.typ ⟨b, []⟩).isOk ↔ 44 ≤ b.length) ∧
    ((DevItem.generation ⟨b, []⟩).isOk ↔ 52 ≤ b.length) ∧
    ((DevItem.startOffset ⟨b, []⟩).isOk ↔ 60 ≤ b.length) ∧
    ((DevItem.devGroup ⟨b, []⟩).isOk ↔ 64 ≤ b.length) ∧
    ((DevItem.seekSpeed ⟨b, []⟩).isOk ↔ 65 ≤ b.length) ∧
    ((DevItem.bandwidth ⟨b, []⟩).isOk ↔ 66 ≤ b.length) ∧
    ((DevItem.uuid ⟨b, []⟩).isOk ↔ 82 ≤ b.length) ∧
    ((DevItem.fsid ⟨b, []⟩).isOk ↔ 98 ≤ b.length) := by
  refine ⟨?_, ?_, ?_, ?_, ?_, ?_, ?_, ?_, ?_, ?_, ?_, ?_, ?_, ?_⟩ <;>
    simp only [DevItem.devID, DevItem.totalBytes, DevItem.bytesUsed, DevItem.ioAlign, DevItem.ioWidth,
      DevItem.sectorSize, DevItem.typ, DevItem.generation, DevItem.startOffset,
      DevItem.devGroup, DevItem.seekSpeed, DevItem.bandwidth, DevItem.uuid, DevItem.fsid,
      devItemDevID, devItemTotalBytes, devItemBytesUsed, devItemIOAlign, devItemIOWidth,
      devItemSectorSize, devItemType, devItemGeneration, devItemStartOffset, devItemDevGroup,
      devItemSeekSpeed, devItemBandwidth, devItemUUID, devItemFSID,
      isOk_u8, isOk_u16, isOk_u32, isOk_u64, isOk_uuid, isOk_key, isOk_time, isOk_csum, isOk_bind_pure, isOk_u64_bind, List.length_nil] <;> (try omega)

/-- C08 for `Stripe`. -/
theorem C08_Stripe_bounds (b : Bytes) :
    ((Stripe.devID ⟨b, []⟩).isOk ↔ 8 ≤ b.length) ∧
    ((Stripe.offset ⟨b, []⟩).isOk ↔ 16 ≤ b.length) ∧
    ((Stripe.devUUID ⟨b, []⟩).isOk ↔ 32 ≤ b.length) := by
  refine ⟨?_, ?_, ?_⟩ <;>
    simp only [Stripe.devID, Stripe.offset, Stripe.devUUID, stripeDevID, stripeOffset, stripeDevUUID,
      isOk_u8, isOk_u16, isOk_u32, isOk_u64, isOk_uuid, isOk_key, isOk_time, isOk_csum, isOk_bind_pure, isOk_u64_bind, List.length_nil] <;> (try omega)

/-- C08 for `Chunk`. -/
theorem C08_Chunk_bounds (b : Bytes) :
    ((Chunk.length ⟨b, []⟩).isOk ↔ 8 ≤ b.length) ∧
    ((Chunk.owner ⟨b, []⟩).isOk ↔ 16 ≤ b.length) ∧
    ((Chunk.stripeLen ⟨b, []⟩).isOk ↔ 24 ≤ b.length) ∧
    ((Chunk.typ ⟨b, []⟩).isOk ↔ 32 ≤ b.length) ∧
    ((Chunk.ioAlign ⟨b, []⟩).isOk ↔ 36 ≤ b.length) ∧
    ((Chunk.ioWidth ⟨b, []⟩).isOk ↔ 40 ≤ b.length) ∧
    ((Chunk.sectorSize ⟨b, []⟩).isOk ↔ 44 ≤ b.length) ∧
    ((Chunk.numStripes ⟨b, []⟩).isOk ↔ 46 ≤ b.length) ∧
    ((Chunk.subStripes ⟨b, []⟩).isOk ↔ 48 ≤ b.length) := by
  refine ⟨?_, ?_, ?_, ?_, ?_, ?_, ?_, ?_, ?_⟩ <;>
    simp only [Chunk.length, Chunk.owner, Chunk.stripeLen, Chunk.typ, Chunk.ioAlign, Chunk.ioWidth,
      Chunk.sectorSize, Chunk.numStripes, Chunk.subStripes, chunkLength, chunkOwner,
      chunkStripeLen, chunkType, chunkIOAlign, chunkIOWidth, chunkSectorSize, chunkNumStripes,
      chunkSubStripes, chunkStripes,
      isOk_u8, isOk_u16, isOk_u32, isOk_u64, isOk_uuid, isOk_key, isOk_time, isOk_csum, isOk_bind_pure, isOk_u64_bind, List.length_nil] <;> (try omega)

/-- C08 for `InodeItem`. -/
theorem C08_InodeItem_bounds (b : Bytes) :
    ((InodeItem.generation ⟨b, []⟩).isOk ↔ 8 ≤ b.length) ∧
    ((InodeItem.transID ⟨b, []⟩).isOk ↔ 16 ≤ b.length) ∧
    ((InodeItem.size ⟨b, []⟩).isOk ↔ 24 ≤ b.length) ∧
    ((InodeItem.blockGroup ⟨b, []⟩).isOk ↔ 40 ≤ b.length) ∧
    ((InodeItem.nlink ⟨b, []⟩).isOk ↔ 44 ≤ b.length) ∧
    ((InodeItem.uid ⟨b, []⟩).isOk ↔ 48 ≤ b.length) ∧
    ((InodeItem.gid ⟨b, []⟩).isOk ↔ 52 ≤ b.length) ∧
    ((InodeItem.mode ⟨b, []⟩).isOk ↔ 56 ≤ b.length) ∧
    ((InodeItem.rdev ⟨b, []⟩).isOk ↔ 64 ≤ b.length) ∧
    ((InodeItem.flags ⟨b, []⟩).isOk ↔ 72 ≤ b.length) ∧
    ((InodeItem.sequence ⟨b, []⟩).isOk ↔ 80 ≤ b.length) ∧
    ((InodeItem.atime ⟨b, []⟩).isOk ↔ 124 ≤ b.length) ∧
    ((InodeItem.ctime ⟨b, []⟩).isOk ↔ 136 ≤ b.length) ∧
    ((InodeItem.mtime ⟨b, []⟩).isOk ↔ 148 ≤ b.length) ∧
    ((InodeItem.rtime ⟨b, []⟩).isOk ↔ 160 ≤ b.length) := by
  refine ⟨?_, ?_, ?_, ?_, ?_, ?_, ?_, ?_, ?_, ?_, ?_, ?_, ?_, ?_, ?_⟩ <;>
    simp only [InodeItem.generation, InodeItem.transID, InodeItem.size, InodeItem.blockGroup,
      InodeItem.nlink, InodeItem.uid, InodeItem.gid, InodeItem.mode, InodeItem.rdev,
      InodeItem.flags, InodeItem.sequence, InodeItem.atime, InodeItem.ctime, InodeItem.mtime,
      InodeItem.rtime, InodeItem.reserved, inodeItemGeneration, inodeItemTransID,
      inodeItemSize, inodeItemNbytes, inodeItemBlockGroup, inodeItemNlink, inodeItemUID,
      inodeItemGID, inodeItemMode, inodeItemRdev, inodeItemFlags, inodeItemSequence,
      inodeItemReserved, inodeItemAtime, inodeItemCtime, inodeItemMtime, inodeItemOtime,
      isOk_u8, isOk_u16, isOk_u32, isOk_u64, isOk_uuid, isOk_key, isOk_time, isOk_csum, isOk_bind_pure, isOk_u64_bind, List.length_nil] <;> (try omega)

/-- C08 for `InodeRefItem`. -/
theorem C08_InodeRefItem_bounds (b : Bytes) :
    ((InodeRefItem.index ⟨b, []⟩).isOk ↔ 8 ≤ b.length) ∧
    ((InodeRefItem.nameLen ⟨b, []⟩).isOk ↔ 10 ≤ b.length) := by
  refine ⟨?_, ?_⟩ <;>
    simp only [InodeRefItem.index, InodeRefItem.nameLen, inodeRefItemIndex, inodeRefItemNameLen,
      inodeRefItemName,
      isOk_u8, isOk_u16, isOk_u32, isOk_u64, isOk_uuid, isOk_key, isOk_time, isOk_csum, isOk_bind_pure, isOk_u64_bind, List.length_nil] <;> (try omega)

/-- C08 for `DirItem`. -/
theorem C08_DirItem_bounds (b : Bytes) :
    ((DirItem.location ⟨b, []⟩).isOk ↔ 17 ≤ b.length) ∧
    ((DirItem.transID ⟨b, []⟩).isOk ↔ 25 ≤ b.length) ∧
    ((DirItem.dataLen ⟨b, []⟩).isOk ↔ 27 ≤ b.length) ∧
    ((DirItem.nameLen ⟨b, []⟩).isOk ↔ 29 ≤ b.length) ∧
    ((DirItem.typ ⟨b, []⟩).isOk ↔ 30 ≤ b.length) := by
  refine ⟨?_, ?_, ?_, ?_, ?_⟩ <;>
    simp only [DirItem.location, DirItem.transID, DirItem.dataLen, DirItem.nameLen, DirItem.typ,
      dirItemLocation, dirItemTransID, dirItemDataLen, dirItemNameLen, dirItemType,
      dirItemName,
      isOk_u8, isOk_u16, isOk_u32, isOk_u64, isOk_uuid, isOk_key, isOk_time, isOk_csum, isOk_bind_pure, isOk_u64_bind, List.length_nil] <;> (try omega)

/-- C08 for `BlockGroupItem`. -/
theorem C08_BlockGroupItem_bounds (b : Bytes) :
    ((BlockGroupItem.used ⟨b, []⟩).isOk ↔ 8 ≤ b.length) ∧
    ((BlockGroupItem.chunkObjectID ⟨b, []⟩).isOk ↔ 16 ≤ b.length) ∧
    ((BlockGroupItem.flags ⟨b, []⟩).isOk ↔ 24 ≤ b.length) := by
  refine ⟨?_, ?_, ?_⟩ <;>
    simp only [BlockGroupItem.used, BlockGroupItem.chunkObjectID, BlockGroupItem.flags,
      blockGroupItemUsed, blockGroupItemChunkObjectID, blockGroupItemFlags,
      isOk_u8, isOk_u16, isOk_u32, isOk_u64, isOk_uuid, isOk_key, isOk_time, isOk_csum, isOk_bind_pure, isOk_u64_bind, List.length_nil] <;> (try omega)

/-- C08 for `FileExtentItem`. -/
theorem C08_FileExtentItem_bounds (b : Bytes) :
    ((FileExtentItem.generation ⟨b, []⟩).isOk ↔ 8 ≤ b.length) ∧
    ((FileExtentItem.ramBytes ⟨b, []⟩).isOk ↔ 16 ≤ b.length) ∧
    ((FileExtentItem.compression ⟨b, []⟩).isOk ↔ 17 ≤ b.length) ∧
    ((FileExtentItem.encryption ⟨b, []⟩).isOk ↔ 18 ≤ b.length) ∧
    ((FileExtentItem.otherEncoding ⟨b, []⟩).isOk ↔ 20 ≤ b.length) ∧
    ((FileExtentItem.typ ⟨b, []⟩).isOk ↔ 21 ≤ b.length) ∧
    ((FileExtentItem.diskByteNr ⟨b, []⟩).isOk ↔ 29 ≤ b.length) ∧
    ((FileExtentItem.diskNumBytes ⟨b, []⟩).isOk ↔ 37 ≤ b.length) ∧
    ((FileExtentItem.offset ⟨b, []⟩).isOk ↔ 45 ≤ b.length) ∧
    ((FileExtentItem.numBytes ⟨b, []⟩).isOk ↔ 53 ≤ b.length) := by
  refine ⟨?_, ?_, ?_, ?_, ?_, ?_, ?_, ?_, ?_, ?_⟩ <;>
    simp only [FileExtentItem.generation, FileExtentItem.ramBytes, FileExtentItem.compression,
      FileExtentItem.encryption, FileExtentItem.otherEncoding, FileExtentItem.typ,
      FileExtentItem.diskByteNr, FileExtentItem.diskNumBytes, FileExtentItem.offset,
      FileExtentItem.numBytes, fileExtentItemGeneration, fileExtentItemRAMBytes,
      fileExtentItemCompression, fileExtentItemEncryption, fileExtentItemOtherEncoding,
      fileExtentItemType, fileExtentItemDiskByteNr, fileExtentItemDiskNumBytes,
      fileExtentItemOffset, fileExtentItemNumBytes,
      isOk_u8, isOk_u16, isOk_u32, isOk_u64, isOk_uuid, isOk_key, isOk_time, isOk_csum, isOk_bind_pure, isOk_u64_bind, List.length_nil] <;> (try omega)

/-- C08 for `RootItem`. -/
theorem C08_RootItem_bounds (b : Bytes) :
    ((RootItem.generation ⟨b, []⟩).isOk ↔ 168 ≤ b.length) ∧
    ((RootItem.rootDirID ⟨b, []⟩).isOk ↔ 176 ≤ b.length) ∧
    ((RootItem.byteNr ⟨b, []⟩).isOk ↔ 184 ≤ b.length) ∧
    ((RootItem.byteLimit ⟨b, []⟩).isOk ↔ 192 ≤ b.length) ∧
    ((RootItem.bytesUsed ⟨b, []⟩).isOk ↔ 200 ≤ b.length) ∧
    ((RootItem.lastSnapshot ⟨b, []⟩).isOk ↔ 208 ≤ b.length) ∧
    ((RootItem.flags ⟨b, []⟩).isOk ↔ 216 ≤ b.length) ∧
    ((RootItem.refs ⟨b, []⟩).isOk ↔ 220 ≤ b.length) ∧
    ((RootItem.dropProgress ⟨b, []⟩).isOk ↔ 237 ≤ b.length) ∧
    ((RootItem.dropLevel ⟨b, []⟩).isOk ↔ 238 ≤ b.length) ∧
    ((RootItem.level ⟨b, []⟩).isOk ↔ 239 ≤ b.length) ∧
    ((RootItem.generationV2 ⟨b, []⟩).isOk ↔ 247 ≤ b.length) ∧
    ((RootItem.uuid ⟨b, []⟩).isOk ↔ 263 ≤ b.length) ∧
    ((RootItem.parentUUID ⟨b, []⟩).isOk ↔ 279 ≤ b.length) ∧
    ((RootItem.receivedUUID ⟨b, []⟩).isOk ↔ 295 ≤ b.length) ∧
    ((RootItem.cTransID ⟨b, []⟩).isOk ↔ 303 ≤ b.length) ∧
    ((RootItem.oTransID ⟨b, []⟩).isOk ↔ 311 ≤ b.length) ∧
    ((RootItem.sTransID ⟨b, []⟩).isOk ↔ 319 ≤ b.length) ∧
    ((RootItem.rTransID ⟨b, []⟩).isOk ↔ 327 ≤ b.length) ∧
    ((RootItem.ctime ⟨b, []⟩).isOk ↔ 339 ≤ b.length) ∧
    ((RootItem.otime ⟨b, []⟩).isOk ↔ 351 ≤ b.length) ∧
    ((RootItem.stime ⟨b, []⟩).isOk ↔ 363 ≤ b.length) ∧
    ((RootItem.rtime ⟨b, []⟩).isOk ↔ 375 ≤ b.length) := by
  refine ⟨?_, ?_, ?_, ?_, ?_, ?_, ?_, ?_, ?_, ?_, ?_, ?_, ?_, ?_, ?_, ?_, ?_, ?_, ?_, ?_, ?_, ?_, ?_⟩ <;>
    simp only [RootItem.generation, RootItem.rootDirID, RootItem.byteNr, RootItem.byteLimit,
      RootItem.bytesUsed, RootItem.lastSnapshot, RootItem.flags, RootItem.refs,
      RootItem.dropProgress, RootItem.dropLevel, RootItem.level, RootItem.generationV2,
      RootItem.uuid, RootItem.parentUUID, RootItem.receivedUUID, RootItem.cTransID,
      RootItem.oTransID, RootItem.sTransID, RootItem.rTransID, RootItem.ctime, RootItem.otime,
      RootItem.stime, RootItem.rtime, RootItem.reserved, rootItemInode, rootItemGeneration,
      rootItemRootDirID, rootItemByteNr, rootItemByteLimit, rootItemBytesUsed,
      rootItemLastSnapshot, rootItemFlags, rootItemRefs, rootItemDropProgress,
      rootItemDropLevel, rootItemLevel, rootItemGenerationV2, rootItemUUID,
      rootItemParentUUID, rootItemReceivedUUID, rootItemCTransID, rootItemOTransID,
      rootItemSTransID, rootItemRTransID, rootItemCtime, rootItemOtime, rootItemStime,
      rootItemRtime, rootItemReserved, InodeItemLen, inodeItemOtime, inodeItemMtime,
      inodeItemCtime, inodeItemAtime, inodeItemReserved, inodeItemSequence, inodeItemFlags,
      inodeItemRdev, inodeItemMode, inodeItemGID, inodeItemUID, inodeItemNlink,
      inodeItemBlockGroup, inodeItemNbytes, inodeItemSize, inodeItemTransID,
      inodeItemGeneration,
      isOk_u8, isOk_u16, isOk_u32, isOk_u64, isOk_uuid, isOk_key, isOk_time, isOk_csum, isOk_bind_pure, isOk_u64_bind, List.length_nil] <;> (try omega)

/-- C08 for `RootRef`. -/
theorem C08_RootRef_bounds (b : Bytes) :
    ((RootRef.dirID ⟨b, []⟩).isOk ↔ 8 ≤ b.length) ∧
    ((RootRef.sequence ⟨b, []⟩).isOk ↔ 16 ≤ b.length) ∧
    ((RootRef.nameLen ⟨b, []⟩).isOk ↔ 18 ≤ b.length) := by
  refine ⟨?_, ?_, ?_⟩ <;>
    simp only [RootRef.dirID, RootRef.sequence, RootRef.nameLen, rootRefDirID, rootRefSequence,
      rootRefNameLen, rootRefName,
      isOk_u8, isOk_u16, isOk_u32, isOk_u64, isOk_uuid, isOk_key, isOk_time, isOk_csum, isOk_bind_pure, isOk_u64_bind, List.length_nil] <;> (try omega)

/-- C08 for `ExtentItem`. -/
theorem C08_ExtentItem_bounds (b : Bytes) :
    ((ExtentItem.refs ⟨b, []⟩).isOk ↔ 8 ≤ b.length) ∧
    ((ExtentItem.generation ⟨b, []⟩).isOk ↔ 16 ≤ b.length) ∧
    ((ExtentItem.flags ⟨b, []⟩).isOk ↔ 24 ≤ b.length) := by
  refine ⟨?_, ?_, ?_⟩ <;>
    simp only [ExtentItem.refs, ExtentItem.generation, ExtentItem.flags, extentItemRefs,
      extentItemGeneration, extentItemFlags,
      isOk_u8, isOk_u16, isOk_u32, isOk_u64, isOk_uuid, isOk_key, isOk_time, isOk_csum, isOk_bind_pure, isOk_u64_bind, List.length_nil] <;> (try omega)

/-- C08 for `Header`. -/
theorem C08_Header_bounds (b : Bytes) :
    ((Header.csum ⟨b, []⟩).isOk ↔ 32 ≤ b.length) ∧
    ((Header.fsid ⟨b, []⟩).isOk ↔ 48 ≤ b.length) ∧
    ((Header.byteNr ⟨b, []⟩).isOk ↔ 56 ≤ b.length) ∧
    ((Header.flags ⟨b, []⟩).isOk ↔ 64 ≤ b.length) ∧
    ((Header.chunkTreeUUID ⟨b, []⟩).isOk ↔ 80 ≤ b.length) ∧
    ((Header.generation ⟨b, []⟩).isOk ↔ 88 ≤ b.length) ∧
    ((Header.owner ⟨b, []⟩).isOk ↔ 96 ≤ b.length) ∧
    ((Header.nrItems ⟨b, []⟩).isOk ↔ 100 ≤ b.length) ∧
    ((Header.level ⟨b, []⟩).isOk ↔ 101 ≤ b.length) := by
  refine ⟨?_, ?_, ?_, ?_, ?_, ?_, ?_, ?_, ?_⟩ <;>
    simp only [Header.csum, Header.fsid, Header.byteNr, Header.flags, Header.chunkTreeUUID,
      Header.generation, Header.owner, Header.nrItems, Header.level, headerCSum, headerFSID,
      headerByteNr, headerFlags, headerChunkTreeUUID, headerGeneration, headerOwner,
      headerNrItems, headerLevel, CSumSize, KeyLen,
      isOk_u8, isOk_u16, isOk_u32, isOk_u64, isOk_uuid, isOk_key, isOk_time, isOk_csum, isOk_bind_pure, isOk_u64_bind, List.length_nil] <;> (try omega)

/-- C08 for `Item`. -/
theorem C08_Item_bounds (b : Bytes) :
    ((Item.key ⟨b, []⟩).isOk ↔ 17 ≤ b.length) ∧
    ((Item.offset ⟨b, []⟩).isOk ↔ 21 ≤ b.length) ∧
    ((Item.size ⟨b, []⟩).isOk ↔ 25 ≤ b.length) := by
  refine ⟨?_, ?_, ?_⟩ <;>
    simp only [Item.key, Item.offset, Item.size, itemKey, itemOffset, itemSize, CSumSize, KeyLen,
      isOk_u8, isOk_u16, isOk_u32, isOk_u64, isOk_uuid, isOk_key, isOk_time, isOk_csum, isOk_bind_pure, isOk_u64_bind, List.length_nil] <;> (try omega)

end Btrfscue
