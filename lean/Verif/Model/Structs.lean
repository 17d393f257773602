import Verif.Model.Base
/-!
# pkg/btrfs/btrfs.go: on-disk structures and their accessors

Every Go accessor `func (e T) F() X { return SliceX(e[off:]) }` becomes
`T.f : Slice → Go X`; the offset constants are built up exactly as in the Go
`const` blocks. Transcribed line by line; each definition cites its line.
-/

namespace Btrfscue

/-- pkg/btrfs/btrfs.go:309 `type DevExtent []byte`. -/
abbrev DevExtent := Slice

/-- pkg/btrfs/btrfs.go:313 -/ abbrev devExtentChunkTree : Nat := 0
/-- pkg/btrfs/btrfs.go:314 -/ abbrev devExtentChunkObjectID : Nat := devExtentChunkTree + 8
/-- pkg/btrfs/btrfs.go:315 -/ abbrev devExtentChunkOffset : Nat := devExtentChunkObjectID + 8
/-- pkg/btrfs/btrfs.go:316 -/ abbrev devExtentLength : Nat := devExtentChunkOffset + 8
/-- pkg/btrfs/btrfs.go:317 -/ abbrev devExtentChunkTreeUUID : Nat := devExtentLength + 8
/-- pkg/btrfs/btrfs.go:318 -/ abbrev DevExtentLen : Nat := devExtentChunkTreeUUID + 16
/-- pkg/btrfs/btrfs.go:321 -/ def DevExtent.chunkTree (e : DevExtent) : Go UInt64 := u64at e devExtentChunkTree
/-- pkg/btrfs/btrfs.go:322 -/ def DevExtent.chunkObjectID (e : DevExtent) : Go UInt64 := u64at e devExtentChunkObjectID
/-- pkg/btrfs/btrfs.go:323 -/ def DevExtent.chunkOffset (e : DevExtent) : Go UInt64 := u64at e devExtentChunkOffset
/-- pkg/btrfs/btrfs.go:324 -/ def DevExtent.length (e : DevExtent) : Go UInt64 := u64at e devExtentLength
/-- pkg/btrfs/btrfs.go:325 -/ def DevExtent.chunkTreeUUID (e : DevExtent) : Go UUID := uuidAt e devExtentChunkTreeUUID
/-- pkg/btrfs/btrfs.go:327 `type DevItem []byte`. -/
abbrev DevItem := Slice

/-- pkg/btrfs/btrfs.go:330 -/ abbrev devItemDevID : Nat := 0
/-- pkg/btrfs/btrfs.go:331 -/ abbrev devItemTotalBytes : Nat := devItemDevID + 8
/-- pkg/btrfs/btrfs.go:332 -/ abbrev devItemBytesUsed : Nat := devItemTotalBytes + 8
/-- pkg/btrfs/btrfs.go:333 -/ abbrev devItemIOAlign : Nat := devItemBytesUsed + 8
/-- pkg/btrfs/btrfs.go:334 -/ abbrev devItemIOWidth : Nat := devItemIOAlign + 4
/-- pkg/btrfs/btrfs.go:335 -/ abbrev devItemSectorSize : Nat := devItemIOWidth + 4
/-- pkg/btrfs/btrfs.go:336 -/ abbrev devItemType : Nat := devItemSectorSize + 4
/-- pkg/btrfs/btrfs.go:337 -/ abbrev devItemGeneration : Nat := devItemType + 8
/-- pkg/btrfs/btrfs.go:338 -/ abbrev devItemStartOffset : Nat := devItemGeneration + 8
/-- pkg/btrfs/btrfs.go:339 -/ abbrev devItemDevGroup : Nat := devItemStartOffset + 8
/-- pkg/btrfs/btrfs.go:340 -/ abbrev devItemSeekSpeed : Nat := devItemDevGroup + 4
/-- pkg/btrfs/btrfs.go:341 -/ abbrev devItemBandwidth : Nat := devItemSeekSpeed + 1
/-- pkg/btrfs/btrfs.go:342 -/ abbrev devItemUUID : Nat := devItemBandwidth + 1
/-- pkg/btrfs/btrfs.go:343 -/ abbrev devItemFSID : Nat := devItemUUID + 16
/-- pkg/btrfs/btrfs.go:344 -/ abbrev DevItemLen : Nat := devItemFSID + 16
/-- pkg/btrfs/btrfs.go:348 -/ def DevItem.devID (i : DevItem) : Go UInt64 := u64at i devItemDevID
/-- pkg/btrfs/btrfs.go:351 -/ def DevItem.totalBytes (i : DevItem) : Go UInt64 := u64at i devItemTotalBytes
/-- pkg/btrfs/btrfs.go:354 -/ def DevItem.bytesUsed (i : DevItem) : Go UInt64 := u64at i devItemBytesUsed
/-- pkg/btrfs/btrfs.go:357 -/ def DevItem.ioAlign (i : DevItem) : Go UInt32 := u32at i devItemIOAlign
/-- pkg/btrfs/btrfs.go:360 -/ def DevItem.ioWidth (i : DevItem) : Go UInt32 := u32at i devItemIOWidth
/-- pkg/btrfs/btrfs.go:363 -/ def DevItem.sectorSize (i : DevItem) : Go UInt32 := u32at i devItemSectorSize
/-- pkg/btrfs/btrfs.go:366 -/ def DevItem.typ (i : DevItem) : Go UInt64 := u64at i devItemType
/-- pkg/btrfs/btrfs.go:369 -/ def DevItem.generation (i : DevItem) : Go UInt64 := u64at i devItemGeneration
/-- pkg/btrfs/btrfs.go:373 -/ def DevItem.startOffset (i : DevItem) : Go UInt64 := u64at i devItemStartOffset
/-- pkg/btrfs/btrfs.go:376 -/ def DevItem.devGroup (i : DevItem) : Go UInt32 := u32at i devItemDevGroup
/-- pkg/btrfs/btrfs.go:379 -/ def DevItem.seekSpeed (i : DevItem) : Go UInt8 := i.get devItemSeekSpeed
/-- pkg/btrfs/btrfs.go:382 -/ def DevItem.bandwidth (i : DevItem) : Go UInt8 := i.get devItemBandwidth
/-- pkg/btrfs/btrfs.go:385 -/ def DevItem.uuid (i : DevItem) : Go UUID := uuidAt i devItemUUID
/-- pkg/btrfs/btrfs.go:388 -/ def DevItem.fsid (i : DevItem) : Go UUID := uuidAt i devItemFSID
/-- pkg/btrfs/btrfs.go:390 `type Stripe []byte`. -/
abbrev Stripe := Slice

/-- pkg/btrfs/btrfs.go:394 -/ abbrev stripeDevID : Nat := 0
/-- pkg/btrfs/btrfs.go:395 -/ abbrev stripeOffset : Nat := stripeDevID + 8
/-- pkg/btrfs/btrfs.go:396 -/ abbrev stripeDevUUID : Nat := stripeOffset + 8
/-- pkg/btrfs/btrfs.go:397 -/ abbrev stripeEnd : Nat := stripeDevUUID + 16
/-- pkg/btrfs/btrfs.go:400 -/ def Stripe.devID (s : Stripe) : Go UInt64 := u64at s stripeDevID
/-- pkg/btrfs/btrfs.go:401 -/ def Stripe.offset (s : Stripe) : Go UInt64 := u64at s stripeOffset
/-- pkg/btrfs/btrfs.go:402 -/ def Stripe.devUUID (s : Stripe) : Go UUID := uuidAt s stripeDevUUID
/-- pkg/btrfs/btrfs.go:404 `type Chunk []byte`. -/
abbrev Chunk := Slice

/-- pkg/btrfs/btrfs.go:407 -/ abbrev chunkLength : Nat := 0
/-- pkg/btrfs/btrfs.go:408 -/ abbrev chunkOwner : Nat := chunkLength + 8
/-- pkg/btrfs/btrfs.go:409 -/ abbrev chunkStripeLen : Nat := chunkOwner + 8
/-- pkg/btrfs/btrfs.go:410 -/ abbrev chunkType : Nat := chunkStripeLen + 8
/-- pkg/btrfs/btrfs.go:411 -/ abbrev chunkIOAlign : Nat := chunkType + 8
/-- pkg/btrfs/btrfs.go:412 -/ abbrev chunkIOWidth : Nat := chunkIOAlign + 4
/-- pkg/btrfs/btrfs.go:413 -/ abbrev chunkSectorSize : Nat := chunkIOWidth + 4
/-- pkg/btrfs/btrfs.go:414 -/ abbrev chunkNumStripes : Nat := chunkSectorSize + 4
/-- pkg/btrfs/btrfs.go:415 -/ abbrev chunkSubStripes : Nat := chunkNumStripes + 2
/-- pkg/btrfs/btrfs.go:416 -/ abbrev chunkStripes : Nat := chunkSubStripes + 2
/-- pkg/btrfs/btrfs.go:420 -/ def Chunk.length (c : Chunk) : Go UInt64 := u64at c chunkLength
/-- pkg/btrfs/btrfs.go:423 -/ def Chunk.owner (c : Chunk) : Go UInt64 := u64at c chunkOwner
/-- pkg/btrfs/btrfs.go:425 -/ def Chunk.stripeLen (c : Chunk) : Go UInt64 := u64at c chunkStripeLen
/-- pkg/btrfs/btrfs.go:428 -/ def Chunk.typ (c : Chunk) : Go UInt64 := u64at c chunkType
/-- pkg/btrfs/btrfs.go:431 -/ def Chunk.ioAlign (c : Chunk) : Go UInt32 := u32at c chunkIOAlign
/-- pkg/btrfs/btrfs.go:434 -/ def Chunk.ioWidth (c : Chunk) : Go UInt32 := u32at c chunkIOWidth
/-- pkg/btrfs/btrfs.go:437 -/ def Chunk.sectorSize (c : Chunk) : Go UInt32 := u32at c chunkSectorSize
/-- pkg/btrfs/btrfs.go:442 -/ def Chunk.numStripes (c : Chunk) : Go UInt16 := u16at c chunkNumStripes
/-- pkg/btrfs/btrfs.go:445 -/ def Chunk.subStripes (c : Chunk) : Go UInt16 := u16at c chunkSubStripes
/-- pkg/btrfs/btrfs.go:448-450. The index `chunkStripes+i*stripeEnd` is computed in
`uint16` arithmetic (the untyped constants take the type of `i`). -/
def Chunk.stripe (c : Chunk) (i : UInt16) : Go Stripe :=
  c.from (UInt16.ofNat chunkStripes + i * UInt16.ofNat stripeEnd).toNat

/-- pkg/btrfs/btrfs.go:452 `type InodeItem []byte`. -/
abbrev InodeItem := Slice

/-- pkg/btrfs/btrfs.go:457 -/ abbrev inodeItemGeneration : Nat := 0
/-- pkg/btrfs/btrfs.go:459 -/ abbrev inodeItemTransID : Nat := inodeItemGeneration + 8
/-- pkg/btrfs/btrfs.go:460 -/ abbrev inodeItemSize : Nat := inodeItemTransID + 8
/-- pkg/btrfs/btrfs.go:461 -/ abbrev inodeItemNbytes : Nat := inodeItemSize + 8
/-- pkg/btrfs/btrfs.go:462 -/ abbrev inodeItemBlockGroup : Nat := inodeItemNbytes + 8
/-- pkg/btrfs/btrfs.go:463 -/ abbrev inodeItemNlink : Nat := inodeItemBlockGroup + 8
/-- pkg/btrfs/btrfs.go:464 -/ abbrev inodeItemUID : Nat := inodeItemNlink + 4
/-- pkg/btrfs/btrfs.go:465 -/ abbrev inodeItemGID : Nat := inodeItemUID + 4
/-- pkg/btrfs/btrfs.go:466 -/ abbrev inodeItemMode : Nat := inodeItemGID + 4
/-- pkg/btrfs/btrfs.go:467 -/ abbrev inodeItemRdev : Nat := inodeItemMode + 4
/-- pkg/btrfs/btrfs.go:468 -/ abbrev inodeItemFlags : Nat := inodeItemRdev + 8
/-- pkg/btrfs/btrfs.go:470 -/ abbrev inodeItemSequence : Nat := inodeItemFlags + 8
/-- pkg/btrfs/btrfs.go:473 -/ abbrev inodeItemReserved : Nat := inodeItemSequence + 8
/-- pkg/btrfs/btrfs.go:474 -/ abbrev inodeItemAtime : Nat := inodeItemReserved + 32
/-- pkg/btrfs/btrfs.go:475 -/ abbrev inodeItemCtime : Nat := inodeItemAtime + 12
/-- pkg/btrfs/btrfs.go:476 -/ abbrev inodeItemMtime : Nat := inodeItemCtime + 12
/-- pkg/btrfs/btrfs.go:477 -/ abbrev inodeItemOtime : Nat := inodeItemMtime + 12
/-- pkg/btrfs/btrfs.go:478 -/ abbrev InodeItemLen : Nat := inodeItemOtime + 12
/-- pkg/btrfs/btrfs.go:481 -/ def InodeItem.generation (i : InodeItem) : Go UInt64 := u64at i inodeItemGeneration
/-- pkg/btrfs/btrfs.go:482 -/ def InodeItem.transID (i : InodeItem) : Go UInt64 := u64at i inodeItemTransID
/-- pkg/btrfs/btrfs.go:483 -/ def InodeItem.size (i : InodeItem) : Go UInt64 := u64at i inodeItemSize
/-- pkg/btrfs/btrfs.go:484 -/ def InodeItem.blockGroup (i : InodeItem) : Go UInt64 := u64at i inodeItemBlockGroup
/-- pkg/btrfs/btrfs.go:485 -/ def InodeItem.nlink (i : InodeItem) : Go UInt32 := u32at i inodeItemNlink
/-- pkg/btrfs/btrfs.go:486 -/ def InodeItem.uid (i : InodeItem) : Go UInt32 := u32at i inodeItemUID
/-- pkg/btrfs/btrfs.go:487 -/ def InodeItem.gid (i : InodeItem) : Go UInt32 := u32at i inodeItemGID
/-- pkg/btrfs/btrfs.go:488 -/ def InodeItem.mode (i : InodeItem) : Go UInt32 := u32at i inodeItemMode
/-- pkg/btrfs/btrfs.go:489 -/ def InodeItem.rdev (i : InodeItem) : Go UInt64 := u64at i inodeItemRdev
/-- pkg/btrfs/btrfs.go:490 -/ def InodeItem.flags (i : InodeItem) : Go UInt64 := u64at i inodeItemFlags
/-- pkg/btrfs/btrfs.go:491 -/ def InodeItem.sequence (i : InodeItem) : Go UInt64 := u64at i inodeItemSequence
/-- pkg/btrfs/btrfs.go:492-498 (the array is a list of four elements). -/
def InodeItem.reserved (i : InodeItem) : Go (List UInt64) := do
  return [← u64at i inodeItemReserved, ← u64at i (inodeItemReserved + 8),
    ← u64at i (inodeItemReserved + 16), ← u64at i (inodeItemReserved + 24)]

/-- pkg/btrfs/btrfs.go:499 -/ def InodeItem.atime (i : InodeItem) : Go Time := timeAt i inodeItemAtime
/-- pkg/btrfs/btrfs.go:500 -/ def InodeItem.ctime (i : InodeItem) : Go Time := timeAt i inodeItemCtime
/-- pkg/btrfs/btrfs.go:501 -/ def InodeItem.mtime (i : InodeItem) : Go Time := timeAt i inodeItemMtime
/-- pkg/btrfs/btrfs.go:502 -/ def InodeItem.rtime (i : InodeItem) : Go Time := timeAt i inodeItemOtime
/-- pkg/btrfs/btrfs.go:504 `type InodeRefItem []byte`. -/
abbrev InodeRefItem := Slice

/-- pkg/btrfs/btrfs.go:508 -/ abbrev inodeRefItemIndex : Nat := 0
/-- pkg/btrfs/btrfs.go:509 -/ abbrev inodeRefItemNameLen : Nat := inodeRefItemIndex + 8
/-- pkg/btrfs/btrfs.go:510 -/ abbrev inodeRefItemName : Nat := inodeRefItemNameLen + 2
/-- pkg/btrfs/btrfs.go:513 -/ def InodeRefItem.index (i : InodeRefItem) : Go UInt64 := u64at i inodeRefItemIndex
/-- pkg/btrfs/btrfs.go:514 -/ def InodeRefItem.nameLen (i : InodeRefItem) : Go UInt16 := u16at i inodeRefItemNameLen
/-- pkg/btrfs/btrfs.go:515-521. -/
def InodeRefItem.name (i : InodeRefItem) : Go Bytes := do
  let n := (← InodeRefItem.nameLen i).toNat
  let l := if n > 255 then 255 else n
  return (← i.sub inodeRefItemName (inodeRefItemName + l)).data

/-- pkg/btrfs/btrfs.go:525 -/ abbrev FtUnknown : UInt8 := 0
/-- pkg/btrfs/btrfs.go:526 -/ abbrev FtRegFile : UInt8 := 1
/-- pkg/btrfs/btrfs.go:527 -/ abbrev FtDir : UInt8 := 2
/-- pkg/btrfs/btrfs.go:528 -/ abbrev FtChrdev : UInt8 := 3
/-- pkg/btrfs/btrfs.go:529 -/ abbrev FtBlkdev : UInt8 := 4
/-- pkg/btrfs/btrfs.go:530 -/ abbrev FtFifo : UInt8 := 5
/-- pkg/btrfs/btrfs.go:531 -/ abbrev FtSock : UInt8 := 6
/-- pkg/btrfs/btrfs.go:532 -/ abbrev FtSymlink : UInt8 := 7
/-- pkg/btrfs/btrfs.go:533 -/ abbrev FtXattr : UInt8 := 8

/-- pkg/btrfs/btrfs.go:537 `type DirItem []byte`. -/
abbrev DirItem := Slice

/-- pkg/btrfs/btrfs.go:541 -/ abbrev dirItemLocation : Nat := 0
/-- pkg/btrfs/btrfs.go:542 -/ abbrev dirItemTransID : Nat := dirItemLocation + 8 + 1 + 8
/-- pkg/btrfs/btrfs.go:543 -/ abbrev dirItemDataLen : Nat := dirItemTransID + 8
/-- pkg/btrfs/btrfs.go:544 -/ abbrev dirItemNameLen : Nat := dirItemDataLen + 2
/-- pkg/btrfs/btrfs.go:545 -/ abbrev dirItemType : Nat := dirItemNameLen + 2
/-- pkg/btrfs/btrfs.go:546 -/ abbrev dirItemName : Nat := dirItemType + 1
/-- pkg/btrfs/btrfs.go:549 -/ def DirItem.location (d : DirItem) : Go Key := keyAt d dirItemLocation
/-- pkg/btrfs/btrfs.go:550 -/ def DirItem.transID (d : DirItem) : Go UInt64 := u64at d dirItemTransID
/-- pkg/btrfs/btrfs.go:551 -/ def DirItem.dataLen (d : DirItem) : Go UInt16 := u16at d dirItemDataLen
/-- pkg/btrfs/btrfs.go:552 -/ def DirItem.nameLen (d : DirItem) : Go UInt16 := u16at d dirItemNameLen
/-- pkg/btrfs/btrfs.go:553 -/ def DirItem.typ (d : DirItem) : Go UInt8 := d.get dirItemType
/-- pkg/btrfs/btrfs.go:555-561. -/
def DirItem.name (d : DirItem) : Go Bytes := do
  let n := (← DirItem.nameLen d).toNat
  let l := if n > 255 then 255 else n
  return (← d.sub dirItemName (dirItemName + l)).data

/-- pkg/btrfs/btrfs.go:563-566. Both bounds are computed in `uint16` arithmetic. -/
def DirItem.data (d : DirItem) : Go Bytes := do
  let o := UInt16.ofNat dirItemName + (← DirItem.nameLen d)
  let e := o + (← DirItem.dataLen d)
  return (← d.sub o.toNat e.toNat).data

/-- pkg/btrfs/btrfs.go:568. -/
def DirItem.isDir (d : DirItem) : Go Bool := do return (← DirItem.typ d) == FtDir

/-- pkg/btrfs/btrfs.go:569. -/
def DirItem.isSubvolume (d : DirItem) : Go Bool := do
  return (← DirItem.location d).typ == RootItemKey

/-- pkg/btrfs/btrfs.go:585 `type BlockGroupItem []byte`. -/
abbrev BlockGroupItem := Slice

/-- pkg/btrfs/btrfs.go:589 -/ abbrev blockGroupItemUsed : Nat := 0
/-- pkg/btrfs/btrfs.go:590 -/ abbrev blockGroupItemChunkObjectID : Nat := blockGroupItemUsed + 8
/-- pkg/btrfs/btrfs.go:591 -/ abbrev blockGroupItemFlags : Nat := blockGroupItemChunkObjectID + 8
/-- pkg/btrfs/btrfs.go:592 -/ abbrev blockGroupItemEnd : Nat := blockGroupItemFlags + 8
/-- pkg/btrfs/btrfs.go:595 -/ def BlockGroupItem.used (i : BlockGroupItem) : Go UInt64 := u64at i blockGroupItemUsed
/-- pkg/btrfs/btrfs.go:596 -/ def BlockGroupItem.chunkObjectID (i : BlockGroupItem) : Go UInt64 := u64at i blockGroupItemChunkObjectID
/-- pkg/btrfs/btrfs.go:597 -/ def BlockGroupItem.flags (i : BlockGroupItem) : Go UInt64 := u64at i blockGroupItemFlags
/-- pkg/btrfs/btrfs.go:606 `type FileExtentItem []byte`. -/
abbrev FileExtentItem := Slice

/-- pkg/btrfs/btrfs.go:610 -/ abbrev fileExtentItemGeneration : Nat := 0
/-- pkg/btrfs/btrfs.go:611 -/ abbrev fileExtentItemRAMBytes : Nat := fileExtentItemGeneration + 8
/-- pkg/btrfs/btrfs.go:612 -/ abbrev fileExtentItemCompression : Nat := fileExtentItemRAMBytes + 8
/-- pkg/btrfs/btrfs.go:613 -/ abbrev fileExtentItemEncryption : Nat := fileExtentItemCompression + 1
/-- pkg/btrfs/btrfs.go:614 -/ abbrev fileExtentItemOtherEncoding : Nat := fileExtentItemEncryption + 1
/-- pkg/btrfs/btrfs.go:615 -/ abbrev fileExtentItemType : Nat := fileExtentItemOtherEncoding + 2
/-- pkg/btrfs/btrfs.go:618 -/ abbrev fileExtentItemDiskByteNr : Nat := fileExtentItemType + 1
/-- pkg/btrfs/btrfs.go:619 -/ abbrev fileExtentItemDiskNumBytes : Nat := fileExtentItemDiskByteNr + 8
/-- pkg/btrfs/btrfs.go:620 -/ abbrev fileExtentItemOffset : Nat := fileExtentItemDiskNumBytes + 8
/-- pkg/btrfs/btrfs.go:621 -/ abbrev fileExtentItemNumBytes : Nat := fileExtentItemOffset + 8
/-- pkg/btrfs/btrfs.go:622 -/ abbrev FileExtentItemEnd : Nat := fileExtentItemNumBytes + 8
/-- pkg/btrfs/btrfs.go:626 -/ def FileExtentItem.generation (i : FileExtentItem) : Go UInt64 := u64at i fileExtentItemGeneration
/-- pkg/btrfs/btrfs.go:632 -/ def FileExtentItem.ramBytes (i : FileExtentItem) : Go UInt64 := u64at i fileExtentItemRAMBytes
/-- pkg/btrfs/btrfs.go:638 -/ def FileExtentItem.compression (i : FileExtentItem) : Go UInt8 := i.get fileExtentItemCompression
/-- pkg/btrfs/btrfs.go:639 -/ def FileExtentItem.encryption (i : FileExtentItem) : Go UInt8 := i.get fileExtentItemEncryption
/-- pkg/btrfs/btrfs.go:642 -/ def FileExtentItem.otherEncoding (i : FileExtentItem) : Go UInt16 := u16at i fileExtentItemOtherEncoding
/-- pkg/btrfs/btrfs.go:645 -/ def FileExtentItem.typ (i : FileExtentItem) : Go UInt8 := i.get fileExtentItemType
/-- pkg/btrfs/btrfs.go:650 -/ def FileExtentItem.diskByteNr (i : FileExtentItem) : Go UInt64 := u64at i fileExtentItemDiskByteNr
/-- pkg/btrfs/btrfs.go:651 -/ def FileExtentItem.diskNumBytes (i : FileExtentItem) : Go UInt64 := u64at i fileExtentItemDiskNumBytes
/-- pkg/btrfs/btrfs.go:657 -/ def FileExtentItem.offset (i : FileExtentItem) : Go UInt64 := u64at i fileExtentItemOffset
/-- pkg/btrfs/btrfs.go:661 -/ def FileExtentItem.numBytes (i : FileExtentItem) : Go UInt64 := u64at i fileExtentItemNumBytes
/-- pkg/btrfs/btrfs.go:601 -/ abbrev FileExtentInline : UInt8 := 0
/-- pkg/btrfs/btrfs.go:602 -/ abbrev FileExtentReg : UInt8 := 1
/-- pkg/btrfs/btrfs.go:603 -/ abbrev FileExtentPreAlloc : UInt8 := 2

/-- pkg/btrfs/btrfs.go:663. -/
def FileExtentItem.isInline (i : FileExtentItem) : Go Bool := do
  return (← FileExtentItem.typ i) == FileExtentInline

/-- pkg/btrfs/btrfs.go:666-672. `int(RAMBytes())` is signed; a negative length makes the
slice expression panic. -/
def FileExtentItem.data (i : FileExtentItem) : Go Bytes := do
  let l0 := int64OfU64 (← FileExtentItem.ramBytes i)
  let l : Int := if l0 > (DefaultBlockSize : Int) then (DefaultBlockSize : Int) else l0
  if l < 0 then .panic
  else return (← i.sub fileExtentItemDiskByteNr (fileExtentItemDiskByteNr + l.toNat)).data

/-- pkg/btrfs/btrfs.go:674 `type CSumItem []byte`. -/
abbrev CSumItem := Slice

/-- pkg/btrfs/btrfs.go:678 -/ abbrev cSumItemCSum : Nat := 0
/-- pkg/btrfs/btrfs.go:681-688: the 32 byte checksum array, zero padded. -/
def CSumItem.csum (i : CSumItem) : Go Bytes := do
  return goCopy (List.replicate CSumSize 0) (← i.from cSumItemCSum).data

/-- pkg/btrfs/btrfs.go:690 `type RootItem []byte`. -/
abbrev RootItem := Slice

/-- pkg/btrfs/btrfs.go:694 -/ abbrev rootItemInode : Nat := 0
/-- pkg/btrfs/btrfs.go:695 -/ abbrev rootItemGeneration : Nat := rootItemInode + InodeItemLen
/-- pkg/btrfs/btrfs.go:696 -/ abbrev rootItemRootDirID : Nat := rootItemGeneration + 8
/-- pkg/btrfs/btrfs.go:697 -/ abbrev rootItemByteNr : Nat := rootItemRootDirID + 8
/-- pkg/btrfs/btrfs.go:698 -/ abbrev rootItemByteLimit : Nat := rootItemByteNr + 8
/-- pkg/btrfs/btrfs.go:699 -/ abbrev rootItemBytesUsed : Nat := rootItemByteLimit + 8
/-- pkg/btrfs/btrfs.go:700 -/ abbrev rootItemLastSnapshot : Nat := rootItemBytesUsed + 8
/-- pkg/btrfs/btrfs.go:701 -/ abbrev rootItemFlags : Nat := rootItemLastSnapshot + 8
/-- pkg/btrfs/btrfs.go:702 -/ abbrev rootItemRefs : Nat := rootItemFlags + 8
/-- pkg/btrfs/btrfs.go:703 -/ abbrev rootItemDropProgress : Nat := rootItemRefs + 4
/-- pkg/btrfs/btrfs.go:704 -/ abbrev rootItemDropLevel : Nat := rootItemDropProgress + 17
/-- pkg/btrfs/btrfs.go:705 -/ abbrev rootItemLevel : Nat := rootItemDropLevel + 1
/-- pkg/btrfs/btrfs.go:708 -/ abbrev rootItemGenerationV2 : Nat := rootItemLevel + 1
/-- pkg/btrfs/btrfs.go:709 -/ abbrev rootItemUUID : Nat := rootItemGenerationV2 + 8
/-- pkg/btrfs/btrfs.go:710 -/ abbrev rootItemParentUUID : Nat := rootItemUUID + 16
/-- pkg/btrfs/btrfs.go:711 -/ abbrev rootItemReceivedUUID : Nat := rootItemParentUUID + 16
/-- pkg/btrfs/btrfs.go:712 -/ abbrev rootItemCTransID : Nat := rootItemReceivedUUID + 16
/-- pkg/btrfs/btrfs.go:713 -/ abbrev rootItemOTransID : Nat := rootItemCTransID + 8
/-- pkg/btrfs/btrfs.go:714 -/ abbrev rootItemSTransID : Nat := rootItemOTransID + 8
/-- pkg/btrfs/btrfs.go:715 -/ abbrev rootItemRTransID : Nat := rootItemSTransID + 8
/-- pkg/btrfs/btrfs.go:716 -/ abbrev rootItemCtime : Nat := rootItemRTransID + 8
/-- pkg/btrfs/btrfs.go:717 -/ abbrev rootItemOtime : Nat := rootItemCtime + 12
/-- pkg/btrfs/btrfs.go:718 -/ abbrev rootItemStime : Nat := rootItemOtime + 12
/-- pkg/btrfs/btrfs.go:719 -/ abbrev rootItemRtime : Nat := rootItemStime + 12
/-- pkg/btrfs/btrfs.go:720 -/ abbrev rootItemReserved : Nat := rootItemRtime + 12
/-- pkg/btrfs/btrfs.go:721 -/ abbrev RootItemLen : Nat := rootItemReserved + 8*8
/-- pkg/btrfs/btrfs.go:724. -/
def RootItem.inode (i : RootItem) : Go InodeItem := i.from rootItemInode

/-- pkg/btrfs/btrfs.go:725 -/ def RootItem.generation (i : RootItem) : Go UInt64 := u64at i rootItemGeneration
/-- pkg/btrfs/btrfs.go:726 -/ def RootItem.rootDirID (i : RootItem) : Go UInt64 := u64at i rootItemRootDirID
/-- pkg/btrfs/btrfs.go:727 -/ def RootItem.byteNr (i : RootItem) : Go UInt64 := u64at i rootItemByteNr
/-- pkg/btrfs/btrfs.go:728 -/ def RootItem.byteLimit (i : RootItem) : Go UInt64 := u64at i rootItemByteLimit
/-- pkg/btrfs/btrfs.go:729 -/ def RootItem.bytesUsed (i : RootItem) : Go UInt64 := u64at i rootItemBytesUsed
/-- pkg/btrfs/btrfs.go:730 -/ def RootItem.lastSnapshot (i : RootItem) : Go UInt64 := u64at i rootItemLastSnapshot
/-- pkg/btrfs/btrfs.go:731 -/ def RootItem.flags (i : RootItem) : Go UInt64 := u64at i rootItemFlags
/-- pkg/btrfs/btrfs.go:732 -/ def RootItem.refs (i : RootItem) : Go UInt32 := u32at i rootItemRefs
/-- pkg/btrfs/btrfs.go:733 -/ def RootItem.dropProgress (i : RootItem) : Go Key := keyAt i rootItemDropProgress
/-- pkg/btrfs/btrfs.go:734 -/ def RootItem.dropLevel (i : RootItem) : Go UInt8 := i.get rootItemDropLevel
/-- pkg/btrfs/btrfs.go:735 -/ def RootItem.level (i : RootItem) : Go UInt8 := i.get rootItemLevel
/-- pkg/btrfs/btrfs.go:743 -/ def RootItem.generationV2 (i : RootItem) : Go UInt64 := u64at i rootItemGenerationV2
/-- pkg/btrfs/btrfs.go:744 -/ def RootItem.uuid (i : RootItem) : Go UUID := uuidAt i rootItemUUID
/-- pkg/btrfs/btrfs.go:745 -/ def RootItem.parentUUID (i : RootItem) : Go UUID := uuidAt i rootItemParentUUID
/-- pkg/btrfs/btrfs.go:746 -/ def RootItem.receivedUUID (i : RootItem) : Go UUID := uuidAt i rootItemReceivedUUID
/-- pkg/btrfs/btrfs.go:749 -/ def RootItem.cTransID (i : RootItem) : Go UInt64 := u64at i rootItemCTransID
/-- pkg/btrfs/btrfs.go:752 -/ def RootItem.oTransID (i : RootItem) : Go UInt64 := u64at i rootItemOTransID
/-- pkg/btrfs/btrfs.go:755 -/ def RootItem.sTransID (i : RootItem) : Go UInt64 := u64at i rootItemSTransID
/-- pkg/btrfs/btrfs.go:758 -/ def RootItem.rTransID (i : RootItem) : Go UInt64 := u64at i rootItemRTransID
/-- pkg/btrfs/btrfs.go:759 -/ def RootItem.ctime (i : RootItem) : Go Time := timeAt i rootItemCtime
/-- pkg/btrfs/btrfs.go:760 -/ def RootItem.otime (i : RootItem) : Go Time := timeAt i rootItemOtime
/-- pkg/btrfs/btrfs.go:761 -/ def RootItem.stime (i : RootItem) : Go Time := timeAt i rootItemStime
/-- pkg/btrfs/btrfs.go:762 -/ def RootItem.rtime (i : RootItem) : Go Time := timeAt i rootItemRtime
/-- pkg/btrfs/btrfs.go:763-773 (the array is a list of eight elements). -/
def RootItem.reserved (i : RootItem) : Go (List UInt64) := do
  return [← u64at i rootItemReserved, ← u64at i (rootItemReserved + 8),
    ← u64at i (rootItemReserved + 16), ← u64at i (rootItemReserved + 24),
    ← u64at i (rootItemReserved + 32), ← u64at i (rootItemReserved + 40),
    ← u64at i (rootItemReserved + 48), ← u64at i (rootItemReserved + 56)]

/-- pkg/btrfs/btrfs.go:775. -/
def RootItem.isGenerationV2 (i : RootItem) : Go Bool := do
  return (← RootItem.generation i) == (← RootItem.generationV2 i)

/-- pkg/btrfs/btrfs.go:778 `type RootRef []byte`. -/
abbrev RootRef := Slice

/-- pkg/btrfs/btrfs.go:782 -/ abbrev rootRefDirID : Nat := 0
/-- pkg/btrfs/btrfs.go:783 -/ abbrev rootRefSequence : Nat := rootRefDirID + 8
/-- pkg/btrfs/btrfs.go:784 -/ abbrev rootRefNameLen : Nat := rootRefSequence + 8
/-- pkg/btrfs/btrfs.go:785 -/ abbrev rootRefName : Nat := rootRefNameLen + 2
/-- pkg/btrfs/btrfs.go:788 -/ def RootRef.dirID (r : RootRef) : Go UInt64 := u64at r rootRefDirID
/-- pkg/btrfs/btrfs.go:789 -/ def RootRef.sequence (r : RootRef) : Go UInt64 := u64at r rootRefSequence
/-- pkg/btrfs/btrfs.go:790 -/ def RootRef.nameLen (r : RootRef) : Go UInt16 := u16at r rootRefNameLen
/-- pkg/btrfs/btrfs.go:792-798. -/
def RootRef.name (r : RootRef) : Go Bytes := do
  let n := (← RootRef.nameLen r).toNat
  let l := if n > 255 then 255 else n
  return (← r.sub rootRefName (rootRefName + l)).data

/-- pkg/btrfs/btrfs.go:809 `type ExtentItem []byte`. -/
abbrev ExtentItem := Slice

/-- pkg/btrfs/btrfs.go:813 -/ abbrev extentItemRefs : Nat := 0
/-- pkg/btrfs/btrfs.go:814 -/ abbrev extentItemGeneration : Nat := extentItemRefs + 8
/-- pkg/btrfs/btrfs.go:815 -/ abbrev extentItemFlags : Nat := extentItemGeneration + 8
/-- pkg/btrfs/btrfs.go:816 -/ abbrev extentItemEnd : Nat := extentItemFlags + 8
/-- pkg/btrfs/btrfs.go:819 -/ def ExtentItem.refs (i : ExtentItem) : Go UInt64 := u64at i extentItemRefs
/-- pkg/btrfs/btrfs.go:820 -/ def ExtentItem.generation (i : ExtentItem) : Go UInt64 := u64at i extentItemGeneration
/-- pkg/btrfs/btrfs.go:821 -/ def ExtentItem.flags (i : ExtentItem) : Go UInt64 := u64at i extentItemFlags
/-- pkg/btrfs/btrfs.go:825. -/
def ExtentItem.isCompatV0 (i : ExtentItem) : Bool := i.len < 8 + 8 + 8


end Btrfscue
