{"id": "C01", "title": "Index keys round-trip", "statement": "Encoding an (owner, BTRFS key, generation) triple as an index key and reading Owner/Key/Generation back gives the same triple; hence two different triples never share an index key.", "quantifier": "every 64-bit owner, object id, offset, generation and every 8-bit type", "why_tests_cant": "2^264 triples; a test samples a handful", "anchors": ["pkg/btrfs/index/key_format.go:newIndexKey", "pkg/btrfs/index/key_format.go:keyV2.Owner/Type/ObjectID/Offset/Generation/Key"]}
{"id": "C02", "title": "Byte order of index keys is the logical order", "statement": "Comparing two encoded index keys bytewise (what the key-value store does) gives the lexicographic order on (owner, type, object id, offset, generation), and comparing an encoded key with the (owner,type,objectid) prefix of another is the comparison of those three fields.", "quantifier": "every pair of index keys", "why_tests_cant": "all 2^528 pairs, including carries between bytes", "anchors": ["pkg/btrfs/index/key_format.go:newIndexKey", "pkg/btrfs/index/index_store.go:lowerBound", "pkg/btrfs/index/index_store.go:find"]}
{"id": "C03", "title": "KeyCompare is a total order that agrees with the index", "statement": "KeyCompare(a,b) is negative / zero / positive exactly when a is before / equal to / after b in (type, object id, offset) order; it is antisymmetric, transitive and total, and agrees with the byte order of the index keys of a and b under a common owner and generation. Its doc comment says the result is -1/0/+1.", "quantifier": "every pair / triple of keys", "why_tests_cant": "order laws range over all triples; the -1/+1 claim fails only when types differ by more than one", "anchors": ["pkg/btrfs/btrfs.go:KeyCompare", "pkg/btrfs/index/key_format.go:newIndexKey"]}
{"id": "C04", "title": "Upgrading a V1 key keeps its content", "statement": "NewIndexKeyFromV1 produces a V2 key with the same owner, BTRFS key and generation, and is order preserving.", "quantifier": "every 33-byte V1 key", "why_tests_cant": "all 2^264 keys", "anchors": ["pkg/btrfs/index/key_format.go:NewIndexKeyFromV1", "pkg/btrfs/index/key_format.go:keyV1"]}
{"id": "C05", "title": "UUID text form round-trips", "statement": "Formatting a UUID always gives the canonical 8-4-4-4-12 lower-case form and parsing that text gives the same UUID back; distinct UUIDs have distinct text.", "quantifier": "every 16-byte UUID", "why_tests_cant": "2^128 values", "anchors": ["pkg/uuid/uuid.go:UUID.String", "pkg/uuid/uuid.go:New"]}
{"id": "C06", "title": "UUID parsing accepts exactly 32 hex digits plus dashes", "statement": "New/Set succeed exactly when the text with all '-' removed is 32 hexadecimal digits (either case), the value is those digits, and a failed Set leaves the receiver unchanged.", "quantifier": "every byte string", "why_tests_cant": "infinitely many malformed strings, dash placements and lengths", "anchors": ["pkg/uuid/uuid.go:UUID.Set", "pkg/uuid/uuid.go:New"]}
{"id": "C07", "title": "Structure accessors decode the on-disk layout", "statement": "For every BTRFS structure (device extent, device item, stripe, chunk, inode item, inode ref, dir item, block group, file extent, root item, root ref, extent item, block header, item), laying out a record as the packed little-endian on-disk structure and calling each accessor returns the field's value, whatever bytes follow.", "quantifier": "every record value and every trailing byte string", "why_tests_cant": "every field value, every suffix", "anchors": ["pkg/btrfs/btrfs.go:accessors", "pkg/btrfs/leaf.go:Header", "pkg/btrfs/leaf.go:Item", "pkg/btrfs/slice.go"]}
{"id": "C08", "title": "Accessors never read outside their buffer", "statement": "A fixed-size accessor on a slice returns a value determined by bytes inside the slice's capacity or panics; it panics exactly when the field does not fit. For a slice with cap == len (an index value) no accessor returns data from beyond the item.", "quantifier": "every slice (any length, any capacity), every accessor offset", "why_tests_cant": "all truncations of all items", "anchors": ["pkg/btrfs/slice.go", "pkg/btrfs/btrfs.go"]}
{"id": "C09", "title": "Names are bounded and exact", "statement": "Name() of a dir item, inode ref or root ref returns exactly the stored name when the recorded length is at most 255, never more than 255 bytes, and crashes only when the item is shorter than the recorded name; a crash on a truncated item is possible.", "quantifier": "every item byte string", "why_tests_cant": "every name length and truncation", "anchors": ["pkg/btrfs/btrfs.go:DirItem.Name", "pkg/btrfs/btrfs.go:InodeRefItem.Name", "pkg/btrfs/btrfs.go:RootRef.Name"]}
{"id": "C10", "title": "Dir item payload (xattr value) is exact", "statement": "Data() of a dir item returns exactly the stored value, for every name and value that fit a 16-bit size.", "quantifier": "every dir item", "why_tests_cant": "every name/value length, 16-bit wrap-around", "anchors": ["pkg/btrfs/btrfs.go:DirItem.Data"]}
{"id": "C11", "title": "Chunk.Stripe selects the i-th stripe", "statement": "Stripe(i) of a chunk with more than i stripes returns the i-th stripe's device id, offset and UUID.", "quantifier": "every chunk, every 16-bit stripe number", "why_tests_cant": "65536 stripe numbers; wraps at 2047", "anchors": ["pkg/btrfs/btrfs.go:Chunk.Stripe"]}
{"id": "C12", "title": "Inline extent data is exact", "statement": "Data() of an inline file extent returns exactly the stored inline bytes when RAMBytes equals their number (at most one block), and never more than DefaultBlockSize bytes.", "quantifier": "every inline extent item", "why_tests_cant": "all sizes and corrupted sizes, sign wrap of int(uint64)", "anchors": ["pkg/btrfs/btrfs.go:FileExtentItem.Data"]}
{"id": "C13", "title": "Leaf items decode", "statement": "For a leaf block that stores n items (headers growing up, data growing down), Len, Key(i), Item(i) and Data(i) return exactly the stored item headers and item payloads.", "quantifier": "every leaf content that fits the block, every item index", "why_tests_cant": "every packing of items in a block", "anchors": ["pkg/btrfs/leaf.go:Leaf"]}
{"id": "C14", "title": "Scanning a leaf never crashes", "statement": "For every block contents (all bytes arbitrary) reading all keys, items and data of the block does not crash.", "quantifier": "every block contents", "why_tests_cant": "2^(8*16384) blocks; the failing ones need a corrupted count or offset", "anchors": ["pkg/btrfs/leaf.go:Leaf.Len", "pkg/btrfs/leaf.go:Leaf.Item", "pkg/btrfs/leaf.go:Leaf.Data"]}
{"id": "C15", "title": "Name hash is BTRFS CRC32C", "statement": "NameHash(name) equals the bitwise CRC-32C LFSR started at 0xFFFFFFFE without final inversion; hashing is incremental, and names that differ in exactly one byte (or only inside a 4-byte window) never collide.", "quantifier": "every byte string", "why_tests_cant": "infinitely many names", "anchors": ["pkg/btrfs/index/index_store.go:NameHash"]}
{"id": "C16", "title": "Timestamps are normalised", "statement": "Reading an on-disk timestamp gives Unix()/Nanosecond() with 0 <= nanoseconds < 10^9 and sec*10^9+nsec equal to the stored value modulo 2^64 seconds.", "quantifier": "every 12-byte timestamp", "why_tests_cant": "2^96 values", "anchors": ["pkg/btrfs/slice.go:SliceTimeLE", "pkg/btrfs/btrfs.go:InodeItem.Atime", "pkg/btrfs/parse_buffer.go:NextTime"]}
{"id": "C17", "title": "ParseBuffer reads sequentially and restartably", "statement": "Any sequence of Next* calls returns the consecutive little-endian fields of the buffer; Rewind/SetOffset restart it; Offset+Unread is always the length; the buffer itself is never changed. Next(n) with fewer than n unread bytes panics.", "quantifier": "every buffer and every sequence of operations", "why_tests_cant": "all call sequences; the panic claim fails when cap > len", "anchors": ["pkg/btrfs/parse_buffer.go"]}
{"id": "C18", "title": "Device size check", "statement": "CheckDeviceSize succeeds exactly for devices of at least 64 MiB plus 100 blocks and returns the size; in particular every block offset below 64 MiB + 100 blocks is then inside the device.", "quantifier": "every device size and block size", "why_tests_cant": "boundaries and 64-bit wrap-around of blockSize*100", "anchors": ["pkg/btrfs/util.go:CheckDeviceSize"]}
{"id": "C19", "title": "ReadBlockAt reads a full block or reports an error", "statement": "For every reader obeying the io.ReaderAt contract, a nil result means the whole block was filled; a full read never reports EOF.", "quantifier": "every reader behaviour allowed by io.ReaderAt, every offset", "why_tests_cant": "readers are arbitrary code; the contract allows n==len with EOF", "anchors": ["pkg/ioutil/ioutil.go:ReadBlockAt"]}
{"id": "C20", "title": "Lookup returns the newest stored version", "statement": "On an index opened for reading (generation = max), FindItem(owner,key) returns the data most recently inserted for the highest generation ever inserted for (owner,key), and nil if none was inserted.", "quantifier": "every history of InsertItem calls, every lookup key", "why_tests_cant": "unbounded histories, duplicates, overwrites, neighbouring keys", "anchors": ["pkg/btrfs/index/index_store.go:FindItem", "pkg/btrfs/index/index_store.go:InsertItem", "pkg/btrfs/index/index_store.go:find"]}
{"id": "C21", "title": "Lookup at a generation", "statement": "FindItem on an index with generation G returns the version with the largest generation <= G; if all versions are newer, the earliest one.", "quantifier": "every store contents, every G, every key", "why_tests_cant": "needs several versions around G; code returns the smallest generation >= G when one exists", "anchors": ["pkg/btrfs/index/index_store.go:FindItem", "pkg/btrfs/index/index_store.go:find"]}
{"id": "C22", "title": "Lookups never crash or leak another key", "statement": "FindItem on an opened index returns either nil or an item stored under exactly the requested owner and key; it never crashes (the metadata sentinel terminates every seek).", "quantifier": "every store contents reachable through the API, every key", "why_tests_cant": "positions at both ends of the store", "anchors": ["pkg/btrfs/index/index_store.go:find", "pkg/btrfs/index/index_store.go:metadataKey"]}
{"id": "C23", "title": "Inserts of different items commute", "statement": "Inserting items with different (owner,key,generation) in either order gives the same index; inserting the same item again changes nothing; the index after any sequence of inserts with distinct keys is independent of their order.", "quantifier": "every pair / permutation of inserts", "why_tests_cant": "factorially many orders", "anchors": ["pkg/btrfs/index/index_store.go:InsertItem"]}
{"id": "C24", "title": "Inserts never touch the index metadata", "statement": "No InsertItem changes the stored version, block size, FSID or generation of the index.", "quantifier": "every history of inserts", "why_tests_cant": "one colliding key out of 2^264", "anchors": ["pkg/btrfs/index/index_store.go:InsertItem", "pkg/btrfs/index/index_store.go:metadataKey"]}
{"id": "C25", "title": "Opening checks compatibility", "statement": "Open for writing succeeds on a fresh database, and on an existing one exactly when version, block size and FSID match (older versions only with AllowOldVersion); a failed or read-only open changes nothing on disk.", "quantifier": "every database content and every option value", "why_tests_cant": "all version/FSID/block size combinations, 32-bit truncation", "anchors": ["pkg/btrfs/index/index_store.go:openIndex", "pkg/btrfs/index/index_store.go:checkUpdateMetadata"]}
{"id": "C26", "title": "Index metadata round-trips through a reopen", "statement": "Open-create, Close, OpenReadOnly: Metadata() reports the version, block size, FSID and generation given at creation, after any inserts and commits in between.", "quantifier": "every option value, every history in between", "why_tests_cant": "all histories", "anchors": ["pkg/btrfs/index/index_store.go:newIndexMetadata", "pkg/btrfs/index/index_store.go:Metadata"]}
{"id": "C27", "title": "Crash loses only a bounded suffix", "statement": "After a crash at any point the reopened index contains exactly the effect of a prefix of the inserts; at most 10000 of the latest inserts are lost and nothing before the last commit.", "quantifier": "every history of inserts/commits and every crash point", "why_tests_cant": "all crash points of unbounded histories", "anchors": ["pkg/btrfs/index/index_store.go:InsertItem", "pkg/btrfs/index/index_store.go:Commit", "pkg/btrfs/index/index_store.go:ensureTx"]}
{"id": "C28", "title": "Close makes everything durable", "statement": "After Commit or Close of a writable index, every insert made before is durable; Close of a read-only index changes nothing.", "quantifier": "every history", "why_tests_cant": "unbounded histories", "anchors": ["pkg/btrfs/index/index_store.go:Close", "pkg/btrfs/index/index_store.go:Commit"]}
{"id": "C29", "title": "Index stays usable after Commit", "statement": "After Commit on a writable index lookups still work.", "quantifier": "every history", "why_tests_cant": "auto-commit happens only on insert 10001", "anchors": ["pkg/btrfs/index/index_store.go:Commit", "pkg/btrfs/index/index_store.go:InsertItem", "pkg/btrfs/index/index_store.go:FindItem"]}
{"id": "C30", "title": "RawTx is all-or-nothing", "statement": "If the function given to RawTx fails, none of its changes become durable ('behaves similar to bbolt.Update').", "quantifier": "every transaction function and every later operation", "why_tests_cant": "needs failure plus later commit", "anchors": ["pkg/btrfs/index/index_store.go:RawTx"]}
{"id": "C31", "title": "Directory range iteration is sound", "statement": "Iterating RangeAll(owner,t,id) with HasNext/Next yields only stored items of that owner, type and object id, in strictly increasing offset order, each at one generation.", "quantifier": "every store contents", "why_tests_cant": "all multi-owner, multi-generation stores", "anchors": ["pkg/btrfs/index/index_store.go:Range", "pkg/btrfs/index/index_store.go:findNext", "pkg/btrfs/index/index_store.go:HasNext"]}
{"id": "C32", "title": "Range iteration is complete", "statement": "Iterating RangeAll(owner,t,id) yields for every stored key (t id ?) of that owner an item, at its newest generation.", "quantifier": "every store contents", "why_tests_cant": "needs mixed generations; the iteration stops at the first key lacking the first item's generation", "anchors": ["pkg/btrfs/index/index_store.go:Range", "pkg/btrfs/index/index_store.go:findNext"]}
{"id": "C33", "title": "Range iteration terminates", "statement": "Every HasNext/Next loop over an index range ends.", "quantifier": "every store contents", "why_tests_cant": "looping needs two owners sharing a first key, or generation 2^64-1", "anchors": ["pkg/btrfs/index/index_store.go:findNext", "pkg/btrfs/index/index_store.go:HasNext"]}
{"id": "C34", "title": "FullRange visits every stored item exactly once, in order", "statement": "Iterating FullRange visits all items in key order, each exactly once, and nothing else.", "quantifier": "every store contents", "why_tests_cant": "unbounded stores; the sentinel is visited as well", "anchors": ["pkg/btrfs/index/index_store.go:FullRange", "cmd/dump_index.go"]}
{"id": "C35", "title": "Subvolumes lists all subvolumes", "statement": "Subvolumes() yields every subvolume root item with id in [256, LastFreeObjectID].", "quantifier": "every store contents", "why_tests_cant": "only stores without subvolume 256 fail", "anchors": ["pkg/btrfs/index/index_store.go:Subvolumes", "pkg/btrfs/index/index_store.go:lowerBound"]}
{"id": "C36", "title": "Logical-to-physical mapping is correct inside chunks", "statement": "For every logical address inside a stored chunk, Physical returns the first stripe's device id and stripe offset + (logical - chunk start), and repeated calls agree.", "quantifier": "every set of disjoint chunks, every logical address", "why_tests_cant": "all addresses, all numbers of chunks (binary search)", "anchors": ["pkg/btrfs/index/index_store.go:Physical"]}
{"id": "C37", "title": "Physical never crashes", "statement": "Physical returns for every logical address on every index.", "quantifier": "every store, every address", "why_tests_cant": "needs an index without usable chunks", "anchors": ["pkg/btrfs/index/index_store.go:Physical"]}
{"id": "C38", "title": "Path lookup is sound", "statement": "FindDirItemForPath returns either nil or the dir item reached by a chain of directory entries whose names are the path components, crossing into subvolumes where an entry points to one.", "quantifier": "every store, every path", "why_tests_cant": "all directory graphs, hash collisions, subvolume crossings", "anchors": ["pkg/btrfs/index/index_store.go:FindDirItemForPath"]}
{"id": "C39", "title": "Path lookup is complete", "statement": "If the dir items for all components exist under their name hash, FindDirItemForPath finds the entry.", "quantifier": "every store, every path", "why_tests_cant": "all directory graphs", "anchors": ["pkg/btrfs/index/index_store.go:FindDirItemForPath"]}
{"id": "C40", "title": "recon indexes exactly the matching leaves", "statement": "After a successful scan the index contains exactly the items of all block-aligned level-0 blocks after the first superblock carrying the wanted FSID, and metadata; nothing else.", "quantifier": "every device image, every block size and FSID", "why_tests_cant": "2^devsize images", "anchors": ["cmd/recon.go:doScanFS", "pkg/btrfs/index/index_store.go:InsertItem"]}
{"id": "C41", "title": "recon then lookup gives the newest on-disk item", "statement": "After a successful scan, looking up (owner,key) returns the payload of a matching leaf item with the highest leaf generation on the device.", "quantifier": "every device image", "why_tests_cant": "all images", "anchors": ["cmd/recon.go:doScanFS", "pkg/btrfs/index/index_store.go:FindItem"]}
{"id": "C42", "title": "recon never crashes on corrupted metadata", "statement": "doScanFS finishes (no panic) for every device image.", "quantifier": "every device image", "why_tests_cant": "needs a block with right FSID and corrupted item count/offset", "anchors": ["cmd/recon.go:doScanFS", "pkg/btrfs/leaf.go"]}
{"id": "C43", "title": "recon is idempotent", "statement": "Scanning the same image again into the same index leaves it unchanged.", "quantifier": "every device image", "why_tests_cant": "all images", "anchors": ["cmd/recon.go:doScanFS"]}
{"id": "C44", "title": "Collector counts are exact", "statement": "After collecting any blocks, the count of each FSID is the number of leaf blocks carrying it; all-zero and all-FF FSIDs are never reported; order of blocks does not matter for counts.", "quantifier": "every sequence of blocks", "why_tests_cant": "unbounded sequences", "anchors": ["internal/identify/collector.go:CollectBlock"]}
{"id": "C45", "title": "identify output is sorted, complete and deterministic", "statement": "Entries(min) lists each FSID with count >= min exactly once, sorted by descending count, then entropy, then FSID, independent of map iteration order.", "quantifier": "every histogram and every map iteration order", "why_tests_cant": "map order is random per run", "anchors": ["internal/identify/collector.go:Entries", "internal/identify/collector.go:fsEntries.Less"]}
{"id": "C46", "title": "Block size guess", "statement": "If all sampled leaves of an FSID have a first item offset between B-4096 and B-1, B a multiple of 4096, the reported block size is B.", "quantifier": "every sequence of sampled blocks", "why_tests_cant": "fails only for few samples: the first block's offset is never added", "anchors": ["internal/identify/collector.go:CollectBlock", "internal/identify/collector.go:Entries"]}
{"id": "C47", "title": "Sample offsets are sorted, distinct and as many as requested", "statement": "MakeSampleOffsets returns exactly numSamples strictly increasing block offsets, always including 100 blocks after each superblock copy on the device.", "quantifier": "every device size, block size, sample count, every random source", "why_tests_cant": "random; huge devices; small sample counts crash, large ones loop", "anchors": ["internal/identify/identify.go:MakeSampleOffsets"]}
{"id": "C48", "title": "Sample offsets lie inside the device", "statement": "Every sample offset leaves room for a full block on the device, for every device accepted by CheckDeviceSize.", "quantifier": "every device size accepted, every random source", "why_tests_cant": "boundary devices only", "anchors": ["internal/identify/identify.go:MakeSampleOffsets", "pkg/btrfs/util.go:CheckDeviceSize"]}
{"id": "C49", "title": "Entropy is a bounded, order-independent measure", "statement": "ShannonEntropy of a byte string is Shannon's formula up to a rounding error below 1e-9: it is never negative, exceeds log2 of the number of distinct bytes (at most 8) by less than 1e-9, changes by less than 2e-9 when the bytes are reordered or the maps are iterated differently, and is 0 exactly for strings that repeat one byte.", "quantifier": "every non-empty byte string shorter than 2^63, every map iteration order, with and without fused multiply-add, every rounding that is accurate to one unit in the last place", "why_tests_cant": "infinitely many strings, and rounding errors depend on the random map iteration order", "anchors": ["pkg/coding/entropy.go:ShannonEntropy"]}
{"id": "C50", "title": "Mounted file read returns file content", "statement": "Read(off,len) on an extent-backed file returns bytes that are the file's bytes at [off, off+len) - all of them up to end of file.", "quantifier": "every extent map, offset, length, device", "why_tests_cant": "needs reads crossing extents or holes", "anchors": ["internal/rescuefs/files.go:Read"]}
{"id": "C51", "title": "Fallback file size covers all extents", "statement": "Without an inode item, the reported size is the end of the last extent, so no byte of any extent lies beyond it.", "quantifier": "every extent list", "why_tests_cant": "all extent lists", "anchors": ["internal/rescuefs/files.go:GetAttr", "internal/rescuefs/files.go:newExtentFile"]}
{"id": "C52", "title": "Mount lookup and listing agree", "statement": "On a mounted directory a name is listed by OpenDir exactly when Lookup finds it; the answers do not depend on earlier operations (caches).", "quantifier": "every index, every sequence of FUSE operations on a node", "why_tests_cant": "all op sequences", "anchors": ["internal/rescuefs/nodefs.go:Lookup", "internal/rescuefs/nodefs.go:OpenDir", "internal/rescuefs/nodefs.go:ensureDirItems", "internal/rescuefs/nodefs.go:GetAttr"]}
{"id": "C53", "title": "Extended attributes: listed and readable agree", "statement": "GetXAttr finds exactly the names ListXAttr reports and returns the first stored value.", "quantifier": "every index", "why_tests_cant": "all xattr sets", "anchors": ["internal/rescuefs/nodefs.go:GetXAttr", "internal/rescuefs/nodefs.go:ListXAttr"]}
{"id": "C54", "title": "Mount without a device shows zeroes", "statement": "When no device is given, reading extent data in the mounted tree returns zeroes.", "quantifier": "every file, every read", "why_tests_cant": "interface holding a typed nil pointer", "anchors": ["internal/rescuefs/files.go:Read", "cmd/mount.go:doMountRescueFS"]}
{"id": "C55", "title": "Every existing regular file can be opened in the mount", "statement": "Open succeeds for every file with an inode item, including empty ones.", "quantifier": "every index", "why_tests_cant": "files without extents", "anchors": ["internal/rescuefs/nodefs.go:Open"]}
{"id": "C56", "title": "recover without --clobber never alters existing files", "statement": "Whatever the index and image contain, recover without --clobber leaves every file, directory and symlink that existed before unchanged, at every point of the run (also when it crashes).", "quantifier": "every index, image, destination tree, every intermediate state", "why_tests_cant": "all crafted images and crash points", "anchors": ["cmd/recover.go:recoverFile", "cmd/recover.go:recoverSymlink", "cmd/recover.go:recoverDir"]}
{"id": "C57", "title": "recover writes only inside the destination", "statement": "Every path recover creates or writes lies inside the destination directory.", "quantifier": "every index (also crafted), every destination tree", "why_tests_cant": "crafted names and symlinks", "anchors": ["cmd/recover.go:recoverDir", "cmd/recover.go:recoverFile"]}
{"id": "C58", "title": "Recovered file content is the file's content", "statement": "When all device reads succeed, a recovered file has exactly the inode's size and its bytes are the extents' data, zero elsewhere.", "quantifier": "every extent list, every device contents", "why_tests_cant": "all extent layouts, chunked copy", "anchors": ["cmd/recover.go:recoverFile"]}
{"id": "C59", "title": "recover reports read failures", "statement": "If a device read fails while copying a file, recoverFile returns an error.", "quantifier": "every device failure pattern", "why_tests_cant": "needs I/O errors in the middle of an extent", "anchors": ["cmd/recover.go:recoverFile"]}
{"id": "C60", "title": "recover visits every directory at most once and terminates", "statement": "For every directory graph in the index, cyclic or shared, recover terminates and enters each (owner, directory) at most once.", "quantifier": "every directory graph", "why_tests_cant": "cycles of any length", "anchors": ["cmd/recover.go:recoverDir", "cmd/recover.go:doRecoverFiles"]}
{"id": "C61", "title": "recover reaches every listed entry", "statement": "Every regular file listed in a directory that recover enters is written (or already exists), unless its name is '.', '..' or contains a slash.", "quantifier": "every index", "why_tests_cant": "names with backslash are skipped", "anchors": ["cmd/recover.go:recoverDir"]}
{"id": "C62", "title": "Recovered symlinks have the stored target", "statement": "A recovered symlink's target is the inline data of its extent, or, if the extent is a regular one, all of its bytes on the device; if these cannot all be read there is an error instead.", "quantifier": "every index", "why_tests_cant": "all targets", "anchors": ["cmd/recover.go:recoverSymlink"]}
{"id": "C63", "title": "Mode string shows the permission bits", "statement": "The ls mode string has nine characters; position by position it shows r/w/x exactly when the corresponding permission bit is set.", "quantifier": "every 32-bit mode", "why_tests_cant": "2^32 modes", "anchors": ["cmd/ls.go:inodeModeString"]}
{"id": "C64", "title": "ls lists every directory entry once, files before directories, names ascending", "statement": "A directory listing is a permutation of the directory's entries ordered non-directories first and by name.", "quantifier": "every directory", "why_tests_cant": "all directory contents", "anchors": ["cmd/ls.go:listDirectory", "cmd/ls.go:dirItemSlice.Less"]}
{"id": "C65", "title": "ls --recursive terminates", "statement": "Recursive listing ends for every directory graph.", "quantifier": "every directory graph", "why_tests_cant": "needs a cycle", "anchors": ["cmd/ls.go:listDirectory"]}
{"id": "C66", "title": "Textual ids are unambiguous", "statement": "Object id and key type names printed for different values are different, and printed keys determine the key.", "quantifier": "every 64-bit id, 8-bit type, every key", "why_tests_cant": "2^64 ids", "anchors": ["pkg/btrfs/to_string.go"]}
{"id": "C67", "title": "Reading a mounted file never crashes", "statement": "For every extent map, buffer and offset, and whatever the device answers, Read of a mounted file returns: an error status, or at most as many bytes as were asked for. Negative offsets are refused with EINVAL.", "quantifier": "every extent map (overlapping, unordered, wrapping around 2^64), every offset and length, every device behaviour", "why_tests_cant": "all extent maps and device failures", "anchors": ["internal/rescuefs/files.go:Read"]}
{"id": "C68", "title": "Mounted attributes are the inode's", "statement": "GetAttr of a mounted node reports the size, mode, link count, owner, group, device and times stored in the newest inode item; an attribute error if there is none.", "quantifier": "every index, every inode", "why_tests_cant": "all inode contents and version histories", "anchors": ["internal/rescuefs/nodefs.go:GetAttr", "internal/rescuefs/files.go:GetAttr"]}
{"id": "C69", "title": "Readlink returns the stored target", "statement": "Readlink of a mounted symlink returns the inline data stored for it and fails for anything without inline data.", "quantifier": "every index", "why_tests_cant": "all targets", "anchors": ["internal/rescuefs/nodefs.go:Readlink"]}
{"id": "C70", "title": "Mount Lookup leads where the stored entry leads", "statement": "A child found by Lookup in a mounted directory is the object a stored directory entry of that name refers to: the object in the same tree, or directory 256 of the subvolume the entry names.", "quantifier": "every well-formed index, every directory and name", "why_tests_cant": "all directory graphs", "anchors": ["internal/rescuefs/nodefs.go:Lookup"]}
{"id": "C71", "title": "Opening a mounted file yields its stored extents", "statement": "The extents behind an opened file are the stored extent items of the inode, one for one in key order, with file offset, length and disk address as stored and the physical address the chunk tree maps it to.", "quantifier": "every well-formed index, every extent list", "why_tests_cant": "all extent lists and chunk maps", "anchors": ["internal/rescuefs/files.go:newExtentFile", "internal/rescuefs/nodefs.go:Open"]}
{"id": "C72", "title": "recover --clobber never destroys an entry it cannot replace", "statement": "With --clobber, an existing file-system entry at the place of a symbolic link is removed only if the link is then created in its place.", "quantifier": "every index, every destination tree", "why_tests_cant": "needs a link whose extent item is lost and an existing entry in its place", "anchors": ["cmd/recover.go:recoverSymlink"]}
{"id": "C73", "title": "dump-index shows the whole index", "statement": "dump-index prints every stored item version exactly once, in key order, grouped under its owner, and different indexes give different texts: the printed text determines which versions are stored.", "quantifier": "every index", "why_tests_cant": "all indexes; ids with equal names", "anchors": ["cmd/dump_index.go:doDumpIndex", "pkg/btrfs/to_string.go"]}
{"id": "C74", "title": "ls PATH lists what the path leads to", "statement": "For a path leading to a directory, ls prints the listing of that directory; for one leading to something else, its line; without arguments, the root of the file system tree.", "quantifier": "every index, every path (also with doubled slashes, dot components)", "why_tests_cant": "paths through subvolumes", "anchors": ["cmd/ls.go:doListFiles", "pkg/btrfs/index/index_store.go:FindDirItemForPath"]}
{"id": "C75", "title": "recover survives damaged file metadata", "statement": "Recovering one file, whatever its inode, extent and chunk items contain, ends with success or with an error, never by crashing the program, so that the remaining files are still recovered.", "quantifier": "every index, file, image and destination", "why_tests_cant": "damaged sizes, offsets and short items are endless", "anchors": ["cmd/recover.go:recoverFile", "pkg/btrfs/index/index_store.go:Physical"]}
{"id": "C76", "title": "Overlapping reads translate addresses like single ones", "statement": "When a mounted file system serves several requests at the same time, every logical address is translated exactly as if the requests had come one after the other: no request crashes the mount or reads from a wrong place because another one is under way.", "quantifier": "every index, every number of overlapping requests and every schedule of their steps", "why_tests_cant": "schedules are endless and a race shows rarely", "anchors": ["pkg/btrfs/index/index_store.go:Physical", "internal/rescuefs/files.go:Read", "cmd/mount.go"]}
{"id": "C77", "title": "Overlapping lookups in one directory", "statement": "When several names are looked up in the same mounted directory at the same time, each lookup finds what it would find alone.", "quantifier": "every index, directory, set of names and every schedule", "why_tests_cant": "schedules are endless", "anchors": ["internal/rescuefs/nodefs.go:ensureDirItems", "internal/rescuefs/nodefs.go:Lookup"]}
{"id": "C78", "title": "An interrupted recon can be rerun", "statement": "After any number of recon runs on a device that were killed, at any point each, or ended by a read error, running recon to its end gives exactly the index file an undisturbed run gives.", "quantifier": "every device with sound leaves, every number of interrupted runs and every interruption point", "why_tests_cant": "crash points and their combinations are endless", "anchors": ["cmd/recon.go:doScanFS", "pkg/btrfs/index/index_store.go:InsertItem", "pkg/btrfs/index/index_store.go:Commit"]}
{"id": "C79", "title": "Images can be scanned in any order", "statement": "Scanning two images of one file system into one metadata file gives the same file in either order if they agree on the versions they share; the file holds what is on either image and nothing else; where they disagree the image scanned last decides.", "quantifier": "every pair of devices", "why_tests_cant": "all pairs of device contents", "anchors": ["cmd/recon.go:doScanFS", "pkg/btrfs/index/index_store.go:InsertItem"]}
{"id": "C80", "title": "recon --append decides whether earlier items are kept", "statement": "With --append the items already in the metadata file are kept; without it the file afterwards holds exactly what a scan into a new file gives.", "quantifier": "every device, metadata file and option", "why_tests_cant": "all contents", "anchors": ["cmd/recon.go:scanFSOptions", "cmd/recon.go:doScanFS"]}
{"id": "C81", "title": "A silent recover has recovered everything", "statement": "If recover-files into an empty directory ends without a warning, every directory reachable from the roots of the main tree and the subvolumes exists at one of its places below the destination, and every regular file and symbolic link listed there has the stored contents or target.", "quantifier": "every index, image, host file system, order and pattern of failing system calls", "why_tests_cant": "trees of any depth, any failing calls and any contents", "anchors": ["cmd/recover.go:doRecoverFiles", "cmd/recover.go:recoverFile", "cmd/recover.go:recoverSymlink"]}
{"id": "C82", "title": "recover invents nothing", "statement": "Recovering into an empty directory, at every point of the run everything below the destination is a directory, file or link at a place the index lists such a thing for; at the end each file has the stored contents and each link the stored target, or there was a warning about it.", "quantifier": "every index, image, host file system, pattern of failing system calls and point at which the run is stopped", "why_tests_cant": "every crash point and every index", "anchors": ["cmd/recover.go:doRecoverFiles", "cmd/recover.go:recoverFile", "cmd/recover.go:recoverSymlink"]}
{"id": "C83", "title": "Recovering an undamaged file system recovers everything", "statement": "If the index holds an undamaged file system and nothing fails, `recover` to an empty directory ends without a warning, and afterwards every directory of every tree is at a place where it belongs, with every regular file (with its contents) and every symbolic link (with its target) in it, and nothing else.", "quantifier": "every index of an undamaged file system (any number of trees, directories, files, links; any depth), every image, every empty destination on every host", "why_tests_cant": "file systems are unbounded in size and shape; a test recovers a few fixed trees", "anchors": ["cmd/recover.go: doRecoverFiles, recoverDir, recoverFile, recoverSymlink", "pkg/btrfs/index/index_store.go: DirItems, Subvolumes, FileExtentItems"]}
{"id": "C84", "title": "Recon followed by recover brings back an undamaged file system", "statement": "If an image holds an undamaged file system (leaves well formed, copies of an item agreeing), then scanning it with `recon` into a fresh metadata file and running `recover` with that file and the image into an empty directory ends without a warning; afterwards every directory is at a place where it belongs, each regular file in it has the contents the image gives it and each symbolic link its target, and there is nothing else, at whatever point the run is stopped.", "quantifier": "every image, block size and file system ID, every file system in the image (any number of trees, directories, files, links; any depth), every empty destination on every host", "why_tests_cant": "images and trees are unbounded; a test scans and recovers a few fixed images", "anchors": ["cmd/recon.go: doRecon", "cmd/recover.go: recoverCommand, doRecoverFiles", "pkg/btrfs/index/index.go: Open, OpenReadOnly"]}
{"id": "C85", "title": "The mount shows an undamaged file system", "statement": "If an image holds an undamaged file system, the index file made by scanning it opens, and in the mounted file system every path below `rescue` can be looked up and leads where the directory entries of these names lead (into subvolumes too), or to nothing if there is no such entry; listing a directory shows exactly its entries, each once and as a directory exactly if its type says so; attributes are those of the inode item; Readlink gives the stored target.", "quantifier": "every image with an undamaged file system (any number of trees, entries, any depth), every path, every order in which Go's maps come out", "why_tests_cant": "trees and paths are unbounded; a test looks at a few fixed paths", "anchors": ["internal/rescuefs/nodefs.go: rescueNode.Lookup, OpenDir, GetAttr, Readlink", "cmd/mount.go: doMountRescueFS", "pkg/btrfs/index/index_store.go: DirItems, FindInodeItem"]}
{"id": "C86", "title": "The mount and recover agree on the contents of files", "statement": "If an image holds an undamaged file system, opening a file in the mount succeeds, and what is read from it is what `recover` writes for that file: for an inline file its data, for any other the bytes on the device, for each read inside the file and inside one extent of it.", "quantifier": "every image with an undamaged file system, every file with extents, every buffer size and position", "why_tests_cant": "files, extents and read positions are unbounded; a test reads a few", "anchors": ["internal/rescuefs/nodefs.go: rescueNode.Open", "internal/rescuefs/extentfile.go: extentFile.Read", "cmd/recover.go: recoverFile"]}
{"id": "C87", "title": "dump-index prints every item of the image", "statement": "If the leaves of an image are well formed, dump-index on the index file made by scanning it prints one line for every item version of the image, in index order, and ends normally.", "quantifier": "every image with well-formed leaves, of any size and number of items", "why_tests_cant": "images and items are unbounded", "anchors": ["cmd/dump_index.go: doDumpIndex", "cmd/recon.go: doRecon"]}
{"id": "C88", "title": "ls prints the listing of an undamaged file system", "statement": "If an image holds an undamaged file system, `ls` on the index file made by scanning it prints, for an argument that leads to a directory, one line for every entry in order (files first, names ascending) with type, permissions, links, owner, group, size, time and name as stored, and with --recursive then the listings of the directories in it, and for any other argument its line; listings are uniquely determined by the index.", "quantifier": "every image with an undamaged file system, every path argument, both options, every admissible sort", "why_tests_cant": "trees, entries and paths are unbounded", "anchors": ["cmd/ls.go: doListFiles, listDirectory, listDirItem", "pkg/btrfs/index/index_store.go: FindDirItemForPath, DirItems"]}
{"id": "C89", "title": "Files whose inode item is lost are recovered in full", "statement": "If the index has extents of a file but no inode item for it, recovering the file without an error leaves a file that holds the bytes of every (uncompressed) extent, zero between them, and ends exactly where the furthest extent ends; nothing is cut off.", "quantifier": "every index, device image, file, target path, failing system call and short read", "why_tests_cant": "depends on which leaves survived, on all extent layouts and on every point where a system call may fail", "anchors": ["cmd/recover.go:recoverFile"]}
{"id": "C90", "title": "A failed write of the index is never silent and never fatal", "statement": "If a commit of the metadata index fails while recon runs (full disk, I/O error), recon ends with an error; if it ends without one, every commit succeeded and the index is the one made when writes cannot fail. Whatever commits fail, the file left behind holds only items of the device, as after an interrupted scan, and running recon again completes the index exactly.", "quantifier": "every device, option, previous index and every choice of failing commits, each leaving the transaction durable or not", "why_tests_cant": "commits can fail at any point of a scan of any size, in any combination", "anchors": ["cmd/recon.go:doScanFS", "pkg/btrfs/index/index_store.go:InsertItem", "pkg/btrfs/index/index_store.go:Commit", "pkg/btrfs/index/index_store.go:Close"]}
{"id": "C91", "title": "The mounted metadata file shows the index and cannot harm it", "statement": "The root of a mounted file system holds a directory rescue (the top of the default subvolume) and a regular file metadata, both without write permission; reading metadata gives the bytes of the index file, and no sequence of opens (with any flags), reads and writes through it changes the index file.", "quantifier": "every index file, every sequence of operations, every open flag, every permission", "why_tests_cant": "all flag combinations and sequences; refuted for opens with O_TRUNC, which are passed on to the index file", "anchors": ["internal/rescuefs/nodefs.go:metadataNode.Open", "internal/rescuefs/nodefs.go:newMetadataNode", "internal/rescuefs/nodefs.go:OnMount"]}
{"id": "C92", "title": "ls prints one aligned line per entry", "statement": "What ls writes to the terminal is an aligned table with exactly one line for each directory entry, each column padded to one more than its widest cell and the name last; the layout adds, loses and moves nothing but blanks and tabs.", "quantifier": "every index, every argument list and options, every directory size, every name", "why_tests_cant": "alignment depends on all rows at once and on arbitrary names; refuted for names with a line feed, which can imitate further entries", "anchors": ["cmd/ls.go:listDirItem", "cmd/ls.go:doListFiles"]}
{"id": "C93", "title": "identify prints one line per file system, machine readable with --machine", "statement": "identify prints one line per reported FSID with FSID, count, entropy and block size, highest count first; without --machine as an aligned table with headings, with --machine without headings and with fields separated by exactly one tab, so that the entries can be read back from the text.", "quantifier": "every list of entries, every device image", "why_tests_cant": "the separators depend on the digits of all counts at once; refuted: counts of different lengths give two tabs", "anchors": ["internal/identify/identify.go:IdentifyFS"]}
{"id": "C94", "title": "KF and KL bound a search", "statement": "For up to three given fields (type, object id, offset) KF is the first and KL the last key in index order that has these fields, so that a search between them meets every key with the fields.", "quantifier": "every list of arguments, every key", "why_tests_cant": "all keys; refuted for special objects, whose ids lie above the default of KL", "anchors": ["pkg/btrfs/index/index_store.go:KF", "pkg/btrfs/index/index_store.go:KL", "pkg/btrfs/index/index_store.go:keyFirst"]}
{"id": "C95", "title": "Physical gives a place where the byte is stored", "statement": "For every logical address inside a chunk, the device and physical address that Physical returns are a place where the chunk's profile (SINGLE, DUP, RAID0, RAID1, RAID10, RAID5, RAID6) stores that byte.", "quantifier": "every index, chunk, profile, number of stripes and logical address", "why_tests_cant": "the answer depends on profile, stripe length, number of stripes and address together; refuted: in striped chunks every byte after the first piece is translated to a place that holds another byte", "anchors": ["pkg/btrfs/index/index_store.go:Physical", "pkg/btrfs/btrfs.go:BlockGroupRaid0"]}
{"id": "C96", "title": "recovered data come from the devices that hold them", "statement": "On a file system with several devices, recover either reports an error or writes the bytes the file system has for the file: those on the device, and at the place, where its chunks store them.", "quantifier": "every index, file, set of device contents and host file system", "why_tests_cant": "needs all layouts of extents in chunks and all device contents; refuted: the device id Physical returns is ignored, and stripes other than the first are never read", "anchors": ["cmd/recover.go:recoverFile", "pkg/btrfs/index/index_store.go:Physical"]}
{"id": "C97", "title": "recon does not depend on block checksums", "statement": "recon salvages a leaf whether or not its checksum field is intact: on two devices that differ only in the checksum fields of blocks it produces the same index and ends the same way. (The other side: leaves whose contents do not match their checksum are indexed as well.)", "quantifier": "every pair of device images that differ only in checksum fields, every block size, FSID and existing index file", "why_tests_cant": "all contents of all blocks; items whose offset wraps around could reach into the checksum", "anchors": ["cmd/recon.go:doScanFS", "pkg/btrfs/leaf.go:Header"]}
{"id": "C98", "title": "what identify reports works with recon", "statement": "Every file system id printed by `btrfscue identify` is accepted by `btrfscue recon --id`; with the same --block-size on the same device recon reads and indexes every leaf of that file system identify counted beyond the first superblock, and with the block size identify printed recon also indexes the file system.", "quantifier": "all devices and their contents, all choices of random samples, all reported ids", "why_tests_cant": "it composes two commands over all device contents and all random samples; a test device shows one composition", "anchors": ["internal/identify/identify.go:IdentifyFS", "internal/identify/collector.go:FSIDCollecter", "cmd/recon.go:doScanFS", "pkg/uuid/uuid.go:Set"]}
{"id": "C99", "title": "Exit status 0 means the command did what it was asked", "statement": "A command that ends with exit status 0 has done what it was asked: recon has put every item of every matching leaf into the metadata file, recover has recovered every file, ls has listed every path it was given. If something could not be done the status is 1; a panic gives 2.", "quantifier": "every device, index, host file system, argument list, and every pattern of failing writes and system calls", "why_tests_cant": "A test can provoke one failure and look at one status; that no failure anywhere in a run can end in status 0 is about every failure point.", "anchors": ["cmd/recon.go: doScanFS", "cmd/recover.go: doRecoverFiles", "cmd/ls.go: doListFiles", "cmd/dump_index.go: doDumpIndex", "cmd/btrfscue/app/util/cliutil.go: Fatalf, ReportError, Warnf"]}
{"id": "C100", "title": "recover can be run again", "statement": "After a run of recover without --clobber that printed no warning, running it again with the same index and destination changes nothing in the file system at any point and prints no warning.", "quantifier": "every index, destination, initial host file system, behaviour of the device and pattern of failing system calls in both runs (stat and lstat must not fail in the second)", "why_tests_cant": "A test runs one index twice; that no file, link or directory of any index is touched by the second run, at no moment of it, is about every index and every intermediate state.", "anchors": ["cmd/recover.go: doRecoverFiles, recoverDir, recoverRegFile, recoverSymlink"]}
{"id": "C101", "title": "A recover that is killed leaves at most one file unfinished", "statement": "Whenever a recover to an empty directory is killed, every file and link below the destination but at most one is complete: it has the contents or target the index says, or a warning was printed about it.", "quantifier": "every index, every honest device, every pattern of failing system calls other than stat, every point at which the run is killed", "why_tests_cant": "The claim is about every instant of a run over an arbitrary tree; a test can kill a run at a few.", "anchors": ["cmd/recover.go: doRecoverFiles, recoverDir, recoverRegFile, recoverSymlink"]}
{"id": "C102", "title": "A recover that was killed can be completed by running it again", "statement": "If a recover to an empty directory was killed, running it again without --clobber completes it: if the second run prints no warning, every file listed in the index has the contents the index says.", "quantifier": "every index, every honest device, every point at which the first run is killed, every pattern of failing system calls other than stat in both runs", "why_tests_cant": "Every instant at which the first run may stop leaves a different file system; the claim is about all of them and all trees.", "anchors": ["cmd/recover.go: doRecoverFiles, recoverRegFile (os.Stat check without --clobber)"]}
{"id": "C103", "title": "recover --clobber repairs whatever earlier runs left", "statement": "After any number of runs of recover to one destination (empty before the first), with or without --clobber, each broken off at any point or failing in any way, a further run with --clobber that ends without a warning leaves exactly the recovered tree: every listed file has its stored contents, every link its target, and nothing else is there.", "quantifier": "every index, device, destination, sequence of earlier runs with any options, errors and break-off points, and every final --clobber run", "why_tests_cant": "The break-off points and error patterns of arbitrarily many earlier runs cannot be enumerated; a half-written file, a missing link between remove and symlink, or a stale longer file must all be repaired.", "anchors": ["cmd/recover.go: recoverFile, recoverSymlink, recoverDir, doRecoverFiles"]}
{"id": "C104", "title": "A command line that cannot be carried out changes nothing", "statement": "A command with the wrong number of arguments, without a needed --metadata or --id, or naming a device or metadata file that cannot be opened (or a device that is too small, or for recon a metadata file of another file system or block size), ends with exit status 1 without printing anything on stdout and without creating or changing any file: no metadata file, no destination directory. `ls` and `dump-index` end with status 1 only then; `recover` only then or if the destination directory cannot be made; `mount` only then or if mounting or unmounting fails.", "quantifier": "every command, command line, device, metadata file and host", "why_tests_cant": "every combination of commands, arguments and unusable files; a test runs a few", "anchors": ["cmd/recon.go:doScanFS", "cmd/recover.go:doRecoverFiles", "cmd/ls.go", "cmd/mount.go:doMountRescueFS", "cmd/dump_index.go", "cmd/identify.go", "pkg/btrfs/index/index_store.go:OpenReadOnly"]}
{"id": "C105", "title": "Each command touches only what it is for", "statement": "Whatever the command line and however the run ends (also by a crash): only `recon` changes the metadata file, and only `recover` changes any other file. On a usable command line the commands do what the per-command models say.", "quantifier": "every command, command line, device, metadata file, host, and way to end", "why_tests_cant": "a test sees single runs, not all ways to end", "anchors": ["cmd/recon.go", "cmd/recover.go", "cmd/ls.go", "cmd/mount.go", "cmd/dump_index.go", "cmd/identify.go", "cmd/completion.go", "pkg/btrfs/index/index_store.go:Close"]}
{"id": "C106", "title": "recover is silent without --verbose", "statement": "Without `--verbose`, `recover` prints nothing on stdout.", "quantifier": "every index, image, destination and host", "why_tests_cant": "output depends on the index; a test looks at the files recovered", "anchors": ["pkg/btrfs/index/index_store.go:Physical", "cmd/recover.go", "cmd/btrfscue/app/util/cliutil.go:Verbosef"]}
{"id": "C107", "title": "What a mount answers does not depend on what it was asked before", "statement": "For every metadata file, intact or damaged, and every sequence of requests (attributes, lookups, listings, opens, extended attributes, link targets, reads) made one after the other since mounting, the next request about an inode gets the answer that a mount that was just started would give, or crashes or hangs exactly if that one would: the caches of attributes, directory entries and chunk addresses never show.", "quantifier": "every index, every finite history of requests, every node, every further request", "why_tests_cant": "histories are unbounded and the caches of every node and of the index can be filled in any order; a test replays a few", "anchors": ["internal/rescuefs/nodefs.go:rescueNode", "internal/rescuefs/files.go:extentFile", "pkg/btrfs/index/index_store.go:Physical"]}
{"id": "C108", "title": "Recovering makes nothing up", "statement": "When `recover` writes into an empty directory, then at every moment of the run, and after it, however it ended, every regular file below the destination is one the index shows at that path, and each of its bytes is zero or a byte that one of this file's extents gives for this position; every symbolic link is one the index shows there and has exactly its stored target. Read errors, short reads and failing system calls (other than stat) may make files incomplete, but no byte is invented, shifted, or taken from another file.", "quantifier": "all indexes whose directories and chunk items can be read, all devices that deliver true bytes but may fail or deliver less at any read, all patterns of failing system calls except stat, all points of the run at which it may be stopped, all files and positions", "why_tests_cant": "It ranges over every pattern of failures and every point at which the program may be killed; tests can only try a few.", "anchors": ["cmd/recover.go:doRecoverFiles", "cmd/recover.go:recoverDir", "cmd/recover.go:recoverFile", "cmd/recover.go:recoverSymlink"]}
{"id": "C109", "title": "The mounted file system and a recovery show the same tree", "statement": "Whatever `recover` leaves below an empty destination, outside the directories subvol_N, can be looked up under the same path below `rescue` in the file system that `mount` shows for the same index, is a directory in one exactly if it is in the other, and (unless there was a warning about it) has the contents seen for the object shown there; and when all can be recovered every file and link shown in a directory below `rescue` has been recovered under its name at a place of that directory.", "quantifier": "every index both commands can read (items of any generations), every destination, every point of every run with failing system calls other than stat(2), every path", "why_tests_cant": "relates two commands on all trees, all generations and all interruption points", "anchors": ["cmd/recover.go:doRecoverFiles", "cmd/recover.go:recoverDir", "internal/rescuefs/nodefs.go:Lookup", "internal/rescuefs/nodefs.go:ensureDirItems"]}
{"id": "C110", "title": "--verbose changes nothing but what is printed", "statement": "For every command, command line, metadata file and host: a run with --verbose ends the same way, with the same metadata file and the same files on the host, as a run without; and without --verbose the command prints some of the messages it prints with --verbose, unchanged and in the same order.", "quantifier": "every command, command line, device, metadata file and host, and every way a run can end", "why_tests_cant": "compares two runs for every input, including failing system calls and crashes", "anchors": ["cmd/btrfscue/app/util/cliutil.go:Verbosef", "cmd/recover.go:recoverFile", "cmd/recover.go:recoverDir", "cmd/recover.go:recoverSymlink", "internal/identify/identify.go", "cmd/mount.go"]}
{"id": "C111", "title": "recover --verbose says what became of every entry, and what it says is true", "statement": "Every line that `recover --verbose` prints is true: a file announced is a regular file listed in a directory of the index, with the size its inode item gives, and it was opened; a link announced is a link, with the target stored; what is said to exist already was there; what is said to be special is neither file, directory nor link; a subvolume announced is listed and goes to this path. And nothing is passed over in silence: of every entry of every directory that was recovered either a line or a warning tells what became of it.", "quantifier": "every index, device, destination tree, pattern of failing system calls, with and without --clobber, every run that ends normally", "why_tests_cant": "The lines depend on the whole tree of the index and on the outcome of every system call; tests print a few lines and compare them.", "anchors": ["cmd/recover.go:doRecoverFiles", "cmd/recover.go:recoverDirectory", "cmd/recover.go:recoverRegularFile", "cmd/recover.go:recoverSymlink", "cmd/btrfscue/app/util/cliutil.go:Verbosef"]}
{"id": "C112", "title": "Hard links stay one file", "statement": "Names that lead to one file in the damaged file system lead to one file after `recover`: they have the same contents, and changing the file under one name changes it under the others. And recover gives no further name to files that were there before.", "quantifier": "every index, device, destination tree, pattern of failing system calls, every point of the run, with and without --clobber; contents: every run without warnings on a tree that can be read", "why_tests_cant": "The names of a file can be in any directories, be reached in any order, with other files in between and system calls failing; tests recover one small tree.", "anchors": ["cmd/recover.go:recoverDirectory", "cmd/recover.go:recoverRegularFile"]}
{"id": "C113", "title": "More metadata never means fewer files", "statement": "Whatever is recovered from an index is also recovered from an index that holds all of the same items and more (for example because another image, or a later state of the device, was scanned into it): every directory, every link with its target and every file with its contents.", "quantifier": "all pairs of indexes, one containing the other, all devices and destinations", "why_tests_cant": "It relates two runs over arbitrary stores; whether an added item hides others depends on the generations of all items of an object and their order by name hash.", "anchors": ["cmd/recover.go:doRecoverFiles", "cmd/recover.go:recoverDir", "pkg/btrfs/index/index_store.go:Range", "pkg/btrfs/index/index_store.go:findNext"]}
{"id": "C114", "title": "ls --recursive lists what recover recovers", "statement": "What `ls --recursive` prints for an index is a listing such that whatever `recover` leaves below an empty destination (outside the directories subvol_N) is in it under the same names and as the same kind of thing; and when all can be recovered, everything in it is there after a recovery under the same names, files with the size that the listing shows.", "quantifier": "every index both commands can read (items of any generations), every admissible sort, every destination, every point of every run with failing system calls other than stat(2), every path", "why_tests_cant": "relates two commands on all trees, all generations and all interruption points", "anchors": ["cmd/ls.go:listDirectory", "cmd/ls.go:listDirItem", "cmd/recover.go:doRecoverFiles", "cmd/recover.go:recoverDir"]}
{"id": "C115", "title": "ls PATH and the mounted file system lead to the same object", "statement": "A path given to ls exists exactly if walking down the same names below rescue in the mounted file system leads to something, and then ls lists, or shows the line of, the very object that the mounted file system shows there.", "quantifier": "every index, every path argument, every option of ls", "why_tests_cant": "the two lookups are different code (by hash with a fallback, against a map filled by iterating), and agree or not depending on generations, hashes and inode items of the whole index", "anchors": ["cmd/ls.go:doListFiles", "pkg/btrfs/index/index_store.go:FindDirItemForPath", "internal/rescuefs/nodefs.go:Lookup"]}
{"id": "C116", "title": "Damaged items do not end the process that serves a mount", "statement": "Whatever the items of an inode contain, no request of the kernel about it (attributes, lookup, listing, open, extended attributes, link target, attributes of an open file) ends the process that serves the mounted file system; each is answered, with an error if need be.", "quantifier": "every index of items stored as recon does, with arbitrary payloads, every history of requests, every further request", "why_tests_cant": "every truncation of every item, at every position among the other items, after every history of requests", "anchors": ["internal/rescuefs/nodefs.go:GetAttr", "internal/rescuefs/nodefs.go:Lookup", "internal/rescuefs/nodefs.go:OpenDir", "internal/rescuefs/nodefs.go:Open", "internal/rescuefs/nodefs.go:GetXAttr", "internal/rescuefs/nodefs.go:Readlink", "internal/rescuefs/files.go:GetAttr"]}
{"id": "C117", "title": "Damaged items do not keep ls from listing the rest", "statement": "Whatever the items of an index contain, ls does not crash: entries that can be read are listed, with or without --recursive, also if others, or the inode items they lead to, are cut off.", "quantifier": "every index of items stored as recon does, with arbitrary payloads, every sort order of equal entries, every option", "why_tests_cant": "every truncation of every item, anywhere in a directory tree of any shape", "anchors": ["cmd/ls.go:listDirectory", "cmd/ls.go:listDirItem", "pkg/btrfs/items.go:DirItem"]}
{"id": "C118", "title": "Damaged items do not end a run of recover", "statement": "Whatever the items of an index contain, a run of recover does not crash: what can be recovered is recovered, also if directory entries, inode items or extent items are cut off, and it is said what cannot.", "quantifier": "every index of items stored as recon does, with arbitrary payloads, every environment (device contents, failing system calls), destination, host file system, with and without --clobber", "why_tests_cant": "every truncation of every item, anywhere in a directory tree of any shape, with every combination of failing system calls", "anchors": ["cmd/recover.go:doRecoverFiles", "cmd/recover.go:recoverDir", "cmd/recover.go:recoverFile", "cmd/recover.go:recoverSymlink", "pkg/btrfs/items.go:DirItem", "pkg/btrfs/items.go:FileExtentItem"]}
{"id": "C119", "title": "what the mounted file system shows comes from the devices that hold it", "statement": "On a file system with several devices, a read of a mounted file either fails or returns the bytes the file system has for the file: those on the device, and at the place, where its chunks store them.", "quantifier": "every index, file, set of device contents, buffer and position inside one extent of the file", "why_tests_cant": "needs all layouts of extents in chunks and all device contents; refuted: the device id Physical returns is ignored, and stripes other than the first are never read", "anchors": ["internal/rescuefs/nodefs.go:Open", "internal/rescuefs/files.go:Read", "pkg/btrfs/index/index_store.go:Physical"]}
{"id": "C120", "title": "Every request to a mounted file system is answered", "statement": "Whatever a client asks of a mounted file system (attributes, a name, the entries of a directory, opening a file, extended attributes, the target of a link, bytes of an open file), in whatever order, the request is answered after finitely many steps: with what was asked for or with an error.", "quantifier": "every index, state of the process, sequence of requests, device", "why_tests_cant": "needs all indexes, all states a session can lead to and all requests; refuted: the iteration over the items of an inode need not end. What keeps a request from being answered is characterized for every index.", "anchors": ["internal/rescuefs/nodefs.go:Lookup", "internal/rescuefs/nodefs.go:OpenDir", "internal/rescuefs/nodefs.go:Open", "internal/rescuefs/nodefs.go:GetXAttr", "internal/rescuefs/nodefs.go:ListXAttr", "internal/rescuefs/nodefs.go:Readlink", "internal/rescuefs/files.go:Read", "pkg/btrfs/index/index_store.go:Range"]}
{"id": "C121", "title": "Metadata found in several images are put together", "statement": "If the metadata of a file system are found in several images — of its devices, or partial copies of one — that do not disagree about an item, scanning them one after the other into one metadata file, in whatever order, and then recovering brings back everything that the items of all the images together give: every directory, file and link got to, with its contents, and nothing else.", "quantifier": "every non-empty list of images, every order of scanning them, every file system and destination", "why_tests_cant": "needs all ways to spread items over images, all orders and all file systems", "anchors": ["cmd/recon.go:doScanFS", "pkg/btrfs/index/index_store.go:Open", "pkg/btrfs/index/index_store.go:InsertItem", "cmd/recover.go:doRecoverFiles"]}
