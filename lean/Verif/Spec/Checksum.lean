import Verif.Spec.Recon
import Verif.Spec.Crc
/-!
# Specification: checksums of metadata blocks

A metadata block begins with 32 bytes for the checksum of the rest. With CRC-32C, the
default, the first four of them hold it in little endian.
-/

namespace Btrfscue

/-- CRC-32C of a message: register started with ones, inverted at the end. -/
def crc32c (msg : Bytes) : BitVec 32 := ~~~ lfsr 0xFFFFFFFF#32 msg

/-- The block holds the checksum of its contents. -/
def checksumOK (b : Bytes) : Prop := b.take 4 = le32 (UInt32.ofBitVec (crc32c (b.drop 32)))

/-- Two devices are the same except in the places for the checksums of blocks. -/
structure SameButChecksums (dev dev' : Bytes) (bs : Nat) : Prop where
  length : dev.length = dev'.length
  same : ∀ i, ¬ (65536 ≤ i ∧ (i - 65536) % bs < 32) → dev[i]? = dev'[i]?

/-- No item of a leaf of file system `id` claims that its payload begins inside the
checksum of the block (which takes an offset that wraps around). -/
def payloadsBehind (dev : Bytes) (bs : Nat) (id : UUID) : Prop :=
  ∀ b ∈ scanBlocks dev bs, leafOf id b → ∀ i hdr r, blockItemRec b i hdr r → 32 ≤ r.start

end Btrfscue
