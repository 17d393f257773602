import Verif.Go.Core
/-!
# Specification: CRC-32C as a bit-serial shift register

The reflected 32-bit register with feedback polynomial 0x82F63B78; the message
bits enter one at a time, each byte least significant bit first.
-/

namespace Btrfscue

/-- Shift one message bit into the register. -/
def lfsrBit (s : BitVec 32) (b : Bool) : BitVec 32 :=
  if (s.getLsbD 0) ^^ b then (s >>> 1) ^^^ 0x82F63B78#32 else s >>> 1

/-- The bits of a byte, least significant first. -/
def byteBits (v : UInt8) : List Bool := (List.range 8).map fun i => v.toBitVec.getLsbD i

/-- The register after a message, started at `s`. -/
def lfsr (s : BitVec 32) (msg : Bytes) : BitVec 32 := (msg.flatMap byteBits).foldl lfsrBit s

end Btrfscue
