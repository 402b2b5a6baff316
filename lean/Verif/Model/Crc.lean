import Verif.Model.FeaturePack
/-
Model of `boost::crc_32_type` as used by /repo/src/db/feature_pack.cc:33-47: `crc_optimal<32, 0x04C11DB7, 0xFFFFFFFF, 0xFFFFFFFF, true, true>`.
Boost works with a table per byte; the model is the bitwise definition of the same checksum (reflected: the lowest bit of a byte comes first).
-/
namespace Tiles

/-- the polynomial 0x04C11DB7 with its bits reversed (reflected input) -/
def crcPoly : BitVec 32 := 0xEDB88320#32

/-- one bit of input -/
def crcBit (s : BitVec 32) (b : Bool) : BitVec 32 :=
  if s.getLsbD 0 ^^ b then (s >>> 1) ^^^ crcPoly else s >>> 1

/-- the bits of a byte, lowest first -/
def byteBits (c : UInt8) : List Bool :=
  [c.toNat.testBit 0, c.toNat.testBit 1, c.toNat.testBit 2, c.toNat.testBit 3, c.toNat.testBit 4, c.toNat.testBit 5, c.toNat.testBit 6, c.toNat.testBit 7]

/-- `process_bytes`: the remainder after the bytes -/
def crcBytes (s : BitVec 32) : Bytes → BitVec 32
  | [] => s
  | c :: cs => crcBytes ((byteBits c).foldl crcBit s) cs

/-- feature_pack.cc:34-36, 43-46: `checksum()` after `process_bytes` -/
def crc32 (bs : Bytes) : UInt32 := ⟨crcBytes 0xFFFFFFFF#32 bs ^^^ 0xFFFFFFFF#32⟩

end Tiles
