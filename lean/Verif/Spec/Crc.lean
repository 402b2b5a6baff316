import Verif.Model.Crc
/-! Specification vocabulary for damaged packs. -/
namespace Tiles.Spec

/-- the bits of the bytes in the order of transmission: byte by byte, lowest bit first -/
def bitsOf : Bytes → List Bool
  | [] => []
  | c :: cs => [c.toNat.testBit 0, c.toNat.testBit 1, c.toNat.testBit 2, c.toNat.testBit 3, c.toNat.testBit 4, c.toNat.testBit 5, c.toNat.testBit 6,
      c.toNat.testBit 7] ++ bitsOf cs

end Tiles.Spec
