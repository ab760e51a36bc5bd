/-!
# Specification vocabulary for the checksum properties

Independent of the checksum code: only the order in which bits of a buffer are numbered.
-/

namespace Verif.Crc

/-- Bits of a byte in the order in which both checksums consume them (least significant first). -/
def byteBits (x : BitVec 8) : List Bool := (List.range 8).map x.getLsbD

/-- Bits of a buffer in the order in which both checksums consume them. -/
def bits (data : List (BitVec 8)) : List Bool := data.flatMap byteBits

/-- Bit number `i` of a buffer: bytes in order, least significant bit of each byte first. -/
def bitAt (data : List (BitVec 8)) (i : Nat) : Bool := (data.getD (i / 8) 0#8).getLsbD (i % 8)

/-- Parity (`true` = odd number of ones) of a list of bits. -/
def parity : List Bool → Bool
  | [] => false
  | b :: bs => b ^^ parity bs

end Verif.Crc
