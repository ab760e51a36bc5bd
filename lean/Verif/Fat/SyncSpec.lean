import Verif.Fat.Spec

/-!
# Directory entries, independently of the code

An entry of a directory of a FAT volume has 32 bytes: the name in bytes 0 to 10, attributes in byte 11, the size in bytes 28 to 31, the first cluster in bytes 26 and 27 and, on volumes with
entries of 32 bits, bytes 20 and 21.
-/

namespace Verif.Fat.Spec

/-- The number in the bytes from `i` on, least significant byte first -/
def le2 (b : Nat → BitVec 8) (i : Nat) : Nat := (b i).toNat + 256 * (b (i + 1)).toNat
def le4 (b : Nat → BitVec 8) (i : Nat) : Nat := (b i).toNat + 256 * (b (i + 1)).toNat + 65536 * (b (i + 2)).toNat + 16777216 * (b (i + 3)).toNat

/-- The size and the first cluster (0: none) in the entry at `o` -/
def size (b : Nat → BitVec 8) (o : Nat) : Nat := le4 b (o + 28)
def start (ty : Ty) (b : Nat → BitVec 8) (o : Nat) : Nat := le2 b (o + 26) + (if ty = .fat32 then 65536 * le2 b (o + 20) else 0)

end Verif.Fat.Spec
