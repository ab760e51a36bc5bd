/-!
# File allocation tables, independently of the code

The table of a FAT volume as Microsoft's specification of the format describes it: entries of 12, 16 or 32 bits (of which 28 are used), one after the other, least
significant byte first; two entries of 12 bits share three bytes.
-/

namespace Verif.Fat.Spec

inductive Ty where
  | fat12 | fat16 | fat32
deriving DecidableEq, Repr

/-- Number of different values of an entry -/
def range : Ty → Nat
  | .fat12 => 4096
  | .fat16 => 65536
  | .fat32 => 268435456

/-- Entry `c` of the table with the given bytes -/
def entry (ty : Ty) (b : Nat → BitVec 8) (c : Nat) : Nat :=
  match ty with
  | .fat12 => ((b (3 * c / 2)).toNat + 256 * (b (3 * c / 2 + 1)).toNat) / (if c % 2 = 1 then 16 else 1) % 4096
  | .fat16 => (b (2 * c)).toNat + 256 * (b (2 * c + 1)).toNat
  | .fat32 => ((b (4 * c)).toNat + 256 * (b (4 * c + 1)).toNat + 65536 * (b (4 * c + 2)).toNat + 16777216 * (b (4 * c + 3)).toNat) % 268435456

/-- Bytes needed for `n` entries -/
def bytes (ty : Ty) (n : Nat) : Nat :=
  match ty with
  | .fat12 => (3 * n + 1) / 2
  | .fat16 => 2 * n
  | .fat32 => 4 * n

end Verif.Fat.Spec
