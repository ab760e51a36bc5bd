import Verif.Fat.OpenSpec

/-!
# New directories, independently of the code
-/

namespace Verif.Fat.Spec

/-- Byte `i` of a number, the lowest first -/
def part (v i : Nat) : BitVec 8 := BitVec.ofNat 8 (v / 256 ^ i)

/-- The entry of a directory with the cluster `c`, made at the time `tm`: the name, the attribute of directories, the time of the last write (bytes 22 to 25), the cluster (bytes 26, 27, 20 and 21); its size is 0 -/
def folder (name : Nat → BitVec 8) (c tm : Nat) : Item := fun j =>
  if j < 11 then name j
  else if j = 11 then 0x10
  else if j = 20 ∨ j = 21 then part c (j - 18)
  else if 22 ≤ j ∧ j < 26 then part tm (j - 22)
  else if j = 26 ∨ j = 27 then part c (j - 26)
  else 0

/-- The names `.` and `..` -/
def dot : Nat → BitVec 8 := fun j => if j = 0 then 0x2E else 0x20
def dotDot : Nat → BitVec 8 := fun j => if j < 2 then 0x2E else 0x20

/-- The `n` sectors of an empty directory: it has an entry for itself and one for the directory it is in, and no other -/
def bare (own parent tm n : Nat) : List Item := folder dot own tm :: folder dotDot parent tm :: List.replicate (16 * n - 2) fun _ => 0

end Verif.Fat.Spec
