import Verif.Fat.UnlinkSpec

/-!
# Files that are made or emptied, independently of the code
-/

namespace Verif.Fat.Spec

/-- The entry of a file that is made or emptied at the time `tm`: the name stays, there are no attributes, the time of creation (bytes 14 to 17), size 0 (bytes 28 to 31) and no cluster (bytes 20, 21, 26 and 27) -/
def emptied (e : Item) (tm : Nat) : Item := fun j =>
  if j = 11 then 0
  else if 14 ≤ j ∧ j < 18 then BitVec.ofNat 8 (tm / 256 ^ (j - 14))
  else if j = 20 ∨ j = 21 ∨ (26 ≤ j ∧ j < 32) then 0
  else e j

/-- The entries other than `i` are as before; there may be more of them. -/
def Beside (D D' : List Item) (i : Nat) : Prop := ∀ j, j < D.length → j ≠ i → D'[j]? = D[j]?

end Verif.Fat.Spec
