import Verif.Fat.RenameSpec
import Verif.Fat.MkdirSpec

/-!
# Moving to another directory, independently of the code
-/

namespace Verif.Fat.Spec

/-- The entry `x` with the cluster `p` in its bytes 26, 27, 20 and 21 -/
def leadsTo (x : Item) (p : Nat) : Item := fun j => if j = 20 ∨ j = 21 then part p (j - 18) else if j = 26 ∨ j = 27 then part p (j - 26) else x j

/-- A directory with the entries `D` has the entries `D'` in its new place, which is in the directory `p`: the second one, if it is `..`, leads to `p`, and the others are the same. -/
def Adopted (D D' : List Item) (p : Nat) : Prop := ∃ x, D[1]? = some x ∧ D' = if x 1 = 0x2E then D.set 1 (leadsTo x p) else D

end Verif.Fat.Spec
