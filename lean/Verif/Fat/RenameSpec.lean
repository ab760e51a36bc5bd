import Verif.Fat.ChangeSpec

/-!
# Renaming, independently of the code
-/

namespace Verif.Fat.Spec

/-- The entry of the object `e` under another name: marked for the archive, the reserved byte is 0, and all else is the same. -/
def moved (e : Item) (fn : Nat → BitVec 8) : Item := fun j => if j < 11 then fn j else if j = 11 then e 11 ||| 0x20 else if j = 12 then 0 else if j < 32 then e j else 0

end Verif.Fat.Spec
