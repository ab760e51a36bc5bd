import Verif.Fat.MkdirSpec

/-!
# Attributes and times, independently of the code
-/

namespace Verif.Fat.Spec

/-- The attributes that may be changed: read only, hidden, system and archive -/
def free (k : Nat) : Prop := k = 0 ∨ k = 1 ∨ k = 2 ∨ k = 5

/-- Entry `e'` is `e` with the attributes of `mask` as in `value`. -/
structure Flagged (e e' : Item) (value mask : BitVec 8) : Prop where
  bits : ∀ k, free k → mask.getLsbD k = true → (e' 11).getLsbD k = value.getLsbD k
  kept : ∀ k, ¬ (free k ∧ mask.getLsbD k = true) → (e' 11).getLsbD k = (e 11).getLsbD k
  rest : ∀ j, j ≠ 11 → e' j = e j

/-- Entry `e'` is `e` with another time and date of the last change. -/
structure Stamped (e e' : Item) (time date : Nat) : Prop where
  time : le2 e' 22 = time % 65536
  date : le2 e' 24 = date % 65536
  rest : ∀ j, ¬ (22 ≤ j ∧ j < 26) → e' j = e j

end Verif.Fat.Spec
