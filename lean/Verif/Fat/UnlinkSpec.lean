import Verif.Fat.PathSpec

/-!
# What is in a directory, independently of the code
-/

namespace Verif.Fat.Spec

/-- The entry is a file or a directory: not deleted, not `.` or `..`, not a part of a long name (attributes 0x0F) and not the label of the volume (attributes 0x08). -/
def listed (e : Item) : Prop := e 0 ≠ 0xE5 ∧ e 0 ≠ 0x2E ∧ e 11 &&& 0x3F ≠ 0x0F ∧ e 11 &&& 0x3F ≠ 0x08

/-- The first file or directory from entry `i` on is entry `i'`. -/
structure NextAt (D : List Item) (i i' : Nat) : Prop where
  after : i ≤ i'
  hit : ∃ e, D[i']? = some e ∧ listed e
  before : ∀ j, i ≤ j → j ≤ i' → ∀ e, D[j]? = some e → e 0 ≠ 0
  first : ∀ j, i ≤ j → j < i' → ∀ e, D[j]? = some e → ¬ listed e

/-- There is no file or directory from entry `i` on: entries that look like one are after the end. -/
def NoneFrom (D : List Item) (i : Nat) : Prop := ∀ (j : Nat) (e : Item), i ≤ j → D[j]? = some e → listed e → ∃ (k : Nat) (e' : Item), i ≤ k ∧ k ≤ j ∧ D[k]? = some e' ∧ e' 0 = 0

/-- The file may not be changed. -/
def readOnly (e : Item) : Prop := e 11 &&& 0x01 ≠ 0

end Verif.Fat.Spec
