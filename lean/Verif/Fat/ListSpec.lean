import Verif.Fat.UnlinkSpec

/-!
# What is to be listed, independently of the code
-/

namespace Verif.Fat.Spec

instance (e : Item) : Decidable (listed e) := inferInstanceAs (Decidable (_ ∧ _ ∧ _ ∧ _))

/-- The files and directories in a directory, in their order: of the entries before the end those that are files or directories -/
def listing (D : List Item) : List Item := (D.takeWhile fun e => e 0 ≠ 0).filter fun e => listed e

/-- The name consists of blanks only. -/
def blank (e : Item) : Prop := ∀ j, j < 11 → e j = 0x20

end Verif.Fat.Spec
