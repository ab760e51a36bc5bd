import Verif.Fat.DirSpec
import Verif.Fat.NameSpec
import Verif.Fat.SyncSpec

/-!
# Paths, independently of the code

A path is a text of names with slashes between them. Directories are given by their first cluster, the root by 0.
-/

namespace Verif.Fat.Spec

def slash (c : BitVec 8) : Prop := c = 0x2F ∨ c = 0x5C

/-- The text is a path of these names, given in the form they have in directories; the characters satisfy `P`. The text ends with the list or with a blank or control character. -/
inductive Text (P : BitVec 8 → Prop) : List (BitVec 8) → List (List (BitVec 8)) → Prop
  | last {seps s tail body ext : List (BitVec 8)} : (∀ c ∈ seps, slash c) → Name83 s body ext → (∀ c ∈ s, P c) → (∀ c ∈ tail.head?, c ≤ 0x20) → Text P (seps ++ s ++ tail) [stored body ext]
  | more {seps s rest body ext : List (BitVec 8)} {c : BitVec 8} {ns : List (List (BitVec 8))} : (∀ c ∈ seps, slash c) → Name83 s body ext → (∀ c ∈ s, P c) → slash c → Text P rest ns →
      Text P (seps ++ s ++ c :: rest) (stored body ext :: ns)

/-- No proper name begins the text after its slashes: there is none, or one that is not of the form 8.3 (names beginning with a dot left aside). -/
inductive NoName : List (BitVec 8) → Prop
  | none {seps tail : List (BitVec 8)} : (∀ c ∈ seps, slash c) → (∀ c ∈ tail.head?, c ≤ 0x20) → NoName (seps ++ tail)
  | wrong {seps s tail : List (BitVec 8)} : (∀ c ∈ seps, slash c) → s ≠ [] → (∀ c ∈ s, stops c = false) → s.head? ≠ some 0x2E → (¬ ∃ body ext, Name83 s body ext) → NoName (seps ++ s ++ tail)

/-- The text is a path of these names, each followed by a slash, and then no proper name. -/
inductive Trail (P : BitVec 8 → Prop) : List (BitVec 8) → List (List (BitVec 8)) → Prop
  | here {t : List (BitVec 8)} : NoName t → Trail P t []
  | more {seps s rest body ext : List (BitVec 8)} {c : BitVec 8} {ns : List (List (BitVec 8))} : (∀ c ∈ seps, slash c) → Name83 s body ext → (∀ c ∈ s, P c) → slash c → Trail P rest ns →
      Trail P (seps ++ s ++ c :: rest) (stored body ext :: ns)

/-- The path of the root: empty, or one slash -/
def Origin (path : List (BitVec 8)) : Prop := ∃ p tail : List (BitVec 8), path = p ++ tail ∧ (p = [] ∨ ∃ c, slash c ∧ p = [c]) ∧ ∀ c ∈ tail.head?, c < 0x20

/-- The name as a function -/
def nameOf (n : List (BitVec 8)) : Nat → BitVec 8 := fun j => n.getD j 0

/-- The entry is a directory. -/
def isDir (e : Item) : Prop := e 11 &&& 0x10 ≠ 0

/-- Where a path leads -/
inductive Outcome where
  /-- to entry `i` of the directory `cl` -/
  | found (cl i : Nat)
  /-- to the directory `cl`, which has no such name -/
  | missing (cl : Nat)
  /-- nowhere -/
  | noPath

/-- Where a path from the directory `cl` on leads, given the entries of all directories -/
inductive Resolves (dir : Nat → List Item) (ty : Ty) : Nat → List (List (BitVec 8)) → Outcome → Prop
  | found {cl i : Nat} {n : List (BitVec 8)} : FoundAt (dir cl) (nameOf n) i → Resolves dir ty cl [n] (.found cl i)
  | missing {cl : Nat} {n : List (BitVec 8)} : Absent (dir cl) (nameOf n) → Resolves dir ty cl [n] (.missing cl)
  | lost {cl : Nat} {n m : List (BitVec 8)} {ns : List (List (BitVec 8))} : Absent (dir cl) (nameOf n) → Resolves dir ty cl (n :: m :: ns) .noPath
  | file {cl i : Nat} {n m : List (BitVec 8)} {ns : List (List (BitVec 8))} {e : Item} : FoundAt (dir cl) (nameOf n) i → (dir cl)[i]? = some e → ¬ isDir e → Resolves dir ty cl (n :: m :: ns) .noPath
  | down {cl i : Nat} {n m : List (BitVec 8)} {ns : List (List (BitVec 8))} {e : Item} {o : Outcome} : FoundAt (dir cl) (nameOf n) i → (dir cl)[i]? = some e → isDir e →
      Resolves dir ty (start ty e 0) (m :: ns) o → Resolves dir ty cl (n :: m :: ns) o

/-- All names are directories, the last one is `cl'`. -/
inductive Walks (dir : Nat → List Item) (ty : Ty) : Nat → List (List (BitVec 8)) → Nat → Prop
  | stay {cl : Nat} : Walks dir ty cl [] cl
  | down {cl cl' i : Nat} {n : List (BitVec 8)} {ns : List (List (BitVec 8))} {e : Item} : FoundAt (dir cl) (nameOf n) i → (dir cl)[i]? = some e → isDir e → Walks dir ty (start ty e 0) ns cl' →
      Walks dir ty cl (n :: ns) cl'

end Verif.Fat.Spec
