import Verif.Fat.Spec

/-!
# Names of files on DOS volumes, independently of the code
-/

namespace Verif.Fat.Spec

/-- A large letter in the Windows code page 1252: beside the letters of ASCII those with accents, `0xD7` and `0xF7` being signs and `0xDF` having no large form -/
def upper (c : BitVec 8) : BitVec 8 :=
  if 0x61 ≤ c ∧ c ≤ 0x7A then c - 0x20
  else if 0xE0 ≤ c ∧ c ≤ 0xFE ∧ c ≠ 0xF7 then c - 0x20
  else if c = 0x9A ∨ c = 0x9C ∨ c = 0x9E then c - 0x10
  else if c = 0xFF then 0x9F
  else c

/-- What ends a part of a path: blanks and control characters, slashes -/
def stops (c : BitVec 8) : Bool := c ≤ 0x20 || c == 0x2F || c == 0x5C

/-- Characters that a name may have, apart from the dot between its parts: none of `"*+,:;<=>?[]|` and DEL -/
def legal (c : BitVec 8) : Bool :=
  !stops c && c != 0x2E && ![0x22, 0x2A, 0x2B, 0x2C, 0x3A, 0x3B, 0x3C, 0x3D, 0x3E, 0x3F, 0x5B, 0x5D, 0x7C, 0x7F].contains c

/-- `s` is a name of the form 8.3 with this body and this extension. -/
structure Name83 (s body ext : List (BitVec 8)) : Prop where
  text : (s = body ∧ ext = []) ∨ s = body ++ 0x2E :: ext
  body : body ≠ [] ∧ body.length ≤ 8 ∧ ∀ c ∈ body, legal c = true
  ext : ext.length ≤ 3 ∧ ∀ c ∈ ext, legal c = true

/-- The eleven bytes of the name in a directory -/
def stored (body ext : List (BitVec 8)) : List (BitVec 8) :=
  let b := body.map upper
  let e := ext.map upper
  b ++ List.replicate (8 - b.length) 0x20 ++ e ++ List.replicate (3 - e.length) 0x20

/-- How the name is written -/
def shown (body ext : List (BitVec 8)) : List (BitVec 8) := body.map upper ++ (if ext = [] then [] else 0x2E :: ext.map upper)

end Verif.Fat.Spec
