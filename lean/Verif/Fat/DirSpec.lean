/-!
# Directories, independently of the code

A directory is a list of entries of 32 bytes. The first byte of an entry is 0 where the directory ends and 0xE5 where an entry was deleted. The first eleven bytes are the name; entries with bit 3 of byte 11
set are labels of volumes or parts of long names, not files.
-/

namespace Verif.Fat.Spec

abbrev Item := Nat → BitVec 8

/-- The entry has the name `fn` and is a file or directory. -/
def named (fn : Nat → BitVec 8) (e : Item) : Prop := e 11 &&& 8 = 0 ∧ ∀ j, j < 11 → e j = fn j

/-- Where the name `fn` is found: at the first entry with this name, before the end -/
structure FoundAt (D : List Item) (fn : Nat → BitVec 8) (i : Nat) : Prop where
  hit : ∃ e, D[i]? = some e ∧ named fn e
  before : ∀ j, j ≤ i → ∀ e, D[j]? = some e → e 0 ≠ 0
  first : ∀ j, j < i → ∀ e, D[j]? = some e → ¬ named fn e

/-- The name is not in the directory: entries with it are after the end. -/
def Absent (D : List Item) (fn : Nat → BitVec 8) : Prop := ∀ (i : Nat) (e : Item), D[i]? = some e → named fn e → ∃ (j : Nat) (e' : Item), j ≤ i ∧ D[j]? = some e' ∧ e' 0 = 0

/-- The first entry that may be used for a new file -/
structure FreeAt (D : List Item) (i : Nat) : Prop where
  free : ∃ e, D[i]? = some e ∧ (e 0 = 0xE5 ∨ e 0 = 0)
  first : ∀ j, j < i → ∀ e, D[j]? = some e → e 0 ≠ 0xE5 ∧ e 0 ≠ 0

/-- All entries are in use. -/
def Full (D : List Item) : Prop := ∀ e ∈ D, e 0 ≠ 0xE5 ∧ e 0 ≠ 0

/-- After the end there are only zeros in first bytes. -/
def Tidy (D : List Item) : Prop := ∀ (i j : Nat) (e e' : Item), i ≤ j → D[i]? = some e → D[j]? = some e' → e 0 = 0 → e' 0 = 0

/-- No two files have the same name. -/
def Distinct (D : List Item) : Prop := ∀ (fn : Nat → BitVec 8) (i j : Nat) (e e' : Item), D[i]? = some e → D[j]? = some e' → e 0 ≠ 0 → e' 0 ≠ 0 → e 0 ≠ 0xE5 → named fn e → named fn e' → i = j

/-- A new entry: the name, and zeros -/
def fresh (fn : Nat → BitVec 8) : Item := fun j => if j < 11 then fn j else 0

/-- A deleted entry -/
def deleted : Item := fun j => if j = 0 then 0xE5 else 0

/-- Names are the same if their eleven bytes are. -/
def alike (a b : Nat → BitVec 8) : Prop := ∀ j, j < 11 → a j = b j

/-- Names of files begin neither with 0 nor with 0xE5. -/
def proper (fn : Nat → BitVec 8) : Prop := fn 0 ≠ 0 ∧ fn 0 ≠ 0xE5

/-! ## A directory is a set of names. -/

inductive Ask where
  | find (fn : Nat → BitVec 8)
  | create (fn : Nat → BitVec 8)
  | remove (fn : Nat → BitVec 8)

inductive Reply where
  | done | missing | already | full
deriving DecidableEq

/-- The replies to a question, and the set afterwards; a directory may be full. -/
inductive Act (P : (Nat → BitVec 8) → Prop) : Ask → Reply → ((Nat → BitVec 8) → Prop) → Prop
  | found {fn : Nat → BitVec 8} : P fn → Act P (.find fn) .done P
  | notFound {fn : Nat → BitVec 8} : ¬ P fn → Act P (.find fn) .missing P
  | created {fn : Nat → BitVec 8} : ¬ P fn → Act P (.create fn) .done (fun g => P g ∨ alike g fn)
  | exists_ {fn : Nat → BitVec 8} : P fn → Act P (.create fn) .already P
  | full {fn : Nat → BitVec 8} : ¬ P fn → Act P (.create fn) .full P
  | removed {fn : Nat → BitVec 8} : P fn → Act P (.remove fn) .done (fun g => P g ∧ ¬ alike g fn)
  | notThere {fn : Nat → BitVec 8} : ¬ P fn → Act P (.remove fn) .missing P

/-- The replies to a sequence of questions; only proper names count. -/
inductive Acts : ((Nat → BitVec 8) → Prop) → List Ask → List Reply → ((Nat → BitVec 8) → Prop) → Prop
  | none {P Q : (Nat → BitVec 8) → Prop} : (∀ fn, proper fn → (P fn ↔ Q fn)) → Acts P [] [] Q
  | some {P P' P'' Q : (Nat → BitVec 8) → Prop} {a : Ask} {r : Reply} {as : List Ask} {rs : List Reply} : Act P a r P' → (∀ fn, proper fn → (P' fn ↔ P'' fn)) → Acts P'' as rs Q → Acts P (a :: as) (r :: rs) Q

def Ask.name : Ask → Nat → BitVec 8
  | .find fn => fn
  | .create fn => fn
  | .remove fn => fn

end Verif.Fat.Spec
