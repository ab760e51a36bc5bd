import Verif.Config.Model
import Verif.Param.Spec

/-! # Configuration: what the YAML file means -/

namespace Verif.Config

open Verif.Param

/-- The value `v` is at the keys `q`. -/
inductive Leaf : Dict → Path → Scalar → Prop where
  | here (k : Str) (v : Scalar) (r : Dict) : Leaf (.leaf k v r) [k] v
  | skipLeaf {k : Str} {w : Scalar} {r : Dict} {q : Path} {v : Scalar} : Leaf r q v → Leaf (.leaf k w r) q v
  | skipSub {k : Str} {d r : Dict} {q : Path} {v : Scalar} : Leaf r q v → Leaf (.sub k d r) q v
  | deep {k : Str} {d r : Dict} {q : Path} {v : Scalar} : Leaf d q v → Leaf (.sub k d r) (k :: q) v

/-- There is a mapping at the keys `q` (not empty). -/
inductive Sub : Dict → Path → Prop where
  | here (k : Str) (d r : Dict) : Sub (.sub k d r) [k]
  | skipLeaf {k : Str} {w : Scalar} {r : Dict} {q : Path} : Sub r q → Sub (.leaf k w r) q
  | skipSub {k : Str} {d r : Dict} {q : Path} : Sub r q → Sub (.sub k d r) q
  | deep {k : Str} {d r : Dict} {q : Path} : Sub d q → Sub (.sub k d r) (k :: q)

/-- No mapping inside is empty. -/
def NoEmpty : Dict → Prop
  | .nil => True
  | .leaf _ _ r => NoEmpty r
  | .sub _ d r => d ≠ .nil ∧ NoEmpty d ∧ NoEmpty r

/-- All values are of a type the generator knows. -/
def Supported (d : Dict) : Prop := ∀ q, ¬ Leaf d q .other

/-- Keys directly in a mapping. -/
def keys : Dict → List Str
  | .nil => []
  | .leaf k _ r => k :: keys r
  | .sub k _ r => k :: keys r

/-- A mapping has no key twice (YAML forbids it). -/
def DistinctKeys : Dict → Prop
  | .nil => True
  | .leaf k _ r => k ∉ keys r ∧ DistinctKeys r
  | .sub k d r => k ∉ keys r ∧ DistinctKeys d ∧ DistinctKeys r

/-- Names which cause no trouble: identifiers of C, not `ns`, not ending in `_buffer`. -/
def GoodName (k : Str) : Prop := isIdent k = true ∧ k ≠ str "ns" ∧ ¬ str "_buffer" <:+ k

def GoodNames : Dict → Prop
  | .nil => True
  | .leaf k _ r => GoodName k ∧ GoodNames r
  | .sub k d r => GoodName k ∧ GoodNames d ∧ GoodNames r

/-- Type of a value. -/
def Scalar.ty : Scalar → Option Ty
  | .bool _ => some .boolean
  | .int _ => some .integer
  | .float _ => some .scalar
  | .str _ => some .string
  | .other => none

/-- A parameter of this type. -/
def HasTy : Ty → Val → Prop
  | .boolean, .boolean _ => True
  | .integer, .integer _ => True
  | .scalar, .scalar _ => True
  | .string, .string buf _ => buf.length = 16
  | _, _ => False

/-- The value a parameter has to have. -/
def Scalar.value : Scalar → Option AVal
  | .bool b => some (.boolean b)
  | .int i => some (.integer (BitVec.ofInt 32 i))
  | .float v => some (.scalar v)
  | .str s => some (.string s)
  | .other => none

/-- The value can be held by a parameter: integers have 32 bits, strings at most 15 characters. -/
def Scalar.fits : Scalar → Prop
  | .int i => -2147483648 ≤ i ∧ i < 2147483648
  | .str s => s.length < 16
  | .other => False
  | _ => True

/-- The object of the generated structure for the keys `q`. -/
def parObj (q : Path) : Path := configName :: (q.dropLast ++ q.getLast?.toList.map var)
def nsObj (q : Path) : Path := configName :: (q ++ [nsName])

end Verif.Config
