import Verif.Param.Lemmas
import Verif.Upload.Model

/-! # Uploading a configuration: what it means -/

namespace Verif.Upload

open Verif.Param

/-- The boards as they are: node `k` has the history `l k`. -/
structure Boards (fuel root N : Nat) (h0 : Nat → Heap) (l : Nat → List Op) (w : World) : Prop where
  proper : ∀ k, Proper (l k)
  root : ∀ k, root ∈ nss (l k)
  ran : ∀ k, run fuel (h0 k) (l k) = .ok (w k)
  room : ∀ k, (l k).length + N ≤ fuel

/-- The configuration has the value `v` at this path of keys. -/
inductive Has : Items → List Str → Leaf → Prop where
  | leaf {key : Str} {v : Leaf} {rest : Items} : Has (.cons key (.leaf v) rest) [key] v
  | dict {key : Str} {items rest : Items} {path : List Str} {v : Leaf} : Has items path v → Has (.cons key (.dict items) rest) (key :: path) v
  | later {key : Str} {c : Cfg} {rest : Items} {path : List Str} {v : Leaf} : Has rest path v → Has (.cons key c rest) path v

def keys : Items → List Str
  | .nil => []
  | .cons key _ rest => key :: keys rest

/-! No dictionary has a key twice. -/
mutual
def Uniq : Items → Prop
  | .nil => True
  | .cons key c rest => key ∉ keys rest ∧ UniqIn c ∧ Uniq rest
def UniqIn : Cfg → Prop
  | .leaf _ => True
  | .dict items => Uniq items
end

/-- Keys that can be identifiers: not empty, without slash, C strings. -/
def Clean (items : Items) : Prop := ∀ path v, Has items path v → ∀ key ∈ path, key ≠ [] ∧ slash ∉ key ∧ 0 ∉ key

/-- The parameter `p` is declared at this path below the namespace `root`. -/
def Named (l : List Op) (root : Nat) (path : List Str) (p : Nat) : Prop :=
  ∃ cs c, path = cs ++ [c] ∧ p ∈ pars l ∧ parIdOf p l = c ∧ AtPath l root cs (nsOf p l)

/-- The value that an entry of the configuration means for a parameter declared as `d`: floats for scalars, integers
(without the extremes of 32 bits) for integers, booleans for booleans. -/
def wanted : Decl → Leaf → Option AVal
  | .scalar _ _, .real w => some (.scalar w)
  | .integer _ _, .int z => if -2147483647 ≤ z ∧ z ≤ 2147483646 then some (.integer (BitVec.ofInt 32 z)) else none
  | .boolean _ _, .bool b => some (.boolean b)
  | _, _ => none

/-- The number of entries of some configurations. -/
def entries (configs : List (Str × Items)) : Nat := (configs.map (fun c => (paramsOf [] c.2).length)).sum

end Verif.Upload
