import Verif.ParamServer.Model

/-!
# The parameter tree of the studio

tools/studio/cvra_studio/network/ParameterTree.py, viewers/NestedDict.py and commands/param_tree.py: the tool that reads all parameters
of a board over CAN, shows them as a tree and lets the user change them.

Left out: the drawing of the tree, threads (one fetch at a time), the locks, the conversion of texts to numbers (a parameter of the model)
and the service of the UAVCAN library on the board, which is not in the repository: it is taken to answer with the name for the index
and the value that is read under this name, and with an empty name if there is no name for the index.
-/

namespace Verif.Studio

open Verif.Param Verif.ParamServer

/-! ## NestedDict -/

/-- A `NestedDict` as the list of its keys with their values in the order of insertion (`nil`, `cons`), or a value that is not a
dictionary (`leaf`). -/
inductive Tree (α : Type) where
  | leaf (v : α)
  | nil
  | cons (k : Str) (c : Tree α) (rest : Tree α)
deriving DecidableEq, Repr

variable {α : Type}

def Tree.isDict : Tree α → Bool
  | .leaf _ => false
  | _ => true

/-- `d[k]` without the creation of missing keys. -/
def Tree.find (k : Str) : Tree α → Option (Tree α)
  | .leaf _ => none
  | .nil => none
  | .cons k' c r => if k' = k then some c else r.find k

/-- `d[k] = c` -/
def Tree.put : Tree α → Str → Tree α → Tree α
  | .leaf v, _, _ => .leaf v
  | .nil, k, c => .cons k c .nil
  | .cons k' c' r, k, c => if k' = k then .cons k c r else .cons k' c' (r.put k c)

/-- `NestedDict.set`, NestedDict.py:15-20; missing dictionaries on the way are created (`defaultdict`). `none`: an exception, for an
empty path or if something on the way is not a dictionary. -/
def Tree.setAt (v : α) : List Str → Tree α → Option (Tree α)
  | [], _ => none
  | [k], t => if t.isDict then some (t.put k (.leaf v)) else none
  | k :: k' :: ks, t =>
    if t.isDict then
      match Tree.setAt v (k' :: ks) ((t.find k).getD .nil) with
      | none => none
      | some c => some (t.put k c)
    else none

/-! ## Values -/

/-- A `Parameter`, ParameterTree.py:9-13, by its value; its type is that of the value. -/
inductive PyVal where
  | none | bool (b : Bool) | int (v : Int) | float (v : W32) | str (s : Str)
deriving DecidableEq, Repr

inductive PyType where
  | none | bool | int | float | str
deriving DecidableEq, Repr

def PyVal.type : PyVal → PyType
  | .none => .none
  | .bool _ => .bool
  | .int _ => .int
  | .float _ => .float
  | .str _ => .str

/-- `value_to_parameter`, ParameterTree.py:16-26; `none` is Python's `None`, which has no attribute `type`. -/
def toParameter : PyVal → Option PyVal
  | .none => none
  | v => some v

/-- `extract_value`, ParameterTree.py:30-43. -/
def extract : Value → PyVal
  | .empty => .none
  | .boolean v => .bool (v ≠ 0)
  | .integer v => .int v.toInt
  | .real v => .float v
  | .string s => .str s

/-- `value_to_uavcan`, ParameterTree.py:46-59, for a text of the user: `bool` of a text says whether it is not empty; `pyInt` and
`pyFloat` are Python's conversions, which may raise an exception, as does an integer of more than 64 bits. -/
def toUavcan (pyInt : Str → Option Int) (pyFloat : Str → Option W32) (text : Str) : PyType → Option Value
  | .bool => some (.boolean (if text ≠ [] then 1 else 0))
  | .int => match pyInt text with
    | none => none
    | some v => if -2 ^ 63 ≤ v ∧ v < 2 ^ 63 then some (.integer (BitVec.ofInt 64 v)) else none
  | .float => (pyFloat text).map .real
  | .str => some (.string text)
  | .none => some .empty

/-! ## Reading all parameters -/

/-- A response of the service `GetSet`. -/
structure Resp where
  name : Str
  value : Value
deriving DecidableEq, Repr

/-- The iteration over `ParameterTree`, ParameterTree.py:78-122: from the responses to the requests for index 0, 1, 2 and so on (`none`
is a timeout) the parameters; `none` while it still waits. -/
def collect : List (Option Resp) → Option (List Resp)
  | [] => none
  | none :: _ => some []
  | some r :: rs => if r.name = [] then some [] else (collect rs).map (r :: ·)

/-- `str.split("/")` -/
def pySplit : Str → List Str
  | [] => [[]]
  | c :: t => if c = slash then [] :: pySplit t
    else match pySplit t with
      | [] => [[c]]
      | q :: qs => (c :: q) :: qs

/-- `"/".join` -/
def pyJoin : List Str → Str
  | [] => []
  | [k] => k
  | k :: ks => k ++ slash :: pyJoin ks

/-- The loop of param_tree.py:61-62. -/
def fill : List Resp → Tree (Option PyVal) → Option (Tree (Option PyVal))
  | [], t => some t
  | r :: rs, t => match t.setAt (some (extract r.value)) (pySplit r.name) with
    | none => none
    | some t => fill rs t

inductive Outcome where
  | waiting | raised | done (t : Tree (Option PyVal))
deriving DecidableEq

/-- `run`, param_tree.py:56-64. -/
def fetch (rs : List (Option Resp)) : Outcome :=
  match collect rs with
  | none => .waiting
  | some ps => match fill ps .nil with
    | none => .raised
    | some t => .done t

/-! ## Changing a parameter -/

/-- The value at a path, `self.model.params.get(keys)`. -/
def Tree.lookup : List Str → Tree α → Option α
  | [], .leaf v => some v
  | [], _ => none
  | k :: ks, t => match t.find k with
    | none => none
    | some c => c.lookup ks

/-- `_on_param_change`, param_tree.py:182-189: the request for a new text at the path `keys`; `none`: an exception. -/
def request (pyInt : Str → Option Int) (pyFloat : Str → Option W32) (t : Tree (Option PyVal))
    (keys : List Str) (text : Str) : Option Resp :=
  match t.lookup keys with
  | none => none
  | some none => none
  | some (some v) => match toUavcan pyInt pyFloat text v.type with
    | none => none
    | some u => some ⟨pyJoin keys, u⟩

/-- `_param_changed`, param_tree.py:85-91. -/
def changed (t : Tree (Option PyVal)) (r : Resp) : Option (Tree (Option PyVal)) :=
  t.setAt (toParameter (extract r.value)) (pySplit r.name)

/-! ## The board -/

/-- The response of a beacon to a request for an index. -/
def respond (fuel : Nat) (h : Heap) (root : Nat) (index : Nat) : Except Err Resp := do
  match ← nameByIndex fuel h root index with
  | none => .ok ⟨[], .empty⟩
  | some name => do
    let v ← readValue fuel h root name .empty
    pure ⟨name, v⟩

/-- The response to a request that sets a value, and the parameters afterwards. -/
def respondSet (fuel : Nat) (h : Heap) (root : Nat) (q : Resp) : Except Err (Heap × Resp) := do
  let h' ← assignValue fuel h root q.name q.value
  let v ← readValue fuel h' root q.name .empty
  pure (h', ⟨q.name, v⟩)

end Verif.Studio
