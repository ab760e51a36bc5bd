import Verif.Msgpack.Model
import Verif.Msgpack.Spec
import Verif.Param.Lemmas

/-!
# Configuration of the master: from the YAML file to the parameter tree

Model of the code generator `tools/config/parser/parser.py` and `tools/config/config_to_c.py`, of the generated C code
(the structure it declares and the calls of its initialisation function), of `master-firmware/src/config.c`, and of the
encoder `tools/config/config_to_msgpack.py`.

A YAML mapping is a `Dict` in the order of the file; keys are strings (both scripts or PyYAML would treat other keys
differently, which is not modelled). Floating point values are the 32 bits they are stored with. The generated text is
represented by the C objects it declares and the statements it contains; object expressions such as
`config.master.odometry.ns` are the list of their identifiers. Indentation and line breaks are left out.
-/

namespace Verif.Config

open Verif.Param
open HeapList (upd)

/-- Character codes of a string. -/
def str (s : String) : Str := s.toList.map Char.toNat

abbrev Path := List Str

/-- Values which are not mappings; `other` is everything the generator has no type for (lists, dates, nothing). -/
inductive Scalar where
  | bool (b : Bool)
  | int (i : Int)
  | float (v : W32)
  | str (s : Str)
  | other
deriving DecidableEq, Repr

/-- A mapping, as `yaml.safe_load` returns it. -/
inductive Dict where
  | nil
  | leaf (key : Str) (value : Scalar) (rest : Dict)
  | sub (key : Str) (value : Dict) (rest : Dict)
deriving DecidableEq, Repr

/-- Errors of the scripts. -/
inductive PyErr where
  | typeError
  | runtimeError
  | overflowError
deriving DecidableEq, Repr

/-! ## parser.py -/

/-- `depth` of a mapping, parser.py:104-111. A value which is not a mapping has depth None and counts as `level`; the
maximum of the empty mapping is the 0 returned for it. -/
def depth : Dict → Nat → Nat
  | .nil, _ => 0
  | .leaf _ _ rest, level => max level (depth rest level)
  | .sub _ d rest, level => max (depth d (level + 1)) (depth rest level)

/-- `Parameter` and `ParameterNamespace` objects: a list of them, with name, content and `parents`. -/
inductive Nodes where
  | nil
  | par (name : Str) (value : Scalar) (parents : Path) (rest : Nodes)
  | ns (name : Str) (params : Nodes) (parents : Path) (rest : Nodes)
deriving DecidableEq, Repr

/-- The branches of `parse_tree`, parser.py:114-134; `None` as the list of parameters is the empty list. -/
def pick (depth : Nat) (flat children : Nodes) : Nodes :=
  if depth = 1 then flat else if 1 < depth then children else .nil

/-- parser.py:116-124: every value becomes a `Parameter`, also an (empty) mapping, which has no type then. -/
def flat : Dict → Path → Nodes
  | .nil, _ => .nil
  | .leaf k v rest, ps => .par k v ps (flat rest ps)
  | .sub k _ rest, ps => .par k .other ps (flat rest ps)

/-- parser.py:126-132, with the recursive call of `parse_tree` on the mappings. -/
def children : Dict → Path → Nodes
  | .nil, _ => .nil
  | .leaf k v rest, ps => .par k v ps (children rest ps)
  | .sub k d rest, ps =>
    .ns k (pick (depth d 1) (flat d (ps ++ [k])) (children d (ps ++ [k]))) ps (children rest ps)

/-- `parse_tree(config, name)` at the root, parser.py:114-134: the content of the namespace `name`. -/
def parseTree (config : Dict) (name : Str) : Nodes :=
  pick (depth config 1) (flat config [name]) (children config [name])

/-- `self.name.replace("-", "_")`, parser.py:7, :40. -/
def var (name : Str) : Str := name.map (fun c => if c = 45 then 95 else c)

/-- C types of the objects in the structure. -/
inductive CTy where
  | struct | ns | par | buf
deriving DecidableEq, Repr

def bufSuffix : Str := str "_buffer"
def nsName : Str := str "ns"

/-- The objects declared by `to_struct`, parser.py:9-16, :42-62, for the content of the structure at `pre`. The
structure of a namespace is called `name` (not `var`), a parameter `var`, its buffer `var` and `_buffer`. -/
def members : Nodes → Path → List (Path × CTy)
  | .nil, _ => []
  | .par name v _ rest, pre =>
    (pre ++ [var name], .par) ::
      ((match v with
        | .str _ => [(pre ++ [var name ++ bufSuffix], .buf)]
        | _ => []) ++ members rest pre)
  | .ns name params _ rest, pre =>
    (pre ++ [name], .struct) :: (pre ++ [name, nsName], .ns) :: (members params (pre ++ [name]) ++ members rest pre)

/-- Types of parameters the generator knows. -/
inductive Ty where
  | boolean | integer | scalar | string
deriving DecidableEq, Repr

/-- Statements of the initialisation function. -/
inductive Stmt where
  | ns (obj : Path) (parent : Option Path) (id : Str)
  | par (ty : Ty) (obj ns : Path) (id : Str) (buf : Option Path)
deriving DecidableEq, Repr

/-- `Parameter.to_init_code`, parser.py:18-31. -/
def parStmt (name : Str) (ps : Path) : Scalar → Except PyErr Stmt
  | .bool _ => .ok (.par .boolean (ps ++ [var name]) (ps ++ [nsName]) name none)
  | .int _ => .ok (.par .integer (ps ++ [var name]) (ps ++ [nsName]) name none)
  | .float _ => .ok (.par .scalar (ps ++ [var name]) (ps ++ [nsName]) name none)
  | .str _ => .ok (.par .string (ps ++ [var name]) (ps ++ [nsName]) name (some (ps ++ [name ++ bufSuffix])))
  | .other => .error .typeError

/-- `to_init_code` of a list of objects, parser.py:64-101. -/
def initCode : Nodes → Except PyErr (List Stmt)
  | .nil => .ok []
  | .par name v ps rest => do
    let s ← parStmt name ps v
    let r ← initCode rest
    pure (s :: r)
  | .ns name params ps rest => do
    let b ← initCode params
    let r ← initCode rest
    pure (.ns (ps ++ [var name, nsName]) (some (ps ++ [nsName])) name :: (b ++ r))

/-- The generated file: the structure `config` and the body of `config_master_init`. -/
structure Prog where
  members : List (Path × CTy)
  stmts : List Stmt
deriving DecidableEq, Repr

def configName : Str := str "config"
def masterName : Str := str "master"

/-- One file of the loop of config_to_c.py:45-57 with the functions above: code for `{"master": config["master"]}`. -/
def generate (master : Dict) : Except PyErr Prog := do
  let tree := parseTree (.sub masterName master .nil) configName
  let code ← initCode tree
  pure { members := ([configName], .struct) :: ([configName, nsName], .ns) :: members tree [configName],
         stmts := .ns [configName, nsName] none [] :: code }

/-- `main` of config_to_c.py:41-64: all files have to give the same code. -/
def generateAll : List Dict → Option Prog → Except PyErr (Option Prog)
  | [], prev => .ok prev
  | d :: ds, prev => do
    let code ← generate d
    match prev with
    | none => generateAll ds (some code)
    | some p => if code = p then generateAll ds (some p) else .error .runtimeError

/-! ## The generated C code -/

def keywords : List Str := ["auto", "break", "case", "char", "const", "continue", "default", "do", "double", "else", "enum",
  "extern", "float", "for", "goto", "if", "inline", "int", "long", "register", "restrict", "return", "short", "signed",
  "sizeof", "static", "struct", "switch", "typedef", "union", "unsigned", "void", "volatile", "while"].map str

def isLetter (c : Nat) : Bool := (65 ≤ c && c ≤ 90) || (97 ≤ c && c ≤ 122) || c == 95
def isDigit (c : Nat) : Bool := 48 ≤ c && c ≤ 57

/-- An identifier of C (reserved names of C11 beginning with an underscore are not in the table). -/
def isIdent : Str → Bool
  | [] => false
  | c :: s => isLetter c && s.all (fun c => isLetter c || isDigit c) && !keywords.contains (c :: s)

def Stmt.wellTyped (ms : List (Path × CTy)) : Stmt → Bool
  | .ns obj parent _ => ms.contains (obj, CTy.ns) && (match parent with
    | none => true
    | some p => ms.contains (p, CTy.ns))
  | .par _ obj nsObj _ buf => ms.contains (obj, CTy.par) && ms.contains (nsObj, CTy.ns) && (match buf with
    | none => true
    | some b => ms.contains (b, CTy.buf))

/-- The C compiler accepts the generated file: names are identifiers, the members of a structure have different names,
the objects passed exist and have the right type. -/
def Prog.compiles (p : Prog) : Bool :=
  p.members.all (fun m => (m.1.getLast?.map isIdent).getD false) &&
  decide (p.members.map (·.1)).Nodup &&
  p.stmts.all (Stmt.wellTyped p.members)

/-- Cell of an object in the heaps of `Param`: objects are numbered in the order of the structure. -/
def Prog.cell (p : Prog) (o : Path) : Nat := (p.members.map (·.1)).idxOf o

/-- A statement as an operation on the parameter tree. `config` is a static object, so its memory is 0 before. The
buffers have 16 bytes (parser.py:14). -/
def Prog.op (p : Prog) : Stmt → Op
  | .ns obj parent id => .declNs (p.cell obj) (parent.map p.cell) id
  | .par .boolean obj ns id _ => .declPar (p.cell obj) (p.cell ns) id (.boolean false none)
  | .par .integer obj ns id _ => .declPar (p.cell obj) (p.cell ns) id (.integer 0 none)
  | .par .scalar obj ns id _ => .declPar (p.cell obj) (p.cell ns) id (.scalar 0 none)
  | .par .string obj ns id _ => .declPar (p.cell obj) (p.cell ns) id (.string (List.replicate 16 0) 0 none)

/-- The operations of `config_master_init`, newest first. -/
def Prog.ops (p : Prog) : List Op := (p.stmts.map p.op).reverse

/-! ## config.c -/

/-- `global_config`, `master_config`, `actuator_config`, config.c:9-11: cells behind the structure. -/
def Prog.global (p : Prog) : Nat := p.members.length
def Prog.masterCfg (p : Prog) : Nat := p.members.length + 1
def Prog.actuator (p : Prog) : Nat := p.members.length + 2

/-- `memcpy` of a namespace, config.c:18-19. -/
def copyNs (h : Heap) (src dst : Nat) : Heap :=
  { h with nsId := upd h.nsId dst (h.nsId src), cnt := upd h.cnt dst (h.cnt src), parent := upd h.parent dst (h.parent src),
           sub := upd h.sub dst (h.sub src), nsNext := upd h.nsNext dst (h.nsNext src),
           plist := upd h.plist dst (h.plist src) }

/-- `config_init`, config.c:13-21. -/
def configInit (fuel : Nat) (h0 : Heap) (p : Prog) : Except Err Heap := do
  let h ← run fuel h0 p.ops
  let h := copyNs h (p.cell [configName, nsName]) p.global
  let h := copyNs h (p.cell [configName, masterName, nsName]) p.masterCfg
  pure (nsDeclare h p.actuator (some p.global) (str "actuator"))

/-- Outcomes of `config_get_*`: the value, or use of a null pointer. -/
inductive GetErr where
  | null
  | par (e : Err)
deriving DecidableEq, Repr

def GetErr.lift {α : Type} : Except Err α → Except GetErr α
  | .ok a => .ok a
  | .error e => .error (.par e)

/-- `config_get_param`, config.c:23-34; a null pointer is returned after the message and then used. -/
def getParam (fuel : Nat) (h : Heap) (p : Prog) (id : Str) : Except GetErr Nat := do
  match ← GetErr.lift (parFind fuel h p.global id) with
  | none => .error .null
  | some q => pure q

/-- `config_get_scalar`, config.c:36-39. -/
def getScalar (fuel : Nat) (h : Heap) (p : Prog) (id : Str) : Except GetErr (Heap × W32) := do
  let q ← getParam fuel h p id
  let h ← GetErr.lift (changedClear fuel h q)
  let v ← GetErr.lift (scalarRead h q)
  pure (h, v)

/-- `config_get_integer`, config.c:41-44. -/
def getInteger (fuel : Nat) (h : Heap) (p : Prog) (id : Str) : Except GetErr (Heap × W32) := do
  let q ← getParam fuel h p id
  let h ← GetErr.lift (changedClear fuel h q)
  let v ← GetErr.lift (integerRead h q)
  pure (h, v)

/-- `config_get_boolean`, config.c:46-49. -/
def getBoolean (fuel : Nat) (h : Heap) (p : Prog) (id : Str) : Except GetErr (Heap × Bool) := do
  let q ← getParam fuel h p id
  let h ← GetErr.lift (changedClear fuel h q)
  let v ← GetErr.lift (booleanRead h q)
  pure (h, v)

/-! ## config_to_msgpack.py -/

/-- Integers in `msgpack.packb` (the shortest encoding). -/
def packInt (i : Int) : Except PyErr (List Nat) :=
  if i < -9223372036854775808 then .error .overflowError
  else if i < -2147483648 then .ok (0xD3 :: Msgpack.Spec.be 8 (i + 18446744073709551616).toNat)
  else if i < -32768 then .ok (0xD2 :: Msgpack.Spec.be 4 (i + 4294967296).toNat)
  else if i < -128 then .ok (0xD1 :: Msgpack.Spec.be 2 (i + 65536).toNat)
  else if i < -32 then .ok (0xD0 :: Msgpack.Spec.be 1 (i + 256).toNat)
  else if i < 0 then .ok [(i + 256).toNat]
  else if i < 128 then .ok [i.toNat]
  else if i < 256 then .ok (0xCC :: Msgpack.Spec.be 1 i.toNat)
  else if i < 65536 then .ok (0xCD :: Msgpack.Spec.be 2 i.toNat)
  else if i < 4294967296 then .ok (0xCE :: Msgpack.Spec.be 4 i.toNat)
  else if i < 18446744073709551616 then .ok (0xCF :: Msgpack.Spec.be 8 i.toNat)
  else .error .overflowError

/-- Values in `msgpack.packb(…, use_single_float=True)`, config_to_msgpack.py:37. What `other` is encoded as is not
modelled. -/
def packScalar : Scalar → Except PyErr (List Nat)
  | .bool b => .ok (Msgpack.Spec.bool b)
  | .int i => packInt i
  | .float v => .ok (Msgpack.Spec.float v)
  | .str s => .ok (Msgpack.Spec.str s)
  | .other => .error .typeError

def Dict.size : Dict → Nat
  | .nil => 0
  | .leaf _ _ rest => rest.size + 1
  | .sub _ _ rest => rest.size + 1

/-- The entries of a mapping. -/
def packEntries : Dict → Except PyErr (List Nat)
  | .nil => .ok []
  | .leaf k v rest => do
    let b ← packScalar v
    let r ← packEntries rest
    pure (Msgpack.Spec.str k ++ b ++ r)
  | .sub k d rest => do
    let b ← packEntries d
    let r ← packEntries rest
    pure (Msgpack.Spec.str k ++ (Msgpack.Spec.map d.size ++ b) ++ r)

/-- `msgpack.packb(config)`. -/
def pack (d : Dict) : Except PyErr (List Nat) := do
  let b ← packEntries d
  pure (Msgpack.Spec.map d.size ++ b)

/-- `config_load_from_flash`, main.cpp:57-85, for the document of the chosen robot (an unknown robot leaves `cmp`
uninitialised and is not modelled). -/
def load (W fuel : Nat) (e : Msgpack.Env) (h : Heap) (p : Prog) (doc : List Nat) : Except Err (Bool × Msgpack.RS) :=
  Msgpack.read W fuel e h p.global doc

end Verif.Config
