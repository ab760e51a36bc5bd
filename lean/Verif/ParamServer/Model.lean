import Verif.Param.Model

/-!
# Parameters over UAVCAN

Model of the parameter managers of two boards:
uwb-beacon-firmware/src/uavcan/parameter_enumeration.cpp and parameter_server.cpp,
motor-control-firmware/src/uavcan/parameter_server.cpp,
on top of the model of the parameter tree (`Verif.Param`).

The UAVCAN library is outside: its `Name` and string values are lists of character codes. `Name` holds at most 92
characters; the model does not cut longer names (the names of the two boards are shorter, proved in `Props`). `int`
counters are natural numbers. Saving and erasing (`saveAllParams`, `eraseAllParams`) are in `Verif.Flash`.
-/

namespace Verif.ParamServer

open Verif.Param

/-! ## Enumeration (beacon) -/

/-- The loop over the parameters of one namespace, parameter_enumeration.cpp:5-13: parameter found and counter. -/
def parLoop (next : Nat → Option Nat) (wanted : Nat) : Nat → Option Nat → Nat → Except Err (Option Nat × Nat)
  | _, none, cur => .ok (none, cur)
  | 0, some _, _ => .error .fuel
  | f + 1, some p, cur => if cur = wanted then .ok (some p, cur) else parLoop next wanted f (next p) (cur + 1)

/-- The loop over the subspaces, :15-25; `rec` is the recursive call. -/
def nsLoop (rec : Nat → Nat → Except Err (Option Nat × Nat)) (next : Nat → Option Nat) :
    Nat → Option Nat → Nat → Except Err (Option Nat × Nat)
  | _, none, cur => .ok (none, cur)
  | 0, some _, _ => .error .fuel
  | f + 1, some n, cur => do
    let r ← rec n cur
    match r with
    | (some p, cur) => .ok (some p, cur)
    | (none, cur) => nsLoop rec next f (next n) cur

/-- `_parameter_find_by_index`, :3-28; the first argument bounds the depth of the recursion. -/
def byIndexFrom (fuel : Nat) (h : Heap) (wanted : Nat) : Nat → Nat → Nat → Except Err (Option Nat × Nat)
  | 0, _, _ => .error .fuel
  | d + 1, n, cur => do
    let r ← parLoop h.parNext wanted fuel (h.plist n) cur
    match r with
    | (some p, cur) => .ok (some p, cur)
    | (none, cur) => nsLoop (byIndexFrom fuel h wanted d) h.nsNext fuel (h.sub n) cur

/-- `parameter_find_by_index`, :30-34. -/
def findByIndex (fuel : Nat) (h : Heap) (root : Nat) (index : Nat) : Except Err (Option Nat) := do
  let r ← byIndexFrom fuel h index fuel root 0
  pure r.1

/-- `parameter_tree_height`, :36-47. -/
def heightLoop (parent : Nat → Option Nat) : Nat → Option Nat → Nat → Except Err Nat
  | _, none, i => .ok i
  | 0, some _, _ => .error .fuel
  | f + 1, some n, i => heightLoop parent f (parent n) (i + 1)

def treeHeight (fuel : Nat) (h : Heap) (p : Nat) : Except Err Nat := heightLoop h.parent fuel (some (h.parNs p)) 0

/-- The inner loop of `construct_full_name_for_parameter`, uwb-beacon parameter_server.cpp:18-20. Following NULL is an
error. -/
def up (parent : Nat → Option Nat) : Nat → Nat → Except Err Nat
  | 0, n => .ok n
  | k + 1, n =>
    match parent n with
    | none => .error .outOfBounds
    | some m => up parent k m

/-- The outer loop, :14-24, on the height. -/
def nameLoop (h : Heap) (p : Nat) : Nat → Str → Except Err Str
  | k + 2, name => do
    let n ← up h.parent k (h.parNs p)
    nameLoop h p (k + 1) (name ++ h.nsId n ++ [slash])
  | _, name => .ok name

/-- `construct_full_name_for_parameter`, :9-27. -/
def fullName (fuel : Nat) (h : Heap) (p : Nat) : Except Err Str := do
  let height ← treeHeight fuel h p
  let name ← nameLoop h p height [slash]
  pure (name ++ h.parId p)

/-- `getParamNameByIndex` of the beacon, :33-41: the name, or none if `out_name` is left alone. -/
def nameByIndex (fuel : Nat) (h : Heap) (root : Nat) (index : Nat) : Except Err (Option Str) := do
  match ← findByIndex fuel h root index with
  | none => .ok none
  | some p => do
    let name ← fullName fuel h p
    pure (some name)

/-! ## Access by name (both boards) -/

/-- `uavcan::protocol::param::Value`: `integer` is 64 bits, `boolean` 8 bits. -/
inductive Value where
  | empty
  | integer (v : BitVec 64)
  | real (v : W32)
  | boolean (v : BitVec 8)
  | string (s : Str)
deriving DecidableEq, Repr

/-- `c_str()`: the characters before the first NUL. -/
def cStr (s : Str) : Str := s.takeWhile (· ≠ 0)

/-- `assignParamValue`, uwb-beacon parameter_server.cpp:45-75 and motor-control-firmware parameter_server.cpp:72-103 (the
same code). -/
def assignValue (fuel : Nat) (h : Heap) (root : Nat) (name : Str) (value : Value) : Except Err Heap := do
  match ← parFind fuel h root (cStr name) with
  | none => .ok h
  | some p =>
    match h.val p, value with
    | .scalar _, .real v => scalarSet fuel h p v
    | .integer _, .integer v =>
      if -2147483648 < v.toInt ∧ v.toInt < 2147483647 then integerSet fuel h p (v.setWidth 32) else .ok h
    | .boolean _, .boolean v => booleanSet fuel h p (v ≠ 0)
    | .string _ _, .string s => stringSet fuel h p (cStr s)
    | _, _ => .ok h

/-- `sizeof(p)` for the pointer `p`, uwb-beacon parameter_server.cpp:101 and motor-control-firmware
parameter_server.cpp:129, on a 32 bit processor. -/
def ptrSize : Nat := 4

/-- `readParamValue`, uwb-beacon parameter_server.cpp:80-104 and motor-control-firmware parameter_server.cpp:108-132 (the
same code); `out` is what was in `out_value`. -/
def readValue (fuel : Nat) (h : Heap) (root : Nat) (name : Str) (out : Value) : Except Err Value := do
  match ← parFind fuel h root (cStr name) with
  | none => .ok out
  | some p =>
    if parDefined h (some p) then
      match h.val p with
      | .scalar _ => do let v ← scalarRead h p; pure (.real v)
      | .integer _ => do let v ← integerRead h p; pure (.integer (v.signExtend 64))
      | .boolean _ => do let v ← booleanRead h p; pure (.boolean (if v then 1 else 0))
      | .string _ _ => do let r ← stringRead h p ptrSize; pure (.string (cStr r.2))
      | _ => .ok out
    else .ok out

/-! ## The motor board's table -/

def str (s : String) : Str := s.toList.map Char.toNat

/-- `exposed_parameters`, motor-control-firmware parameter_server.cpp:7-54. -/
def exposed : List Str :=
  ["/control/mode",
   "/control/current/i_limit", "/control/current/kd", "/control/current/ki", "/control/current/kp",
   "/control/position/i_limit", "/control/position/kd", "/control/position/ki", "/control/position/kp",
   "/control/velocity/i_limit", "/control/velocity/kd", "/control/velocity/ki", "/control/velocity/kp",
   "/control/torque_limit", "/control/velocity_limit", "/control/acceleration_limit", "/control/low_batt_th",
   "/motor/torque_cst", "/motor/current_offset",
   "/encoders/primary/p", "/encoders/primary/q", "/encoders/primary/ticks_per_rev",
   "/encoders/secondary/p", "/encoders/secondary/q", "/encoders/secondary/ticks_per_rev",
   "/potentiometer/gain", "/potentiometer/zero",
   "/rpm/phase",
   "/thermal/Cth", "/thermal/Rth", "/thermal/current_gain", "/thermal/max_temp",
   "/streams/current", "/streams/velocity", "/streams/position", "/streams/index", "/streams/enc_pos",
   "/streams/motor_pos", "/streams/motor_torque"].map str

/-- `getParamNameByIndex` of the motor board, :63-68. -/
def motorName (index : Nat) : Option Str := exposed[index]?

end Verif.ParamServer
