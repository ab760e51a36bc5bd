import Verif.ParamServer.Model

/-!
# Uploading a configuration to the motor boards

Model of tools/motor_config_loader.py against the parameter server of the motor boards
(motor-control-firmware/src/uavcan/parameter_server.cpp, modelled in `Verif.ParamServer`).

Simplifications: the answer to a request is awaited before the next one is sent, so the exchange is modelled as one
step with three outcomes (`Net`). An exception in a callback is raised in the thread of the node, which then ends; the
main thread waits for ever (`stuck`). The map from board names to node identifiers does not change while parameters are
sent. Keys of the configuration are strings (other keys raise `TypeError`). Floats are given already rounded to 32 bits.
-/

namespace Verif.Upload

open Verif.Param Verif.ParamServer

/-- A value of the configuration that is no dictionary; `other` is a string, a list or nothing. -/
inductive Leaf where
  | bool (b : Bool)
  | int (z : Int)
  | real (w : W32)
  | other
deriving DecidableEq, Repr

/-! A configuration as read from the YAML file: dictionaries in dictionaries. -/
mutual
inductive Cfg where
  | leaf (v : Leaf)
  | dict (items : Items)
inductive Items where
  | nil
  | cons (key : Str) (c : Cfg) (rest : Items)
end

/-! `parameters_from_config`, motor_config_loader.py:16-25. -/
mutual
def paramsOf (pre : Str) : Items → List (Str × Leaf)
  | .nil => []
  | .cons key c rest => entry (pre ++ [slash] ++ key) c ++ paramsOf pre rest
def entry (name : Str) : Cfg → List (Str × Leaf)
  | .leaf v => [(name, v)]
  | .dict items => paramsOf name items
end

/-- The value of the request, :69-75: `none` if building the request raises an exception (a value that is no number, an
integer of more than 64 bits). -/
def encode : Leaf → Option Value
  | .bool b => some (.boolean (if b then 1 else 0))
  | .int z => if -9223372036854775808 ≤ z ∧ z ≤ 9223372036854775807 then some (.integer (BitVec.ofInt 64 z)) else none
  | .real w => some (.real w)
  | .other => none

/-- `handleGetSet` of the UAVCAN library for a request with a name and a value: assign, read back; the name of the answer
is empty if nothing was read. The result tells if the answer has a name. -/
def getSet (fuel root : Nat) (h : Heap) (name : Str) (value : Value) : Except Err (Heap × Bool) := do
  let h ← assignValue fuel h root name value
  let out ← readValue fuel h root name .empty
  pure (h, decide (out ≠ .empty))

/-- What happens to one request. -/
inductive Net where
  | arrives
  | requestLost
  | answerLost
deriving DecidableEq, Repr

/-- How the upload ends: `stuck` waits for ever, `raised` ends with an exception. -/
inductive Status where
  | done
  | stuck
  | raised
deriving DecidableEq, Repr

/-- The parameters of the boards, by node identifier. -/
abbrev World := Nat → Heap

def World.set (w : World) (k : Nat) (h : Heap) : World := fun j => if j = k then h else w j

/-- One request: node, name and value. -/
structure Req where
  node : Nat
  name : Str
  leaf : Leaf
deriving DecidableEq, Repr

/-- `send_parameter` for a list of parameters, :66-93 and :139-144. Names longer than 92 characters do not fit the
request. -/
def sendAll (fuel root : Nat) : (Nat → Net) → World → List Req → Except Err (Status × World)
  | _, w, [] => .ok (.done, w)
  | net, w, r :: rs =>
    if 92 < r.name.length then .ok (.raised, w)
    else
      match encode r.leaf with
      | none => .ok (.raised, w)
      | some v =>
        match net 0 with
        | .requestLost => .ok (.stuck, w)
        | .answerLost => do
          let a ← getSet fuel root (w r.node) r.name v
          pure (.stuck, w.set r.node a.1)
        | .arrives => do
          let a ← getSet fuel root (w r.node) r.name v
          if a.2 then sendAll fuel root (fun i => net (i + 1)) (w.set r.node a.1) rs
          else pure (.stuck, w.set r.node a.1)

/-- The requests for the configurations of some boards, in order; `none` if a board is not known. -/
def requests (ids : Str → Option Nat) : List (Str × Items) → Option (List Req)
  | [] => some []
  | (board, items) :: rest =>
    match ids board, requests ids rest with
    | some k, some rs => some ((paramsOf [] items).map (fun x => ⟨k, x.1, x.2⟩) ++ rs)
    | _, _ => none

/-- `save_parameters` for all boards, :95-103 and :149-151: nothing is awaited. The result is the list of the nodes that
get the request; `net` tells if a request arrives. -/
def saves (ids : Str → Option Nat) : (Nat → Bool) → List (Str × Items) → List Nat
  | _, [] => []
  | net, (board, _) :: rest =>
    (if net 0 then (ids board).toList else []) ++ saves ids (fun i => net (i + 1)) rest

/-- `upload_config`, :118-152: how it ends, the parameters of the boards and the nodes that were told to save them. -/
def upload (fuel root : Nat) (net : Nat → Net) (saveNet : Nat → Bool) (ids : Str → Option Nat) (w : World)
    (configs : List (Str × Items)) : Except Err (Status × World × List Nat) :=
  match requests ids configs with
  | none => .ok (.stuck, w, [])
  | some rs => do
    let r ← sendAll fuel root net w rs
    match r.1 with
    | .done => pure (.done, r.2, saves ids saveNet configs)
    | s => pure (s, r.2, [])

end Verif.Upload
