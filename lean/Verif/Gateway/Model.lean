import Verif.Motors.Model
import Verif.MsgBus.Bus
import Mathlib.Data.Rat.Defs

/-!
# From the CAN bus to the message bus and to the motor drivers

master-firmware/src/can/UavcanToMessagebusProxy.hpp with its two users sensor_handler.cpp and actuator_handler.cpp, wheel_encoders_handler.cpp, motor_feedback_streams_handler.cpp,
and the readers gui/ActuatorPage.h:179-215 and base/rs_port.c.

All handlers run in the thread of the UAVCAN node, one after the other; each is one step, and so is a reader (the topic's lock makes the copy of the message one step). A topic
object with its buffer is a cell of the heap of `MsgBus.Bus`; memory for new ones is never used up. Distances are exact numbers instead of `float`. The conversion of the
messages' 16 bit floats is done by the UAVCAN library. Locks and condition variables of the topics are not modelled.
-/

namespace Verif.Gateway

open BusEnum (Name)
open HeapList (upd)

abbrev F := Motors.F

/-- Characters of a string -/
def str (s : String) : Name := s.toList.map Char.toNat

/-- The two proxies: `Proxy` of sensor_handler.cpp:17-39 and `ActuatorFeedbackProxy` of actuator_handler.cpp:19-42 -/
inductive Proxy where
  | range
  | act
deriving DecidableEq, Repr

/-- Messages on the message bus: `Range` (the type is always LASER), `ActuatorFeedback` and `WheelEncodersPulse` -/
inductive Payload where
  | range (distance : ℚ)
  | feedback (p0 p1 : BitVec 32) (input : Bool)
  | wheels (left right : BitVec 32)
deriving DecidableEq, Repr

/-- UAVCAN messages that the proxies listen to: cvra/sensor/20140.DistanceVL6180X.uavcan and cvra/actuator/20150.Feedback.uavcan -/
inductive Can where
  | distance (mm : BitVec 8) (status : BitVec 4)
  | feedback (p0 p1 : BitVec 32) (a0 a1 : F) (input : Bool)
deriving DecidableEq, Repr

def Can.proxy : Can → Proxy
  | .distance .. => .range
  | .feedback .. => .act

/-- `translate`, sensor_handler.cpp:30-37 and actuator_handler.cpp:32-41; both always return a message -/
def Can.translate : Can → Option Payload
  | .distance mm _ => some (.range ((mm.toNat : ℚ) / 1000))
  | .feedback p0 p1 _ _ inp => some (.feedback p0 p1 inp)

/-- `absl::StrReplaceAll` with one pair: from left to right, what was put in is not looked at again. The number bounds the steps. -/
def replaceAux (fr rep : Name) : Nat → Name → Name
  | _, [] => []
  | 0, l => l
  | f + 1, c :: l => if fr.isPrefixOf (c :: l) then rep ++ replaceAux fr rep f ((c :: l).drop fr.length) else c :: replaceAux fr rep f l

def replaceAll (fr rep l : Name) : Name := replaceAux fr rep l.length l

/-- `topic_name`, sensor_handler.cpp:24-28 and actuator_handler.cpp:26-30 -/
def topicName : Proxy → Name → Name
  | .range, b => str "/distance/" ++ b
  | .act, b => replaceAll (str "actuator-") (str "/actuator/") b

/-- Motor feedback: the six messages of motor_feedback_streams_handler.cpp -/
inductive Feedback where
  | current (setpoint current voltage : F)
  | velocity (setpoint velocity : F)
  | position (setpoint position : F)
  | index (position : F) (count : BitVec 32)
  | motorPos (position velocity : F)
  | torque (torque position : F)
deriving DecidableEq, Repr

/-- The calls of `motor_driver_set_stream_value` of each callback, motor_feedback_streams_handler.cpp:16-86, with the streams of motor_driver.h:17-26 -/
def Feedback.apply (d : Motors.Driver) : Feedback → Motors.Driver
  | .current sp c v => ((d.setStream 0 c).setStream 1 sp).setStream 2 v
  | .velocity sp v => (d.setStream 3 v).setStream 4 sp
  | .position sp p => (d.setStream 5 p).setStream 6 sp
  | .index p _ => d.setStream 7 p
  | .motorPos p v => (d.setStream 5 p).setStream 3 v
  | .torque t p => (d.setStream 9 t).setStream 5 p

/-- State: motor manager and enumerator, message bus, number of the next unused topic object, the `topic_map` of each proxy, the message in each topic's buffer (`none`: never
published), and `value_stream_index_update_count` of each driver (motor_driver.h:86) -/
structure Gw where
  mgr : Motors.Mgr
  bus : MsgBus.Bus
  fresh : Nat
  maps : Proxy → List (Name × Nat)
  data : Nat → Option Payload
  count : Nat → BitVec 32

inductive Err where
  | motors (e : Motors.Err)
  | bus (e : MsgBus.Err)
deriving DecidableEq, Repr

def liftM {α : Type} : Except Motors.Err α → Except Err α
  | .ok a => .ok a
  | .error e => .error (.motors e)

def liftB {α : Type} : Except MsgBus.Err α → Except Err α
  | .ok a => .ok a
  | .error e => .error (.bus e)

/-- `messagebus_topic_init` and `messagebus_advertise_topic` for a new object; no callbacks for new topics are registered (main.cpp:125 is commented out), so the callback loop
needs no steps. -/
def newTopic (g : Gw) (n : Name) : Except Err Gw := do
  let b ← liftB (MsgBus.advertise 0 (MsgBus.topicInit g.bus g.fresh) g.fresh n)
  pure { g with bus := b, fresh := g.fresh + 1, data := upd g.data g.fresh none }

/-- `messagebus_topic_publish`: the message is copied to the buffer, which has its size -/
def publish (g : Gw) (t : Nat) (m : Payload) : Gw := { g with data := upd g.data t (some m) }

/-- Start: bus enumerator, motor manager, message bus, and `wheel_encoder_handler_init`, wheel_encoders_handler.cpp:30-37 -/
def init (b : MsgBus.Bus) (cap enCap : Nat) : Except Err Gw :=
  newTopic ⟨Motors.init cap enCap, MsgBus.busInit b, 0, fun _ => [], fun _ => none, fun _ => 0⟩ (str "/encoders")

/-- `topic_map.find` -/
def find (n : Name) : List (Name × Nat) → Option Nat
  | [] => none
  | (k, t) :: l => if k = n then some t else find n l

/-- `find_or_create_topic`, UavcanToMessagebusProxy.hpp:108-129 -/
def findOrCreate (g : Gw) (p : Proxy) (n : Name) : Except Err (Gw × Nat) :=
  match find n (g.maps p) with
  | some t => .ok (g, t)
  | none => do
    let t := g.fresh
    let g ← newTopic { g with maps := fun q => if q = p then (n, t) :: g.maps p else g.maps q } n
    pure (g, t)

/-- `process`, UavcanToMessagebusProxy.hpp:86-106 -/
def process (g : Gw) (src : BitVec 8) (m : Can) : Except Err Gw := do
  match ← liftM (Motors.lift (BusEnum.getStrId g.mgr.en src)) with
  | none => pure g
  | some board => do
    let (g, t) ← findOrCreate g m.proxy (topicName m.proxy board)
    match m.translate with
    | none => pure g
    | some x => pure (publish g t x)

/-- The callbacks of motor_feedback_streams_handler.cpp:16-86: the driver pointer is cast to `motor_driver_t*` -/
def motorFeedback (g : Gw) (src : BitVec 8) (f : Feedback) : Except Err Gw := do
  match ← liftM (Motors.lift (BusEnum.getDriverByCan g.mgr.en src)) with
  | none => pure g
  | some p =>
    if p % 2 = 0 then
      pure { g with
        mgr := { g.mgr with drivers := g.mgr.drivers.modify (p / 2) fun d => f.apply d }
        count := match f with | .index _ c => upd g.count (p / 2) c | _ => g.count }
    else .error (.motors .confusion)

inductive Op where
  /-- an operation of the motor manager or the enumerator -/
  | dev (op : Motors.Op)
  /-- a message for one of the proxies -/
  | can (src : BitVec 8) (m : Can)
  /-- `WheelEncoder_handler`, wheel_encoders_handler.cpp:19-28 -/
  | wheels (left right : BitVec 32)
  /-- other code makes a topic -/
  | other (n : Name)
  | motor (src : BitVec 8) (f : Feedback)
  /-- `motor_driver_get_and_clear_stream_value` for driver `i` -/
  | take (i : Nat) (stream : BitVec 32)

def step (g : Gw) : Op → Except Err Gw
  | .dev op => do
    let (m, _) ← liftM (Motors.step g.mgr op)
    pure { g with mgr := m }
  | .can src m => process g src m
  | .wheels l r => pure (publish g 0 (.wheels l r))
  | .other n => newTopic g n
  | .motor src f => motorFeedback g src f
  | .take i s => pure { g with mgr := { g.mgr with drivers := g.mgr.drivers.modify i fun d => (d.takeStream s).1 } }

def run (g : Gw) : List Op → Except Err Gw
  | [] => pure g
  | op :: ops => do
    let g ← step g op
    run g ops

/-- A reader: `messagebus_find_topic` and `messagebus_topic_read`. `none`: no such topic; `some none`: nothing published yet -/
def lookup (g : Gw) (q : Name) : Except Err (Option (Option Payload)) := do
  match ← liftB (MsgBus.findTopic g.fresh g.bus q) with
  | none => pure none
  | some t => pure (some (g.data t))

/-- The name that `ActuatorPage::on_timer` looks up, ActuatorPage.h:181 -/
def pageTopic (board : Name) : Name := replaceAll (str "actuator-") (str "/actuator/") board

/-- `read_encoders_topic`, rs_port.c:39-55 -/
def readEncoders (g : Gw) : Except Err (BitVec 32 × BitVec 32) := do
  match ← lookup g (str "/encoders") with
  | some (some (.wheels l r)) => pure (l, r)
  | _ => pure (0, 0)

/-- The drivers made at start, main.cpp:182-211 -/
def startOps : List Op :=
  [.dev (.create (str "left-wheel")), .dev (.create (str "right-wheel")),
    .dev (.actuator (str "actuator-front-left") 0), .dev (.actuator (str "actuator-front-center") 1), .dev (.actuator (str "actuator-front-right") 2),
    .dev (.actuator (str "actuator-back-left") 3), .dev (.actuator (str "actuator-back-center") 4), .dev (.actuator (str "actuator-back-right") 5)]

end Verif.Gateway
