import Verif.BusEnum.Model

/-!
# Motor drivers, motor manager and actuator drivers of the master

master-firmware/src/can/motor_driver.c, motor_manager.c, motor_driver_uavcan.cpp, actuator_driver.c and the adapter of uavcan_node.cpp.

The lock of a driver protects each setter, and the whole of the reading and sending of a setpoint; so each is one step. A pointer to a driver is a number: `2 i` for the
motor driver `i` of the manager's buffer, `2 j + 1` for the `j`-th other object registered with the bus enumerator (actuator drivers). Floats are their bits; no arithmetic is
done on them, except in `prepare`. The declaration of the drivers' parameters is not modelled.
-/

namespace Verif.Motors

open BusEnum (Name En)

abbrev F := BitVec 32

/-- `MOTOR_CONTROL_MODE_…`, motor_driver.h:10-14 -/
inductive Mode where
  | disabled
  | position
  | velocity
  | torque
  | voltage
deriving DecidableEq, Repr

/-- `MOTOR_ID_MAX_LEN`, `CAN_ID_NOT_SET` and `MOTOR_STREAMS_NB_VALUES`, motor_driver.h:7,16,114 -/
def ID_MAX : Nat := 24
def CAN_NOT_SET : Nat := 0xFFFF
def STREAMS : Nat := 10

/-- `motor_driver_t`, motor_driver.h:36-91; the members of the union `setpt` are all floats and share their storage, `setpt`. -/
structure Driver where
  id : Name
  canId : Nat
  mode : Mode
  setpt : F
  status : BitVec 32
  values : Nat → F

/-- `motor_driver_init`, motor_driver.c:17-64; the buffer was cleared before. `strncpy` copies at most 24 characters. -/
def Driver.init (name : Name) : Driver := ⟨name.take ID_MAX, CAN_NOT_SET, .disabled, 0, 0, fun _ => 0⟩

/-- `motor_driver_set_position`, `…velocity`, `…torque`, `…voltage`, motor_driver.c:71-101; `motor_driver_disable`, 103-108, keeps the setpoint -/
def Driver.set (d : Driver) (m : Mode) (v : F) : Driver := { d with mode := m, setpt := v }
def Driver.disable (d : Driver) : Driver := { d with mode := .disabled }

/-- `motor_driver_get_position_setpt` etc., motor_driver.c:135-165: the value, and whether an error is logged (the macro ERROR calls the logging function and goes on) -/
def Driver.get (d : Driver) (m : Mode) : F × Bool := (d.setpt, decide (d.mode ≠ m))

/-- `motor_driver_set_stream_value`, motor_driver.c:167-177 -/
def Driver.setStream (d : Driver) (stream : BitVec 32) (v : F) : Driver :=
  if stream.toNat < STREAMS then
    { d with values := fun i => if i = stream.toNat then v else d.values i, status := d.status ||| (1#32 <<< stream.toNat) }
  else d

/-- `motor_driver_get_and_clear_stream_value`, motor_driver.c:184-200 -/
def Driver.takeStream (d : Driver) (stream : BitVec 32) : Driver × F :=
  if stream.toNat < STREAMS then ({ d with status := d.status &&& ~~~(1#32 <<< stream.toNat) }, d.values stream.toNat) else (d, 0)

/-! ## Motor manager -/

/-- `motor_manager_t` with the bus enumerator -/
structure Mgr where
  en : En
  drivers : List Driver
  cap : Nat

inductive Err where
  | enum (e : BusEnum.Err)
  /-- an object that is not a motor driver is used as one -/
  | confusion
deriving DecidableEq, Repr

def lift {α : Type} : Except BusEnum.Err α → Except Err α
  | .ok a => .ok a
  | .error e => .error (.enum e)

/-- `motor_manager_init`, motor_manager.c:7-20, and `bus_enumerator_init`; main.cpp:128-139 uses 20 and 21 -/
def init (cap enCap : Nat) : Mgr := ⟨BusEnum.init enCap, [], cap⟩

/-- `motor_manager_create_driver`, motor_manager.c:22-46; the new state and the driver's index (`none` is NULL) -/
def create (m : Mgr) (name : Name) : Except Err (Mgr × Option Nat) := do
  let id ← lift (BusEnum.getCanId m.en name)
  if id ≠ BusEnum.notFound then pure (m, none)
  else if m.drivers.length < m.cap then do
    let d := Driver.init name
    let i := m.drivers.length
    let en ← lift (BusEnum.addNode m.en d.id (2 * i))
    pure ({ m with en := en, drivers := m.drivers ++ [d] }, some i)
  else pure (m, none)

/-- `motor_manager_set_voltage`, `…torque`, `…velocity`, `…position`, motor_manager.c:48-113 -/
def setByName (m : Mgr) (name : Name) (mode : Mode) (v : F) : Except Err Mgr := do
  match ← lift (BusEnum.getDriver m.en name) with
  | none => pure m
  | some p =>
    if p % 2 = 0 then pure { m with drivers := m.drivers.modify (p / 2) (fun d => d.set mode v) } else .error .confusion

/-- `actuator_driver_init`, actuator_driver.c:4-23, as far as the enumerator is concerned; `j` numbers the object -/
def addActuator (m : Mgr) (name : Name) (j : Nat) : Except Err Mgr := do
  let en ← lift (BusEnum.addNode m.en name (2 * j + 1))
  pure { m with en := en }

/-- `handleNodeInfoRetrieved`, uavcan_node.cpp:43-58 -/
def announce (m : Mgr) (name : Name) (id : BitVec 8) : Except Err Mgr := do
  match ← lift (BusEnum.getStrId m.en id) with
  | some _ => pure m
  | none => do
    let en ← lift (BusEnum.updateNode m.en name id)
    pure { m with en := en }

/-! ## Sending -/

structure Msg where
  mode : Mode
  node : Nat
  value : F
deriving DecidableEq, Repr

/-- `update_motor_can_id`, motor_driver_uavcan.cpp:74-84 -/
def updateCanId (en : En) (d : Driver) : Except Err Driver :=
  if d.canId = CAN_NOT_SET then do
    let id ← lift (BusEnum.getCanId en d.id)
    if id ≠ BusEnum.notSet ∧ id ≠ BusEnum.notFound then pure { d with canId := id.toNat } else pure d
  else pure d

/-- The first loop of the timer, motor_driver_uavcan.cpp:54-59 and 86-95: up to the first driver whose id is known -/
def updateConfig (en : En) : List Driver → Except Err (List Driver)
  | [] => pure []
  | d :: ds => do
    let d ← updateCanId en d
    if d.canId = CAN_NOT_SET then do
      let ds ← updateConfig en ds
      pure (d :: ds)
    else pure (d :: ds)

/-- `motor_driver_uavcan_send_setpoint`, motor_driver_uavcan.cpp:97-145 -/
def sendSetpoint (en : En) (d : Driver) : Except Err (Driver × List Msg) := do
  let d ← updateCanId en d
  if d.canId = CAN_NOT_SET then pure (d, [])
  else
    pure (d, match d.mode with
      | .velocity => [⟨.velocity, d.canId, (d.get .velocity).1⟩]
      | .position => [⟨.position, d.canId, (d.get .position).1⟩]
      | .torque => [⟨.torque, d.canId, (d.get .torque).1⟩]
      | .voltage => [⟨.voltage, d.canId, (d.get .voltage).1⟩]
      | .disabled => [])

/-- The second loop, motor_driver_uavcan.cpp:61-63 -/
def sendAll (en : En) : List Driver → Except Err (List Driver × List Msg)
  | [] => pure ([], [])
  | d :: ds => do
    let (d, m) ← sendSetpoint en d
    let (ds, ms) ← sendAll en ds
    pure (d :: ds, m ++ ms)

/-- The timer, motor_driver_uavcan.cpp:46-64 -/
def timer (m : Mgr) : Except Err (Mgr × List Msg) := do
  let ds ← updateConfig m.en m.drivers
  let (ds, ms) ← sendAll m.en ds
  pure ({ m with drivers := ds }, ms)

/-! ## The machine -/

inductive Op where
  | create (name : Name)
  | actuator (name : Name) (j : Nat)
  | set (name : Name) (mode : Mode) (v : F)
  /-- `motor_driver_disable` on driver `i` -/
  | disable (i : Nat)
  | announce (name : Name) (id : BitVec 8)
  | timer

/-- One operation: new state and messages sent -/
def step (m : Mgr) : Op → Except Err (Mgr × List Msg)
  | .create name => do
    let (m, _) ← create m name
    pure (m, [])
  | .actuator name j => do
    let m ← addActuator m name j
    pure (m, [])
  | .set name mode v => do
    let m ← setByName m name mode v
    pure (m, [])
  | .disable i => pure ({ m with drivers := m.drivers.modify i Driver.disable }, [])
  | .announce name id => do
    let m ← announce m name id
    pure (m, [])
  | .timer => timer m

def run (m : Mgr) : List Op → Except Err (Mgr × List Msg)
  | [] => pure (m, [])
  | op :: ops => do
    let (m, a) ← step m op
    let (m, b) ← run m ops
    pure (m, a ++ b)

/-! ## Actuator drivers -/

inductive ArmPos where
  | table
  | reef
  | high
deriving DecidableEq, Repr

/-- `actuator_driver_t`, actuator_driver.h:32-45, with the values of its parameters; duty cycles are exact numbers. -/
structure Actuator where
  name : Name
  table : Rat
  reef : Rat
  high : Rat
  pump : Rat
  pos : ArmPos
  on : Bool × Bool

/-- `actuator_driver_init`, actuator_driver.c:4-23; `ACTUATOR_NAME_MAX_LENGTH` is 32 -/
def Actuator.init (name : Name) : Actuator := ⟨name.take 32, 3 / 1000, 2 / 1000, 1 / 1000, 3 / 10, .high, (false, false)⟩

/-- `actuator_driver_set_position`, `actuator_driver_pump_set`, actuator_driver.c:25-33 -/
def Actuator.setPos (a : Actuator) (p : ArmPos) : Actuator := { a with pos := p }
def Actuator.setPump (a : Actuator) (front on : Bool) : Actuator := { a with on := if front then (a.on.1, on) else (on, a.on.2) }

structure Command where
  node : Nat
  pump : Rat × Rat
  solenoid : Bool × Bool
  servo : Rat
deriving DecidableEq, Repr

/-- `actuator_driver_prepare_uavcan_msg`, actuator_driver.c:35-71, and `publish_command`, actuator_driver_uavcan.cpp:11-41 -/
def Actuator.prepare (a : Actuator) (en : En) : Except Err (Option Command) := do
  let id ← lift (BusEnum.getCanId en a.name)
  if id.toNat > 127 then pure none
  else
    let b (x : Bool) : Rat := if x then 1 else 0
    pure (some ⟨id.toNat, (a.pump * b a.on.1, a.pump * b a.on.2), a.on,
      match a.pos with
      | .high => a.high
      | .reef => a.reef
      | .table => a.table⟩)

end Verif.Motors
