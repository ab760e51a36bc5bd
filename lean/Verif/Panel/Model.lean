import Verif.Motors.Model

/-!
# Lights of the control panel

master-firmware/src/control_panel.cpp, the part of uavcan_node.cpp that drives LED_READY and LED_POWER, and `blink_start` of main.cpp:88-97.

A light is a directory of sysfs; what the kernel does with a number written to `brightness` is given by `Led.bright`: negative numbers are rejected, 0 is dark. Each
call is one step, although the threads do not synchronise (see DESIGN.md). `max_brightness` is an exact integer. Buttons are not modelled: `control_panel_button_is_pressed` always
returns false.
-/

namespace Verif.Panel

open BusEnum (Name)

/-- `enum control_panel_output`, control_panel.h:12-21 -/
inductive Out where
  | ready
  | debug
  | error
  | power
  | comm
  | bus
  | yellow
  | green
deriving DecidableEq, Repr

/-- `LedInfo`, control_panel.cpp:26-30, with the numbers written to the file, newest first -/
structure Led where
  max : Int
  status : Bool
  file : List Int
deriving DecidableEq, Repr

/-- `led_infos` -/
abbrev Leds := Out → Option Led

/-- The light: the last number written that the kernel accepts, 0 before -/
def Led.bright (l : Led) : Int := (l.file.find? fun w => 0 ≤ w).getD 0

/-- `set_output`, control_panel.cpp:53-70 -/
def setOutput (leds : Leds) (o : Out) (v : Bool) : Leds :=
  match leds o with
  | none => leds
  | some l => fun p => if p = o then some ⟨l.max, v, (if v then l.max - 1 else 0) :: l.file⟩ else leds p

/-- `control_panel_set`, `control_panel_clear`, `control_panel_toggle`, control_panel.cpp:154-173 -/
def set (leds : Leds) (o : Out) : Leds := setOutput leds o true
def clear (leds : Leds) (o : Out) : Leds := setOutput leds o false
def toggle (leds : Leds) (o : Out) : Leds :=
  match leds o with
  | none => leds
  | some l => setOutput leds o (!l.status)

/-- `open_led`, control_panel.cpp:72-110: the flag is empty or a file cannot be opened (`none`), or the maximum brightness that was read (0 if there was no number in the file) -/
def openLed (leds : Leds) (o : Out) : Option Int → Leds
  | none => leds
  | some mx => setOutput (fun p => if p = o then some ⟨mx, false, []⟩ else leds p) o false

/-- `control_panel_init`, control_panel.cpp:129-140, lights only; there are no flags for LED_YELLOW and LED_GREEN. -/
def openAll (leds : Leds) (cfg : Out → Option Int) : Leds :=
  [Out.ready, .debug, .error, .power, .comm, .bus].foldl (fun l o => openLed l o (cfg o)) leds

/-- `NodeStatus`: `HEALTH_OK` is 0 -/
structure Status where
  health : BitVec 2
  code : BitVec 16
deriving DecidableEq, Repr

/-- State: enumerator and manager, lights, `node_health_statuses` -/
structure Panel where
  mgr : Motors.Mgr
  leds : Leds
  health : List (BitVec 8 × Status)

/-- `node_health_statuses[id] = msg`, uavcan_node.cpp:196-198 -/
def put (id : BitVec 8) (s : Status) : List (BitVec 8 × Status) → List (BitVec 8 × Status)
  | [] => [(id, s)]
  | (k, v) :: l => if k = id then (k, s) :: l else (k, v) :: put id s l

/-- A power failure is reported, uavcan_node.cpp:186-187; `CVRA_STATUS_CODE_NO_POWER` is `1 << 2` (30) -/
def Status.noPower (s : Status) : Bool := decide (s.health ≠ 0) && decide (s.code &&& 4 ≠ 0)

/-- The end of each round of the loop, uavcan_node.cpp:182-190 -/
def powerLoop (leds : Leds) (health : List (BitVec 8 × Status)) : Leds :=
  health.foldl (fun l e => if e.2.noPower then set l .power else l) (clear leds .power)

/-- `handleNodeInfoRetrieved`, uavcan_node.cpp:43-58 -/
def announce (s : Panel) (name : Name) (id : BitVec 8) : Except Motors.Err Panel := do
  match ← Motors.lift (BusEnum.getStrId s.mgr.en id) with
  | some _ => pure s
  | none => do
    let en ← Motors.lift (BusEnum.updateNode s.mgr.en name id)
    let leds := if BusEnum.discoveredNodes en = BusEnum.totalNodes en then set s.leds .ready else s.leds
    pure { s with mgr := { s.mgr with en := en }, leds := leds }

inductive Op where
  /-- an operation of the motor manager other than a discovery -/
  | dev (op : Motors.Op)
  | announce (name : Name) (id : BitVec 8)
  | status (id : BitVec 8) (s : Status)
  | round
  /-- main.cpp:92 -/
  | blink
  /-- main.cpp:158 -/
  | start (cfg : Out → Option Int)
  /-- other uses of the panel -/
  | set (o : Out)
  | clear (o : Out)

def step (s : Panel) : Op → Except Motors.Err Panel
  | .dev op => do
    let (m, _) ← Motors.step s.mgr op
    pure { s with mgr := m }
  | .announce n id => announce s n id
  | .status id x => pure { s with health := put id x s.health }
  | .round => pure { s with leds := powerLoop s.leds s.health }
  | .blink => pure { s with leds := toggle s.leds .comm }
  | .start cfg => pure { s with leds := openAll s.leds cfg }
  | .set o => pure { s with leds := Panel.set s.leds o }
  | .clear o => pure { s with leds := Panel.clear s.leds o }

def run (s : Panel) : List Op → Except Motors.Err Panel
  | [] => pure s
  | op :: ops => do
    let s ← step s op
    run s ops

def init (cap enCap : Nat) : Panel := ⟨Motors.init cap enCap, fun _ => none, []⟩

end Verif.Panel
