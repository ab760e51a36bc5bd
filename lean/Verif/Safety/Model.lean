import Mathlib.Data.List.Induction

/-!
# Actuator board safety timer

actuator-firmware/src/safety.c, servo.c, pump.c and uavcan/Command_handler.cpp as three concurrent
activities: the CAN command handler, the servo thread and the virtual timer (interrupt). The handler
and the servo thread can be preempted between any two of the accesses listed here; the timer callback
is an interrupt and runs as one step. Time is in milliseconds.
-/

namespace Verif.Safety

/-- `SAFETY_TIMEOUT`, actuator-firmware/src/safety.c:5. -/
def safetyTimeout : Nat := 500

/-- The accesses of the command handler, actuator-firmware/src/uavcan/Command_handler.cpp:27-44, in
order; the last three are `safety_timer_restart`, actuator-firmware/src/safety.c:20-25.
`servo_set` (servo.c:43-59) and `pump_set_pwm` (pump.c:32-53) are one access each; their float
arithmetic is outside this model, the argument is the resulting value. Solenoids are omitted. -/
inductive Micro where
  | servoSet (i : Fin 2) (setpoint : Nat)
  | pumpSet (i : Fin 2) (width : Nat)
  | powerEnable
  | flagSet
  | vtSet
deriving DecidableEq, Repr

/-- A command message: target node, servo setpoints and pump widths. -/
structure Cmd where
  node : Nat
  servo0 : Nat
  servo1 : Nat
  pump0 : Nat
  pump1 : Nat
deriving DecidableEq, Repr

/-- The program of the handler for a message that passed the node filter. -/
def handlerProgram (c : Cmd) : List Micro :=
  [.servoSet 0 c.servo0, .servoSet 1 c.servo1, .pumpSet 0 c.pump0, .pumpSet 1 c.pump1,
   .powerEnable, .flagSet, .vtSet]

/-- Where the servo thread is in its loop, actuator-firmware/src/servo.c:92-108. -/
inductive SPc where
  /-- about to compute the pulse width of servo `i` (:96) -/
  | top (i : Fin 2)
  /-- computed, about to check `safety_motion_is_allowed` (:98) -/
  | computed (i : Fin 2) (w : Nat)
  /-- flag checked, about to write the register (:102). Ghost: time of the check, whether the handler
  was inside `safety_timer_restart` then, and the last completed restart. -/
  | checked (i : Fin 2) (w : Nat) (at_ : Nat) (mid : Bool) (done : Option Nat)
deriving DecidableEq, Repr

/-- A write to a servo compare register (ghost log). -/
structure Write where
  i : Fin 2
  value : Nat
  checkedAt : Nat
  mid : Bool
  done : Option Nat
deriving DecidableEq, Repr

structure State where
  self : Nat
  now : Nat
  /-- GPIO `POWER_ENABLE`; low after reset (actuator-firmware/src/board.h:187) -/
  power : Bool
  /-- `is_allowed_to_move`, safety.c:8 -/
  allowed : Bool
  /-- expiry time of `safety_timer_timer` if armed -/
  timer : Option Nat
  /-- remaining accesses of the command handler -/
  handler : List Micro
  spc : SPc
  setpoint : Fin 2 → Nat
  /-- servo compare registers -/
  ccr : Fin 2 → Nat
  /-- pump compare registers -/
  pump : Fin 2 → Nat
  /-- ghost: time of the last completed `safety_timer_restart` -/
  done : Option Nat
  /-- ghost: all servo register writes, newest first -/
  writes : List Write

/-- Power-up. -/
def init (self : Nat) : State :=
  ⟨self, 0, false, false, none, [], .top 0, fun _ => 0, fun _ => 0, fun _ => 0, none, []⟩

inductive Ev where
  /-- one millisecond passes; the timer callback runs if it expires now -/
  | tick
  /-- a command message is delivered to the handler -/
  | recv (c : Cmd)
  /-- the handler performs its next access -/
  | handler
  /-- the servo thread performs its next access; `w` is the pulse width computed by the quadramp if
  the access is the computation (arbitrary, it depends on the ramp state) -/
  | servo (w : Nat)
deriving DecidableEq, Repr

/-- `_safety_timer_cb`, actuator-firmware/src/safety.c:10-18. -/
def timerCb (s : State) : State := { s with power := false, allowed := false, timer := none }

def update (f : Fin 2 → Nat) (i : Fin 2) (v : Nat) : Fin 2 → Nat := fun j => if j = i then v else f j

def microStep (s : State) : Micro → State
  | .servoSet i v => { s with setpoint := update s.setpoint i v }
  | .pumpSet i w => { s with pump := update s.pump i w }
  | .powerEnable => { s with power := true }
  | .flagSet => { s with allowed := true }
  | .vtSet => { s with timer := some (s.now + safetyTimeout), done := some s.now }

/-- The handler is between the first and the last statement of `safety_timer_restart`. -/
def midRestart (s : State) : Bool := s.handler = [.flagSet, .vtSet] ∨ s.handler = [.vtSet]

/-- Servo thread, actuator-firmware/src/servo.c:95-103. -/
def servoStep (s : State) (w : Nat) : State :=
  match s.spc with
  | .top i => { s with spc := .computed i w }
  | .computed i w =>
    { s with spc := .checked i (if !s.allowed then 0 else w) s.now (midRestart s) s.done }
  | .checked i w t m d =>
    { s with
      spc := .top (i + 1)
      ccr := update s.ccr i w
      writes := ⟨i, w, t, m, d⟩ :: s.writes }

/-- One step; `none` if the event is not possible (a message while the handler is busy is delivered
later; the handler cannot run when it has nothing to do). -/
def step (s : State) : Ev → Option State
  | .tick =>
    let s' := { s with now := s.now + 1 }
    if s.timer = some (s.now + 1) then some (timerCb s') else some s'
  | .recv c =>
    if s.handler ≠ [] then none
    else if c.node ≠ s.self then some s
    else some { s with handler := handlerProgram c }
  | .handler =>
    match s.handler with
    | [] => none
    | m :: ms => some (microStep { s with handler := ms } m)
  | .servo w => some (servoStep s w)

def run (s : State) (es : List Ev) : Option State := es.foldlM step s

end Verif.Safety
