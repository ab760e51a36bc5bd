import Verif.Num.Arith
import Verif.Quadramp.Model
import Verif.Motors.Model

/-!
# Servo outputs of the IO board and of the actuator board

can-io-firmware/src/servo.c, pwm.c, uavcan/ServoPWM_handler.cpp; actuator-firmware/src/servo.c, pwm.c, pump.c, uavcan/Command_handler.cpp;
master-firmware/src/can/can_io_driver.cpp and actuator_driver_uavcan.cpp. The arithmetic of the two boards is exact, without rounding; a position can be a NaN
or infinite, speeds and accelerations are finite. The conversion of a message to half precision and back is a parameter where it matters. Both boards handle a
message and a round of the servo thread under a mutex (can-io servo.c:44-56, 83-95; actuator servo.c:53-58, 93-105): they are one step each. The interleavings
of the actuator board are the subject of `Verif.Safety`.
-/

namespace Verif.Servo

open Verif.Num (Ext)
open Verif.Quadramp (Qr)

/-! ## Timers -/

/-- `PWM_CHANNEL`, can-io-firmware/src/pwm.c:5 -/
def pwmChannel (x : Nat) : Nat := 1 <<< (x - 1)

/-- `||` of C -/
def logicalOr (a b : Nat) : Nat := if a ≠ 0 ∨ b ≠ 0 then 1 else 0

/-- A timer as `pwm_setup_channel` leaves it, can-io-firmware/src/pwm.c:7-55, actuator-firmware/src/pwm.c:5-53: the channels that are enabled and the period
less one. The prescaler and the other bits are left out. -/
structure Timer where
  mask : Nat
  arr : Nat
deriving DecidableEq, Repr

def setupChannels (mask period : Nat) : Timer := ⟨mask, period - 1⟩

/-- The number of ticks of a period during which a channel is high: the counter goes from 0 to ARR, and in PWM mode 1 an enabled channel is high
while the counter is below the compare register. -/
def Timer.high (t : Timer) (channel ccr : Nat) : Nat :=
  if t.mask.testBit channel then (List.range (t.arr + 1)).countP (· < ccr) else 0

/-- An assignment of the filter's output, an `int32_t`, to a compare register of 16 bits by way of `uint32_t`, can-io-firmware/src/servo.c:85-93 and pwm.c:58-61 -/
def ccr (out : Int) : Nat := (out % 65536).toNat

/-! ## Positions -/

/-- The clamping of `duty_cycle`, can-io-firmware/src/servo.c:23-27, actuator-firmware/src/servo.c:29-33 -/
def clamp (p : Ext) : Ext := if Ext.lt (.fin 1) p then .fin 1 else if Ext.lt p (.fin 0) then .fin 0 else p

/-- `duty_cycle`, can-io-firmware/src/servo.c:21-29 (`SERVO_PWM_TIMER_FREQ`), actuator-firmware/src/servo.c:27-35 (`SERVO_PWM_PERIOD`); the conversion of a
NaN to an integer is undefined -/
def ticks (scale : Nat) (p : Ext) : Option Nat :=
  match clamp p with
  | .fin q => some ⌊q * scale⌋.toNat
  | _ => none

/-- can-io-firmware/src/servo.c:12-15, actuator-firmware/src/servo.c:14-17 -/
structure Servo where
  setpoint : Ext
  filter : Qr
deriving DecidableEq

/-- What a message says about one servo -/
structure Setting where
  pos : Ext
  vel : ℚ
  acc : ℚ

/-- A round of the servo thread for one servo, can-io-firmware/src/servo.c:85-88, actuator-firmware/src/servo.c:96 -/
def Servo.tick (sqrt : ℚ → ℚ) (scale : Nat) (s : Servo) : Option Servo :=
  match ticks scale s.setpoint with
  | none => none
  | some t => match s.filter.filter sqrt t with
    | none => none
    | some q => some { s with filter := q }

/-- All of them, or undefined -/
def seq {n : Nat} {α : Type} (f : Fin n → Option α) : Option (Fin n → α) :=
  if h : ∀ i, (f i).isSome then some (fun i => (f i).get (h i)) else none

/-! ## IO board -/

namespace Io

/-- `SERVO_PWM_TIMER_FREQ`, `SERVO_PWM_PERIOD`, `SERVO_PWM_RAMP_SCALE`, can-io-firmware/src/servo.c:7-10 -/
def timerFreq : Nat := 1000000
def period : Nat := 20000
def rampScale : ℚ := 1000

/-- `set_quadramp_coefficients`, can-io-firmware/src/servo.c:32-40 -/
def coefficients (q : Qr) (vel acc : ℚ) : Qr :=
  let q := if vel > 0 then q.setFirst (vel * rampScale) (vel * rampScale) else q
  if acc > 0 then q.setSecond (acc * rampScale) (acc * rampScale) else q

/-- The board: its node number, the four servos and the compare registers of their outputs -/
structure Board where
  node : Nat
  servo : Fin 4 → Servo
  reg : Fin 4 → Nat

/-- `servo_init`, can-io-firmware/src/servo.c:59-75 -/
def init (node : Nat) : Board := ⟨node, fun _ => ⟨.fin 0, coefficients .init 1 1⟩, fun _ => 0⟩

/-- `ServoPWM_handler`, can-io-firmware/src/uavcan/ServoPWM_handler.cpp:6-25, and `servo_set`, can-io-firmware/src/servo.c:42-57 -/
def receive (b : Board) (node : Nat) (m : Fin 4 → Setting) : Board :=
  if node ≠ b.node then b
  else { b with servo := fun i => ⟨(m i).pos, coefficients (b.servo i).filter (m i).vel (m i).acc⟩ }

/-- A round of the servo thread, can-io-firmware/src/servo.c:82-98 -/
def tick (sqrt : ℚ → ℚ) (b : Board) : Option Board :=
  match seq fun i => (b.servo i).tick sqrt timerFreq with
  | none => none
  | some s => some { b with servo := s, reg := fun i => ccr (s i).filter.out }

inductive Event where
  | msg (node : Nat) (m : Fin 4 → Setting)
  | tick

def step (sqrt : ℚ → ℚ) (b : Board) : Event → Option Board
  | .msg n m => some (receive b n m)
  | .tick => tick sqrt b

def run (sqrt : ℚ → ℚ) (b : Board) : List Event → Option Board
  | [] => some b
  | e :: es => match step sqrt b e with
    | none => none
    | some b => run sqrt b es

/-- The timer and the channel of an output, and what `pwm_init` does with the timer, can-io-firmware/src/pwm.c:64-106 -/
def timerOf (i : Fin 4) : Timer × Nat :=
  if i = 0 then (setupChannels (pwmChannel 1) period, 0)
  else if i = 1 then (setupChannels (pwmChannel 1) period, 0)
  else if i = 2 then (setupChannels (logicalOr (pwmChannel 2) (pwmChannel 3)) period, 1)
  else (setupChannels (logicalOr (pwmChannel 2) (pwmChannel 3)) period, 2)

/-- How long output `i` is high in each period, in ticks, which are microseconds -/
def Board.high (b : Board) (i : Fin 4) : Nat := (timerOf i).1.high (timerOf i).2 (b.reg i)

/-- `can_io_set_pwm`, master-firmware/src/can/can_io_driver.cpp:29-40: the message for a channel; what is not assigned is zero in a new message -/
def setPwm (channel : Fin 4) (pwm : Ext) : Fin 4 → Setting := fun i => ⟨if i = channel then pwm else .fin 0, 0, 0⟩

end Io

/-! ## Actuator board -/

namespace Act

/-- `SERVO_PWM_PERIOD`, `SERVO_PWM_RAMP_SCALE`, actuator-firmware/src/servo.c:9-12 -/
def period : Nat := 20000
def rampScale : ℚ := 10000

/-- `set_quadramp_coefficients`, actuator-firmware/src/servo.c:37-41 -/
def coefficients (q : Qr) (vel acc : ℚ) : Qr :=
  (q.setFirst (vel * rampScale) (vel * rampScale)).setSecond (acc * rampScale) (acc * rampScale)

/-- The clamping of `servo_set`, actuator-firmware/src/servo.c:45-51, and of `pump_set_pwm`, actuator-firmware/src/pump.c:34-40 -/
def limit (p : Ext) : Ext :=
  let p := if Ext.lt p (.fin 0) then .fin 0 else p
  if Ext.lt (.fin 1) p then .fin 1 else p

/-- The board: its node number, the two servos, the compare registers of their outputs, those of the pumps and the solenoids -/
structure Board where
  node : Nat
  servo : Fin 2 → Servo
  reg : Fin 2 → Nat
  pump : Fin 2 → Nat
  solenoid : Fin 2 → Bool

/-- `servo_init`, actuator-firmware/src/servo.c:73-84; `pump_init` -/
def init (node : Nat) : Board :=
  ⟨node, fun _ => ⟨.fin 0, coefficients .init 1 1⟩, fun _ => 0, fun _ => 0, fun _ => false⟩

/-- `cvra.actuator.Command` -/
structure Cmd where
  node : Nat
  servo : Fin 2 → Setting
  pump : Fin 2 → Ext
  solenoid : Fin 2 → Bool

/-- `PWM_PERIOD`, actuator-firmware/src/pump.c:6-8 -/
def pumpPeriod : Nat := 500

/-- The width of `pump_set_pwm`, actuator-firmware/src/pump.c:32-53 -/
def pumpWidth (p : Ext) : Option Nat :=
  match limit p with
  | .fin q => some ⌊q * pumpPeriod⌋.toNat
  | _ => none

/-- The callback of `Command_handler_start`, actuator-firmware/src/uavcan/Command_handler.cpp:17-45, without the safety timer. The servos are set before the
conversion of the pumps' duty cycles, which is undefined for a NaN. -/
def receive (b : Board) (c : Cmd) : Option Board :=
  if c.node ≠ b.node then some b
  else match seq fun i => pumpWidth (c.pump i) with
    | none => none
    | some w => some { b with
        servo := fun i => ⟨limit (c.servo i).pos, coefficients (b.servo i).filter (c.servo i).vel (c.servo i).acc⟩
        pump := w
        solenoid := c.solenoid }

/-- A round of the servo thread, actuator-firmware/src/servo.c:92-108; `allowed` is what `safety_motion_is_allowed` says for each servo -/
def tick (sqrt : ℚ → ℚ) (b : Board) (allowed : Fin 2 → Bool) : Option Board :=
  match seq fun i => (b.servo i).tick sqrt period with
  | none => none
  | some s => some { b with servo := s, reg := fun i => if allowed i then ccr (s i).filter.out else 0 }

inductive Event where
  | cmd (c : Cmd)
  | tick (allowed : Fin 2 → Bool)

def step (sqrt : ℚ → ℚ) (b : Board) : Event → Option Board
  | .cmd c => receive b c
  | .tick a => tick sqrt b a

def run (sqrt : ℚ → ℚ) (b : Board) : List Event → Option Board
  | [] => some b
  | e :: es => match step sqrt b e with
    | none => none
    | some b => run sqrt b es

/-- `timer_init`, actuator-firmware/src/servo.c:61-71, and `pwm_channels`, :20 -/
def timer : Timer := setupChannels (pwmChannel 2 ||| pwmChannel 3) period
def channelOf (i : Fin 2) : Nat := if i = 0 then 1 else 2

def Board.high (b : Board) (i : Fin 2) : Nat := timer.high (channelOf i) (b.reg i)

/-- The message of `publish_command`, master-firmware/src/can/actuator_driver_uavcan.cpp:11-41: one position for both servos, and speeds and accelerations that
are not assigned, therefore zero. `half` is the conversion to half precision and back. -/
def ofMaster (half : ℚ → Ext) (c : Motors.Command) : Cmd :=
  ⟨c.node, fun _ => ⟨half c.servo, 0, 0⟩, fun i => half (if i = 0 then c.pump.1 else c.pump.2), fun i => if i = 0 then c.solenoid.1 else c.solenoid.2⟩

end Act

end Verif.Servo
