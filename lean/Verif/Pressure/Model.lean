import Verif.Spi.Model
import Mathlib.Data.Rat.Floor
import Mathlib.Algebra.Order.Field.Rat

/-!
# Pressure sensors of the actuator board

actuator-firmware pressure_sensor.c, pressure_sensor_interface.c, analog_input.c, uavcan/feedback_publisher.cpp and the loop of uavcan/node.cpp, on top of the software SPI (`Spi`).

The two sensors are devices on the same wires, modelled after the description in pressure_sensor.h and of the commands in pressure_sensor.c: a device listens while it is selected,
shifts out its status and its last result, and starts a measurement when the command for it was received completely. How long each measurement takes, what it gives and what
the device says about itself is arbitrary. Not modelled: time needed by the code between two delays, devices with more than one answer per selection.
-/

namespace Verif.Pressure

open Spi (Ev)

/-! ## The devices -/

/-- What comes of a measurement: time needed in µs, the status (whose bit 5 is replaced by what the device does), the result of 24 bits -/
structure Outcome where
  duration : Nat
  status : BitVec 8
  raw : BitVec 24
deriving DecidableEq

/-- Everything that the code does not know: the outcome of each measurement of each sensor, what a sensor answers that has not measured since its reset, the analog inputs in each
round (samples by time and channel), the digital input -/
structure Env where
  outcome : Bool → Nat → Outcome
  idle : Bool → List (BitVec 8)
  idleLen : ∀ i, (idle i).length = 4
  analog : Nat → Nat → Nat → BitVec 12
  digital : Nat → Bool

/-- One sensor: is it in reset, is it selected, the bits received since, how often the clock fell since, the bits to be shifted out; the measurement with the time that
it still needs, and the number of measurements so far -/
structure Dev where
  reset : Bool
  sel : Bool
  inp : List Bool
  falls : Nat
  reply : List Bool
  conv : Option (Outcome × Nat)
  count : Nat
deriving DecidableEq

/-- The wires, and whether both sensors were ever selected at the same time; sensor 0 is `false`, sensor 1 is `true` -/
structure World where
  dev : Bool → Dev
  sck : Bool
  mosi : Bool
  clash : Bool

def World.modify (w : World) (i : Bool) (f : Dev → Dev) : World := { w with dev := fun j => if j = i then f (w.dev j) else w.dev j }

/-- Bits of a byte, most significant first -/
def byteBits (b : BitVec 8) : List Bool := (List.range 8).map fun k => b.getLsbD (7 - k)

/-- The answer of a device: status and result, most significant byte first, pressure_sensor.h:24-34 -/
def Dev.answer (idle : List (BitVec 8)) (d : Dev) : List (BitVec 8) :=
  match d.conv with
  | none => idle
  | some (o, left) =>
    [(o.status &&& 0xdf) ||| (if left = 0 then 0 else 0x20), (o.raw >>> 16).setWidth 8, (o.raw >>> 8).setWidth 8, o.raw.setWidth 8]

/-- The clock edges that a device sees -/
def Dev.edge (mosi up : Bool) (d : Dev) : Dev :=
  if d.sel && !d.reset then if up then { d with inp := d.inp ++ [mosi] } else { d with falls := d.falls + 1 } else d

/-- What happens on the wires, from the events of `Spi` -/
def wire (w : World) : Ev → World
  | .mosi b => { w with mosi := b }
  | .sck b => if b = w.sck then w else { w with sck := b, dev := fun i => (w.dev i).edge w.mosi b }
  | .miso _ => w

/-- The answering line is driven by the selected device -/
def miso (w : World) : Bool :=
  let out (d : Dev) := d.sel && !d.reset && d.reply.getD d.falls false
  out (w.dev false) || out (w.dev true)

/-- A device that is selected takes its answer from its registers. -/
def Dev.select (idle : List (BitVec 8)) (d : Dev) : Dev := { d with sel := true, inp := [], falls := 0, reply := (d.answer idle).flatMap byteBits }

/-- A measurement is in progress. -/
def Dev.busy (d : Dev) : Bool :=
  match d.conv with
  | some (_, left) => left ≠ 0
  | none => false

/-- The end of a command: a complete command for a measurement (0xaa, 0, 0) starts one unless one is in progress. -/
def Dev.unselect (outcome : Nat → Outcome) (d : Dev) : Dev :=
  let d' := { d with sel := false }
  if d.inp = [0xaa, 0, 0].flatMap byteBits ∧ d.busy = false ∧ d.reset = false then
    { d' with conv := some (outcome d.count, (outcome d.count).duration), count := d.count + 1 }
  else d'

/-- Time goes by. -/
def Dev.wait (us : Nat) (d : Dev) : Dev := { d with conv := d.conv.map fun p => (p.1, p.2 - us) }

/-! ## pressure_sensor_interface.c -/

inductive Err where
  | memory
  | conversion
deriving DecidableEq

/-- `mpr_select`, pressure_sensor_interface.c:34-41: the line goes low -/
def select (env : Env) (i : Bool) (w : World) : World :=
  let w' := w.modify i (Dev.select (env.idle i))
  { w' with clash := w.clash || ((w'.dev false).sel && (w'.dev true).sel) }

/-- `mpr_unselect`, pressure_sensor_interface.c:43-51 -/
def unselect (env : Env) (i : Bool) (w : World) : World := w.modify i (Dev.unselect (env.outcome i))

/-- `mpr_transmit`, pressure_sensor_interface.c:53-58. The transmit buffer and the receive buffer (with what was in it before) are next to each other in the memory of `Spi`. -/
def transmit (w : World) (tx junk : List (BitVec 8)) : Except Err (World × List (BitVec 8)) :=
  match Spi.send (fun h => miso (h.foldl wire w)) 0 tx.length tx.length ⟨[], tx ++ junk⟩ with
  | none => .error .memory
  | some st => .ok (st.trace.foldl wire w, st.mem.drop tx.length)

/-! ## pressure_sensor.c -/

/-- Selection, transfer and end of the selection, as in the next three functions -/
def command (env : Env) (i : Bool) (w : World) (tx : List (BitVec 8)) : Except Err (World × List (BitVec 8)) :=
  match transmit (select env i w) tx (List.replicate tx.length 0xa5) with
  | .error e => .error e
  | .ok (w, rx) => .ok (unselect env i w, rx)

/-- `mpr_start_measurement`, pressure_sensor.c:3-11 -/
def startMeasurement (env : Env) (i : Bool) (w : World) : Except Err World :=
  match command env i w [0xaa, 0x00, 0x00] with
  | .error e => .error e
  | .ok (w, _) => .ok w

/-- `mpr_read_status`, pressure_sensor.c:13-23 -/
def readStatus (env : Env) (i : Bool) (w : World) : Except Err (World × BitVec 8) :=
  match command env i w [0xf0] with
  | .error e => .error e
  | .ok (w, rx) => match rx with
    | [s] => .ok (w, s)
    | _ => .error .memory

/-- `mpr_read_data`, pressure_sensor.c:25-41 -/
def readData (env : Env) (i : Bool) (w : World) : Except Err (World × BitVec 32) :=
  match command env i w [0xf0, 0x00, 0x00, 0x00] with
  | .error e => .error e
  | .ok (w, rx) => match rx with
    | [_, o1, o2, o3] => .ok (w, o3.setWidth 32 ||| (o2.setWidth 32 <<< 8) ||| (o1.setWidth 32 <<< 16))
    | _ => .error .memory

/-- `mpr_status_is_error`, pressure_sensor.c:43-66 -/
def isError (status : BitVec 8) : Bool :=
  if status &&& (1 <<< 6) = 0 then true
  else if status &&& (1 <<< 2) ≠ 0 then true
  else if status &&& (1 <<< 0) ≠ 0 then true
  else if status &&& 0b10011000 ≠ 0 then true
  else false

/-- `mpr_status_is_busy`, pressure_sensor.c:68-71 -/
def isBusy (status : BitVec 8) : Bool := status &&& (1 <<< 5) ≠ 0

/-- `mpr_pressure_raw_to_pascal`, pressure_sensor.c:78-85; each operation on `float` is rounded by `rnd`, and so is the conversion of the integer -/
def toPascal (rnd : ℚ → ℚ) (raw : BitVec 32) : ℚ :=
  let pMax : ℚ := 103422
  let outMax : ℚ := 0xe66666
  let outMin : ℚ := 0x19999a
  rnd (rnd (rnd (rnd (raw.toNat : ℚ) - outMin) / rnd (outMax - outMin)) * pMax)

/-- Conversion of `float` to `uint32_t`: towards zero, undefined outside of the range -/
def toUint (x : ℚ) : Except Err (BitVec 32) :=
  if -1 < x ∧ x < 4294967296 then .ok (BitVec.ofNat 32 ⌊x⌋.toNat) else .error .conversion

/-! ## feedback_publisher.cpp -/

/-- `palClearPad`/`palSetPad` of `GPIOA_PRESSURE_RST`: one line for both sensors -/
def setReset (level : Bool) (w : World) : World :=
  { w with dev := fun i => if level then { w.dev i with reset := false } else { w.dev i with reset := true, conv := none } }

/-- `chThdSleepMilliseconds` -/
def sleep (ms : Nat) (w : World) : World := { w with dev := fun i => (w.dev i).wait (1000 * ms) }

/-- `read_pressure`, feedback_publisher.cpp:11-33 -/
def readPressure (rnd : ℚ → ℚ) (env : Env) (i : Bool) (w : World) : Except Err (World × BitVec 32) :=
  let w := sleep 3 (setReset true (sleep 3 (setReset false w)))
  match startMeasurement env i w with
  | .error e => .error e
  | .ok w => match readStatus env i (sleep 5 w) with
    | .error e => .error e
    | .ok (w, status) =>
      if isError status || isBusy status then .ok (w, 0)
      else match readData env i (sleep 1 w) with
        | .error e => .error e
        | .ok (w, raw) => match toUint (toPascal rnd raw) with
          | .error e => .error e
          | .ok p => .ok (w, p)

/-- The message cvra/actuator/20150.Feedback.uavcan; the analog values are converted to 16 bit floats by the library -/
structure Message where
  pressure0 : BitVec 32
  pressure1 : BitVec 32
  analog0 : ℚ
  analog1 : ℚ
  digital : Bool
deriving DecidableEq

/-- `analog_input_read`, analog_input.c:24-40: two channels, two conversions of each in turn, of which the first is used; `ADC_GAIN` is 2 * 3.3 / 4096 -/
def analogRead (samples : List (BitVec 12)) (i : Nat) : Option ℚ := samples[i]?.map fun s => (s.toNat : ℚ) * (2 * 3.3 / 4096)

/-- `feedback_publish`, feedback_publisher.cpp:35-54: the message, and whether the sensors are all right -/
def publish (rnd : ℚ → ℚ) (env : Env) (round : Nat) (w : World) : Except Err (World × Message × Bool) :=
  let samples := [env.analog round 0 0, env.analog round 0 1, env.analog round 1 0, env.analog round 1 1]
  match analogRead samples 0, analogRead samples 1 with
  | some a0, some a1 =>
    match readPressure rnd env false (sleep 10 w) with
    | .error e => .error e
    | .ok (w, p0) => match readPressure rnd env true w with
      | .error e => .error e
      | .ok (w, p1) => .ok (w, ⟨p0, p1, a0, a1, env.digital round⟩, decide (p0 ≠ 0) && decide (p1 ≠ 0))
  | _, _ => .error .memory

/-- `node.spin` for 100 ms and a message, node.cpp:81-92, `n` times: the messages, each with the health that is reported from then on (true is OK; `node_ok` is false if there was no
configuration) -/
def rounds (rnd : ℚ → ℚ) (env : Env) (nodeOk : Bool) : Nat → Nat → World → Except Err (World × List (Message × Bool))
  | 0, _, w => .ok (w, [])
  | n + 1, k, w => match publish rnd env k (sleep 100 w) with
    | .error e => .error e
    | .ok (w, m, ok) => match rounds rnd env nodeOk n (k + 1) w with
      | .error e => .error e
      | .ok (w, l) => .ok (w, (m, nodeOk && ok) :: l)

/-- After `board_init` and `mpr_start`: clock low, nothing selected; what the sensors did before is not known -/
def World.start (w : World) : Prop := w.sck = false ∧ w.clash = false ∧ (∀ i, (w.dev i).sel = false ∧ (w.dev i).count = 0)

end Verif.Pressure
