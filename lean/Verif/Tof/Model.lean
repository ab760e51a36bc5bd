/-!
# Distance and colour sensor of the sensor board

sensor-firmware vl6180x/vl6180x.c, vl6180x/vl6180x_chibios.c, TCS3472.c (`TCS3472_read_color`), uavcan/DistanceVL6180X_pub.cpp, uavcan/ColorRGBC_pub.cpp, and their calls in main.c and
uavcan/node.cpp.

The distance sensor is a device with the registers that the driver uses, after the data sheet as quoted in the driver; it measures when told to and needs any time. Every access of a
register is one step; before each of them the device may have finished something, and any transfer may fail. `i2cMasterTransmit` does not write its receive buffer if it fails,
so the driver then returns what was on its stack: an arbitrary number here.
-/

namespace Verif.Tof

/-- What the code does not know: at which accesses the device has finished booting or measuring, the result of each measurement (distance, error code), unused bits of the registers,
which transfers succeed, and what is on the stack -/
structure Env where
  boot : Nat → Bool
  finish : Nat → Bool
  result : Nat → BitVec 8 × BitVec 4
  noise : Nat → BitVec 8
  ok : Nat → Bool
  junk : Nat → BitVec 8

/-- The VL6180X: its address, is it booted, register `SYSTEM__FRESH_OUT_OF_RESET`, the measurement in progress, the flag of a new sample, value and error code of the last
measurement, the number of measurements so far, and which events set the flag -/
structure Dev where
  addr : BitVec 8
  booted : Bool
  fresh : BitVec 8
  meas : Option Nat
  flag : Bool
  val : BitVec 8
  code : BitVec 4
  count : Nat
  intCfg : BitVec 8
deriving DecidableEq, Repr

/-- What the device may do before access `t`: the flag is set by a new sample if bits 2:0 of `SYSTEM__INTERRUPT_CONFIG_GPIO` are 4 -/
def Dev.progress (env : Env) (t : Nat) (d : Dev) : Dev :=
  let d := if env.boot t && !d.booted then { d with booted := true, fresh := 1 } else d
  match d.meas with
  | none => d
  | some k =>
    if env.finish t then
      { d with meas := none, val := (env.result k).1, code := (env.result k).2, flag := d.flag || decide (d.intCfg &&& 7 = 4) }
    else d

/-- Registers for reading: model, fresh out of reset, range status (bit 0: ready, bits 7:4: error), interrupt status (bit 2: new sample), value -/
def Dev.read (d : Dev) (noise : BitVec 8) (reg : BitVec 16) : BitVec 8 :=
  if reg = 0x000 then 0xb4
  else if reg = 0x016 then d.fresh
  else if reg = 0x04d then (d.code.setWidth 8 <<< 4) ||| (noise &&& 0x0e) ||| (if d.meas = none then 1 else 0)
  else if reg = 0x04f then (noise &&& 0xfb) ||| (if d.flag then 4 else 0)
  else if reg = 0x062 then d.val
  else noise

/-- Registers for writing: address, fresh out of reset, events, clearing the flag (bit 0), starting a single measurement (bit 0) -/
def Dev.write (d : Dev) (reg : BitVec 16) (v : BitVec 8) : Dev :=
  if reg = 0x212 then { d with addr := v }
  else if reg = 0x016 then { d with fresh := v }
  else if reg = 0x014 then { d with intCfg := v }
  else if reg = 0x015 then if v &&& 1 ≠ 0 then { d with flag := false } else d
  else if reg = 0x018 then if v &&& 1 ≠ 0 ∧ d.meas = none then { d with meas := some d.count, count := d.count + 1 } else d
  else d

/-- `init_tab`, vl6180x.c:76-128, with the addresses of vl6180x_registers.h -/
def initTab : List (BitVec 16 × BitVec 8) :=
  [(0x0207, 0x01), (0x0208, 0x01), (0x0096, 0x00), (0x0097, 0xfd), (0x00e3, 0x00), (0x00e4, 0x04), (0x00e5, 0x02), (0x00e6, 0x01), (0x00e7, 0x03), (0x00f5, 0x02),
    (0x00d9, 0x05), (0x00db, 0xce), (0x00dc, 0x03), (0x00dd, 0xf8), (0x009f, 0x00), (0x00a3, 0x3c), (0x00b7, 0x00), (0x00bb, 0x3c), (0x00b2, 0x09), (0x00ca, 0x09),
    (0x0198, 0x01), (0x01b0, 0x17), (0x01ad, 0x00), (0x00ff, 0x05), (0x0100, 0x05), (0x0199, 0x05), (0x01a6, 0x1b), (0x01ac, 0x3e), (0x01a7, 0x1f), (0x0030, 0x00),
    (0x0011, 0x10), (0x010a, 0x30), (0x003f, 0x46), (0x0031, 0xff), (0x0040, 0x63), (0x002e, 0x01), (0x0014, 0x24)]

/-- Where the code is: `vl6180x_change_i2c_address` (56-60), `vl6180x_ping` (6-14), the three parts of `vl6180x_configure` (63-135), the accesses of `vl6180x_measure_distance` (22-54) -/
inductive Pc where
  | setAddr
  | ping
  | fresh
  | clearFresh
  | table (k : Nat)
  | wait1
  | start
  | wait2
  | value
  | clear
  | wait3
deriving DecidableEq, Repr

/-- State of the board: place in the code, the driver's address, the distance read, the device, number of accesses so far, the messages published (distance, status) -/
structure St where
  pc : Pc
  addr : BitVec 8
  mm : BitVec 8
  dev : Dev
  t : Nat
  out : List (BitVec 8 × BitVec 8)
deriving DecidableEq, Repr

/-- The transfer succeeds: nothing went wrong, and the device has the address that the driver uses -/
def St.acked (env : Env) (s : St) : Bool := env.ok s.t && decide (s.dev.addr = s.addr)

/-- `vl6180x_read_register`, vl6180x_chibios.c:12-18 -/
def St.rd (env : Env) (s : St) (reg : BitVec 16) : BitVec 8 := if s.acked env then s.dev.read (env.noise s.t) reg else env.junk s.t

/-- `vl6180x_write_register`, vl6180x_chibios.c:6-10 -/
def St.wr (env : Env) (s : St) (reg : BitVec 16) (v : BitVec 8) : Dev := if s.acked env then s.dev.write reg v else s.dev

/-- One access of a register and what follows until the next one; after the last access of a measurement the message is published, DistanceVL6180X_pub.cpp:7-20, and the next round of the loop
begins, node.cpp:78-84 -/
def step (env : Env) (s : St) : St :=
  let s := { s with dev := s.dev.progress env s.t }
  let n := { s with t := s.t + 1 }
  match s.pc with
  | .setAddr => { n with pc := .ping, dev := s.wr env 0x212 0x2a, addr := 0x2a }
  | .ping => { n with pc := .fresh }
  | .fresh => if s.rd env 0x016 ≠ 0x01 then n else { n with pc := .clearFresh }
  | .clearFresh => { n with pc := .table 0, dev := s.wr env 0x016 0x00 }
  | .table k =>
    match initTab[k]? with
    | some (r, v) => { n with pc := if k + 1 = initTab.length then .wait1 else .table (k + 1), dev := s.wr env r v }
    | none => n
  | .wait1 => if s.rd env 0x04d &&& 1 = 0 then n else { n with pc := .start }
  | .start => { n with pc := .wait2, dev := s.wr env 0x018 0x01 }
  | .wait2 => if s.rd env 0x04f &&& 4 = 0 then n else { n with pc := .value }
  | .value => { n with pc := .clear, mm := s.rd env 0x062 }
  | .clear => { n with pc := .wait3, dev := s.wr env 0x015 0x07 }
  | .wait3 =>
    let status := s.rd env 0x04d
    if status &&& 1 = 0 then n else { n with pc := .wait1, out := s.out ++ [(s.mm, status >>> 4)] }

def run (env : Env) : Nat → St → St
  | 0, s => s
  | n + 1, s => run env n (step env s)

/-- After the reset of the device, main.c:58-67: it has the address 0x29, and so has the driver; the rest of the device's state after a reset -/
def init : St := ⟨.setAddr, 0x29, 0, ⟨0x29, false, 0, none, false, 0, 0, 0, 0⟩, 0, []⟩

/-! ## Colour -/

/-- `ColorRGBC` -/
structure Color where
  red : BitVec 16
  green : BitVec 16
  blue : BitVec 16
  clear : BitVec 16
deriving DecidableEq, Repr

/-- `TCS3472_read_color` and `color_publish`, TCS3472.c:76-92 and ColorRGBC_pub.cpp:7-22: `none` is a failed transfer, after which the array still has what was on the stack -/
def colorPublish (stack : Color) : Option (Fin 8 → BitVec 8) → Color
  | none => stack
  | some rx =>
    let word (l h : Fin 8) : BitVec 16 := (rx l).setWidth 16 ||| ((rx h).setWidth 16 <<< 8)
    ⟨word 2 3, word 4 5, word 6 7, word 0 1⟩

end Verif.Tof
