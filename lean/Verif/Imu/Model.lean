import Mathlib.Data.Rat.Floor
import Mathlib.Algebra.Order.Field.Rat

/-!
# Inertial measurement unit of the beacon

uwb-beacon-firmware mpu9250.c, mpu9250_registers.h, imu_thread.c, exti.c (`imu_cb`).

The sensor is a device with the registers that the driver uses, after the data sheets of MPU-9250 and AK8963: it samples on its own at any time, converts with the ranges that it is
configured for, exchanges bytes with the magnetometer over its own bus as configured, and latches its interrupt line. Every access of a register is a step, and so is a turn of the waiting
thread; before each of them the device may have sampled. Numbers are exact; a sleep of 100 ms contains a sample. Not modelled: the FIFO, filters and rates, time stamps.
-/

namespace Verif.Imu

/-- What is measured at one time: rates in degrees per second, acceleration in g, field in µT, temperature in degrees Celsius -/
structure Phys where
  gyro : Fin 3 → ℚ
  acc : Fin 3 → ℚ
  mag : Fin 3 → ℚ
  temp : ℚ

/-- What the code does not know: what sample `n` measures, before which accesses the device samples, and what the identity register says -/
structure Env where
  phys : Nat → Phys
  sample : Nat → Bool
  id : Nat → BitVec 8

/-! ## The device -/

/-- The registers of the configuration -/
structure Conf where
  gyro : BitVec 8
  acc : BitVec 8
  intPin : BitVec 8
  intEn : BitVec 8
  user : BitVec 8
  slvAddr : BitVec 8
  slvReg : BitVec 8
  slvDo : BitVec 8
  slvCtrl : BitVec 8
deriving DecidableEq, Repr

/-- Outputs: registers of acceleration, temperature and rates; bytes read from the magnetometer; the status "data ready"; the number of samples so far; and, of the magnetometer, its mode -/
structure Dev where
  conf : Conf
  acc : Fin 3 → BitVec 16
  temp : BitVec 16
  gyro : Fin 3 → BitVec 16
  ext : Fin 8 → BitVec 8
  status : Bool
  count : Nat
  cntl1 : BitVec 8

def Conf.reset : Conf := ⟨0, 0, 0, 0, 0, 0, 0, 0, 0⟩

def Dev.reset (d : Dev) : Dev := { d with conf := Conf.reset, acc := fun _ => 0, temp := 0, gyro := fun _ => 0, ext := fun _ => 0, status := false }

/-- Converter of 16 bits: nearest number, within its range -/
def adc (perUnit x : ℚ) : BitVec 16 := BitVec.ofInt 16 (max (-32768) (min 32767 ⌊x * perUnit + 1 / 2⌋))

/-- Steps per degree per second: 131 at 250 degrees per second, half of it for each step of FS_SEL (bits 4:3) -/
def Conf.gyroScale (c : Conf) : ℚ := 131 / 2 ^ ((c.gyro >>> 3) &&& 3).toNat

/-- Steps per g: 16384 at 2 g, half of it for each step of ACCEL_FS_SEL (bits 4:3) -/
def Conf.accScale (c : Conf) : ℚ := 16384 / 2 ^ ((c.acc >>> 3) &&& 3).toNat

def Dev.enabled (d : Dev) : Bool := d.conf.intEn.getLsbD 0
def Dev.latched (d : Dev) : Bool := d.conf.intPin.getLsbD 5

/-- The level of the interrupt line: active high or low (bit 7 of INT_PIN_CFG); without latch (bit 5) it has pulses only -/
def Dev.pin (d : Dev) : Bool := (d.status && d.enabled && d.latched) != d.conf.intPin.getLsbD 7

/-- Registers of the magnetometer: HXL, HXH, HYL, HYH, HZL, HZH from address 3 on; in 16 bit mode (bit 4 of CNTL1) 32760 steps for 4912 µT, otherwise 8190; no values
outside the modes for measurements at 8 Hz and 100 Hz -/
def magReg (cntl1 : BitVec 8) (p : Phys) (reg : Nat) : BitVec 8 :=
  if h : 3 ≤ reg ∧ reg < 9 then
    if cntl1 &&& 0xf = 2 ∨ cntl1 &&& 0xf = 6 then
      let raw := adc (if cntl1.getLsbD 4 then 32760 / 4912 else 8190 / 4912) (p.mag ⟨(reg - 3) / 2, by omega⟩)
      if (reg - 3) % 2 = 0 then raw.setWidth 8 else (raw >>> 8).setWidth 8
    else 0
  else 0

/-- A sample: the outputs are converted; if the bus master is on (bit 5 of USER_CTRL) and slave 0 enabled (bit 7 of its control register), then the magnetometer is read, as many bytes
as bits 3:0 of that register say, or written, according to bit 7 of the address. -/
def Dev.sample (d : Dev) (p : Phys) : Dev :=
  let on := d.conf.user.getLsbD 5 && d.conf.slvCtrl.getLsbD 7 && decide (d.conf.slvAddr &&& 0x7f = 0x0c)
  let d := { d with
    acc := fun i => adc d.conf.accScale (p.acc i)
    temp := adc (33387 / 100) (p.temp - 21)
    gyro := fun i => adc d.conf.gyroScale (p.gyro i)
    status := true
    count := d.count + 1 }
  if on then
    if d.conf.slvAddr.getLsbD 7 then
      { d with ext := fun i => if i.val < (d.conf.slvCtrl &&& 0xf).toNat then magReg d.cntl1 p (d.conf.slvReg.toNat + i.val) else d.ext i }
    else if d.conf.slvReg = 0x0a then { d with cntl1 := d.conf.slvDo }
    else d
  else d

/-- Registers for reading -/
def Dev.value (d : Dev) (id : BitVec 8) (reg : BitVec 8) : BitVec 8 :=
  let hi (x : BitVec 16) : BitVec 8 := (x >>> 8).setWidth 8
  let lo (x : BitVec 16) : BitVec 8 := x.setWidth 8
  match reg.toNat with
  | 0x3a => if d.status then 1 else 0
  | 0x3b => hi (d.acc 0) | 0x3c => lo (d.acc 0) | 0x3d => hi (d.acc 1) | 0x3e => lo (d.acc 1) | 0x3f => hi (d.acc 2) | 0x40 => lo (d.acc 2)
  | 0x41 => hi d.temp | 0x42 => lo d.temp
  | 0x43 => hi (d.gyro 0) | 0x44 => lo (d.gyro 0) | 0x45 => hi (d.gyro 1) | 0x46 => lo (d.gyro 1) | 0x47 => hi (d.gyro 2) | 0x48 => lo (d.gyro 2)
  | 0x49 => d.ext 0 | 0x4a => d.ext 1 | 0x4b => d.ext 2 | 0x4c => d.ext 3 | 0x4d => d.ext 4 | 0x4e => d.ext 5 | 0x4f => d.ext 6
  | 0x6a => d.conf.user
  | 0x75 => id
  | _ => 0

/-- Registers for writing; bit 2 of USER_CTRL goes back to zero -/
def Conf.write (c : Conf) (reg val : BitVec 8) : Conf :=
  match reg.toNat with
  | 0x1b => { c with gyro := val }
  | 0x1c => { c with acc := val }
  | 0x37 => { c with intPin := val }
  | 0x38 => { c with intEn := val }
  | 0x6a => { c with user := val &&& 0xfb }
  | 0x25 => { c with slvAddr := val }
  | 0x26 => { c with slvReg := val }
  | 0x63 => { c with slvDo := val }
  | 0x27 => { c with slvCtrl := val }
  | _ => c

/-- A transfer of a command and one byte: bit 7 of the command tells reading from writing; writing bit 7 of PWR_MGMT_1 resets the device; reading the status clears it. -/
def Dev.transfer (d : Dev) (id cmd val : BitVec 8) : Dev × BitVec 8 :=
  let reg := cmd &&& 0x7f
  if cmd.getLsbD 7 then
    (if reg = 0x3a then { d with status := false } else d, d.value id reg)
  else if reg = 0x6b then (if val.getLsbD 7 then d.reset else d, 0)
  else ({ d with conf := d.conf.write reg val }, 0)

/-! ## The driver -/

/-- What `mpu9250_configure` and `mpu9250_enable_magnetometer` do, mpu9250.c:31-100: writing, reading USER_CTRL and writing it back with two more bits, and sleeping -/
inductive Op where
  | write (reg val : BitVec 8)
  | readUser
  | writeUser
  | nap
deriving DecidableEq, Repr

def ops : List Op :=
  [.write 0x1a 0x01, .write 0x19 3, .write 0x1b (1 <<< 3), .write 0x1c (1 <<< 3), .write 0x1d 0, .write 0x37 (1 <<< 5), .write 0x38 (1 <<< 0), .write 0x6a (1 <<< 6 ||| 1 <<< 2),
    .readUser, .writeUser, .write 0x24 (1 <<< 6 ||| 1 <<< 4),
    .write 0x25 0x0c, .write 0x26 0x0b, .write 0x63 0x01, .write 0x27 0x81, .nap,
    .write 0x25 0x0c, .write 0x26 0x0a, .write 0x63 0x16, .write 0x27 0x81, .nap,
    .write 0x25 (0x0c ||| 1 <<< 7), .write 0x26 0x03, .write 0x27 (1 <<< 7 + 0x7)]

/-- The registers read in each round, in this order: `mpu9250_gyro_read`, `mpu9250_acc_read`, `mpu9250_mag_read`, mpu9250.c:108-179 -/
def dataRegs : List (BitVec 8) :=
  [0x43, 0x44, 0x45, 0x46, 0x47, 0x48, 0x3b, 0x3c, 0x3d, 0x3e, 0x3f, 0x40, 0x4a, 0x49, 0x4c, 0x4b, 0x4e, 0x4d]

/-- `imu_msg_t` without time stamp -/
structure Msg where
  gyro : Fin 3 → ℚ
  acc : Fin 3 → ℚ
  mag : Fin 3 → ℚ

/-- `(h << 8) + l` as `int16_t` -/
def word (h l : BitVec 8) : Int := ((h.setWidth 16 <<< 8) + l.setWidth 16).toInt

/-- The three functions' conversions of the bytes read, `mpi` is the constant `M_PI` -/
def toMsg (mpi : ℚ) (b : List (BitVec 8)) : Msg where
  gyro i := word (b.getD (2 * i.val) 0) (b.getD (2 * i.val + 1) 0) * (mpi / (180 * (655 / 10)))
  acc i := word (b.getD (6 + 2 * i.val) 0) (b.getD (6 + 2 * i.val + 1) 0) * (981 / 100 / 8192)
  mag i := word (b.getD (12 + 2 * i.val) 0) (b.getD (12 + 2 * i.val + 1) 0) * (4912 / 32760)

/-- `mpu9250_temp_read`, mpu9250.c:147-158 -/
def toTemp (b : List (BitVec 8)) : ℚ := 21 + word (b.getD 0 0) (b.getD 1 0) * (1 / (33387 / 100))

/-! ## The thread -/

/-- Where the thread is: `mpu9250_reset`, the loop of sleeping and `mpu9250_ping`, the configuration, waiting for the event, the accesses of a round -/
inductive Pc where
  | reset
  | nap
  | ping
  | ops (k : Nat)
  | wait
  | data (k : Nat)
  | temp (k : Nat)
  | clear
deriving DecidableEq, Repr

/-- Place, device, the event of the thread, number of accesses so far, USER_CTRL as read, bytes read in this round, the counter for the temperature, the messages published. The
rest is not in the code: the number of samples that had been made when the round began, and, for each finished round, when it began and when it ended. -/
structure St where
  pc : Pc
  dev : Dev
  pending : Bool
  t : Nat
  ctrl : BitVec 8
  buf : List (BitVec 8)
  prescaler : Nat
  out : List Msg
  temps : List ℚ
  first : Nat
  ages : List (Nat × Nat)

/-- A change of the device; a rising edge of the line is an event, exti.c:8-17 -/
def St.upd (s : St) (d : Dev) : St := { s with dev := d, pending := s.pending || (!s.dev.pin && d.pin) }

/-- A sample; without latch the line has a pulse for it -/
def St.sampled (env : Env) (s : St) : St :=
  let s' := s.upd (s.dev.sample (env.phys s.dev.count))
  { s' with pending := s'.pending || (s.dev.enabled && !s.dev.latched) }

/-- `mpu9250_reg_read`, mpu9250.c:181-194 -/
def St.rd (env : Env) (s : St) (reg : BitVec 8) : St × BitVec 8 :=
  let (d, v) := s.dev.transfer (env.id s.t) (reg ||| 0x80) 0
  (s.upd d, v)

/-- `mpu9250_reg_write`, :196-203 -/
def St.wr (env : Env) (s : St) (reg val : BitVec 8) : St := s.upd (s.dev.transfer (env.id s.t) reg val).1

/-- One operation of the configuration -/
def St.exec (env : Env) (s : St) : Op → St
  | .write reg val => s.wr env reg val
  | .readUser => let (s, v) := s.rd env 0x6a; { s with ctrl := v }
  | .writeUser => s.wr env 0x6a (s.ctrl ||| 1 <<< 5 ||| 1 <<< 4)
  | .nap => s.sampled env

/-- Before an access the device may sample. -/
def St.tick (env : Env) (s : St) : St :=
  let s' := if env.sample s.t then s.sampled env else s
  { s' with t := s.t + 1 }

/-- One access and what follows until the next one, imu_thread.c:13-108 -/
def St.act (env : Env) (mpi : ℚ) (s : St) : St :=
  match s.pc with
  | .reset => { s.wr env 0x6b 0x80 with pc := .nap }
  | .nap => { s.sampled env with pc := .ping }
  | .ping => let (s, v) := s.rd env 0x75; { s with pc := if v = 0x71 then .ops 0 else .nap }
  | .ops k =>
    match ops[k]? with
    | some op => { s.exec env op with pc := if k + 1 = ops.length then .wait else .ops (k + 1) }
    | none => s
  | .wait => if s.pending then { s with pending := false, pc := .data 0, buf := [], first := s.dev.count } else s
  | .data k =>
    match dataRegs[k]? with
    | some reg =>
      let (s, v) := s.rd env reg
      let s := { s with buf := s.buf ++ [v] }
      if k + 1 = dataRegs.length then
        let s := { s with out := s.out ++ [toMsg mpi s.buf], prescaler := s.prescaler + 1 }
        if s.prescaler - 1 ≥ 100 then { s with pc := .temp 0, buf := [] } else { s with pc := .clear }
      else { s with pc := .data (k + 1) }
    | none => s
  | .temp k =>
    let (s, v) := s.rd env (if k = 0 then 0x41 else 0x42)
    let s := { s with buf := s.buf ++ [v] }
    if k = 0 then { s with pc := .temp 1 } else { s with temps := s.temps ++ [toTemp s.buf], prescaler := 0, pc := .clear }
  | .clear =>
    let (s, _) := s.rd env 0x3a
    { s with pc := .wait, ages := s.ages ++ [(s.first, s.dev.count)] }

def step (env : Env) (mpi : ℚ) (s : St) : St := (s.tick env).act env mpi

def run (env : Env) (mpi : ℚ) : Nat → St → St
  | 0, s => s
  | n + 1, s => run env mpi n (step env mpi s)

/-- The device may be in any state when the thread starts (the listener is registered first). -/
def start (d : Dev) (pending : Bool) : St := ⟨.reset, d, pending, 0, 0, [], 0, [], [], 0, []⟩

end Verif.Imu
