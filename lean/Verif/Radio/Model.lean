import Verif.Uwb.Model

/-!
# The radio of the beacon

uwb-beacon-firmware/src/decawave_interface.c (time stamps, `uwb_transmit_frame`), the functions of
uwb-beacon-firmware/src/decadriver/deca_device.c that the ranging thread uses while it runs (`dwt_isr`, `dwt_starttx`, `dwt_rxenable`, `dwt_forcetrxoff`), the
callbacks and the sending parts of the loop of uwb-beacon-firmware/src/ranging_thread.c, and the interrupt line (exti.c).

The device (DW1000) is modelled after the comments of its driver and its user manual: a counter of 40 bits; a frame to be sent later leaves when the counter has
the value of the register `DX_TIME` without its nine lower bits, and is refused if that is more than half a period away; the receiver stops after a frame or an
error; after a frame has been sent the receiver is turned on (`DWT_RESPONSE_EXPECTED`); the interrupt line is high as long as one of the status bits is set.
Turning on the receiver while a frame waits to be sent does not cancel the frame (assumption).

Not modelled: the contents of frames (see `Uwb`), automatic acknowledgements (not used), timeouts (disabled, ranging_thread.c:446), reading the temperature.
-/

namespace Verif.Radio

abbrev Byte := BitVec 8

/-! ## Time stamps -/

/-- `dwt_readsystimestamphi32`, deca_device.c:870-873: the upper four of the five bytes of the counter -/
def sysTimeHi (count : Nat) : BitVec 32 := BitVec.ofNat 32 (count / 256)

/-- `uwb_timestamp_get`, decawave_interface.c:53-56 -/
def timestampGet (count : Nat) : Nat := Uwb.u64 ((sysTimeHi count).toNat <<< 8)

/-- The register `RX_TIME` with the time of arrival, lowest byte first (`dwt_readrxtimestamp`, deca_device.c:822-825) -/
def rxBytes (count : Nat) : List Byte :=
  [BitVec.ofNat 8 count, BitVec.ofNat 8 (count / 2 ^ 8), BitVec.ofNat 8 (count / 2 ^ 16), BitVec.ofNat 8 (count / 2 ^ 24), BitVec.ofNat 8 (count / 2 ^ 32)]

/-- `decawave_get_rx_timestamp_u64`, decawave_interface.c:58-69: the loop runs from the last byte to the first. -/
def rxTimestamp (tab : List Byte) : Nat := tab.reverse.foldl (fun ts b => Uwb.u64 (ts <<< 8) ||| b.toNat) 0

/-- `dwt_setdelayedtrxtime(tx_timestamp >> 8)`, decawave_interface.c:81: the argument has 32 bits. -/
def dxTime (tx : Nat) : BitVec 32 := BitVec.ofNat 32 (tx >>> 8)

/-- The value of the counter when the frame leaves: the register is written from its second byte, and its nine lower bits are ignored (deca_device.c:2434). -/
def leaveTime (reg : BitVec 32) : Nat := reg.toNat * 256 / 512 * 512

/-- The device is told to send (`TXDLYS`) when it has counted to `now` (without wrapping): the frame leaves when the counter next has the right value, or is refused
if that is half a period or more away (deca_device.c:2468-2483). -/
def device (now : Nat) (reg : BitVec 32) : Option Nat :=
  let wait := (leaveTime reg + 2 ^ 40 - now % 2 ^ 40) % 2 ^ 40
  if wait < 2 ^ 39 then some (now + wait) else none

/-- `uwb_transmit_frame` with a time, decawave_interface.c:81-82: when the frame leaves. The result of `dwt_starttx` is not looked at. -/
def transmitAt (now tx : Nat) : Option Nat := device now (dxTime tx)

/-! ## Modes -/

/-- What the transceiver does: `tx` is sending, or waiting for the time to send, and will then listen. -/
inductive Mode where
  | off | rx | tx
deriving DecidableEq, Repr

/-- The bits of `SYS_STATUS` that are looked at: a good frame, a frame sent, an error of reception -/
structure Status where
  good : Bool
  sent : Bool
  err : Bool
deriving DecidableEq, Repr

/-- The interrupt line -/
def Status.line (s : Status) : Bool := s.good || s.sent || s.err

/-- What the handler of a frame does with the radio (`uwb_process_incoming_frame`): nothing, a frame to be sent later, or one that comes too late (`dwt_starttx`
turns the transceiver off then) -/
inductive Answer where
  | nothing | later | late
deriving DecidableEq, Repr

/-- Steps of the ranging thread -/
inductive Ins where
  /-- the status is read, deca_device.c:2116 -/
  | readStatus
  /-- if a good frame was seen: the bits are cleared, :2123 -/
  | clearGood
  /-- if a good frame was seen: it is processed, ranging_thread.c:243 -/
  | process
  /-- if a good frame was seen: `dwt_rxenable`, ranging_thread.c:245 -/
  | enableGood
  /-- if a frame was sent: the bits are cleared, deca_device.c:2168 -/
  | clearSent
  /-- if there was an error: the bits are cleared, :2206 -/
  | clearErr
  /-- if there was an error: `dwt_forcetrxoff`, :2213 -/
  | offErr
  /-- if there was an error: `dwt_rxenable`, ranging_thread.c:261 -/
  | enableErr
  /-- `dwt_forcetrxoff` before sending, ranging_thread.c:180, 200, 211 -/
  | off
  /-- `dwt_starttx`, in `uwb_transmit_frame` -/
  | start
deriving DecidableEq, Repr

/-- `dwt_isr`, deca_device.c:2114-2221, with the callbacks of ranging_thread.c:235-262. Timeouts are disabled. -/
def isr : List Ins := [.readStatus, .clearGood, .process, .enableGood, .clearSent, .clearErr, .offErr, .enableErr]

/-- The sending parts of the loop, ranging_thread.c:176-215; in the second step there always is a frame to be sent. -/
def send : List Ins := [.off, .start]

/-- The device and the ranging thread: `copy` is the status read last, `event` tells whether `EVENT_UWB_INT` is pending. Counters of frames received, processed and
thrown away are there for the statements only. -/
structure State where
  mode : Mode
  status : Status
  event : Bool
  todo : List Ins
  copy : Status
  received : Nat
  processed : Nat
  dropped : Nat
deriving DecidableEq, Repr

/-- After `hardware_init`, ranging_thread.c:436-448 -/
def init : State := ⟨.rx, ⟨false, false, false⟩, false, [], ⟨false, false, false⟩, 0, 0, 0⟩

/-- `SYS_CTRL_RXENAB` -/
def Mode.enable : Mode → Mode
  | .off => .rx
  | m => m

/-- `dwt_starttx` -/
def Mode.start : Answer → Mode → Mode
  | .nothing, m => m
  | .later, _ => .tx
  | .late, _ => .off

/-- `dwt_forcetrxoff`: transceiver off, all status bits cleared -/
def State.forceOff (s : State) : State :=
  { s with mode := .off, status := ⟨false, false, false⟩, dropped := s.dropped + (if s.status.good then 1 else 0) }

/-- One step of the thread; `a` is what the radio is asked to do where it is asked to send. -/
def Ins.act (s : State) (a : Answer) : Ins → State
  | .readStatus => { s with copy := s.status }
  | .clearGood => if s.copy.good then { s with status := { s.status with good := false } } else s
  | .process => if s.copy.good then { s with processed := s.processed + 1, mode := s.mode.start a } else s
  | .enableGood => if s.copy.good then { s with mode := s.mode.enable } else s
  | .clearSent => if s.copy.sent then { s with status := { s.status with sent := false } } else s
  | .clearErr => if s.copy.err then { s with status := { s.status with err := false } } else s
  | .offErr => if s.copy.err then s.forceOff else s
  | .enableErr => if s.copy.err then { s with mode := s.mode.enable } else s
  | .off => s.forceOff
  | .start => { s with mode := s.mode.start a }

/-- What may happen -/
inductive Ev where
  /-- the thread does its next step -/
  | act (a : Answer)
  /-- the thread takes the pending event of the radio -/
  | wake
  /-- the thread takes another event that makes it send -/
  | timer
  /-- the frame has left -/
  | sent
  /-- a good frame has been received -/
  | good
  /-- a reception has failed -/
  | err
deriving DecidableEq, Repr

/-- A status bit is set; the event becomes pending when the line rises (exti.c:19-30, 35). -/
def State.raise (s : State) (m : Mode) (st : Status) : State :=
  { s with mode := m, status := st, event := s.event || (!s.status.line && st.line) }

/-- `none`: cannot happen now -/
def step (s : State) : Ev → Option State
  | .act a => match s.todo with
    | [] => none
    | i :: l => if i = .start ∧ a = .nothing then none else some { i.act s a with todo := l }
  | .wake => if s.todo = [] ∧ s.event = true then some { s with event := false, todo := isr } else none
  | .timer => if s.todo = [] then some { s with todo := send } else none
  | .sent => if s.mode = .tx then some (s.raise .rx { s.status with sent := true }) else none
  | .good => if s.mode = .rx then some { s.raise .off { s.status with good := true } with received := s.received + 1 } else none
  | .err => if s.mode = .rx then some (s.raise .off { s.status with err := true }) else none

/-- Executions in which every step satisfies `ok` -/
inductive Run (ok : State → Ev → Prop) : State → State → Prop where
  | refl (s) : Run ok s s
  | step {s t e u} : Run ok s t → ok t e → step t e = some u → Run ok s u

def exec (s : State) : List Ev → Option State
  | [] => some s
  | e :: es => match step s e with
    | none => none
    | some t => exec t es

end Verif.Radio
