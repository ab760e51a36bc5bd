import Verif.Uwb.Model

/-!
# The ranging thread and the senders of data packets

uwb-beacon-firmware/src/ranging_thread.c: the event loop of the ranging thread (141-226), the
registration of its listeners (472-488) and `ranging_send_data_packet` (491-507), which any thread
may call, as a machine in which threads, timers and interrupts run in any order, one shared access
at a time.

Not modelled: the radio itself (`dwt_*`), the contents of the frames other than data packets (see
`Uwb`), the message bus (see `MsgBus`).
-/

namespace Verif.Ranging

abbrev Byte := BitVec 8
abbrev Addr := BitVec 16

/-- The six event bits, ranging_thread.c:22-27. -/
inductive Bit where
  | uwbInt | advertise | anchorPosition | tagPosition | dataReady | temperature
deriving DecidableEq, Repr

/-- The number of the bit in the mask, ranging_thread.c:22-27. -/
def Bit.num : Bit → Nat
  | .uwbInt => 0 | .advertise => 1 | .anchorPosition => 2 | .tagPosition => 3 | .dataReady => 4
  | .temperature => 10

/-- All bits in increasing order. -/
def bits : List Bit := [.uwbInt, .advertise, .anchorPosition, .tagPosition, .dataReady, .temperature]

/-- An event mask (`eventmask_t`): which bits are set. -/
abbrev Mask := Bit → Bool

def Mask.set (m : Mask) (b : Bit) : Mask := fun c => if c = b then true else m c
def Mask.clear (m : Mask) (b : Bit) : Mask := fun c => if c = b then false else m c
def Mask.only (b : Bit) : Mask := fun c => decide (c = b)

/-- `chEvtWaitOne(ALL_EVENTS)` of ChibiOS: the lowest pending event is taken out of the pending ones
and returned; `none` while nothing is pending. -/
def waitOne (pending : Mask) : Option (Mask × Mask) :=
  (bits.find? pending).map fun b => (Mask.only b, pending.clear b)

/-- `anchor_macs`, ranging_thread.c:160. -/
def anchorMacs : List Addr := [7, 10, 11, 14]

/-- The steps of one pass through the loop that touch the radio or shared variables. -/
inductive Act where
  /-- `uwb_initiate_measurement`, :183 -/
  | measure (mac : Addr)
  /-- `uwb_send_anchor_position`, :202-207 -/
  | anchorPosition
  /-- the loads of the arguments of `uwb_send_data_packet`, :212 -/
  | loadDst | loadPtr | loadSize
  /-- the call itself: reads the data and transmits, :212 -/
  | transmit
  /-- `chBSemSignal(&data_packet_sent)`, :214 -/
  | signal
  /-- `publish_dw1000_temperature`, :218 -/
  | temperature
  /-- `dwt_isr`, :223 -/
  | isr
deriving DecidableEq, Repr

/-- The index after a measurement, ranging_thread.c:185-188. -/
def nextIndex (i : Nat) : Nat := if i + 1 = anchorMacs.length then 0 else i + 1

/-- One pass through the loop body, ranging_thread.c:176-224, for the flags returned by
`chEvtWaitOne` and the value of the parameter `is_anchor`: what is done, and the new
`current_anchor_mac_index`. `dwt_forcetrxoff`, which goes before each transmission, is left out. -/
def body (flags : Mask) (isAnchor : Bool) (i : Nat) : List Act × Nat :=
  let (a, i) :=
    if flags .advertise && !isAnchor && decide (0 < anchorMacs.length) then
      ([Act.measure (anchorMacs.getD i 0)], nextIndex i)
    else ([], i)
  if flags .anchorPosition && !isAnchor then (a, i) -- `continue`, :195-197
  else
    (a ++ (if flags .anchorPosition then [.anchorPosition] else [])
       ++ (if flags .dataReady then [.loadDst, .loadPtr, .loadSize, .transmit, .signal] else [])
       ++ (if flags .temperature then [.temperature] else [])
       ++ (if flags .uwbInt then [.isr] else []), i)

/-- The arguments of a call of `ranging_send_data_packet`: the bytes `data[0 .. data_size)` and the
destination. -/
structure Packet where
  data : List Byte
  dst : Addr
deriving DecidableEq, Repr

/-- Where a sender is in `ranging_send_data_packet`, ranging_thread.c:491-507. -/
inductive Pc where
  /-- before `chMtxLock`, :493 -/
  | lock
  /-- before the stores of :495, :496, :498 -/
  | storePtr | storeSize | storeDst
  /-- before `chEvtBroadcast`, :501 -/
  | broadcast
  /-- before or in `chBSemWait`, :504 -/
  | wait
  /-- before `chMtxUnlock`, :506 -/
  | unlock
deriving DecidableEq, Repr

/-- The state of all threads. Thread `t` is outside of the function when `sender t = none`; otherwise its
packet is in memory that is only valid until the call returns (both callers pass buffers on their stack or owned
by a message; cmd.c:488, data_packet_handler.cpp:17). -/
structure State where
  sender : Nat → Option (Packet × Pc)
  /-- owner of `data_packet_lock` -/
  owner : Option Nat
  /-- `data_packet`: a pointer into the buffer of a thread -/
  ptr : Option Nat
  /-- `data_packet_size` -/
  size : Nat
  /-- `data_packet_dst_mac` -/
  dst : Addr
  /-- `data_packet_sent`: whether the semaphore can be taken -/
  sem : Bool
  /-- which listeners are registered, :475-488 -/
  registered : Mask
  /-- listeners still to be registered, in the order of :475-488 -/
  toRegister : List Bit
  /-- pending events of the ranging thread -/
  pending : Mask
  /-- remaining steps of the current pass through the loop -/
  todo : List Act
  /-- loaded arguments: destination, pointer, size -/
  argDst : Addr
  argPtr : Option Nat
  argSize : Nat
  /-- `current_anchor_mac_index` -/
  index : Nat
  /-- ghost: calls in the order in which they obtained the lock, with their threads -/
  entered : List (Nat × Packet)
  /-- ghost: packets transmitted -/
  sent : List Packet
  /-- ghost: calls that have returned -/
  returned : List (Nat × Packet)
  /-- ghost: anchors asked for a measurement -/
  measured : List Addr
  /-- the data of a packet was read outside of a valid buffer (undefined behaviour) -/
  bad : Bool

/-- After the initialisation of the parameters and topics, ranging_thread.c:141-154;
`data_packet_sent` is initially taken, :67. Threads may already call. -/
def init : State where
  sender _ := none
  owner := none
  ptr := none
  size := 0
  dst := 0
  sem := false
  registered _ := false
  toRegister := [.uwbInt, .advertise, .anchorPosition, .dataReady, .tagPosition, .temperature]
  pending _ := false
  todo := []
  argDst := 0
  argPtr := none
  argSize := 0
  index := 0
  entered := []
  sent := []
  returned := []
  measured := []
  bad := false

/-- What may happen next. -/
inductive Ev where
  /-- thread `t` calls `ranging_send_data_packet` -/
  | call (t : Nat) (p : Packet)
  /-- thread `t` executes the next step of its call -/
  | send (t : Nat)
  /-- a timer or the interrupt of the radio broadcasts its event, :320-359 and exti.c -/
  | raise (b : Bit)
  /-- the ranging thread registers the next listener -/
  | register
  /-- the ranging thread, having nothing left to do, waits for an event; `is_anchor` has this value -/
  | wake (isAnchor : Bool)
  /-- the ranging thread executes the next step of the pass -/
  | act
deriving DecidableEq, Repr

/-- `chEvtBroadcast`: the event becomes pending if the listener is registered, otherwise nothing
happens (ChibiOS). -/
def State.signalEvent (s : State) (b : Bit) : State :=
  if s.registered b then { s with pending := s.pending.set b } else s

def State.goto (s : State) (t : Nat) (p : Packet) (pc : Pc) : State :=
  { s with sender := fun u => if u = t then some (p, pc) else s.sender u }

/-- The next step of thread `t` in `ranging_send_data_packet`, ranging_thread.c:491-507; `none` while
it is blocked or not in the function. -/
def sendStep (s : State) (t : Nat) : Option State :=
  match s.sender t with
  | none => none
  | some (p, .lock) =>
    if s.owner = none then
      some { s.goto t p .storePtr with owner := some t, entered := s.entered ++ [(t, p)] }
    else none
  | some (p, .storePtr) => some { s.goto t p .storeSize with ptr := some t }
  | some (p, .storeSize) => some { s.goto t p .storeDst with size := p.data.length }
  | some (p, .storeDst) => some { s.goto t p .broadcast with dst := p.dst }
  | some (p, .broadcast) => some ((s.goto t p .wait).signalEvent .dataReady)
  | some (p, .wait) => if s.sem then some { s.goto t p .unlock with sem := false } else none
  | some (p, .unlock) =>
    some { s with sender := fun u => if u = t then none else s.sender u, owner := none
                  returned := s.returned ++ [(t, p)] }

/-- The bytes read through a pointer: `none` if there is no valid buffer of at least that size
behind it. -/
def readBuf (s : State) (ptr : Option Nat) (n : Nat) : Option (List Byte) :=
  match ptr with
  | none => none
  | some t => match s.sender t with
    | none => none
    | some (p, _) => if n ≤ p.data.length then some (p.data.take n) else none

/-- One step of the ranging thread. -/
def actStep (s : State) : Option State :=
  match s.todo with
  | [] => none
  | a :: l =>
    let s := { s with todo := l }
    some <| match a with
    | .measure mac => { s with measured := s.measured ++ [mac] }
    | .anchorPosition => s
    | .loadDst => { s with argDst := s.dst }
    | .loadPtr => { s with argPtr := s.ptr }
    | .loadSize => { s with argSize := s.size }
    | .transmit => match readBuf s s.argPtr s.argSize with
      | none => { s with bad := true }
      | some d => { s with sent := s.sent ++ [⟨d, s.argDst⟩] }
    | .signal => { s with sem := true }
    | .temperature => s
    | .isr => s

/-- One step of the whole system; `none` if it cannot happen. -/
def step (s : State) : Ev → Option State
  | .call t p => if s.sender t = none then some (s.goto t p .lock) else none
  | .send t => sendStep s t
  | .raise b => if b = .dataReady then none else some (s.signalEvent b)
  | .register => match s.toRegister with
    | [] => none
    | b :: l => some { s with registered := s.registered.set b, toRegister := l }
  | .wake isAnchor =>
    if s.toRegister = [] ∧ s.todo = [] then
      match waitOne s.pending with
      | none => none
      | some (flags, pending) =>
        let (todo, i) := body flags isAnchor s.index
        some { s with pending := pending, todo := todo, index := i }
    else none
  | .act => actStep s

/-- A sequence of steps. -/
inductive Run : State → List Ev → State → Prop where
  | nil (s) : Run s [] s
  | cons {s s' s'' e es} : step s e = some s' → Run s' es s'' → Run s (e :: es) s''

end Verif.Ranging
