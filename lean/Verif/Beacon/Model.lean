import Mathlib.Data.Rat.Defs
import Mathlib.Algebra.Order.Field.Rat
import Verif.Timestamp.Model

/-!
# Pools and mailboxes: the proximity beacon and the UDP topic broadcaster

Both programs take objects from a ChibiOS memory pool, post them to a mailbox as large as the pool, and free them at the other end.

The pool is a list of free objects (`chPoolAllocI` takes the first, `chPoolFree` puts back in front; it overwrites the object with a pointer, here with anything). The
mailbox is a queue. Posting to a full mailbox fails, and both programs ignore the result; the model records it in `lost`. Everything between lock and unlock of the kernel, and every
call of a kernel function, is one step; the two sides interleave arbitrarily. Floating point numbers are exact.
-/

namespace Verif.Beacon

def upd {α : Type} (f : Nat → α) (i : Nat) (x : α) : Nat → α := fun j => if j = i then x else f j

/-! ## Proximity beacon, proximity_beacon.c and proximity_beacon_publisher.cpp -/

/-- `struct proximity_beacon_signal` -/
structure Signal where
  start : ℚ
  length : ℚ
deriving DecidableEq

/-- The publisher, `timer_cb`, proximity_beacon_publisher.cpp:9-25 -/
inductive Pub where
  | idle
  /-- between `proximity_beacon_signal_get` and the read of the object -/
  | got (sp : Nat)
  /-- the message is filled and not yet sent -/
  | copied (sp : Nat) (s : Signal)
  /-- sent, not yet deleted -/
  | sent (sp : Nat)
deriving DecidableEq

structure St where
  free : List Nat
  box : List Nat
  mem : Nat → Signal
  /-- `start_angle`, `signal_active`, proximity_beacon.c:18-19 -/
  startAngle : ℚ
  active : Bool
  /-- `last_last_crossing`, `last_crossing`, lines 20-21 -/
  lastLast : BitVec 32
  last : BitVec 32
  pub : Pub
  /-- what was broadcast -/
  sent : List Signal
  /-- a post failed -/
  lost : Bool

/-- `SIGNAL_BUFFER_SIZE`, proximity_beacon.c:10 -/
def N : Nat := 14

/-- `proximity_beacon_init`, proximity_beacon.c:78-91; `chPoolLoadArray` frees the objects one after the other. -/
def init (mem : Nat → Signal) : St := ⟨(List.range N).reverse, [], mem, 0, false, 0#32, 1#32, .idle, [], false⟩

/-- The position, proximity_beacon.c:43-52; `pi` is `M_PI`. -/
def position (pi deltaT period : ℚ) : ℚ := if deltaT < period then deltaT / period * 2 * pi else 0

/-- `light_sensor_cb`, proximity_beacon.c:36-76; `pos` is the position. -/
def light (pi : ℚ) (pin : Bool) (pos : ℚ) (st : St) : St :=
  if !pin then { st with startAngle := pos, active := true }
  else if st.active then
    let length := pos - st.startAngle
    let length := if length < 0 then length + 2 * pi else length
    let st := { st with active := false }
    match st.free with
    | [] => st
    | sp :: free =>
      let st := { st with free := free, mem := upd st.mem sp ⟨st.startAngle, length⟩ }
      if st.box.length < N then { st with box := st.box ++ [sp] } else { st with lost := true }
  else st

/-- `hall_sensor_cb`, proximity_beacon.c:23-34 -/
def hall (t : BitVec 32) (st : St) : St := { st with lastLast := st.last, last := t }

inductive Ev where
  /-- the rotor passes the hall sensor at time `t` -/
  | hall (t : BitVec 32)
  /-- an edge of the light sensor at time `t` -/
  | light (pin : Bool) (t : BitVec 32)
  /-- the next step of the publisher; `garbage` is what freeing leaves in the object -/
  | pub (garbage : Signal)

/-- One step of the publisher, proximity_beacon_publisher.cpp:14-20, proximity_beacon.c:93-106 -/
def pubStep (g : Signal) (st : St) : St :=
  match st.pub with
  | .idle =>
    match st.box with
    | [] => st
    | sp :: box => { st with box := box, pub := .got sp }
  | .got sp => { st with pub := .copied sp (st.mem sp) }
  | .copied sp s => { st with pub := .sent sp, sent := st.sent ++ [s] }
  | .sent sp => { st with pub := .idle, free := sp :: st.free, mem := upd st.mem sp g }

def step (pi : ℚ) (st : St) : Ev → St
  | .hall t => hall t st
  | .light pin t => light pi pin (position pi (Timestamp.durationS st.last t) (Timestamp.durationS st.lastLast st.last)) st
  | .pub g => pubStep g st

def run (pi : ℚ) (mem : Nat → Signal) (es : List Ev) : St := es.foldl (step pi) (init mem)

/-! ## UDP topic broadcaster, udp_topic_broadcaster.c -/

/-- An encoded message: its bytes; `len` is their number. -/
abbrev Msg := List (BitVec 8)

/-- `udp_topic_encode_thd`, lines 37-73 -/
inductive Enc where
  | waiting
  | allocated (m : Nat)
  | encoded (m : Nat)
deriving DecidableEq

/-- `udp_topic_send_thd`, lines 75-115 -/
inductive Snd where
  | waiting
  | fetched (m : Nat)
  | sent (m : Nat)
deriving DecidableEq

structure Udp where
  free : List Nat
  box : List Nat
  mem : Nat → Msg
  enc : Enc
  snd : Snd
  /-- what was sent, and the messages that were not sent for lack of a network buffer -/
  out : List (Msg × Bool)
  lost : Bool

/-- `MSG_BUF_SIZE`, line 16 -/
def M : Nat := 16

/-- `udp_topic_register_callbacks`, line 119 -/
def Udp.init (mem : Nat → Msg) : Udp := ⟨(List.range M).reverse, [], mem, .waiting, .waiting, [], false⟩

inductive UdpEv where
  /-- the next step of the encoder; a published message encodes to `m`, empty if it does not fit -/
  | enc (m garbage : Msg)
  /-- the next step of the sender; `netbuf` tells whether `netbuf_new` gives a buffer -/
  | snd (netbuf : Bool) (garbage : Msg)

/-- The encoder, lines 51-72 -/
def Udp.encStep (m g : Msg) (st : Udp) : Udp :=
  match st.enc with
  | .waiting =>
    match st.free with
    | [] => st
    | p :: free => { st with free := free, enc := .allocated p }
  | .allocated p => { st with mem := upd st.mem p m, enc := .encoded p }
  | .encoded p =>
    if (st.mem p).length > 0 then
      if st.box.length < M then { st with box := st.box ++ [p], enc := .waiting } else { st with lost := true, enc := .waiting }
    else { st with free := p :: st.free, mem := upd st.mem p g, enc := .waiting }

/-- The sender, lines 86-114 -/
def Udp.sndStep (netbuf : Bool) (g : Msg) (st : Udp) : Udp :=
  match st.snd with
  | .waiting =>
    match st.box with
    | [] => st
    | p :: box => { st with box := box, snd := .fetched p }
  | .fetched p =>
    if netbuf then { st with snd := .sent p, out := st.out ++ [(st.mem p, true)] }
    else { st with snd := .waiting, out := st.out ++ [(st.mem p, false)], free := p :: st.free, mem := upd st.mem p g }
  | .sent p => { st with snd := .waiting, free := p :: st.free, mem := upd st.mem p g }

def Udp.step (st : Udp) : UdpEv → Udp
  | .enc m g => st.encStep m g
  | .snd n g => st.sndStep n g

def Udp.run (mem : Nat → Msg) (es : List UdpEv) : Udp := es.foldl Udp.step (Udp.init mem)

end Verif.Beacon
