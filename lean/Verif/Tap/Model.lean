import Verif.Tap.Limiter
import Verif.Uwb.Model

/-!
# Network packets over CAN and radio

* tools/uavcan_ip_interface.py: the threads between a TAP interface and the CAN bus (`rx_thread`, `node_thread`, `tx_thread`);
* uwb-beacon-firmware/src/uavcan/data_packet_handler.cpp: from the CAN bus to the radio;
* uwb-beacon-firmware/src/ranging_thread.c:235-247, 308-318: from the radio to the topic `/uwb_data`;
* uwb-beacon-firmware/src/uavcan/topics_publisher.cpp:42-88, 202-217: from the topic to the CAN bus.

The frames on the air are those of `Uwb`; the hand-over between the CAN thread and the ranging thread is in `Ranging`, the
message bus in `MsgBus`. Left out: the CAN bus itself and the decoding of its messages, which bounds the data to 1023 bytes
(uavcan_data_types/cvra/uwb_beacon/2200.DataPacket.uavcan), and frames that are destroyed on the air.
-/

namespace Verif.Tap

abbrev Byte := BitVec 8
abbrev Addr := BitVec 16

/-- A message `DataPacket` on the CAN bus, 2200.DataPacket.uavcan. -/
structure Msg where
  src : Addr
  dst : Addr
  data : List Byte
deriving DecidableEq, Repr

/-! ## The adapter -/

/-- The adapter: the two queues (uavcan_ip_interface.py:168-169), the rate limiter of :104, whether the node thread still
runs, and what was broadcast on the CAN bus and written to the TAP interface so far. -/
structure Bridge where
  limiter : Limiter
  tapToCan : List (List Byte)
  canToTap : List (List Byte)
  alive : Bool
  sent : List Msg
  written : List (List Byte)

/-- `main`, :152-187, when the threads start at time `now`. -/
def Bridge.start (rate now : ℚ) : Bridge := ⟨.init rate now, [], [], true, [], []⟩

inductive BridgeEv where
  /-- one pass of `rx_thread`, :106-111: an Ethernet frame is read from the interface at this time -/
  | tap (now : ℚ) (frame : List Byte)
  /-- `node.spin`, :124-128, in which these messages arrive; an error on the bus is ignored -/
  | spin (ms : List Msg)
  /-- the rest of a pass of `node_thread`, :130-143 -/
  | send
  /-- one pass of `tx_thread`, :148-149 -/
  | write

/-- One step; `none` if it cannot happen. `os.read` with a limit cuts a frame off; a failed `assert` (:136) ends the
thread it happens in and no other. -/
def Bridge.step (b : Bridge) : BridgeEv → Option Bridge
  | .tap now frame =>
    let packet := frame.take 1500
    let (ok, l) := b.limiter.check now
    if ok then some { b with limiter := l, tapToCan := b.tapToCan ++ [packet] } else some { b with limiter := l }
  | .spin ms => if b.alive then some { b with canToTap := b.canToTap ++ ms.map (·.data) } else none
  | .send =>
    if b.alive then
      match b.tapToCan with
      | [] => some b
      | packet :: q =>
        if packet.length < 1024 then some { b with tapToCan := q, sent := b.sent ++ [⟨0, 0xFFFF, packet⟩] }
        else some { b with tapToCan := q, alive := false }
    else none
  | .write => match b.canToTap with
    | [] => none
    | packet :: q => some { b with canToTap := q, written := b.written ++ [packet] }

def Bridge.run (b : Bridge) : List BridgeEv → Option Bridge
  | [] => some b
  | e :: es => match b.step e with
    | none => none
    | some b => b.run es

/-! ## From the CAN bus to the air -/

/-- `data_packet_cb`, data_packet_handler.cpp:9-18: the data is copied into an array of 1024 bytes. -/
def dataPacketCb (m : Msg) : Except Uwb.Err (List Byte × Addr) :=
  if m.data.length ≤ 1024 then .ok (m.data, m.dst) else .error .bounds

/-- What leaves the antenna: `uwb_transmit_frame` (decawave_interface.c:71-84) writes all but the last two bytes of the frame
to the device (deca_device.c:600-615), which appends two bytes of checksum. The length register has ten bits, so a frame
of 1024 bytes or more is not sent. -/
def onAir (frame : List Byte) (crc : Byte × Byte) : Option (List Byte) :=
  if frame.length ≤ 1023 then some (frame.take (frame.length - 2) ++ [crc.1, crc.2]) else none

/-- A message from the CAN bus to the air, with the frame buffer of ranging_thread.c:157 and the handler of the beacon. -/
def toAir (h : Uwb.Handler) (buf : List Byte) (m : Msg) (crc : Byte × Byte) : Except Uwb.Err (Option (List Byte)) := do
  let (data, dst) ← dataPacketCb m
  match ← Uwb.sendData h dst data buf with
  | [.transmit _ frame] => return onAir frame crc
  | _ => return none

/-! ## From the air to the topic -/

/-- `data_packet_received_cb`, ranging_thread.c:308-318: the message written to the topic; the data is copied into an array
of 1024 bytes. -/
def received : Uwb.Event → Except Uwb.Err (Option Msg)
  | .userData data src dst => if data.length ≤ 1024 then .ok (some ⟨src, dst, data⟩) else .error .bounds
  | _ => .ok none

/-- `frame_rx_cb`, ranging_thread.c:235-247, for a frame from the air; `buf` is what its static buffer held before. The result
is what is published on the topic. -/
def fromAir (h : Uwb.Handler) (buf frame : List Byte) (rx now : Nat) : Except Uwb.Err (List (Option Msg)) := do
  let buf ← Uwb.put buf 0 frame
  let es ← Uwb.receive h buf frame.length rx now
  es.mapM received

/-! ## From the topic to the CAN bus -/

/-- The two watched topics, topics_publisher.cpp:64-72. -/
inductive Which where
  | data | other
deriving DecidableEq, Repr

/-- Where the thread `topics_watcher` is, topics_publisher.cpp:74-88: waiting in `messagebus_watchgroup_wait`, woken by a
publication but not yet out of it, with the topic that it returned, or on the way back. -/
inductive Watcher where
  | waiting | woken | got (w : Which) | back
deriving DecidableEq, Repr

/-- The topic with its last message, `published_topic` of the watch group, the watcher, the semaphore
`data_packet_topic_signaled` (:32), whether the CAN thread has taken it (:202) and not yet read the topic, and what was
broadcast. -/
structure Relay where
  topic : Option Msg
  published : Which
  watcher : Watcher
  sem : Bool
  taken : Bool
  out : List Msg
deriving DecidableEq, Repr

/-- When the watcher waits for the first time. -/
def Relay.start : Relay := ⟨none, .other, .waiting, false, false, []⟩

inductive RelayEv where
  /-- the ranging thread publishes a packet -/
  | arrive (m : Msg)
  /-- something is published on the other topic -/
  | other
  /-- the watcher leaves the wait with the topic published last -/
  | wake
  /-- :80-87: the semaphore is signalled if the parameter allows; `enabled` is `publish_data_packets` -/
  | handle (enabled : Bool)
  /-- the watcher waits again -/
  | wait
  /-- the CAN thread looks at the semaphore, :202 -/
  | take
  /-- the CAN thread reads the topic and broadcasts, :203-216 -/
  | read
deriving DecidableEq, Repr

/-- A publication wakes the watcher only if it waits (lib/msgbus/messagebus.c:84-110, 158-171). -/
def Watcher.notified : Watcher → Watcher
  | .waiting => .woken
  | w => w

def Relay.step (r : Relay) : RelayEv → Option Relay
  | .arrive m => some { r with topic := some m, published := .data, watcher := r.watcher.notified }
  | .other => some { r with published := .other, watcher := r.watcher.notified }
  | .wake => if r.watcher = .woken then some { r with watcher := .got r.published } else none
  | .handle enabled => match r.watcher with
    | .got w => some { r with sem := r.sem || (decide (w = .data) && enabled), watcher := .back }
    | _ => none
  | .wait => if r.watcher = .back then some { r with watcher := .waiting } else none
  | .take => if r.taken then none else some { r with sem := false, taken := r.sem }
  | .read => if r.taken then
      match r.topic with
      | some m => some { r with taken := false, out := r.out ++ [m] }
      | none => none
    else none

def Relay.run (r : Relay) : List RelayEv → Option Relay
  | [] => some r
  | e :: es => match r.step e with
    | none => none
    | some r => r.run es

end Verif.Tap
