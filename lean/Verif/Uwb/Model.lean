/-!
# UWB ranging protocol

Model of `uwb-beacon-firmware/src/uwb_protocol.c`. A frame buffer is the list of all bytes of the array the caller passes; every access is checked against its
length. `size_t` has 32 bits as on the microcontroller, `uint64_t` is a natural number with explicit wrapping. Coordinates (`float`) are their four bytes.
Callbacks and `uwb_transmit_frame` are events in the result; whether a callback is set is part of the handler. Trace points are left out.
-/

namespace Verif.Uwb

abbrev Byte := BitVec 8
abbrev Addr := BitVec 16

inductive Err where
  | bounds
  | null
  | divZero
deriving DecidableEq

/-- `size_t` and `uint64_t` arithmetic -/
def size (n : Nat) : Nat := n % 4294967296
def u64 (n : Nat) : Nat := n % 18446744073709551616
def sizeSub (a b : Nat) : Nat := size (a + 4294967296 - b)
def u64Sub (a b : Nat) : Nat := u64 (a + 18446744073709551616 - b)

/-! ## Memory -/

/-- Reads `n` bytes at `off`. -/
def slice (buf : List Byte) (off n : Nat) : Except Err (List Byte) :=
  if off + n ≤ buf.length then .ok ((buf.drop off).take n) else .error .bounds

/-- Overwrites the bytes at `off`. -/
def put (buf : List Byte) (off : Nat) (bs : List Byte) : Except Err (List Byte) :=
  if off + bs.length ≤ buf.length then .ok (buf.take off ++ bs ++ buf.drop (off + bs.length)) else .error .bounds

/-- `memmove(buf + dst, buf + src, n)` -/
def memmove (buf : List Byte) (dst src n : Nat) : Except Err (List Byte) := do
  let bs ← slice buf src n
  put buf dst bs

/-! ## MAC frames -/

/-- `MAC_HDR_LEN` and `MAC_CRC_LEN`, uwb_protocol.c:11-12 -/
def hdrLen : Nat := 9
def crcLen : Nat := 2

/-- `frame_hdr`, uwb_protocol.c:6-9 and 35-39 -/
def frameHdr : Nat := 0x1 ||| 0x1 <<< 6 ||| 0x2 <<< 14 ||| 0x2 <<< 10

/-- `x & 0xff` and `x >> 8` of a 16-bit number -/
def lo (x : Nat) : Byte := BitVec.ofNat 8 (x &&& 0xff)
def hi (x : Nat) : Byte := BitVec.ofNat 8 (x >>> 8)

/-- `(frame[h] << 8) | frame[l]` -/
def word (h l : Byte) : Addr := BitVec.ofNat 16 (h.toNat <<< 8 ||| l.toNat)

/-- `uwb_mac_encapsulate_frame`, uwb_protocol.c:28-64: the buffer and the new size. -/
def encapsulate (pan src dst : Addr) (seq : Byte) (buf : List Byte) (n : Nat) : Except Err (List Byte × Nat) := do
  let buf ← memmove buf hdrLen 0 n
  let buf ← put buf 0 [lo frameHdr, hi frameHdr, seq, lo pan.toNat, hi pan.toNat, lo dst.toNat, hi dst.toNat, lo src.toNat, hi src.toNat]
  let n := size (n + hdrLen)
  let buf ← put buf n [0, 0]
  return (buf, size (n + crcLen))

/-- The header of a received frame -/
structure Header where
  pan : Addr
  src : Addr
  dst : Addr
  seq : Byte
deriving DecidableEq

/-- Reads one byte. -/
def byte (buf : List Byte) (i : Nat) : Except Err Byte :=
  match buf[i]? with
  | some b => .ok b
  | none => .error .bounds

/-- `uwb_mac_decapsulate_frame`, uwb_protocol.c:66-82: the header, the buffer and the size of the payload. Sizes below 9 and 11 wrap. -/
def decapsulate (buf : List Byte) (n : Nat) : Except Err (Header × List Byte × Nat) := do
  let seq ← byte buf 2
  let b3 ← byte buf 3
  let b4 ← byte buf 4
  let b5 ← byte buf 5
  let b6 ← byte buf 6
  let b7 ← byte buf 7
  let b8 ← byte buf 8
  let buf ← memmove buf 0 hdrLen (sizeSub n hdrLen)
  return (⟨word b4 b3, word b8 b7, word b6 b5, seq⟩, buf, sizeSub (sizeSub n hdrLen) crcLen)

/-! ## Timestamps -/

/-- `write_40bit_int`, uwb_protocol.c:84-91 -/
def bytes40 (v : Nat) : List Byte :=
  [BitVec.ofNat 8 (v >>> 32 &&& 0xff), BitVec.ofNat 8 (v >>> 24 &&& 0xff), BitVec.ofNat 8 (v >>> 16 &&& 0xff), BitVec.ofNat 8 (v >>> 8 &&& 0xff), BitVec.ofNat 8 (v >>> 0 &&& 0xff)]

def write40 (v : Nat) (buf : List Byte) (off : Nat) : Except Err (List Byte) := put buf off (bytes40 v)

/-- The loop of `read_40bit_int`, uwb_protocol.c:95-98 -/
def fold40 (bs : List Byte) : Nat := bs.foldl (fun res b => u64 (res <<< 8) ||| b.toNat) 0

/-- `read_40bit_int`, uwb_protocol.c:93-100 -/
def read40 (buf : List Byte) (off : Nat) : Except Err Nat := do
  let bs ← slice buf off 5
  return fold40 bs

/-- `substract_40bit_int`, uwb_protocol.c:104-114: it adds 2^40 - 1 instead of 2^40. -/
def sub40 (a b : Nat) : Nat :=
  let res := u64Sub a b
  if b > a then u64 (res + (2 ^ 40 - 1)) else res

/-- `UWB_DELAY` and `MASK_40BIT`, uwb_protocol.c:22-23 -/
def delay : Nat := 800 * 65536
def mask40 : Nat := 0xfffffffe00

/-- `(ts + UWB_DELAY) & MASK_40BIT`, uwb_protocol.c:142-143, 266-268, 290-292, 366-367 -/
def later (ts : Nat) : Nat := u64 (ts + delay) &&& mask40

/-- `t_propag`, uwb_protocol.c:324-329 -/
def propagation (advTx advRx replyTx replyRx finalTx finalRx : Nat) : Except Err Nat :=
  let r0 := sub40 replyRx advTx
  let r1 := sub40 finalRx replyTx
  let p0 := sub40 replyTx advRx
  let p1 := sub40 finalTx replyRx
  let den := u64 (r0 + r1 + p0 + p1)
  if den = 0 then .error .divZero else .ok (u64Sub (u64 (r0 * r1)) (u64 (p0 * p1)) / den)

/-! ## Protocol -/

/-- `uwb_protocol_handler_t`, uwb_protocol.h:20-28; a flag per callback tells whether it is set. -/
structure Handler where
  pan : Addr
  address : Addr
  isAnchor : Bool
  ranging : Bool := true
  anchorPos : Bool := true
  tagPos : Bool := true
  userData : Bool := true

/-- Calls of callbacks and of `uwb_transmit_frame` -/
inductive Event where
  | ranging (src : Addr) (time : Nat)
  | anchorPos (src : Addr) (xyz : List Byte)
  | tagPos (src : Addr) (xy : List Byte)
  | userData (msg : List Byte) (src dst : Addr)
  | transmit (ts : Nat) (frame : List Byte)
deriving DecidableEq

/-- `MAC_802_15_4_BROADCAST_ADDR` and `UWB_TX_TIMESTAMP_IMMEDIATE`, uwb_protocol.h:13,17 -/
def broadcast : Addr := 0xffff
def immediate : Nat := 18446744073709551615

/-- Sequence numbers, uwb_protocol.c:14-20 -/
def seqAdvertisement : Byte := 0
def seqReply : Byte := 1
def seqFinalization : Byte := 2
def seqAnchorPos : Byte := 3
def seqTagPos : Byte := 4
def seqInitiate : Byte := 5
def seqUserData : Byte := 100

/-- `uwb_transmit_frame` -/
def transmit (ts : Nat) (buf : List Byte) (n : Nat) : Except Err (List Event) := do
  let bs ← slice buf 0 n
  return [.transmit ts bs]

/-- `uwb_send_measurement_advertisement` with `uwb_protocol_prepare_measurement_advertisement`, uwb_protocol.c:121-147; `now` is `uwb_timestamp_get`. -/
def sendAdvertisement (h : Handler) (buf : List Byte) (now : Nat) : Except Err (List Event) := do
  let ts := later now
  let buf ← write40 ts buf 0
  let (buf, n) ← encapsulate h.pan h.address broadcast seqAdvertisement buf 5
  transmit ts buf n

/-- `uwb_send_anchor_position`, uwb_protocol.c:149-167 and 202-213, for the 12 bytes of the coordinates. -/
def sendAnchorPos (h : Handler) (xyz : List Byte) (buf : List Byte) : Except Err (List Event) := do
  let buf ← put buf 0 xyz
  let (buf, n) ← encapsulate h.pan h.address broadcast seqAnchorPos buf 12
  transmit immediate buf n

/-- `uwb_send_tag_position`, uwb_protocol.c:169-185 and 215-222, for the 8 bytes of the coordinates. -/
def sendTagPos (h : Handler) (xy : List Byte) (buf : List Byte) : Except Err (List Event) := do
  let buf ← put buf 0 xy
  let (buf, n) ← encapsulate h.pan h.address broadcast seqTagPos buf 8
  transmit immediate buf n

/-- `uwb_send_data_packet`, uwb_protocol.c:187-200 and 224-231 -/
def sendData (h : Handler) (dst : Addr) (msg : List Byte) (buf : List Byte) : Except Err (List Event) := do
  let buf ← put buf 0 msg
  let (buf, n) ← encapsulate h.pan h.address dst seqUserData buf msg.length
  transmit immediate buf n

/-- `uwb_initiate_measurement`, uwb_protocol.c:354-370 -/
def initiate (h : Handler) (buf : List Byte) (anchor : Addr) (now : Nat) : Except Err (List Event) := do
  let (buf, n) ← encapsulate h.pan h.address anchor seqInitiate buf 0
  transmit (later now) buf n

/-- The answer to an advertisement or a reply, uwb_protocol.c:266-286 and 290-310: the timestamps are written at `off` and `off + 5`. -/
def answer (h : Handler) (hdr : Header) (seq : Byte) (buf : List Byte) (n rx off : Nat) : Except Err (List Event) := do
  let ts := later rx
  let buf ← write40 rx buf off
  let buf ← write40 ts buf (off + 5)
  let (buf, n) ← encapsulate hdr.pan h.address hdr.src seq buf (size (n + 10))
  transmit ts buf n

/-- `uwb_process_incoming_frame`, uwb_protocol.c:233-352. The payload size is not checked: shorter payloads are completed by what the buffer held before. -/
def receive (h : Handler) (buf : List Byte) (n rx now : Nat) : Except Err (List Event) := do
  let (hdr, buf, n) ← decapsulate buf n
  if hdr.pan ≠ h.pan then return []
  if hdr.dst ≠ h.address ∧ hdr.dst ≠ broadcast then return []
  if hdr.seq = seqAdvertisement then
    if h.isAnchor = false then answer h hdr seqReply buf n rx 5 else return []
  else if hdr.seq = seqReply then answer h hdr seqFinalization buf n rx 15
  else if hdr.seq = seqFinalization then
    let advTx ← read40 buf 0
    let advRx ← read40 buf 5
    let replyTx ← read40 buf 10
    let replyRx ← read40 buf 15
    let finalTx ← read40 buf 20
    let t ← propagation advTx advRx replyTx replyRx finalTx rx
    if h.ranging then return [.ranging hdr.src t] else return []
  else if hdr.seq = seqAnchorPos then
    let xyz ← slice buf 0 12
    if h.anchorPos then return [.anchorPos hdr.src xyz] else .error .null
  else if hdr.seq = seqTagPos then
    let xy ← slice buf 0 8
    if h.tagPos then return [.tagPos hdr.src xy] else .error .null
  else if hdr.seq = seqInitiate then sendAdvertisement h buf now
  else if hdr.seq = seqUserData then
    if h.userData then
      let msg ← slice buf 0 n
      return [.userData msg hdr.src hdr.dst]
    else return []
  else return []

end Verif.Uwb
