/-!
# Framing of topics

Model of `master-firmware/src/msgbus_protobuf.c`.

The library nanopb is not part of the repository. The two messages of `protobuf/protocol.proto` are encoded and decoded here
as the wire format of protocol buffers says, with the checks of nanopb on lengths; the messages of the topics are given by an
arbitrary codec. Simplified: numbers of more than five bytes, which nanopb accepts for negative numbers, are refused.
What a failed encoding leaves in the output buffer is not modelled.
-/

namespace Verif.Udp

abbrev Bytes := List UInt8

/-- Encoding and decoding of the message of a topic: `pb_encode` and `pb_decode` with the descriptor of the topic. Objects are
the bytes of the C structure. -/
structure Codec where
  enc : Bytes → Option Bytes
  dec : Bytes → Option Bytes

/-- `messagebus_topic_t` with its metadata, msgbus_protobuf.h:17-21; `buffer` is the content of the topic. -/
structure Topic where
  name : Bytes
  msgid : Nat
  codec : Codec
  buffer : Bytes
  published : Bool

/-! ## Wire format -/

def le32 (n : Nat) : Bytes :=
  [UInt8.ofNat n, UInt8.ofNat (n / 256), UInt8.ofNat (n / 65536), UInt8.ofNat (n / 16777216)]

def varint (n : Nat) : Bytes :=
  if n < 128 then [UInt8.ofNat n] else UInt8.ofNat (n % 128 + 128) :: varint (n / 128)

/-- `MessageSize`: field 1, fixed32; protocol.proto:8-10. `MessageSize_size` is 5. -/
def messageSize (n : Nat) : Bytes := 0x0D :: le32 n

/-- `TopicHeader`: field 1, uint32, and field 2, string; protocol.proto:12-15. -/
def topicHeader (msgid : Nat) (name : Bytes) : Bytes :=
  (0x08 :: varint msgid) ++ (0x12 :: varint name.length) ++ name

/-! ## Encoding -/

/-- `pb_encode` into a buffer of `max` bytes. -/
def pbEncode (max : Nat) (b : Bytes) : Option Bytes := if b.length ≤ max then some b else none

/-- `encode_topic_header`, :99-136. -/
def encodeHeader (t : Topic) (bufLen : Nat) : Option Bytes :=
  if bufLen < 5 then none
  else do
    let h ← pbEncode (bufLen - 5) (topicHeader t.msgid t.name)
    let s ← pbEncode 5 (messageSize h.length)
    some (s ++ h)

/-- `encode_topic_body`, :138-176. The second component counts the bytes that `messagebus_topic_read` copies from behind the
object: it is asked for `scratch_len` bytes (messagebus.c:118). -/
def encodeBody (t : Topic) (bufLen scratchLen : Nat) : Option Bytes × Nat :=
  if scratchLen < t.buffer.length then (none, 0)
  else if bufLen < 5 then (none, 0)
  else if t.published = false then (none, 0)
  else
    (do
      let w ← t.codec.enc t.buffer
      let b ← pbEncode (bufLen - 5) w
      let s ← pbEncode 5 (messageSize b.length)
      some (s ++ b), scratchLen - t.buffer.length)

/-- `messagebus_encode_topic_message`, :24-46; `none` for the result 0. -/
def encode (t : Topic) (bufLen scratchLen : Nat) : Option Bytes × Nat :=
  match encodeHeader t bufLen with
  | none => (none, 0)
  | some h =>
    match encodeBody t (bufLen - h.length) scratchLen with
    | (none, o) => (none, o)
    | (some b, o) => (some (h ++ b), o)

/-! ## Decoding -/

inductive Err
  | /-- refused -/ fail
  | /-- reads behind the buffer -/ oob
deriving DecidableEq, Repr

/-- State of an input stream: the bytes of the buffer that are left, and `bytes_left` of the stream. -/
structure In where
  rem : Bytes
  left : Nat
deriving DecidableEq

/-- `pb_readbyte` -/
def readByte (s : In) : Except Err (UInt8 × In) :=
  if s.left = 0 then .error .fail
  else match s.rem with
    | [] => .error .oob
    | b :: r => .ok (b, ⟨r, s.left - 1⟩)

/-- `pb_read` of `n` bytes. -/
def readN : Nat → In → Except Err (Bytes × In)
  | 0, s => .ok ([], s)
  | n + 1, s => do
    let (b, s) ← readByte s
    let (l, s) ← readN n s
    .ok (b :: l, s)

/-- `pb_read` refuses at once if the stream is too short. -/
def readStr (n : Nat) (s : In) : Except Err (Bytes × In) :=
  if s.left < n then .error .fail else readN n s

/-- `pb_decode_varint32`, of at most `k` bytes. -/
def readVarintN : Nat → In → Except Err (Nat × In)
  | 0, _ => .error .fail
  | k + 1, s => do
    let (b, s) ← readByte s
    if b.toNat < 128 then .ok (b.toNat, s)
    else
      let (v, s) ← readVarintN k s
      .ok (b.toNat % 128 + 128 * v, s)

def readVarint (s : In) : Except Err (Nat × In) := do
  let (v, s) ← readVarintN 5 s
  if v < 2 ^ 32 then .ok (v, s) else .error .fail

def fromLe : Bytes → Nat
  | [] => 0
  | b :: l => b.toNat + 256 * fromLe l

/-- `pb_skip_field` -/
def skipField (wt : Nat) (s : In) : Except Err In :=
  if wt = 0 then do
    let (_, s) ← readVarint s
    .ok s
  else if wt = 1 then do
    let (_, s) ← readStr 8 s
    .ok s
  else if wt = 2 then do
    let (n, s) ← readVarint s
    let (_, s) ← readStr n s
    .ok s
  else if wt = 5 then do
    let (_, s) ← readStr 4 s
    .ok s
  else .error .fail

/-- `pb_decode` of a `MessageSize`; every round reads a byte at least, `k` bounds the rounds. -/
def decodeSize : Nat → Option Nat → In → Except Err (Nat × In)
  | 0, _, _ => .error .fail
  | k + 1, acc, s =>
    if s.left = 0 then
      match acc with
      | some n => .ok (n, s)
      | none => .error .fail
    else do
      let (t, s) ← readVarint s
      if t / 8 = 0 then .error .fail
      else if t / 8 = 1 then
        if t % 8 = 5 then
          let (l, s) ← readStr 4 s
          decodeSize k (some (fromLe l)) s
        else .error .fail
      else
        let s ← skipField (t % 8) s
        decodeSize k acc s

/-- `pb_decode` of a `TopicHeader`; names of more than 64 bytes do not fit (`max_size = 65`). -/
def decodeHeader : Nat → Option Nat → Option Bytes → In → Except Err (Nat × Bytes × In)
  | 0, _, _, _ => .error .fail
  | k + 1, id, nm, s =>
    if s.left = 0 then
      match id, nm with
      | some i, some n => .ok (i, n, s)
      | _, _ => .error .fail
    else do
      let (t, s) ← readVarint s
      if t / 8 = 0 then .error .fail
      else if t / 8 = 1 then
        if t % 8 = 0 then
          let (i, s) ← readVarint s
          decodeHeader k (some i) nm s
        else .error .fail
      else if t / 8 = 2 then
        if t % 8 = 2 then
          let (n, s) ← readVarint s
          if n ≤ 64 then
            let (l, s) ← readStr n s
            decodeHeader k id (some l) s
          else .error .fail
        else .error .fail
      else
        let s ← skipField (t % 8) s
        decodeHeader k id nm s

/-- The C string at the beginning of bytes. -/
def cstr (l : Bytes) : Bytes := l.takeWhile (· ≠ 0)

/-- `messagebus_find_topic`, messagebus.c:4-14: index of the first topic with the name. -/
def findTopic (bus : List Topic) (name : Bytes) : Option Nat := bus.findIdx? (fun t => t.name == name)

inductive Outcome
  | /-- returned without effect -/ ignored
  | /-- reads behind the buffer -/ oob
  | /-- the object does not fit in the static buffer -/ overflow
  | /-- the value published in the topic -/ published (i : Nat) (value : Bytes)
deriving DecidableEq

/-- `messagebus_inject_encoded_message`, :48-97; `buf` are the bytes of the buffer, `len` is not used by the code. -/
def inject (bus : List Topic) (buf : Bytes) : Outcome :=
  match decodeSize 6 none ⟨buf, 5⟩ with
  | .error .fail => .ignored
  | .error .oob => .oob
  | .ok (hs, _) =>
    match decodeHeader (hs + 1) none none ⟨buf.drop 5, hs⟩ with
    | .error .fail => .ignored
    | .error .oob => .oob
    | .ok (_, name, _) =>
      match findTopic bus (cstr name) with
      | none => .ignored
      | some i =>
        match decodeSize 6 none ⟨buf.drop (5 + hs), 5⟩ with
        | .error .fail => .ignored
        | .error .oob => .oob
        | .ok (ms, _) =>
          let body := buf.drop (2 * 5 + hs)
          if body.length < ms then .oob
          else match bus[i]? with
            | none => .ignored
            | some t =>
              match t.codec.dec (body.take ms) with
              | none => .ignored
              | some v => if 1024 < t.buffer.length then .overflow else .published i v

/-- Effect on the topics: `messagebus_topic_publish`. -/
def applyOutcome (bus : List Topic) : Outcome → List Topic
  | .published i v => bus.modify i (fun t => { t with buffer := v, published := true })
  | _ => bus

end Verif.Udp
