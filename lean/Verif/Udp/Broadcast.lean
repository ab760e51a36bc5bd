import Verif.Udp.Frame

/-!
# Broadcast of topics over UDP

Model of `master-firmware/src/udp_topic_broadcaster.c`: the thread that encodes topics and the thread that sends them, any
interleaving of their calls of the kernel. The waiting for topics is that of C12 and not repeated here: the event `wake` says
that some topic was published. What the network does with a message that was handed over is not modelled.
-/

namespace Verif.Udp

/-- `MSG_BUF_SIZE`, :16, the number of buffers and of places in the mailbox. -/
def poolSize : Nat := 16

/-- `MSG_MAX_LENGTH` :15, and `sizeof(object_buf)` :43. -/
def maxLen : Nat := 126
def scratchLen : Nat := 512

inductive Enc
  | /-- waiting for a topic, :52 -/ idle
  | /-- has a buffer, :54 -/ got (i : Nat)
  | /-- has encoded; `none` for length 0, :61 -/ coded (i : Nat) (m : Option Bytes)

inductive Snd
  | /-- waiting for a message, :90 -/ idle
  | /-- has a message, :96 -/ fetched (i : Nat)
  | /-- has a netbuf, :103 -/ ready (i : Nat)
  | /-- has sent, :112 -/ sent (i : Nat)

structure St where
  /-- free buffers, `msg_pool` -/
  pool : List Nat
  /-- `msg_mailbox`, the oldest message first -/
  mbox : List Nat
  /-- contents of the buffers -/
  cont : Nat → Bytes
  enc : Enc
  snd : Snd
  /-- buffers that nobody refers to any more -/
  leaked : List Nat
  /-- what was posted, for the specification -/
  posted : List Bytes
  /-- what was taken from the mailbox and sent (`true`) or given up (`false`) -/
  out : List (Bytes × Bool)
  /-- topics dropped because there was no buffer -/
  dropped : Nat

/-- `chPoolLoadArray`, :119. -/
def St.init : St :=
  { pool := List.range poolSize, mbox := [], cont := fun _ => [], enc := .idle, snd := .idle, leaked := [], posted := [],
    out := [], dropped := 0 }

inductive Ev
  | /-- a topic was published: `chPoolAlloc`, :52-59 -/ wake
  | /-- `messagebus_encode_topic_message` reads the topic, :61-65 -/ encode (t : Topic)
  | /-- `chMBPostTimeout` or `chPoolFree`, :67-71 -/ post
  | /-- `chMBFetchTimeout`, :90 -/ fetch
  | /-- `netbuf_new` gives nothing, :98-101 -/ nobuf
  | /-- `netbuf_new` and `netbuf_ref`, :96-103 -/ newbuf
  | /-- `netconn_sendto`, :110 -/ send
  | /-- `netbuf_delete` and `chPoolFree`, :112-113 -/ release

/-- One event; `none` if the thread is elsewhere or waits. -/
def step (s : St) : Ev → Option St
  | .wake =>
    match s.enc, s.pool with
    | .idle, i :: p => some { s with pool := p, enc := .got i }
    | .idle, [] => some { s with dropped := s.dropped + 1 }
    | _, _ => none
  | .encode t =>
    match s.enc with
    | .got i =>
      match (encode t maxLen scratchLen).1 with
      | some f => some { s with cont := fun j => if j = i then f else s.cont j, enc := .coded i (some f) }
      | none => some { s with enc := .coded i none }
    | _ => none
  | .post =>
    match s.enc with
    | .coded i (some f) =>
      -- the result of chMBPostTimeout is ignored
      if s.mbox.length < poolSize then some { s with mbox := s.mbox ++ [i], enc := .idle, posted := s.posted ++ [f] }
      else some { s with leaked := i :: s.leaked, enc := .idle, posted := s.posted ++ [f] }
    | .coded i none => some { s with pool := i :: s.pool, enc := .idle }
    | _ => none
  | .fetch =>
    match s.snd, s.mbox with
    | .idle, i :: m => some { s with mbox := m, snd := .fetched i }
    | _, _ => none
  | .nobuf =>
    match s.snd with
    | .fetched i => some { s with pool := i :: s.pool, snd := .idle, out := s.out ++ [(s.cont i, false)] }
    | _ => none
  | .newbuf =>
    match s.snd with
    | .fetched i => some { s with snd := .ready i }
    | _ => none
  | .send =>
    match s.snd with
    | .ready i => some { s with snd := .sent i, out := s.out ++ [(s.cont i, true)] }
    | _ => none
  | .release =>
    match s.snd with
    | .sent i => some { s with pool := i :: s.pool, snd := .idle }
    | _ => none

def run (s : St) : List Ev → Option St
  | [] => some s
  | e :: es => (step s e).bind (fun s => run s es)

end Verif.Udp
