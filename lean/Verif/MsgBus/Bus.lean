import Verif.Common.HeapList

/-!
# Message bus: topic list and new-topic callbacks

`lib/msgbus/messagebus.c`, the parts that work under the bus lock, as sequential code (each call holds
the bus lock from beginning to end; the interleavings are in `BusConc`). Topics and callback records
are cells of a heap; strings are lists of character codes.
-/

namespace Verif.MsgBus

open HeapList

abbrev Name := List Nat

/-- `TOPIC_NAME_MAX_LENGTH`, messagebus.h:10. -/
def nameMax : Nat := 64

inductive Err where
  | fuel
deriving DecidableEq, Repr

/-- `messagebus_t` (messagebus.h:29-36) with the fields of the topics (`next`, `name`, :16-27) and
callback records (:49-53) it links. `calls` is a ghost log of callback invocations (callback, topic),
oldest first. -/
structure Bus where
  head : Option Nat
  next : Nat → Option Nat
  name : Nat → Name
  cbHead : Option Nat
  cbNext : Nat → Option Nat
  calls : List (Nat × Nat)

/-- `messagebus_init`, messagebus.c:16-21, on a heap with arbitrary contents. -/
def busInit (b : Bus) : Bus := { b with head := none, cbHead := none, calls := [] }

/-- `messagebus_topic_init`, messagebus.c:23-30: `memset` clears `next` and `name`. -/
def topicInit (b : Bus) (t : Nat) : Bus := { b with next := upd b.next t none, name := upd b.name t [] }

/-- The callback loop of messagebus.c:44-46. -/
def callLoop (cbNext : Nat → Option Nat) (t : Nat) : Nat → Option Nat → Except Err (List (Nat × Nat))
  | _, none => .ok []
  | 0, some _ => .error .fuel
  | f + 1, some c => do
    let rest ← callLoop cbNext t f (cbNext c)
    pure ((c, t) :: rest)

/-- `messagebus_advertise_topic`, messagebus.c:32-51. `strncpy` keeps the first 64 characters; the
field has 65 bytes and was zeroed, so the copy is terminated. -/
def advertise (fuel : Nat) (b : Bus) (t : Nat) (n : Name) : Except Err Bus := do
  let b := { b with name := upd b.name t (n.take nameMax) }
  let b := if b.head ≠ none then { b with next := upd b.next t b.head } else b
  let b := { b with head := some t }
  let new ← callLoop b.cbNext t fuel b.cbHead
  pure { b with calls := b.calls ++ new }

/-- `topic_by_name`, messagebus.c:4-14. -/
def topicByName (next : Nat → Option Nat) (name : Nat → Name) (q : Name) :
    Nat → Option Nat → Except Err (Option Nat)
  | _, none => .ok none
  | 0, some _ => .error .fuel
  | f + 1, some t => if q = name t then .ok (some t) else topicByName next name q f (next t)

/-- `messagebus_find_topic`, messagebus.c:53-64. -/
def findTopic (fuel : Nat) (b : Bus) (q : Name) : Except Err (Option Nat) :=
  topicByName b.next b.name q fuel b.head

/-- `MESSAGEBUS_TOPIC_FOREACH`, messagebus.h:55-64, used with a loop variable called `topic` (the macro
tests that name instead of its argument): the topics visited. -/
def foreachLoop (next : Nat → Option Nat) : Nat → Option Nat → Except Err (List Nat)
  | _, none => .ok []
  | 0, some _ => .error .fuel
  | f + 1, some t => do
    let rest ← foreachLoop next f (next t)
    pure (t :: rest)

def foreachTopic (fuel : Nat) (b : Bus) : Except Err (List Nat) := foreachLoop b.next fuel b.head

/-- `messagebus_new_topic_callback_register`, messagebus.c:172-187. -/
def registerCb (b : Bus) (c : Nat) : Bus := { b with cbNext := upd b.cbNext c b.cbHead, cbHead := some c }

end Verif.MsgBus
