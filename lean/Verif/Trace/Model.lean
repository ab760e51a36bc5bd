/-!
# Trace buffer

Model of `lib/trace/trace.c` and `lib/trace/include/trace/trace.h`.

The buffer size is a parameter `size` (the code fixes `TRACE_BUFFER_SIZE` to 200, trace.h:8-10).
Not modelled: the text produced by `print_fn` (the model returns the events handed to it, in order),
the lookup of the event name in `trace_point_names`, the truth of the timestamps (an argument here),
and interrupts that call `trace` while `trace_print` runs.
-/

namespace Verif.Trace

/-- The `type` tag with the member of the union that goes with it, trace.h:12-17 and 23-28. -/
inductive Payload where
  | string (s : Nat)
  | address (p : Nat)
  | scalar (bits : BitVec 32)
  | integer (i : BitVec 32)
deriving DecidableEq, Repr, Inhabited

/-- `struct trace_event`, trace.h:19-29. -/
structure Event where
  id : BitVec 8
  timestamp : BitVec 22
  payload : Payload
deriving DecidableEq, Repr, Inhabited

/-- `struct trace_buffer_struct`, trace.h:31-36. -/
structure Buffer where
  active : Bool
  writeIndex : Nat
  nbEvents : Nat
  data : Nat → Event

/-- The zeroed entry left by `memset`. -/
def zeroEvent : Event := ⟨0, 0, .string 0⟩

/-- Access outside `data`. -/
inductive Err where
  | outOfBounds
deriving DecidableEq, Repr

/-- `trace_init`, trace.c:70-73. -/
def init : Buffer := ⟨false, 0, 0, fun _ => zeroEvent⟩

/-- `trace_enable`, trace.c:76-79. -/
def enable (b : Buffer) : Buffer := { b with active := true }

/-- `trace_disable`, trace.c:85-88. -/
def disable (b : Buffer) : Buffer := { b with active := false }

/-- `trace_clear`, trace.c:91-97. -/
def clear (b : Buffer) : Buffer := { b with writeIndex := 0, nbEvents := 0 }

/-- `trace_push_event`, trace.c:7-24, with the event built by the entry points trace.c:26-64. The
32-bit millisecond timestamp is stored in a bit field of 22 bits. -/
def push (size : Nat) (b : Buffer) (id : BitVec 8) (now : BitVec 32) (p : Payload) : Except Err Buffer :=
  if b.active = false then .ok b
  else
    let slot := b.writeIndex
    let wi := (b.writeIndex + 1) % size
    let nb := if b.nbEvents < size then b.nbEvents + 1 else b.nbEvents
    if slot < size then
      .ok { b with writeIndex := wi, nbEvents := nb,
                   data := fun i => if i = slot then ⟨id, now.setWidth 22, p⟩ else b.data i }
    else .error .outOfBounds

/-- The loop of `trace_print`, trace.c:109-131: `n` iterations remain. -/
def printLoop (size : Nat) (data : Nat → Event) : Nat → Nat → Except Err (List Event)
  | 0, _ => .ok []
  | n + 1, index =>
    if index < size then do
      let rest ← printLoop size data n ((index + 1) % size)
      pure (data index :: rest)
    else .error .outOfBounds

/-- `trace_print`, trace.c:99-133: the events printed, and the buffer with tracing turned on. -/
def print (size : Nat) (b : Buffer) : Except Err (Buffer × List Event) := do
  let index := if b.nbEvents = size then b.writeIndex else 0
  let out ← printLoop size b.data b.nbEvents index
  pure ({ b with active := true }, out)

end Verif.Trace
