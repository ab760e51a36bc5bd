/-!
# Timestamps (lib/timestamp)

* the duration functions of lib/timestamp/timestamp.c;
* the STM32 implementation of `timestamp_get`/`ltimestamp_get` in lib/timestamp/timestamp_stm32.c
  as a machine in which the timer hardware and its interrupt handler may run between any two memory
  accesses of the calling thread.
-/

namespace Verif.Timestamp

/-- `timestamp_duration_us`, lib/timestamp/timestamp.c:3-6. The unsigned difference is converted to
`int32_t` by the return; that conversion is implementation defined for large values and is taken to
be the two's complement one (GCC, ARM). -/
def durationUs (t1 t2 : BitVec 32) : Int := (t2 - t1).toInt

/-- `timestamp_duration_s`, lib/timestamp/timestamp.c:8-11, in exact arithmetic (the C code rounds
to `float`). -/
def durationS (t1 t2 : BitVec 32) : Rat := (durationUs t1 t2 : Rat) / 1000000

/-- `ltimestamp_duration_us`, lib/timestamp/timestamp.c:13-16. -/
def lDurationUs (t1 t2 : BitVec 64) : Int := (t2 - t1).toInt

/-! ## STM32 timer -/

/-- `COUNTER_MAX`, lib/timestamp/include/timestamp/timestamp_stm32_settings.h:18. -/
def counterMax : Nat := 0xffff

/-- Where a thread is inside `timestamp_get`, lib/timestamp/timestamp_stm32.c:44-53, or
`ltimestamp_get`, :55-69. Each constructor remembers the values read so far. `start` is a ghost
field: the number of timer ticks when the call began. -/
inductive Pc where
  | idle
  /-- `t1` has been read (and, in `ltimestamp_get`, `th`). -/
  | gotLow (start : Nat) (t1 th : BitVec 32)
  /-- `timer_read` has read `CNT`; it is about to poll the update flag (:17-19). -/
  | gotCnt (start : Nat) (t1 th tim : BitVec 32)
  /-- `timer_read` returned; `t2` is about to be read. -/
  | flagClear (start : Nat) (t1 th tim : BitVec 32)
deriving Repr, DecidableEq

/-- One finished call: ticks at its start and end, value of `timestamp_get`, value of
`ltimestamp_get`. Both getters perform the same accesses; the model computes both results from the
same accesses so that one machine covers the two functions. -/
structure Ret where
  start : Nat
  fin : Nat
  val : BitVec 32
  lval : BitVec 64
deriving Repr, DecidableEq

/-- Timer hardware, the two software variables and one thread calling the getters repeatedly.
`ticks` is a ghost counter of all timer ticks (microseconds by the prescaler setting, :38) since
`timestamp_stm32_init`; the hardware counter is `ticks % 65536` because `ARR = COUNTER_MAX` (:37). -/
structure State where
  ticks : Nat
  /-- update interrupt flag `SR & UIF` -/
  uif : Bool
  low : BitVec 32
  high : BitVec 32
  pc : Pc
  /-- finished calls, oldest first -/
  rets : List Ret
deriving Repr, DecidableEq

/-- `timestamp_stm32_init`, lib/timestamp/timestamp_stm32.c:30-41. -/
def init : State := ⟨0, false, 0#32, 0#32, .idle, []⟩

/-- Events: a timer tick, the interrupt handler, or the next access of the thread. -/
inductive Ev where
  | tick
  | isr
  | cpu
deriving Repr, DecidableEq

/-- Return value of `timestamp_get`, lib/timestamp/timestamp_stm32.c:49-52. -/
def getResult (t1 tim t2 : BitVec 32) : BitVec 32 :=
  if t2 ≠ t1 then t2 else t1 + tim

/-- Return value of `ltimestamp_get`, lib/timestamp/timestamp_stm32.c:61-68. `th + 1` is computed
in 32 bits, the rest in 64 bits. -/
def lgetResult (t1 th tim t2 : BitVec 32) : BitVec 64 :=
  if t2 ≠ t1 then
    if t2.toNat < t1.toNat then ((th + 1#32).setWidth 64 <<< 32) + t2.setWidth 64
    else (th.setWidth 64 <<< 32) + t2.setWidth 64
  else (th.setWidth 64 <<< 32) + t1.setWidth 64 + tim.setWidth 64

/-- One step. `none` means the event cannot happen in this state.

* `tick`: the counter advances; on overflow the update flag is raised. An overflow while the flag is
  still raised (interrupt delayed for a whole 65.5 ms period) is excluded from the model.
* `isr`: the handler, lib/timestamp/timestamp_stm32.c:23-28 (clears the flag, adds `COUNTER_MAX`,
  and never touches `time_us_high`); it runs as one step since it is not interrupted by the thread.
* `cpu`: the next access of the thread. The polling loop of `timer_read` (:18-19) stays where it is
  while the flag is raised. -/
def step (s : State) : Ev → Option State
  | .tick =>
    if (s.ticks + 1) % 65536 = 0 then
      if s.uif then none else some { s with ticks := s.ticks + 1, uif := true }
    else some { s with ticks := s.ticks + 1 }
  | .isr =>
    if s.uif then some { s with uif := false, low := s.low + BitVec.ofNat 32 counterMax } else none
  | .cpu =>
    match s.pc with
    | .idle => some { s with pc := .gotLow s.ticks s.low s.high }
    | .gotLow st t1 th =>
      some { s with pc := .gotCnt st t1 th (BitVec.ofNat 32 (s.ticks % 65536)) }
    | .gotCnt st t1 th tim =>
      if s.uif then some s else some { s with pc := .flagClear st t1 th tim }
    | .flagClear st t1 th tim =>
      some { s with
        pc := .idle
        rets := s.rets ++ [⟨st, s.ticks, getResult t1 tim s.low, lgetResult t1 th tim s.low⟩] }

/-- A run of events; `none` if some event was not possible. -/
def run (s : State) : List Ev → Option State
  | [] => some s
  | e :: es => (step s e).bind (fun s' => run s' es)

end Verif.Timestamp
