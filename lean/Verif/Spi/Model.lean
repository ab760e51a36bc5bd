/-!
# Software SPI

Model of `lib/softspi/softspi.c`. The buffers are ranges of one memory, so that they can overlap. What happens on the wires is a trace; the slave is any function
from what happened so far to the level of MISO. The delays do nothing.
-/

namespace Verif.Spi

/-- What the master does with the wires: `softspi_mosi_set`, `softspi_sck_set`, and a call of `softspi_miso_get` with its result (0 or 1) -/
inductive Ev where
  | mosi (b : Bool)
  | sck (b : Bool)
  | miso (b : Bool)
deriving DecidableEq

/-- The slave: the level of MISO after the given events -/
abbrev Slave := List Ev → Bool

structure St where
  trace : List Ev
  mem : List (BitVec 8)
deriving DecidableEq

/-- The body of the loop, softspi.c:13-40; none is an access outside of the memory. -/
def bit (slave : Slave) (tx rx : Nat) (st : St) (i : Nat) : Option St :=
  match st.mem[tx + i / 8]? with
  | none => none
  | some curbyte =>
    let curbitpos := 7 - i % 8
    let curbit : Bool := curbyte &&& (1#8 <<< curbitpos) ≠ 0#8
    let trace := st.trace ++ [.mosi curbit, .sck true]
    let curbit := slave trace
    match st.mem[rx + i / 8]? with
    | none => none
    | some old => some ⟨trace ++ [.miso curbit, .sck false], st.mem.set (rx + i / 8) (old ||| ((if curbit then 1#8 else 0#8) <<< curbitpos))⟩

/-- `k` rounds of the loop from `i` on -/
def loop (slave : Slave) (tx rx : Nat) : Nat → Nat → St → Option St
  | 0, _, st => some st
  | k + 1, i, st => match bit slave tx rx st i with
    | none => none
    | some st => loop slave tx rx k (i + 1) st

/-- `memset(rxbuf, 0, size)`, softspi.c:11 -/
def clear (mem : List (BitVec 8)) (rx size : Nat) : Option (List (BitVec 8)) :=
  if rx + size ≤ mem.length then some (mem.take rx ++ List.replicate size 0#8 ++ mem.drop (rx + size)) else none

/-- `softspi_send`, softspi.c:4-41, with the buffers at `tx` and `rx` -/
def send (slave : Slave) (tx rx size : Nat) (st : St) : Option St :=
  match clear st.mem rx size with
  | none => none
  | some mem => loop slave tx rx (8 * size) 0 { st with mem := mem }

/-- `softspi_init`, softspi.c:43-46 -/
def init (st : St) : St := { st with trace := st.trace ++ [.sck false] }

end Verif.Spi
