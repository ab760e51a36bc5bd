/-!
# The UART of the motor boards — model

`motor-control-firmware/src/blocking_uart_driver.c`. Of the hardware: the transmit register, the receive register and the divider.
The clock is what `STM32_PCLK1` or `STM32_PCLK2` is; the clocks of the peripherals (`rccEnableUSART…`) and the flags that are cleared at the end are not modelled.
-/

namespace Verif.Uart

/-- The divider, blocking_uart_driver.c:105, with `uint32_t`; `none`: division by zero -/
def divider (clock baud : Nat) : Option Nat :=
  if 2 * baud % 2 ^ 32 = 0 then none else some ((2 * clock % 2 ^ 32 + baud) % 2 ^ 32 / (2 * baud % 2 ^ 32))

/-- The transmitter: the byte in `TDR` (`none`: TXE is set) and the bytes that have been taken to the line; a byte written while another is there replaces it. -/
structure Tx where
  tdr : Option (BitVec 8)
  line : List (BitVec 8)
deriving DecidableEq

/-- The transmitter takes the byte, if there is one. -/
def Tx.take (t : Tx) : Tx := ⟨none, t.line ++ t.tdr.toList⟩

/-- `blocking_uart_write`, blocking_uart_driver.c:36-48, and for one byte `blocking_uart_put`, 15-24: each `Bool` is one read of `ISR` in the loop and says whether the transmitter has taken a byte before it. What is left to write is returned: the loop waits if the reads are over. -/
def write : List Bool → List (BitVec 8) → Tx → Tx × List (BitVec 8)
  | _, [], t => (t, [])
  | [], b :: bs, t => (t, b :: bs)
  | k :: ks, b :: bs, t =>
    let t := if k then t.take else t
    if t.tdr = none then write ks bs { t with tdr := some b } else write ks (b :: bs) t

/-- The receiver: the byte in `RDR` (`some`: RXNE is set) and the number of bytes that were lost because the one before had not been read -/
structure Rx where
  rdr : Option (BitVec 8)
  lost : Nat
deriving DecidableEq

/-- A byte arrives; it is lost if the last one has not been read. -/
def Rx.arrive (r : Rx) (b : BitVec 8) : Rx :=
  match r.rdr with
  | none => { r with rdr := some b }
  | some _ => { r with lost := r.lost + 1 }

/-- `blocking_uart_read`, blocking_uart_driver.c:50-62, for `n` bytes, and for one `blocking_uart_get`, 26-34: each element is one read of `ISR` with the bytes that have arrived before it. Returned are the receiver and the bytes read. -/
def read : List (List (BitVec 8)) → Nat → Rx → Rx × List (BitVec 8)
  | _, 0, r => (r, [])
  | [], _ + 1, r => (r, [])
  | a :: as, n + 1, r =>
    let r := a.foldl Rx.arrive r
    match r.rdr with
    | none => read as (n + 1) r
    | some b =>
      let x := read as n { r with rdr := none }
      (x.1, b :: x.2)

end Verif.Uart
