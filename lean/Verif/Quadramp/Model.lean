import Mathlib.Data.Rat.Floor
import Mathlib.Algebra.Order.Ring.Abs

/-!
# Quadramp

Model of `lib/quadramp/quadramp.c`, the consign filter of the distance and angle controllers. Doubles are exact numbers, the square root is a parameter. The
output is assigned from an `int32_t` wherever it is set (lines 38, 59, 88 and 172), therefore it is an integer here. Conversions to `int32_t` of values out of
range are undefined and are errors.
-/

namespace Verif.Quadramp

/-- Conversion of a double to `int32_t`: towards zero; none if out of range -/
def toI32 (q : ℚ) : Option Int :=
  let n : Int := if 0 ≤ q then ⌊q⌋ else ⌈q⌉
  if -2 ^ 31 ≤ n ∧ n < 2 ^ 31 then some n else none

/-- `struct quadramp_filter`, quadramp.h:49-58 -/
structure Qr where
  secondPos : ℚ
  secondNeg : ℚ
  firstPos : ℚ
  firstNeg : ℚ
  var : ℚ
  out : Int
  inp : Int
deriving DecidableEq

/-- `quadramp_init`, quadramp.c:29-32 -/
def Qr.init : Qr := ⟨0, 0, 0, 0, 0, 0, 0⟩

/-- `quadramp_reset`, quadramp.c:34-39 -/
def Qr.reset (q : Qr) : Qr := { q with var := 0, out := 0, inp := 0 }

/-- `quadramp_set_2nd_order_vars`, `quadramp_set_1st_order_vars`, quadramp.c:41-55 -/
def Qr.setSecond (q : Qr) (pos neg : ℚ) : Qr := { q with secondPos := pos, secondNeg := neg }
def Qr.setFirst (q : Qr) (pos neg : ℚ) : Qr := { q with firstPos := pos, firstNeg := neg }

/-- `quadramp_set_position`, quadramp.c:57-61 -/
def Qr.setPosition (q : Qr) (pos : Int) : Qr := { q with out := pos, var := 0 }

/-- `quadramp_is_finished`, quadramp.c:63-66 -/
def Qr.isFinished (q : Qr) : Bool := decide (q.out = q.inp ∧ q.var = 0)

/-- The deceleration ramp, quadramp.c:96-114: the speed limits forward and backward; `secondNeg` is the local variable, with its sign. -/
def decelerate (sqrt : ℚ → ℚ) (d : Int) (dFloat firstPos firstNeg secondPos secondNeg : ℚ) : ℚ × ℚ :=
  if d > 0 ∧ secondNeg ≠ 0 then
    let ramp := sqrt (secondNeg * secondNeg / 4 - 2 * dFloat * secondNeg) + secondNeg / 2
    (if ramp < firstPos then ramp else firstPos, firstNeg)
  else if d < 0 ∧ secondPos ≠ 0 then
    let ramp := -sqrt (secondPos * secondPos / 4 - 2 * dFloat * secondPos) - secondPos / 2
    (firstPos, if ramp > firstNeg then ramp else firstNeg)
  else (firstPos, firstNeg)

/-- Reaching the forward limit, quadramp.c:118-134 -/
def reachPos (v firstPos secondPos secondNeg : ℚ) : ℚ :=
  if v < firstPos then
    if secondPos ≠ 0 ∧ firstPos - v > secondPos then v + secondPos else firstPos
  else if v > firstPos then
    if secondNeg ≠ 0 ∧ firstPos - v < secondNeg then v + secondNeg else firstPos
  else firstPos

/-- Reaching the backward limit, quadramp.c:138-154 -/
def reachNeg (v firstNeg secondPos secondNeg : ℚ) : ℚ :=
  if v > firstNeg then
    if secondNeg ≠ 0 ∧ firstNeg - v < secondNeg then v + secondNeg else firstNeg
  else if v < firstNeg then
    if secondPos ≠ 0 ∧ firstNeg - v > secondPos then v + secondPos else firstNeg
  else firstNeg

/-- `quadramp_do_filter`, quadramp.c:68-176; the output is the field `out`. -/
def Qr.filter (sqrt : ℚ → ℚ) (q : Qr) (inp : Int) : Option Qr :=
  let dFloat : ℚ := (inp : ℚ) - q.out
  if |dFloat| < 2 then some { q with var := 0, out := inp, inp := inp }
  else
    match toI32 dFloat with
    | none => none
    | some d =>
      let (firstPos, firstNeg) := decelerate sqrt d dFloat q.firstPos (-q.firstNeg) q.secondPos (-q.secondNeg)
      let firstPos := reachPos q.var firstPos q.secondPos (-q.secondNeg)
      let firstNeg := reachNeg q.var firstNeg q.secondPos (-q.secondNeg)
      if dFloat > firstPos then
        match toI32 ((q.out : ℚ) + firstPos) with
        | none => none
        | some t => some { q with var := firstPos, out := t, inp := inp }
      else if dFloat < firstNeg then
        match toI32 ((q.out : ℚ) + firstNeg) with
        | none => none
        | some t => some { q with var := firstNeg, out := t, inp := inp }
      else some { q with var := dFloat, out := inp, inp := inp }

/-- A sequence of inputs -/
def Qr.run (sqrt : ℚ → ℚ) (q : Qr) : List Int → Option Qr
  | [] => some q
  | i :: is => match q.filter sqrt i with
    | none => none
    | some q => q.run sqrt is

end Verif.Quadramp
