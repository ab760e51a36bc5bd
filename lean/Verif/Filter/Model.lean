import Verif.Num.Arith

/-!
# Filters

Model of `lib/filter` and of `math_clamp_value` and `argmin` (`master-firmware/src/robot_helpers/math_helpers.c`). Arithmetic is a parameter (`Num.Arith`).
Arrays are lists; accesses outside of them are errors.
-/

namespace Verif.Filter

open Num

variable {F : Type}

/-- `filter_limit`, lib/filter/basic.c:3-12 -/
def limit (A : Arith F) (value min max : F) : F :=
  if A.lt max value then max else if A.lt value min then min else value

/-- `filter_limit_sym`, lib/filter/basic.c:14-17 -/
def limitSym (A : Arith F) (value lim : F) : F := limit A value (A.neg lim) lim

/-- `math_clamp_value`, math_helpers.c:26-35; the `int` arguments are only compared. -/
def clamp (value min max : Int) : Int :=
  if value < min then min else if value > max then max else value

/-- `argmin`, math_helpers.c:37-48; the loop from index `i` on, with the candidate so far -/
def argminLoop (A : Arith F) : List F → Nat → Nat → F → Nat
  | [], _, minIndex, _ => minIndex
  | v :: vs, i, minIndex, minValue => if A.lt v minValue then argminLoop A vs (i + 1) i v else argminLoop A vs (i + 1) minIndex minValue

def argmin (A : Arith F) (inf : F) (values : List F) : Nat := argminLoop A values 0 0 inf

/-! ## IIR filter -/

inductive Err where
  | bounds
  | divZero
  | overflow
deriving DecidableEq

/-- Reads and writes of arrays -/
def rd (l : List F) (i : Nat) : Except Err F :=
  match l[i]? with
  | some x => .ok x
  | none => .error .bounds

def wr (l : List F) (i : Nat) (x : F) : Except Err (List F) := if i < l.length then .ok (l.set i x) else .error .bounds

/-- `filter_iir_t`, lib/filter/include/filter/iir.h; `a` can be absent. -/
structure Iir (F : Type) where
  b : List F
  a : Option (List F)
  n : Nat
  d : List F
deriving DecidableEq

/-- `filter_iir_init`, lib/filter/iir.c:23-30: clears the first `n` delays. -/
def Iir.init (A : Arith F) (b : List F) (a : Option (List F)) (n : Nat) (d : List F) : Except Err (Iir F) :=
  if n ≤ d.length then .ok ⟨b, a, n, List.replicate n A.zero ++ d.drop n⟩ else .error .bounds

/-- The new value of delay `i` but for the delay behind it: `b[i + 1] * in` or `b[i + 1] * in - a[i] * out`, lib/filter/iir.c:40, 42, 46 and 48 -/
def tap (A : Arith F) (f : Iir F) (x out : F) (i : Nat) : Except Err F :=
  match rd f.b (i + 1) with
  | .error e => .error e
  | .ok b =>
    match f.a with
    | none => .ok (A.mul b x)
    | some as =>
      match rd as i with
      | .error e => .error e
      | .ok a => .ok (A.sub (A.mul b x) (A.mul a out))

/-- The loop over the delays, lib/filter/iir.c:39-41 and 45-47: `k` more rounds from index `i`. -/
def loop (A : Arith F) (f : Iir F) (x out : F) : Nat → Nat → List F → Except Err (List F)
  | 0, _, d => .ok d
  | k + 1, i, d =>
    match tap A f x out i, rd d (i + 1) with
    | .ok t, .ok next =>
      match wr d i (A.add t next) with
      | .ok d => loop A f x out k (i + 1) d
      | .error e => .error e
    | .error e, _ => .error e
    | _, .error e => .error e

/-- `filter_iir_apply`, lib/filter/iir.c:32-51. For `n = 0` the code writes `d[-1]`. -/
def Iir.apply (A : Arith F) (f : Iir F) (x : F) : Except Err (F × Iir F) :=
  match rd f.b 0, rd f.d 0 with
  | .ok b0, .ok d0 =>
    let out := A.add (A.mul b0 x) d0
    match loop A f x out (f.n - 1) 0 f.d with
    | .error e => .error e
    | .ok d =>
      if f.n = 0 then .error .bounds
      else
        match tap A f x out (f.n - 1) with
        | .error e => .error e
        | .ok t =>
          match wr d (f.n - 1) t with
          | .ok d => .ok (out, { f with d := d })
          | .error e => .error e
  | .error e, _ => .error e
  | _, .error e => .error e

/-- The outputs for a sequence of inputs -/
def Iir.run (A : Arith F) (f : Iir F) : List F → Except Err (List F)
  | [] => .ok []
  | x :: xs =>
    match f.apply A x with
    | .error e => .error e
    | .ok (y, f) =>
      match f.run A xs with
      | .error e => .error e
      | .ok ys => .ok (y :: ys)

/-! ## Mean -/

/-- The sum of `mean_int16`, lib/filter/mean.c:16-23; overflow of `int` is an error. -/
def sumInt : List Int → Int → Except Err Int
  | [], ret => .ok ret
  | x :: xs, ret => if ret + x > 2147483647 ∨ ret + x < -2147483648 then .error .overflow else sumInt xs (ret + x)

/-- `mean_int16`, lib/filter/mean.c:16-26: the sum is converted to `size_t` before the division. -/
def meanInt16 (set : List Int) : Except Err Int :=
  match sumInt set 0 with
  | .error e => .error e
  | .ok ret =>
    if set.length % 4294967296 = 0 then .error .divZero
    else
      let q := ret % 4294967296 / (set.length % 4294967296 : Nat)
      .ok (if q ≥ 2147483648 then q - 4294967296 else q)

end Verif.Filter
