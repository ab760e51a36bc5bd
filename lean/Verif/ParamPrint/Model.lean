import Verif.ParamServer.Model

/-!
# Printing parameters

lib/parameter/parameter_print.c: all parameters below a namespace as a text in YAML. What `printf` writes for `%f` and `%d` and whether
`malloc` gives memory for a parameter are inputs of the model.
-/

namespace Verif.ParamPrint

open Verif.Param Verif.ParamServer

/-- What is written for `%f` and `%d`. -/
structure Fmt where
  f : W32 → Str
  d : W32 → Str

/-- `indent`, parameter_print.c:6-14. -/
def indent : Nat → Str
  | 0 => []
  | n + 1 => str "  " ++ indent n

/-- The loop of `print_array`, parameter_print.c:22-29. -/
def arrayLoop (fmt : Fmt) : List W32 → Str
  | [] => []
  | [x] => fmt.f x
  | x :: y :: a => fmt.f x ++ str ", " ++ arrayLoop fmt (y :: a)

/-- `print_array`, parameter_print.c:16-31. -/
def printArray (fmt : Fmt) (a : List W32) : Str := str "[" ++ arrayLoop fmt a ++ str "]\n"

/-- parameter_print.c:4 -/
def warning : Str := str "# warning: malloc failed during serialization!"

/-- The part of `param_entry_print` after the name, parameter_print.c:40-99. -/
def valuePrint (fmt : Fmt) (mem : Nat → Bool) (h : Heap) (p : Nat) : Except Err Str :=
  if ¬ parDefined h (some p) then .ok (str "~\n")
  else match h.val p with
    | .scalar _ => do let v ← scalarRead h p; pure (fmt.f v ++ str "\n")
    | .integer _ => do let v ← integerRead h p; pure (fmt.d v ++ str "\n")
    | .boolean _ => do let v ← booleanRead h p; pure ((if v then str "true" else str "false") ++ str "\n")
    | .string buf _ =>
      if mem p then do
        let r ← stringRead h p ((buf.length + 1) % 65536)
        pure (str "\"" ++ cStr r.2 ++ str "\"\n")
      else .ok (str "\"\" " ++ warning ++ str "\n")
    | .vector _ _ =>
      if mem p then do let v ← vectorRead h p; pure (printArray fmt v)
      else .ok (str "[] " ++ warning ++ str "\n")
    | .varVector _ _ =>
      if mem p then do let v ← varVectorRead h p; pure (printArray fmt v)
      else .ok (str "[] " ++ warning ++ str "\n")

/-- `param_entry_print`, parameter_print.c:33-99. -/
def entryPrint (fmt : Fmt) (mem : Nat → Bool) (h : Heap) (ind p : Nat) : Except Err Str := do
  let v ← valuePrint fmt mem h p
  pure (indent ind ++ h.parId p ++ str ": " ++ v)

/-- A loop over a list that is linked by `next`, printing its elements. -/
def walkPrint (next : Nat → Option Nat) (f : Nat → Except Err Str) : Nat → Option Nat → Except Err Str
  | _, none => .ok []
  | 0, some _ => .error .fuel
  | fuel + 1, some x => do
    let s ← f x
    let t ← walkPrint next f fuel (next x)
    pure (s ++ t)

/-- `param_ns_print`, parameter_print.c:101-118; the first number bounds the depth. -/
def nsPrint (fmt : Fmt) (mem : Nat → Bool) (fuel : Nat) (h : Heap) : Nat → Nat → Nat → Except Err Str
  | 0, _, _ => .error .fuel
  | d + 1, n, ind => do
    let s ← walkPrint h.parNext (entryPrint fmt mem h ind) fuel (h.plist n)
    let t ← walkPrint h.nsNext (fun m => do
      let u ← nsPrint fmt mem fuel h d m (ind + 1)
      pure (indent ind ++ h.nsId m ++ str ":\n" ++ u)) fuel (h.sub n)
    pure (s ++ t)

/-- `parameter_print`, parameter_print.c:120-125. -/
def print (fmt : Fmt) (mem : Nat → Bool) (fuel : Nat) (h : Heap) (n : Nat) : Except Err Str := nsPrint fmt mem fuel h fuel n 0

end Verif.ParamPrint
