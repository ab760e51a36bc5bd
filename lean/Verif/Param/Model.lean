import Verif.Common.HeapList

/-!
# Parameter tree

Model of `lib/parameter/parameter.c`, single-threaded (the port lock is not modelled here; the change
flags under concurrency are in `Conc`).

Namespaces and parameters are cells of two heaps; the fields of the structures are functions of the cell
number. C strings are lists of character codes without terminator. A parameter's value buffer is part of the
cell (each parameter has its own buffer). Floats are their 32 bits. `uint16_t` sizes are natural numbers,
except that the length of a C string is reduced modulo 2^16 where the code stores it in 16 bits.
-/

namespace Verif.Param

open HeapList

abbrev Str := List Nat
abbrev W32 := BitVec 32

/-- `'/'`. -/
def slash : Nat := 47

inductive Err where
  | fuel          -- a loop did not end
  | outOfBounds   -- access outside an object
  | assert        -- parameter_port_assert failed
deriving DecidableEq, Repr

/-- The value union and type tag, parameter.h:20-61. Buffers are lists of the declared size. -/
inductive Val where
  | scalar (v : W32)
  | integer (v : W32)
  | boolean (v : Bool)
  | string (buf : Str) (len : Nat)
  | vector (buf : List W32) (dim : Nat)
  | varVector (buf : List W32) (dim : Nat)
deriving DecidableEq, Repr

/-- The memory of the tree: fields of `parameter_namespace_t` (parameter.h:11-18) and `parameter_t`
(:46-61). -/
structure Heap where
  nsId : Nat → Str
  cnt : Nat → BitVec 32
  parent : Nat → Option Nat
  sub : Nat → Option Nat
  nsNext : Nat → Option Nat
  plist : Nat → Option Nat
  parId : Nat → Str
  parNs : Nat → Nat
  parNext : Nat → Option Nat
  changed : Nat → Bool
  defined : Nat → Bool
  val : Nat → Val

/-! ## Lookup -/

/-- `id_split`, parameter.c:30-39: characters before the first `'/'`. -/
def idSplit : Str → Nat
  | [] => 0
  | c :: s => if c = slash then 0 else idSplit s + 1

/-- `strncmp(q, id, n) == 0` where `q` has `n` characters and `id` is terminated. -/
def strncmpEq : Str → Str → Bool
  | [], _ => true
  | x :: _, [] => x = 0
  | x :: xs, y :: ys => x = y && strncmpEq xs ys

/-- The test of parameter.c:55 and :77: `strncmp(q, id, n) == 0 && id[n] == '\0'`. Reading `id[n]` behind the
terminator is an error. -/
def idMatch (q id : Str) : Except Err Bool :=
  if strncmpEq q id then
    if q.length ≤ id.length then .ok (q.length = id.length) else .error .outOfBounds
  else .ok false

/-- The loops of parameter.c:54-61 and :76-83. -/
def findLoop (next : Nat → Option Nat) (ident : Nat → Str) (q : Str) : Nat → Option Nat → Except Err (Option Nat)
  | _, none => .ok none
  | 0, some _ => .error .fuel
  | f + 1, some i => do
    if ← idMatch q (ident i) then .ok (some i) else findLoop next ident q f (next i)

/-- `get_subnamespace`, parameter.c:44-63. -/
def getSub (fuel : Nat) (h : Heap) (n : Nat) (q : Str) : Except Err (Option Nat) :=
  if q.length = 0 then .ok (some n) else findLoop h.nsNext h.nsId q fuel (h.sub n)

/-- `get_parameter`, parameter.c:68-85. -/
def getPar (fuel : Nat) (h : Heap) (n : Nat) (q : Str) : Except Err (Option Nat) :=
  if q.length = 0 then .ok none else findLoop h.parNext h.parId q fuel (h.plist n)

/-- The loop of `_parameter_namespace_find_w_id_len`, parameter.c:107-119; `rest` is what follows index `i`. -/
def nsFindLoop (fuel : Nat) (h : Heap) : Nat → Option Nat → Str → Except Err (Option Nat)
  | _, none, _ => .ok none
  | _, some n, [] => .ok (some n)
  | 0, some _, _ :: _ => .error .fuel
  | f + 1, some n, c :: s => do
    let k := idSplit (c :: s)
    let m ← getSub fuel h n ((c :: s).take k)
    nsFindLoop fuel h f m ((c :: s).drop (k + 1))

/-- `parameter_namespace_find`, parameter.c:121-125. -/
def nsFind (fuel : Nat) (h : Heap) (n : Nat) (id : Str) : Except Err (Option Nat) :=
  nsFindLoop fuel h id.length (some n) id

/-- The loop of `_parameter_find_w_id_len`, parameter.c:127-143. -/
def parFindLoop (fuel : Nat) (h : Heap) : Nat → Option Nat → Str → Except Err (Option Nat)
  | _, none, _ => .ok none
  | f, some n, s =>
    let k := idSplit s
    if k < s.length then
      match f with
      | 0 => .error .fuel
      | f + 1 => do
        let m ← getSub fuel h n (s.take k)
        parFindLoop fuel h f m (s.drop (k + 1))
    else getPar fuel h n (s.take k)

/-- `parameter_find`, parameter.c:145-148. -/
def parFind (fuel : Nat) (h : Heap) (n : Nat) (id : Str) : Except Err (Option Nat) :=
  parFindLoop fuel h id.length (some n) id

/-! ## Declarations and change flags -/

/-- `parameter_namespace_declare`, parameter.c:87-105. -/
def nsDeclare (h : Heap) (n : Nat) (parent : Option Nat) (id : Str) : Heap :=
  let h := { h with nsId := upd h.nsId n id, cnt := upd h.cnt n 0, parent := upd h.parent n parent,
                    sub := upd h.sub n none, plist := upd h.plist n none }
  match parent with
  | some m =>
    let h := { h with nsNext := upd h.nsNext n (h.sub m) }
    { h with sub := upd h.sub m (some n) }
  | none => { h with nsNext := upd h.nsNext n none }

/-- `_parameter_declare`, parameter.c:150-161. -/
def parDeclare (h : Heap) (p n : Nat) (id : Str) : Heap :=
  { h with parId := upd h.parId p id, parNs := upd h.parNs p n, changed := upd h.changed p false,
           defined := upd h.defined p false, parNext := upd h.parNext p (h.plist n), plist := upd h.plist n (some p) }

/-- The loops over the enclosing namespaces, parameter.c:201-207 (`d = 1`) and :222-228 (`d = -1`). -/
def addUp (parent : Nat → Option Nat) (d : BitVec 32) : Nat → Option Nat → (Nat → BitVec 32) → Except Err (Nat → BitVec 32)
  | _, none, c => .ok c
  | 0, some _, _ => .error .fuel
  | f + 1, some n, c => addUp parent d f (parent n) (upd c n (c n + d))

/-- `_parameter_changed_set`, parameter.c:190-209. -/
def changedSet (fuel : Nat) (h : Heap) (p : Nat) : Except Err Heap :=
  let was := h.changed p
  let h := { h with changed := upd h.changed p true }
  if was then .ok h
  else do
    let c ← addUp h.parent 1 fuel (some (h.parNs p)) h.cnt
    pure { h with cnt := c, defined := upd h.defined p true }

/-- `_parameter_changed_clear`, parameter.c:211-229. -/
def changedClear (fuel : Nat) (h : Heap) (p : Nat) : Except Err Heap :=
  let was := h.changed p
  let h := { h with changed := upd h.changed p false }
  if !was then .ok h
  else do
    let c ← addUp h.parent (-1) fuel (some (h.parNs p)) h.cnt
    pure { h with cnt := c }

/-- `parameter_namespace_contains_changed`, parameter.c:163-169 (the counter is converted to `uint32_t`). -/
def containsChanged (h : Heap) (n : Nat) : Bool := 0 < (h.cnt n).toNat

/-- `parameter_changed`, parameter.c:171-177. -/
def parChanged (h : Heap) (p : Nat) : Bool := h.changed p

/-- `parameter_defined`, parameter.c:179-188. -/
def parDefined (h : Heap) : Option Nat → Bool
  | none => false
  | some p => h.defined p

/-! ## Types -/

def assert (b : Bool) : Except Err Unit := if b then .ok () else .error .assert

def setVal (h : Heap) (p : Nat) (v : Val) : Heap := { h with val := upd h.val p v }

/-- `memcpy`/copy loops: the first `n` elements of `src` to the beginning of `buf`. -/
def copyTo {α : Type} (buf src : List α) (n : Nat) : Except Err (List α) :=
  if n ≤ src.length ∧ n ≤ buf.length then .ok (src.take n ++ buf.drop n) else .error .outOfBounds

def copyFrom {α : Type} (buf : List α) (n : Nat) : Except Err (List α) :=
  if n ≤ buf.length then .ok (buf.take n) else .error .outOfBounds

/-- `parameter_scalar_declare`, `…_with_default`, parameter.c:235-250. Without a default the value field keeps
whatever was in the memory (`junk`). -/
def scalarDeclare (fuel : Nat) (h : Heap) (p n : Nat) (id : Str) (junk : W32) (dflt : Option W32) : Except Err Heap :=
  match dflt with
  | none => .ok (parDeclare (setVal h p (.scalar junk)) p n id)
  | some v => changedSet fuel (parDeclare (setVal h p (.scalar v)) p n id) p

/-- `parameter_integer_declare`, `…_with_default`, parameter.c:281-296. -/
def integerDeclare (fuel : Nat) (h : Heap) (p n : Nat) (id : Str) (junk : W32) (dflt : Option W32) : Except Err Heap :=
  match dflt with
  | none => .ok (parDeclare (setVal h p (.integer junk)) p n id)
  | some v => changedSet fuel (parDeclare (setVal h p (.integer v)) p n id) p

/-- `parameter_boolean_declare`, `…_with_default`, parameter.c:325-340. -/
def booleanDeclare (fuel : Nat) (h : Heap) (p n : Nat) (id : Str) (junk : Bool) (dflt : Option Bool) : Except Err Heap :=
  match dflt with
  | none => .ok (parDeclare (setVal h p (.boolean junk)) p n id)
  | some v => changedSet fuel (parDeclare (setVal h p (.boolean v)) p n id) p

/-- `parameter_vector_declare`, `…_with_default`, parameter.c:372-388: the default is what is in the buffer. -/
def vectorDeclare (fuel : Nat) (h : Heap) (p n : Nat) (id : Str) (buf : List W32) (dim : Nat) (dflt : Bool) : Except Err Heap :=
  let h := parDeclare (setVal h p (.vector buf dim)) p n id
  if dflt then changedSet fuel h p else .ok h

/-- `parameter_variable_vector_declare`, `…_with_default`, parameter.c:430-453. -/
def varVectorDeclare (fuel : Nat) (h : Heap) (p n : Nat) (id : Str) (buf : List W32) (junkDim : Nat) (dflt : Option Nat) :
    Except Err Heap :=
  let h := parDeclare (setVal h p (.varVector buf junkDim)) p n id
  match dflt with
  | none => .ok h
  | some k => do
    assert (k ≤ buf.length)
    changedSet fuel (setVal h p (.varVector buf k)) p

/-- `strncpy(buf, src, buf_size)` for a terminated `src`: copies and pads with zeros. -/
def strncpy (buf : Str) (src : Str) : Str := src.take buf.length ++ List.replicate (buf.length - src.length) 0

/-- `parameter_string_declare`, `…_with_default`, parameter.c:499-523. -/
def stringDeclare (fuel : Nat) (h : Heap) (p n : Nat) (id : Str) (buf : Str) (junkLen : Nat) (dflt : Option Str) :
    Except Err Heap :=
  let h := parDeclare (setVal h p (.string buf junkLen)) p n id
  match dflt with
  | none => .ok h
  | some s => do
    let len := s.length % 65536
    assert (len ≤ buf.length)
    changedSet fuel (setVal h p (.string (strncpy buf s) len)) p

/-- `parameter_scalar_set`, parameter.c:268-275. -/
def scalarSet (fuel : Nat) (h : Heap) (p : Nat) (v : W32) : Except Err Heap :=
  match h.val p with
  | .scalar _ => changedSet fuel (setVal h p (.scalar v)) p
  | _ => .error .assert

/-- `parameter_integer_set`, parameter.c:314-321. -/
def integerSet (fuel : Nat) (h : Heap) (p : Nat) (v : W32) : Except Err Heap :=
  match h.val p with
  | .integer _ => changedSet fuel (setVal h p (.integer v)) p
  | _ => .error .assert

/-- `parameter_boolean_set`, parameter.c:342-350. -/
def booleanSet (fuel : Nat) (h : Heap) (p : Nat) (v : Bool) : Except Err Heap :=
  match h.val p with
  | .boolean _ => changedSet fuel (setVal h p (.boolean v)) p
  | _ => .error .assert

/-- `parameter_vector_set`, parameter.c:414-424. -/
def vectorSet (fuel : Nat) (h : Heap) (p : Nat) (v : List W32) : Except Err Heap :=
  match h.val p with
  | .vector buf dim => do
    let b ← copyTo buf v dim
    changedSet fuel (setVal h p (.vector b dim)) p
  | _ => .error .assert

/-- `parameter_variable_vector_set`, parameter.c:481-493, with `dim` the number of values. -/
def varVectorSet (fuel : Nat) (h : Heap) (p : Nat) (v : List W32) : Except Err Heap :=
  match h.val p with
  | .varVector buf _ => do
    assert (v.length ≤ buf.length)
    let b ← copyTo buf v v.length
    changedSet fuel (setVal h p (.varVector b v.length)) p
  | _ => .error .assert

/-- `parameter_string_set_w_len`, parameter.c:559-568. -/
def stringSetWLen (fuel : Nat) (h : Heap) (p : Nat) (s : Str) (len : Nat) : Except Err Heap :=
  match h.val p with
  | .string buf _ => do
    assert (len ≤ buf.length)
    let b ← copyTo buf s len
    changedSet fuel (setVal h p (.string b len)) p
  | _ => .error .assert

/-- `parameter_string_set`, parameter.c:554-557: `strlen` is converted to `uint16_t`. -/
def stringSet (fuel : Nat) (h : Heap) (p : Nat) (s : Str) : Except Err Heap :=
  stringSetWLen fuel h p s (s.length % 65536)

/-- `parameter_scalar_read`, parameter.c:258-266. -/
def scalarRead (h : Heap) (p : Nat) : Except Err W32 :=
  match h.val p with
  | .scalar v => do assert (h.defined p); pure v
  | _ => .error .assert

/-- `parameter_integer_read`, parameter.c:304-312. -/
def integerRead (h : Heap) (p : Nat) : Except Err W32 :=
  match h.val p with
  | .integer v => do assert (h.defined p); pure v
  | _ => .error .assert

/-- `parameter_boolean_read`, parameter.c:358-366. -/
def booleanRead (h : Heap) (p : Nat) : Except Err Bool :=
  match h.val p with
  | .boolean v => do assert (h.defined p); pure v
  | _ => .error .assert

/-- `parameter_vector_read`, parameter.c:402-412 (the output array is large enough). -/
def vectorRead (h : Heap) (p : Nat) : Except Err (List W32) :=
  match h.val p with
  | .vector buf dim => do assert (h.defined p); copyFrom buf dim
  | _ => .error .assert

/-- `parameter_variable_vector_read`, parameter.c:467-479. -/
def varVectorRead (h : Heap) (p : Nat) : Except Err (List W32) :=
  match h.val p with
  | .varVector buf dim => do assert (h.defined p); copyFrom buf dim
  | _ => .error .assert

/-- `parameter_string_read`, parameter.c:537-552: returned length and the characters written to `out`
(terminator included). With `out_size = 0` the copy has size `(size_t)-1`. -/
def stringRead (h : Heap) (p : Nat) (outSize : Nat) : Except Err (Nat × Str) :=
  match h.val p with
  | .string buf len => do
    assert (h.defined p)
    if len < outSize then
      let out ← copyFrom buf len
      pure (len, out ++ [0])
    else if outSize = 0 then .error .outOfBounds
    else
      let out ← copyFrom buf (outSize - 1)
      pure (len, out ++ [0])
  | _ => .error .assert

end Verif.Param
