import Verif.CmpMem.Model
import Verif.Param.Model

/-!
# Parameters as MessagePack

Model of `lib/parameter/parameter_msgpack.c` and of the parts of `lib/cmp/cmp.c` it uses, over the memory buffer of
`CmpMem` and the parameter heap of `Param`. Bytes are numbers. `W` is `SIZE_MAX + 1`. The error callback is counted. The
error code inside `cmp_ctx_t` is not modelled (nothing here reads it). Floats are their 32 bits.
-/

namespace Verif.Msgpack

open Verif.Param
open Verif.CmpMem (Mem)

/-- Memory access with the error type of this module. -/
def lift {α : Type} : Except CmpMem.Err α → Except Param.Err α
  | .ok a => .ok a
  | .error .outOfBounds => .error .outOfBounds

abbrev Writer := Mem → Except Param.Err (Bool × Mem)

/-- `ctx->write(ctx, data, n)` used as a truth value (the number of bytes written is not 0). -/
def wr (W : Nat) (d : List Nat) : Writer := fun m => do
  let r ← lift (CmpMem.write W m d)
  pure (r.1 != 0, r.2)

/-- `write_byte`, cmp.c:209-212; also `write_type_marker` :224-232 and `write_fixed_value` :234-242. -/
def wrByte (W : Nat) (b : Nat) : Writer := fun m => do
  let r ← lift (CmpMem.write W m [b])
  pure (r.1 == 1, r.2)

/-- `if (!a) return false; return b;` -/
def andThen (a b : Writer) : Writer := fun m => do
  let r ← a m
  if r.1 then b r.2 else pure (false, r.2)

/-- `success &= a; success &= b;` -/
def both (a b : Writer) : Writer := fun m => do
  let r ← a m
  let q ← b r.2
  pure (r.1 && q.1, q.2)

/-- `be16` on the little-endian target, then stored: cmp.c:97-110. -/
def be16 (x : Nat) : List Nat := [x / 256 % 256, x % 256]
/-- `be32`, cmp.c:112-129. -/
def be32 (x : Nat) : List Nat := [x / 16777216 % 256, x / 65536 % 256, x / 256 % 256, x % 256]

/-- `if (size == 0) return true; return write(data, size)`, as in cmp.c:503-512. -/
def wrData (W : Nat) (d : List Nat) : Writer := fun m =>
  if d.length = 0 then pure (true, m) else wr W d m

/-- `cmp_write_str`, cmp.c:630-643 with the functions :487-613. -/
def writeStr (W : Nat) (d : List Nat) : Writer :=
  if d.length ≤ 0x1F then andThen (wrByte W (0xA0 ||| d.length)) (wrData W d)
  else if d.length ≤ 0xFF then andThen (andThen (wrByte W 0xD9) (wr W [d.length])) (wrData W d)
  else if d.length ≤ 0xFFFF then andThen (andThen (wrByte W 0xDA) (wr W (be16 d.length))) (wrData W d)
  else andThen (andThen (wrByte W 0xDB) (wr W (be32 d.length))) (wrData W d)

/-- `cmp_write_array`, cmp.c:811-821 with :769-809. -/
def writeArray (W : Nat) (n : Nat) : Writer :=
  if n ≤ 0xF then wrByte W (0x90 ||| n)
  else if n ≤ 0xFFFF then andThen (wrByte W 0xDC) (wr W (be16 n))
  else andThen (wrByte W 0xDD) (wr W (be32 n))

/-- `cmp_write_map`, cmp.c:865-875 with :823-863. -/
def writeMap (W : Nat) (n : Nat) : Writer :=
  if n ≤ 0xF then wrByte W (0x80 ||| n)
  else if n ≤ 0xFFFF then andThen (wrByte W 0xDE) (wr W (be16 n))
  else andThen (wrByte W 0xDF) (wr W (be32 n))

/-- `cmp_write_float`, cmp.c:432-441. -/
def writeFloat (W : Nat) (v : W32) : Writer := andThen (wrByte W 0xCA) (wr W (be32 v.toNat))
/-- `cmp_write_s32`, cmp.c:324-333. -/
def writeS32 (W : Nat) (v : W32) : Writer := andThen (wrByte W 0xD2) (wr W (be32 v.toNat))
/-- `cmp_write_bool`, cmp.c:469-476. -/
def writeBool (W : Nat) (b : Bool) : Writer := if b then wrByte W 0xC3 else wrByte W 0xC2

/-- The loop of parameter_msgpack.c:472-474. -/
def writeFloats (W : Nat) : List W32 → Writer
  | [] => fun m => pure (true, m)
  | v :: vs => both (writeFloat W v) (writeFloats W vs)

/-- The cases of parameter_msgpack.c:446-475, value part. -/
def writeVal (W : Nat) : Val → Writer
  | .scalar v => writeFloat W v
  | .integer v => writeS32 W v
  | .boolean b => writeBool W b
  | .string buf len => fun m => do
    let s ← copyFrom buf len
    writeStr W s m
  | .vector buf dim => fun m => do
    let v ← copyFrom buf dim
    both (writeArray W v.length) (writeFloats W v) m
  | .varVector buf dim => fun m => do
    let v ← copyFrom buf dim
    both (writeArray W v.length) (writeFloats W v) m

/-- The cells of a linked list, in order (the list is not modified while it is traversed). -/
def gather (next : Nat → Option Nat) : Nat → Option Nat → Except Param.Err (List Nat)
  | _, none => .ok []
  | 0, some _ => .error .fuel
  | f + 1, some i => do
    let l ← gather next f (next i)
    pure (i :: l)

/-- One round of the loop of parameter_msgpack.c:439-485; the second component counts calls of `err_cb`. -/
def writePar (W : Nat) (h : Heap) (s : Mem × Nat) (p : Nat) : Except Param.Err (Mem × Nat) :=
  if !h.defined p then .ok s
  else do
    let r ← both (writeStr W (h.parId p)) (writeVal W (h.val p)) s.1
    pure (r.2, if r.1 then s.2 else s.2 + 1)

/-- `parameter_msgpack_write_subtree`, parameter_msgpack.c:408-486. The results of writing the map header (:430) and
the name of a sub-namespace (:434) are dropped, as in the code. The first argument bounds the depth, `fuel` the length of
the lists. -/
def writeSubtree (W fuel : Nat) (h : Heap) : Nat → Nat → Mem × Nat → Except Param.Err (Mem × Nat)
  | 0, _, _ => .error .fuel
  | f + 1, n, s => do
    let subs ← gather h.nsNext fuel (h.sub n)
    let ps ← gather h.parNext fuel (h.plist n)
    let size := (subs.length + (ps.filter h.defined).length) % 2 ^ 32
    let r ← writeMap W size s.1
    let s ← subs.foldlM (fun (s : Mem × Nat) c => do
      let r ← writeStr W (h.nsId c) s.1
      writeSubtree W fuel h f c (r.2, s.2)) (r.2, s.2)
    ps.foldlM (writePar W h) s

/-- `parameter_msgpack_write`, parameter_msgpack.c:499-509: the buffer, its final position and the number of errors. -/
def write (W fuel : Nat) (h : Heap) (n : Nat) (buf : List Nat) : Except Param.Err (Mem × Nat) :=
  writeSubtree W fuel h fuel n (CmpMem.init buf, 0)

/-! ## Reading -/

/-- `cmp_object_t`: type tag and value. Sizes and unsigned values as numbers, signed values as the raw bits. -/
inductive Obj where
  | posFix (v : Nat) | negFix (v : Nat) | nil | bool (b : Bool)
  | bin (n : Nat) | ext (n t : Nat) | float (v : Nat) | double (v : Nat)
  | u8 (v : Nat) | u16 (v : Nat) | u32 (v : Nat) | u64 (v : Nat)
  | s8 (v : Nat) | s16 (v : Nat) | s32 (v : Nat) | s64 (v : Nat)
  | str (n : Nat) | array (n : Nat) | map (n : Nat)
deriving DecidableEq, Repr

/-- `ctx->read(ctx, x, n)` -/
def rd (W n : Nat) (m : Mem) : Except Param.Err (Option (List Nat) × Mem) := lift (CmpMem.read W m n)

/-- Big-endian number. -/
def beNum : List Nat → Nat := List.foldl (fun a b => a * 256 + b) 0

/-- Read `n` bytes, convert; `none` when refused. -/
def rdNum (W n : Nat) (mk : Nat → Obj) (m : Mem) : Except Param.Err (Option Obj × Mem) := do
  match ← rd W n m with
  | (none, m) => pure (none, m)
  | (some d, m) => pure (some (mk (beNum d)), m)

/-- Extension headers: size, then type. -/
def rdExt (W n : Nat) (m : Mem) : Except Param.Err (Option Obj × Mem) := do
  match ← rd W n m with
  | (none, m) => pure (none, m)
  | (some d, m) =>
    match ← rd W 1 m with
    | (none, m) => pure (none, m)
    | (some t, m) => pure (some (.ext (beNum d) (beNum t)), m)

/-- `cmp_read_object`, cmp.c:2232-2488. -/
def readObject (W : Nat) (m : Mem) : Except Param.Err (Option Obj × Mem) := do
  match ← rd W 1 m with
  | (none, m) => pure (none, m)
  | (some d, m) =>
    let t := beNum d
    if t ≤ 0x7F then pure (some (.posFix t), m)
    else if t ≤ 0x8F then pure (some (.map (t &&& 0xF)), m)
    else if t ≤ 0x9F then pure (some (.array (t &&& 0xF)), m)
    else if t ≤ 0xBF then pure (some (.str (t &&& 0x1F)), m)
    else if t = 0xC0 then pure (some .nil, m)
    else if t = 0xC2 then pure (some (.bool false), m)
    else if t = 0xC3 then pure (some (.bool true), m)
    else if t = 0xC4 then rdNum W 1 .bin m
    else if t = 0xC5 then rdNum W 2 .bin m
    else if t = 0xC6 then rdNum W 4 .bin m
    else if t = 0xC7 then rdExt W 1 m
    else if t = 0xC8 then rdExt W 2 m
    else if t = 0xC9 then rdExt W 4 m
    else if t = 0xCA then rdNum W 4 .float m
    else if t = 0xCB then rdNum W 8 .double m
    else if t = 0xCC then rdNum W 1 .u8 m
    else if t = 0xCD then rdNum W 2 .u16 m
    else if t = 0xCE then rdNum W 4 .u32 m
    else if t = 0xCF then rdNum W 8 .u64 m
    else if t = 0xD0 then rdNum W 1 .s8 m
    else if t = 0xD1 then rdNum W 2 .s16 m
    else if t = 0xD2 then rdNum W 4 .s32 m
    else if t = 0xD3 then rdNum W 8 .s64 m
    else if t = 0xD4 then rdNum W 1 (.ext 1) m
    else if t = 0xD5 then rdNum W 1 (.ext 2) m
    else if t = 0xD6 then rdNum W 1 (.ext 4) m
    else if t = 0xD7 then rdNum W 1 (.ext 8) m
    else if t = 0xD8 then rdNum W 1 (.ext 16) m
    else if t = 0xD9 then rdNum W 1 .str m
    else if t = 0xDA then rdNum W 2 .str m
    else if t = 0xDB then rdNum W 4 .str m
    else if t = 0xDC then rdNum W 2 .array m
    else if t = 0xDD then rdNum W 4 .array m
    else if t = 0xDE then rdNum W 2 .map m
    else if t = 0xDF then rdNum W 4 .map m
    else if t ≥ 0xE0 then pure (some (.negFix t), m)
    else pure (none, m)

/-- Sign extension of `k` raw bits. -/
def sext (k v : Nat) : Int := (BitVec.ofNat k v).toInt

/-- `cmp_object_as_int`, cmp.c:2747-2776. -/
def asInt : Obj → Option W32
  | .posFix v | .negFix v | .s8 v => some (BitVec.ofInt 32 (sext 8 v))
  | .u8 v => some (BitVec.ofNat 32 v)
  | .s16 v => some (BitVec.ofInt 32 (sext 16 v))
  | .u16 v => some (BitVec.ofNat 32 v)
  | .s32 v => some (BitVec.ofNat 32 v)
  | .u32 v => if v ≤ 2147483647 then some (BitVec.ofNat 32 v) else none
  | _ => none

/-- `cmp_object_as_sinteger`, i.e. `cmp_object_as_long`, cmp.c:2778-2813. -/
def asLong : Obj → Option Int
  | .posFix v | .negFix v | .s8 v => some (sext 8 v)
  | .u8 v | .u16 v | .u32 v => some v
  | .s16 v => some (sext 16 v)
  | .s32 v => some (sext 32 v)
  | .s64 v => some (sext 64 v)
  | .u64 v => if v ≤ 9223372036854775807 then some v else none
  | _ => none

/-- What the model does not fix: conversion of a 64-bit integer to `float`, and whether an allocation succeeds. -/
structure Env where
  i2f : Int → W32
  alloc : Nat → Bool

/-- `get_float`, parameter_msgpack.c:37-49. -/
def getFloat (e : Env) : Obj → Option W32
  | .float v => some (BitVec.ofNat 32 v)
  | o => (asLong o).map e.i2f

/-- State of a load: buffer, parameter tree, number of calls of `err_cb`. -/
structure RS where
  mem : Mem
  heap : Heap
  errs : Nat

/-- `err_cb(…)` -/
def RS.err (s : RS) : RS := { s with errs := s.errs + 1 }

/-- `discard_msgpack_element`, parameter_msgpack.c:6-35: return value is 0 (`true`) or -1. -/
def discard (o : Obj) (s : RS) : Bool × RS :=
  match o with
  | .posFix _ | .nil | .bool _ | .float _ | .double _ | .u8 _ | .u16 _ | .u32 _ | .u64 _ | .s8 _ | .s16 _ | .s32 _ | .s64 _
  | .negFix _ => (true, s)
  | _ => (false, s.err)

/-- `get_vector`, parameter_msgpack.c:67-101: `none` when the return value is not 0. -/
def getVector (W : Nat) (e : Env) : Nat → Bool → List W32 → RS → Except Param.Err (Option (List W32) × RS)
  | 0, err, acc, s => pure (if err then none else some acc, s)
  | k + 1, err, acc, s => do
    match ← readObject W s.mem with
    | (none, m) => pure (none, { s with mem := m }.err)
    | (some o, m) =>
      let s := { s with mem := m }
      match (if err then none else getFloat e o) with
      | some v => getVector W e k err (acc ++ [v]) s
      | none =>
        let s := if err then s else s.err
        let (ok, s) := discard o s
        if ok then getVector W e k true acc s else pure (none, s)

/-- `err_cb(…, "type mismatch")` and discard. -/
def mismatch (o : Obj) (s : RS) : Bool × RS := discard o s.err

/-- The vector cases :160-198 (`fits` is the dimension test, `set` the setter). -/
def readVec (W : Nat) (e : Env) (fits : Nat → Bool) (set : Heap → List W32 → Except Param.Err Heap) (o : Obj) (s : RS) :
    Except Param.Err (Bool × RS) :=
  match o with
  | .array k => do
    let (ok, s) := if fits k then (true, s) else discard o s.err
    if !ok then pure (false, s)
    else
      let (ok, s) := if e.alloc (k * 4) then (true, s) else discard o s.err
      if !ok then pure (false, s)
      else
        match ← getVector W e k false [] s with
        | (none, s) => pure (false, s)
        | (some v, s) =>
          let h ← set s.heap v
          pure (true, { s with heap := h })
  | o => pure (mismatch o s)

/-- `read_parameter`, parameter_msgpack.c:270-299 with the functions :103-268; `true` for return value 0. -/
def readParam (W fuel : Nat) (e : Env) (p : Nat) (o : Obj) (s : RS) : Except Param.Err (Bool × RS) :=
  match s.heap.val p with
  | .scalar _ =>
    match getFloat e o with
    | some v => do
      let h ← scalarSet fuel s.heap p v
      pure (true, { s with heap := h })
    | none => pure (mismatch o s)
  | .integer _ =>
    match asInt o with
    | some v => do
      let h ← integerSet fuel s.heap p v
      pure (true, { s with heap := h })
    | none => pure (mismatch o s)
  | .boolean _ =>
    match o with
    | .bool b => do
      let h ← booleanSet fuel s.heap p b
      pure (true, { s with heap := h })
    | o => pure (mismatch o s)
  | .vector _ dim => readVec W e (fun k => k == dim) (fun h v => vectorSet fuel h p v) o s
  | .varVector buf _ => readVec W e (fun k => !(k > buf.length)) (fun h v => varVectorSet fuel h p v) o s
  | .string buf _ =>
    match o with
    | .str k =>
      if k ≥ buf.length then pure (mismatch o s)
      else if !e.alloc k then pure (mismatch o s)
      else do
        match ← rd W k s.mem with
        | (none, m) => pure (false, { s with mem := m }.err)
        | (some d, m) =>
          let h ← stringSetWLen fuel s.heap p d k
          pure (true, { s with mem := m, heap := h })
    | o => pure (mismatch o s)

/-- `read_namespace`, parameter_msgpack.c:301-371, with `k` rounds to go; `true` for return value 0. The first argument
bounds the number of rounds and the depth. The identifier is allocated with `id_size + 1` bytes computed in 32 bits. -/
def readNs (W fuel : Nat) (e : Env) : Nat → Nat → Nat → RS → Except Param.Err (Bool × RS)
  | _, _, 0, s => pure (true, s)
  | 0, _, _ + 1, _ => .error .fuel
  | f + 1, n, k + 1, s => do
    match ← readObject W s.mem with
    | (some (.str idSize), m) =>
      let s := { s with mem := m }
      if !e.alloc ((idSize + 1) % 2 ^ 32) then pure (false, s.err)
      else
        match ← rd W idSize s.mem with
        | (none, m) => pure (false, { s with mem := m }.err)
        | (some id, m) =>
          if (idSize + 1) % 2 ^ 32 < idSize + 1 then .error .outOfBounds
          else
            match ← readObject W m with
            | (none, m) => pure (false, { s with mem := m }.err)
            | (some o, m) =>
              let s := { s with mem := m }
              let (ok, s) ← match o with
                | .map inner => do
                  match ← nsFindLoop fuel s.heap id.length (some n) id with
                  | some sub => readNs W fuel e f sub inner s
                  | none => pure (discard o s.err)
                | o => do
                  match ← parFindLoop fuel s.heap id.length (some n) id with
                  | some p => readParam W fuel e p o s
                  | none => pure (discard o s.err)
              if ok then readNs W fuel e f n k s else pure (false, s)
    | (_, m) => pure (false, { s with mem := m }.err)

/-- `parameter_msgpack_read`, parameter_msgpack.c:396-406 with `parameter_msgpack_read_cmp` :380-394. -/
def read (W fuel : Nat) (e : Env) (h : Heap) (n : Nat) (buf : List Nat) : Except Param.Err (Bool × RS) := do
  let s : RS := ⟨CmpMem.init buf, h, 0⟩
  match ← readObject W s.mem with
  | (some (.map k), m) => readNs W fuel e (buf.length + 1) n k { s with mem := m }
  | (_, m) => pure (false, { s with mem := m }.err)

end Verif.Msgpack
