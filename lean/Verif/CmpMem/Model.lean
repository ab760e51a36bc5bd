/-!
# `cmp_mem_access`: memory buffer behind the MessagePack reader and writer

/repo/lib/cmp_mem_access/cmp_mem_access.c. `buf` is the memory `[buf, buf + size)`, so `size` is its length. `W` is
`SIZE_MAX + 1`; sums of `size_t` are taken modulo `W`. An access outside the buffer is the error `outOfBounds`.
Bytes are numbers.
-/

namespace Verif.CmpMem

inductive Err where
  | outOfBounds
deriving DecidableEq, Repr

/-- `cmp_mem_access_t`, cmp_mem_access.h:12-16. -/
structure Mem where
  buf : List Nat
  index : Nat
deriving DecidableEq, Repr

/-- `cmp_mem_access_init`, cmp_mem_access.c:36-42. -/
def init (buf : List Nat) : Mem := ⟨buf, 0⟩

/-- `cmp_mem_reader`, cmp_mem_access.c:4-14: `none` if refused. -/
def read (W : Nat) (m : Mem) (len : Nat) : Except Err (Option (List Nat) × Mem) :=
  if (m.index + len) % W ≤ m.buf.length then
    if m.index + len ≤ m.buf.length then
      .ok (some ((m.buf.drop m.index).take len), { m with index := (m.index + len) % W })
    else .error .outOfBounds
  else .ok (none, m)

/-- `cmp_mem_writer`, cmp_mem_access.c:16-26: the number of bytes written. -/
def write (W : Nat) (m : Mem) (data : List Nat) : Except Err (Nat × Mem) :=
  if (m.index + data.length) % W ≤ m.buf.length then
    if m.index + data.length ≤ m.buf.length then
      .ok (data.length, { buf := m.buf.take m.index ++ data ++ m.buf.drop (m.index + data.length),
                          index := (m.index + data.length) % W })
    else .error .outOfBounds
  else .ok (0, m)

/-- `cmp_mem_writer_ro`, cmp_mem_access.c:28-34. -/
def writeRo (m : Mem) (_data : List Nat) : Nat × Mem := (0, m)

/-- `cmp_mem_access_get_pos`, cmp_mem_access.c:52-55. -/
def getPos (m : Mem) : Nat := m.index

/-- `cmp_mem_access_set_pos`, cmp_mem_access.c:57-60. -/
def setPos (m : Mem) (pos : Nat) : Mem := { m with index := pos }

/-- `cmp_mem_access_pos_is_valid`, cmp_mem_access.c:67-74. -/
def posIsValid (m : Mem) (pos : Nat) : Bool := if pos ≥ m.buf.length then false else true

/-- Calls on a memory. -/
inductive Op where
  | read (len : Nat)
  | write (data : List Nat)
  | setPos (pos : Nat)
deriving DecidableEq, Repr

/-- Number of bytes of the access. -/
def Op.len : Op → Nat
  | .read n => n
  | .write d => d.length
  | .setPos _ => 0

def step (W : Nat) (m : Mem) : Op → Except Err Mem
  | .read n => do let r ← read W m n; pure r.2
  | .write d => do let r ← write W m d; pure r.2
  | .setPos p => .ok (setPos m p)

def run (W : Nat) : Mem → List Op → Except Err Mem
  | m, [] => .ok m
  | m, op :: ops => do
    let m ← step W m op
    run W m ops

/-- Writes of several chunks, all of which must be accepted. -/
def writeAll (W : Nat) : Mem → List (List Nat) → Except Err (Option Mem)
  | m, [] => .ok (some m)
  | m, d :: ds => do
    let r ← write W m d
    if r.1 = d.length then writeAll W r.2 ds else pure none

/-- Reads of chunks of the given lengths, all of which must be accepted. -/
def readAll (W : Nat) : Mem → List Nat → Except Err (Option (List (List Nat) × Mem))
  | m, [] => .ok (some ([], m))
  | m, n :: ns => do
    match ← read W m n with
    | (none, _) => pure none
    | (some d, m) =>
      match ← readAll W m ns with
      | none => pure none
      | some (ds, m) => pure (some (d :: ds, m))

end Verif.CmpMem
