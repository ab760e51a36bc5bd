/-!
# Change flags of parameters, with several threads

The same code as in `Verif.Param.Model` (`lib/parameter/parameter.c`), but with any number of threads that set, get and read parameters of one fixed tree. Each section
between `parameter_port_lock` and `parameter_port_unlock` is one step, and so is the only access outside of such a section, `p->defined = true` (parameter.c:208). Between two steps of a
thread the others can run.

Namespaces are numbers, as in the heap of `Verif.Param.Model`; `m` is the number of parameters and `k` the number of threads. Values are of any type (a vector or a string is copied as a whole
between lock and unlock). The types of parameters are right.
-/

namespace Verif.Param.Conc

/-- The tree: the namespace of each parameter and the parent of each namespace -/
structure Tree (m : Nat) where
  ns : Fin m → Nat
  parent : Nat → Option Nat

/-- Where a thread is -/
inductive Pc (m : Nat) (V : Type) where
  | idle
  /-- `parameter_*_set`: store the value, e.g. parameter.c:271-273 -/
  | write (p : Fin m) (v : V)
  /-- `_parameter_changed_set`, parameter.c:192-198 -/
  | flagSet (p : Fin m)
  /-- the loop of parameter.c:202-207 -/
  | inc (p : Fin m) (ns : Option Nat)
  /-- `_parameter_changed_clear`, parameter.c:213-219 -/
  | flagClear (p : Fin m)
  /-- the loop of parameter.c:223-228 -/
  | dec (p : Fin m) (ns : Option Nat)
  /-- `parameter_*_read`, e.g. parameter.c:261-265, called by `get` or by itself -/
  | read (p : Fin m) (get : Bool)

/-- What happened: a value was stored, or loaded by a `get` or a `read` -/
inductive Ev (m : Nat) (V : Type) where
  | wrote (p : Fin m) (v : V)
  | got (p : Fin m) (v : V) (get : Bool)

/-- The shared memory, the threads, and what happened (newest first) -/
structure St (m k : Nat) (V : Type) where
  value : Fin m → V
  changed : Fin m → Bool
  defined : Fin m → Bool
  cnt : Nat → Int
  pc : Fin k → Pc m V
  log : List (Ev m V)

/-- Calls -/
inductive Call (m : Nat) (V : Type) where
  | set (p : Fin m) (v : V)
  | get (p : Fin m)
  | read (p : Fin m)

inductive Err where
  /-- `parameter_port_assert(p->defined == true)` fails -/
  | undefined
  /-- overflow of `int32_t changed_cnt` -/
  | overflow
deriving DecidableEq

def upd [DecidableEq α] (f : α → β) (a : α) (b : β) : α → β := fun x => if x = a then b else f x

/-- `int32_t` -/
def i32 (x : Int) : Except Err Int := if -2147483648 ≤ x ∧ x ≤ 2147483647 then .ok x else .error .overflow

/-- Thread `t`, if idle, begins a call (`parameter_scalar_set` parameter.c:268-275, `parameter_scalar_get` 252-256, `parameter_scalar_read` 258-266, and the same for the other types) -/
def St.call (s : St m k V) (t : Fin k) (c : Call m V) : St m k V :=
  match s.pc t with
  | .idle =>
    match c with
    | .set p v => { s with pc := upd s.pc t (.write p v) }
    | .get p => { s with pc := upd s.pc t (.flagClear p) }
    | .read p => { s with pc := upd s.pc t (.read p false) }
  | _ => s

/-- The next step of thread `t` -/
def St.step (s : St m k V) (c : Tree m) (t : Fin k) : Except Err (St m k V) :=
  match s.pc t with
  | .idle => .ok s
  | .write p v => .ok { s with value := upd s.value p v, log := .wrote p v :: s.log, pc := upd s.pc t (.flagSet p) }
  | .flagSet p =>
    if s.changed p then .ok { s with pc := upd s.pc t .idle }
    else .ok { s with changed := upd s.changed p true, pc := upd s.pc t (.inc p (some (c.ns p))) }
  | .inc p (some n) =>
    match i32 (s.cnt n + 1) with
    | .error e => .error e
    | .ok x => .ok { s with cnt := upd s.cnt n x, pc := upd s.pc t (.inc p (c.parent n)) }
  | .inc p none => .ok { s with defined := upd s.defined p true, pc := upd s.pc t .idle }
  | .flagClear p =>
    if s.changed p then .ok { s with changed := upd s.changed p false, pc := upd s.pc t (.dec p (some (c.ns p))) }
    else .ok { s with pc := upd s.pc t (.read p true) }
  | .dec p (some n) =>
    match i32 (s.cnt n - 1) with
    | .error e => .error e
    | .ok x => .ok { s with cnt := upd s.cnt n x, pc := upd s.pc t (.dec p (c.parent n)) }
  | .dec p none => .ok { s with pc := upd s.pc t (.read p true) }
  | .read p g =>
    if s.defined p then .ok { s with log := .got p (s.value p) g :: s.log, pc := upd s.pc t .idle }
    else .error .undefined

/-- An execution: calls begin and threads make steps, in any order -/
inductive Move (m k : Nat) (V : Type) where
  | call (t : Fin k) (c : Call m V)
  | step (t : Fin k)

def St.run (s : St m k V) (c : Tree m) : List (Move m k V) → Except Err (St m k V)
  | [] => .ok s
  | .call t x :: l => (s.call t x).run c l
  | .step t :: l =>
    match s.step c t with
    | .error e => .error e
    | .ok s => s.run c l

/-- Nothing has been changed yet (`d` tells which parameters have a value already) -/
def St.init (value : Fin m → V) (d : Fin m → Bool) : St m k V := ⟨value, fun _ => false, d, fun _ => 0, fun _ => .idle, []⟩

/-- `parameter_namespace_contains_changed`, parameter.c:163-169: the counter is converted to `uint32_t` and compared with 0 -/
def St.containsChanged (s : St m k V) (n : Nat) : Bool := decide (s.cnt n % 4294967296 > 0)

end Verif.Param.Conc
