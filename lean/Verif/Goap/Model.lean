/-!
# GOAP planner

Model of `Planner::plan` (`lib/goap/include/goap/goap.hpp:49-161`) and of its lists (`goap_internals.hpp`), with the pool of nodes as a heap and the
`next` pointers of the lists in it, because the garbage collection of the planner can make two lists share nodes. A pointer is the index of a node of the
pool. `int` is `Int` with a check where the code adds (`chk`). Dereferencing a null pointer is an error. Following more pointers than there are
nodes means that the pointers form a cycle, so the loop of the code does not end: error `loops`. The pool holds whatever an earlier call left there.

Not modelled: the virtual functions of actions and goals are pure functions of the state, and `operator==` of the state is equality; `path` is never null
and has room for `path_len` actions.
-/

namespace Verif.Goap

inductive Err where
  | overflow
  | null
  | loops
  | fuel
deriving DecidableEq

def intMax : Int := 2147483647

/-- `int` arithmetic: signed overflow is undefined. -/
def chk (x : Int) : Except Err Int := if -2147483648 ≤ x ∧ x ≤ intMax then .ok x else .error .overflow

/-- `Action`, goap.hpp:19-32 (`execute` is not used by the planner) -/
structure Action (S : Type) where
  canRun : S → Bool
  effects : S → S

/-- A planning problem: the actions, and the two functions of `Goal`, goap.hpp:34-47. -/
structure Problem (S : Type) where
  acts : List (Action S)
  reached : S → Bool
  dist : S → Int

/-- `VisitedState`, goap_internals.hpp:11-23. An action is its index in `actions`. -/
structure VNode (S : Type) where
  priority : Int
  cost : Int
  state : S
  parent : Option Nat
  action : Option Nat
  next : Option Nat

variable {S : Type}

abbrev Heap (S : Type) := Nat → VNode S

def Heap.upd (h : Heap S) (p : Nat) (n : VNode S) : Heap S := fun q => if q = p then n else h q

/-- `p->next = x` -/
def Heap.setNext (h : Heap S) (p : Nat) (x : Option Nat) : Heap S := h.upd p { h p with next := x }

/-- `visited_states_array_to_list`, goap_internals.hpp:25-32 -/
def arrayToList (N : Nat) (h : Heap S) : Heap S := fun i =>
  if i < N then { h i with next := if i + 1 < N then some (i + 1) else none } else h i

/-- The nodes a loop `for (p = head; p; p = p->next)` visits. -/
def walk : Nat → Heap S → Option Nat → Except Err (List Nat)
  | _, _, none => .ok []
  | 0, _, some _ => .error .loops
  | n + 1, h, some p =>
    match walk n h (h p).next with
    | .ok l => .ok (p :: l)
    | .error e => .error e

/-- The loop of `priority_list_pop` that finds the node, goap_internals.hpp:38-47: strictly smaller priorities win. -/
def minElem (h : Heap S) : List Nat → Option Nat × Int → Option Nat × Int
  | [], b => b
  | p :: l, b => minElem h l (if (h p).priority < b.2 then (some p, (h p).priority) else b)

/-- The loop of `priority_list_pop` that removes the node, goap_internals.hpp:53-58. -/
def unlink (h : Heap S) (l : List Nat) (m : Nat) : Heap S :=
  match l.find? fun p => (h p).next == some m with
  | some p => (h.setNext p (h m).next).setNext m none
  | none => h

/-- `priority_list_pop`, goap_internals.hpp:34-62: the node, the heap and the new head. If no priority is below `INT_MAX`, it follows a null pointer. -/
def priorityPop (N : Nat) (h : Heap S) (list : Option Nat) : Except Err (Nat × Heap S × Option Nat) :=
  match walk N h list with
  | .error e => .error e
  | .ok l =>
    match (minElem h l (none, intMax)).1 with
    | none => .error .null
    | some m =>
      if some m = list then .ok (m, h, (h m).next) else .ok (m, unlink h l m, list)

/-- `list_pop_head`, goap_internals.hpp:64-71 -/
def popHead (h : Heap S) (head : Option Nat) : Except Err (Nat × Heap S × Option Nat) :=
  match head with
  | none => .error .null
  | some p => .ok (p, h.setNext p none, (h p).next)

/-- `update_queued_state`, goap_internals.hpp:80-89. The cost is not updated. -/
def updateQueued (h : Heap S) (p n : Nat) : Heap S :=
  if (h p).cost > (h n).cost then
    h.upd p { h p with priority := (h n).priority, parent := (h n).parent, action := (h n).action }
  else h

/-- The planner's variables -/
structure St (S : Type) where
  h : Heap S
  free : Option Nat
  opn : Option Nat
  close : Option Nat

/-- The garbage collection, goap.hpp:102-119; none when it fails. The only node of the open list becomes free without leaving the open list. -/
def alloc (N : Nat) (st : St S) : Except Err (Option (St S)) :=
  match st.free with
  | some _ => .ok (some st)
  | none =>
    match walk N st.h st.opn with
    | .error e => .error e
    | .ok l =>
      match l.reverse with
      | [] => .ok none
      | [gc] => .ok (some { st with free := some gc })
      | gc :: prev :: _ => .ok (some { st with h := st.h.setNext prev none, free := some gc })

variable [DecidableEq S]

/-- The two loops over a list that look for the state of the new node `n`, goap.hpp:133-147. -/
def updateAll (n : Nat) : List Nat → Heap S × Bool → Heap S × Bool
  | [], x => x
  | p :: l, x => updateAll n l (if (x.1 p).state = (x.1 n).state then (updateQueued x.1 p n, false) else x)

/-- goap.hpp:129-153: looks for the state in both lists, then puts the new node into the open or the free list. -/
def place (N : Nat) (st : St S) (n : Nat) : Except Err (St S) :=
  match walk N st.h st.opn with
  | .error e => .error e
  | .ok lo =>
    let x := updateAll n lo (st.h, true)
    match walk N x.1 st.close with
    | .error e => .error e
    | .ok lc =>
      let y := updateAll n lc x
      .ok (if y.2 then { st with h := y.1.setNext n st.opn, opn := some n } else { st with h := y.1.setNext n st.free, free := some n })

/-- goap.hpp:121-153: a new node for action `i` of the current node. -/
def expand1 (N : Nat) (P : Problem S) (cur i : Nat) (a : Action S) (st : St S) : Except Err (St S) :=
  match popHead st.h st.free with
  | .error e => .error e
  | .ok (n, h, free) =>
    let s := a.effects (h cur).state
    match chk ((h cur).cost + 1) with
    | .error e => .error e
    | .ok cost =>
      match chk ((h cur).priority + 1) with
      | .error e => .error e
      | .ok x =>
        match chk (x + P.dist s) with
        | .error e => .error e
        | .ok priority =>
          place N { st with h := h.upd n { h n with state := s, cost := cost, priority := priority, parent := some cur, action := some i }, free := free } n

/-- What a call returns, and `path`. -/
structure Result where
  code : Int
  path : List (Option Nat)
deriving DecidableEq

inductive Out (S : Type) where
  | go (st : St S)
  | done (r : Result)

/-- The loop over the actions, goap.hpp:97-155, from action `i` on. -/
def expandAll (N : Nat) (P : Problem S) (cur : Nat) : List (Action S) → Nat → St S → Except Err (Out S)
  | [], _, st => .ok (.go st)
  | a :: as, i, st =>
    if a.canRun (st.h cur).state then
      match alloc N st with
      | .error e => .error e
      | .ok none => .ok (.done ⟨-2, []⟩)
      | .ok (some st) =>
        match expand1 N P cur i a st with
        | .error e => .error e
        | .ok st => expandAll N P cur as (i + 1) st
    else expandAll N P cur as (i + 1) st

/-- The nodes from `p` up to the start, without the start: `for (p = current; p->parent; p = p->parent)`, goap.hpp:79-81 and 89-91. -/
def ancestors : Nat → Heap S → Nat → Except Err (List Nat)
  | n, h, p =>
    match (h p).parent with
    | none => .ok []
    | some q =>
      match n with
      | 0 => .error .loops
      | n + 1 =>
        match ancestors n h q with
        | .ok l => .ok (p :: l)
        | .error e => .error e

/-- goap.hpp:78-94 -/
def finish (N : Nat) (pathLen : Int) (st : St S) (cur : Nat) : Except Err Result :=
  match ancestors N st.h cur with
  | .error e => .error e
  | .ok l => .ok (if (l.length : Int) > pathLen then ⟨-1, []⟩ else ⟨l.length, (l.map fun p => (st.h p).action).reverse⟩)

/-- One iteration of the loop, goap.hpp:73-156. -/
def iter (N : Nat) (P : Problem S) (pathLen : Int) (st : St S) : Except Err (Out S) :=
  match st.opn with
  | none => .ok (.done ⟨-1, []⟩)
  | some _ =>
    match priorityPop N st.h st.opn with
    | .error e => .error e
    | .ok (cur, h, opn) =>
      let st := { st with h := h.setNext cur st.close, opn := opn, close := some cur }
      if P.reached (st.h cur).state then
        match finish N pathLen st cur with
        | .error e => .error e
        | .ok r => .ok (.done r)
      else expandAll N P cur P.acts 0 st

def loop (N : Nat) (P : Problem S) (pathLen : Int) : Nat → St S → Except Err Result
  | 0, _ => .error .fuel
  | f + 1, st =>
    match iter N P pathLen st with
    | .error e => .error e
    | .ok (.done r) => .ok r
    | .ok (.go st) => loop N P pathLen f st

/-- goap.hpp:60-71, for a pool of `N` nodes with any content -/
def start (N : Nat) (pool : Heap S) (s : S) : Except Err (St S) :=
  if N = 0 then .error .null
  else
    match popHead (arrayToList N pool) (some 0) with
    | .error e => .error e
    | .ok (p, h, free) =>
      .ok ⟨h.upd p { h p with state := s, cost := 0, priority := 0, parent := none, action := none }, free, some p, none⟩

/-- `Planner::plan`, goap.hpp:58-160 -/
def plan (N : Nat) (P : Problem S) (pathLen : Int) (fuel : Nat) (pool : Heap S) (s : S) : Except Err Result :=
  match start N pool s with
  | .error e => .error e
  | .ok st => loop N P pathLen fuel st

end Verif.Goap
