/-!
# Bus enumerator

Model of `master-firmware/src/can/bus_enumerator.c`.

C strings are lists of character codes (without the terminator). A table is the list of its valid
entries (`nb_entries_…` is the length of the list); what lies behind them in the buffer is never read
by the code and is not modelled. Writing past the `buffer_len` entries of a table is the error
`overflow`; reading outside the valid entries is `outOfBounds`.
-/

namespace Verif.BusEnum

abbrev Name := List Nat

/-- `strcmp` on character codes (the sign is what the code uses). -/
def strcmp : Name → Name → Int
  | [], [] => 0
  | [], _ :: _ => -1
  | _ :: _, [] => 1
  | x :: xs, y :: ys => if x = y then strcmp xs ys else (x : Int) - y

/-- `bus_enumerator_entry_t`, bus_enumerator.h:28-33; the driver pointer is a number. -/
structure Entry where
  name : Name
  can : BitVec 8
  driver : Nat
deriving DecidableEq, Repr

/-- `bus_enumerator_t`, bus_enumerator.h:41-47. -/
structure En where
  str : List Entry
  can : List Entry
  cap : Nat
deriving DecidableEq, Repr

inductive Err where
  | outOfBounds
  | overflow
  | fuel
deriving DecidableEq, Repr

/-- bus_enumerator.h:24-26. -/
def notSet : BitVec 8 := 0xFF
def notFound : BitVec 8 := 0xFE
def indexNotFound : Nat := 0xFFFF

/-- `midpoint`, bus_enumerator.c:5-12 (the sum is computed in `int`, so it does not overflow). -/
def midpoint (min max : Nat) : Nat := if min < max then (min + max) / 2 else min

/-- The search loop shared by `index_by_str_id` (bus_enumerator.c:18-30) and `index_by_can_id`
(:37-49): the two differ only in the comparison `cmp` of the key with an entry. -/
def findLoop (t : List Entry) (cmp : Entry → Int) : Nat → Nat → Nat → Except Err Nat
  | fuel, imin, imax =>
    if imax > imin then
      match fuel with
      | 0 => .error .fuel
      | fuel + 1 =>
        let imid := midpoint imin imax
        match t[imid]? with
        | none => .error .outOfBounds
        | some e =>
          if cmp e = 0 then .ok imid
          else if cmp e > 0 then findLoop t cmp fuel (imid + 1) imax
          else findLoop t cmp fuel imin imid
    else .ok indexNotFound

/-- The insertion-point loop of bus_enumerator.c:68-76 and :103-111. -/
def insertLoop (t : List Entry) (cmp : Entry → Int) : Nat → Nat → Nat → Except Err Nat
  | fuel, imin, imax =>
    if imin ≠ imax then
      match fuel with
      | 0 => .error .fuel
      | fuel + 1 =>
        let imid := midpoint imin imax
        match t[imid]? with
        | none => .error .outOfBounds
        | some e =>
          if cmp e > 0 then insertLoop t cmp fuel (imid + 1) imax
          else insertLoop t cmp fuel imin imid
    else .ok imin

/-- Comparison of a string with an entry, `strcmp(str_id, entry.str_id)`. -/
def cmpStr (s : Name) (e : Entry) : Int := strcmp s e.name

/-- Comparison of a CAN id with an entry. -/
def cmpCan (id : BitVec 8) (e : Entry) : Int := (id.toNat : Int) - e.can.toNat

/-- `index_by_str_id`, bus_enumerator.c:14-31. -/
def indexByStr (en : En) (s : Name) : Except Err Nat :=
  findLoop en.str (cmpStr s) en.str.length 0 en.str.length

/-- `index_by_can_id`, bus_enumerator.c:33-50. -/
def indexByCan (en : En) (id : BitVec 8) : Except Err Nat :=
  findLoop en.can (cmpCan id) en.can.length 0 en.can.length

/-- `bus_enumerator_init`, bus_enumerator.c:52-61. -/
def init (cap : Nat) : En := ⟨[], [], cap⟩

/-- `memmove` by one entry, the assignment and the increment (bus_enumerator.c:78-86 and :113-121):
the entry at index `length` is written, which must be inside the table. -/
def insertAt (t : List Entry) (cap : Nat) (i : Nat) (e : Entry) : Except Err (List Entry) :=
  if t.length < cap then .ok (t.take i ++ e :: t.drop i) else .error .overflow

/-- `bus_enumerator_add_node`, bus_enumerator.c:63-88. -/
def addNode (en : En) (s : Name) (driver : Nat) : Except Err En :=
  if en.str.length < en.cap then do
    let i ← insertLoop en.str (cmpStr s) en.str.length 0 en.str.length
    let t ← insertAt en.str en.cap i ⟨s, notSet, driver⟩
    pure { en with str := t }
  else .ok en

/-- `bus_enumerator_update_node_info`, bus_enumerator.c:90-123. -/
def updateNode (en : En) (s : Name) (id : BitVec 8) : Except Err En := do
  let index ← indexByStr en s
  if index ≠ indexNotFound then
    match en.str[index]? with
    | none => .error .outOfBounds
    | some e =>
      if e.can = notSet then do
        let e' := { e with can := id }
        let str := en.str.set index e'
        let i ← insertLoop en.can (cmpCan id) en.can.length 0 en.can.length
        let can ← insertAt en.can en.cap i e'
        pure { en with str := str, can := can }
      else pure en
  else pure en

/-- `bus_enumerator_total_nodes_count`, bus_enumerator.c:125-128. -/
def totalNodes (en : En) : Nat := en.str.length

/-- `bus_enumerator_discovered_nodes_count`, bus_enumerator.c:130-140. -/
def discoveredNodes (en : En) : Nat :=
  en.str.foldl (fun cnt e => if e.can ≠ notSet then cnt + 1 else cnt) 0

/-- `bus_enumerator_get_can_id`, bus_enumerator.c:142-152. -/
def getCanId (en : En) (s : Name) : Except Err (BitVec 8) := do
  let index ← indexByStr en s
  if index ≠ indexNotFound then
    match en.str[index]? with
    | none => .error .outOfBounds
    | some e => pure e.can
  else pure notFound

/-- `bus_enumerator_get_driver`, bus_enumerator.c:154-164; `none` is NULL. -/
def getDriver (en : En) (s : Name) : Except Err (Option Nat) := do
  let index ← indexByStr en s
  if index ≠ indexNotFound then
    match en.str[index]? with
    | none => .error .outOfBounds
    | some e => pure (some e.driver)
  else pure none

/-- `bus_enumerator_get_driver_by_can_id`, bus_enumerator.c:166-176. -/
def getDriverByCan (en : En) (id : BitVec 8) : Except Err (Option Nat) := do
  let index ← indexByCan en id
  if index ≠ indexNotFound then
    match en.can[index]? with
    | none => .error .outOfBounds
    | some e => pure (some e.driver)
  else pure none

/-- `bus_enumerator_get_str_id`, bus_enumerator.c:178-188. -/
def getStrId (en : En) (id : BitVec 8) : Except Err (Option Name) := do
  let index ← indexByCan en id
  if index ≠ indexNotFound then
    match en.can[index]? with
    | none => .error .outOfBounds
    | some e => pure (some e.name)
  else pure none

end Verif.BusEnum
