/-!
# Dijkstra

Model of `dijkstra` (`lib/dijkstra/include/dijkstra/dijkstra.hpp:64-105`). Nodes are their indices in the array `nodes`, `edges v` are the nodes `v` is
connected to in the order of `connect`. Following a null `parent` is an error, and so is an overflow of `distance + 1`. `connect` (dijkstra.hpp:34-38), which
does not check the number of edges, and edges to nodes outside of the array are not modelled.
-/

namespace Verif.Dijkstra

inductive Err where
  | null
  | overflow
  | fuel
deriving DecidableEq

def intMax : Nat := 2147483647

/-- The fields `dijkstra` uses, dijkstra.hpp:20-22 and 40 -/
structure St where
  visited : Nat → Bool
  distance : Nat → Nat
  parent : Nat → Option Nat
  pathNext : Nat → Option Nat

def set {α : Type} (f : Nat → α) (i : Nat) (x : α) : Nat → α := fun j => if j = i then x else f j

/-- dijkstra.hpp:67-74 -/
def init (start : Nat) : St := ⟨fun _ => false, set (fun _ => intMax) start 0, fun _ => none, fun _ => none⟩

/-- The loop over the edges, dijkstra.hpp:81-86 -/
def relax (v : Nat) : List Nat → St → Except Err St
  | [], st => .ok st
  | w :: ws, st =>
    if st.distance v + 1 > intMax then .error .overflow
    else if st.distance w > st.distance v + 1 then
      relax v ws { st with distance := set st.distance w (st.distance v + 1), parent := set st.parent w (some v) }
    else relax v ws st

/-- The loop that selects the next node, dijkstra.hpp:88-95: the node and `min_distance`. -/
def select (st : St) : List Nat → Nat × Nat → Nat × Nat
  | [], x => x
  | i :: is, x => select st is (if st.visited i = false ∧ x.2 > st.distance i then (i, st.distance i) else x)

/-- dijkstra.hpp:78-96 -/
def explore (edges : Nat → List Nat) (n : Nat) : Nat → Nat → St → Except Err St
  | 0, _, _ => .error .fuel
  | f + 1, v, st =>
    if st.visited v = false then
      match relax v (edges v) { st with visited := set st.visited v true } with
      | .error e => .error e
      | .ok st => explore edges n f (select st (List.range n) (v, intMax)).1 st
    else .ok st

/-- dijkstra.hpp:98-102: the length and the pointers of the path -/
def backtrack (start : Nat) : Nat → Nat → St → Except Err (Nat × St)
  | 0, _, _ => .error .fuel
  | f + 1, p, st =>
    if p = start then .ok (0, st)
    else
      match st.parent p with
      | none => .error .null
      | some q =>
        match backtrack start f q { st with pathNext := set st.pathNext q (some p) } with
        | .error e => .error e
        | .ok (len, st) => .ok (len + 1, st)

/-- `dijkstra`, dijkstra.hpp:64-105, on `n` nodes. The loops get as many iterations as there are nodes, and one more. -/
def dijkstra (edges : Nat → List Nat) (n start fin : Nat) : Except Err (Nat × St) :=
  match explore edges n (n + 1) start (init start) with
  | .error e => .error e
  | .ok st => backtrack start (n + 1) fin st

end Verif.Dijkstra
