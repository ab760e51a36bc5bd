import Verif.Goap.Model

/-!
# GOAP planner: what a plan is
-/

namespace Verif.Goap.Spec

variable {S : Type}

/-- Executing a list of actions, each of which has to be possible when it is its turn. -/
inductive Executes (acts : List (Action S)) : S → List (Option Nat) → S → Prop where
  | nil {s} : Executes acts s [] s
  | cons {s i a l s'} : acts[i]? = some a → a.canRun s = true → Executes acts (a.effects s) l s' → Executes acts s (some i :: l) s'

/-- The states that can be reached by actions. -/
inductive Reachable (acts : List (Action S)) (s0 : S) : S → Prop where
  | refl : Reachable acts s0 s0
  | step {s a} : Reachable acts s0 s → a ∈ acts → a.canRun s = true → Reachable acts s0 (a.effects s)

/-- The states visited by actions that always lead to a new state, the last one first -/
inductive Trail (acts : List (Action S)) (s0 : S) : List S → Prop where
  | start : Trail acts s0 [s0]
  | step {s vs a} : Trail acts s0 (s :: vs) → a ∈ acts → a.canRun s = true → a.effects s ∉ s :: vs → Trail acts s0 (a.effects s :: s :: vs)

end Verif.Goap.Spec
