import Verif.Match.Model

/-!
# Playing a match: what is required
-/

namespace Verif.Match

open Geom (P)

/-- Commands that make the robot move -/
def Cmd.Moves : Cmd → Bool
  | .gotoXy _ | .gotoForward _ | .gotoBackward _ | .turnTo _ | .forward _ => true
  | _ => false

/-- Commands to the base: movements and stops -/
def Cmd.Drives : Cmd → Bool
  | .stop | .hardstop => true
  | c => c.Moves

/-- The commands that were given -/
def commands (l : List Event) : List Cmd := l.filterMap fun | .did c => some c | .saw _ _ => none

/-- The movements that were commanded -/
def movements (l : List Event) : List Cmd := (commands l).filter Cmd.Moves

/-- The ends of movements that were waited for, with what was watched -/
def polls (l : List Event) : List (BitVec 32 × Poll) := l.filterMap fun | .saw (.wait f) p => some (f, p) | _ => none

/-- The modes that were set -/
def modes (l : List Event) : List Base.Mode := (commands l).filterMap fun | .mode m => some m | _ => none

/-- The values of the flag of the map that were set -/
def flagsSet (l : List Event) : List Bool := (commands l).filterMap fun | .enableOpponent b => some b | _ => none

/-- The end of the match: 100 s after the start. Times are in nanoseconds. -/
def over (start now : Int) : Prop := start + 100000000000 ≤ now

/-- The time at which something was seen -/
def Event.time : Event → Option Int
  | .saw (.wait _) p => some p.now
  | .saw .ended (_, now) => some now
  | _ => none

/-- One start of the match, and a clock that does not go backwards; the match is watched for less than 2^31 s. -/
structure Clock (start : Int) (l : List Event) : Prop where
  polls : ∀ f p, .saw (.wait f) p ∈ l → p.robot.gameStart = some start
  ended : ∀ s now, .saw .ended (s, now) ∈ l → s = some start
  mono : (l.filterMap Event.time).Pairwise (· ≤ ·)
  range : ∀ t ∈ l.filterMap Event.time, start ≤ t ∧ t < start + 2147483647000000000

end Verif.Match
