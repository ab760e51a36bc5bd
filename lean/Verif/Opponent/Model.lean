import Verif.Map.Model
import Verif.Timestamp.Model
import Mathlib.Analysis.SpecialFunctions.Trigonometric.Basic
import Mathlib.Data.Real.Archimedean

/-!
# Where the opponent is

From the signal of the proximity beacon (its angles are in `Verif.Beacon`) to the obstacle on the map: master-firmware/src/robot_helpers/beacon_helpers.cpp,
src/can/beacon_signal_handler.cpp and the loop of src/base/map_server.cpp. The map is that of `Verif.Map`.

Floats are exact reals. The lock, the threads and the bus are left out: a round of the loop gets the messages that it reads. `map_server.cpp` is not part of the
present build (`USE_MAP` is 0); `beacon_signal_handler.cpp` is.
-/

namespace Verif.Opponent

open Real

/-- Conversion of a float to `int32_t`: towards zero; `none`: undefined -/
noncomputable def toI32 (x : ℝ) : Option Int := Map.i32 (if 0 ≤ x then ⌊x⌋ else ⌈x⌉)

/-- `beacon_get_angle`, beacon_helpers.cpp:5-16 -/
noncomputable def getAngle (start length : ℝ) : ℝ :=
  let angle := start + length / 2
  if angle > π then angle - π * 2
  else if angle < -π then angle + π * 2
  else angle

/-- `robot.pos`: mm, mm, radian -/
structure Pose where
  x : ℝ
  y : ℝ
  a : ℝ

/-- `beacon_cartesian_convert`, beacon_helpers.cpp:18-26 -/
noncomputable def cartesian (p : Pose) (distance angle : ℝ) : ℝ × ℝ :=
  (distance * cos (p.a + angle) + p.x, distance * sin (p.a + angle) + p.y)

/-- `BeaconSignal`, beacons.proto:17-26. The time is in microseconds. -/
structure Seen where
  time : Int
  distance : ℝ
  angle : ℝ
  x : ℝ
  y : ℝ

inductive Res where
  /-- parameters missing, lines 23-26 -/
  | ignored
  /-- `tanf` gives zero, so the distance is infinite or NaN -/
  | infinite
  | published (s : Seen)

/-- `beacon_cb`, beacon_signal_handler.cpp:14-47. The parameters `reflector_radius` (m) and `angular_offset`; `radius / tanf(length / 2.)` is written with cosine and
sine, as the tangent is infinite, and the distance 0, where the cosine is zero. -/
noncomputable def onSignal (radius offset : Option ℝ) (pose : Pose) (now : Int) (start length : ℝ) : Res :=
  match radius, offset with
  | some radius, some offset =>
    if sin (length / 2) = 0 then .infinite
    else
      let distance := radius * cos (length / 2) / sin (length / 2)
      let angle := getAngle (start + offset) length
      let (x, y) := cartesian pose distance angle
      .published ⟨now, distance, angle, x, y⟩
  | _, _ => .ignored

/-- The parameters `robot_size_x_mm` and `opponent_size_x_mm_default` -/
structure Sizes where
  robot : Int
  opponent : Int

/-- Line 73: younger than `TRAJ_MAX_TIME_DELAY_OPPONENT_DETECTION` (trajectory_helpers.h:20). Time stamps have 32 bits. -/
def fresh (stamp now : Int) : Prop := Timestamp.durationS (BitVec.ofInt 32 stamp) (BitVec.ofInt 32 now) < 1 / 2

instance (stamp now : Int) : Decidable (fresh stamp now) := by unfold fresh; infer_instance

/-- map_server.cpp:71-83: `seen` is what the topic of the beacon holds. -/
noncomputable def opponentRound (sz : Sizes) (pose : Pose) (now : Int) (seen : Option Seen) (m : Map.Map) : Option Map.Map :=
  match seen with
  | none => some m
  | some s =>
    if fresh s.time now then
      let p := cartesian pose (1000 * s.distance) s.angle
      (toI32 p.1).bind fun x => (toI32 p.2).bind fun y => (toI32 (sz.opponent * 1.25)).bind fun size => m.updateOpponent x y size sz.robot
    else m.updateOpponent 0 0 0 0

/-- map_server.cpp:85-94: `ally` is what the topic of the ally holds. -/
noncomputable def allyRound (sz : Sizes) (ally : Option (ℝ × ℝ)) (m : Map.Map) : Option Map.Map :=
  match ally with
  | some p => (toI32 p.1).bind fun x => (toI32 p.2).bind fun y => m.setAlly x y sz.robot sz.robot
  | none => m.setAlly 0 0 0 0

/-- One round of `map_server_thd`, map_server.cpp:66-98. A round begins when one of the three topics (beacon, ally, state) is published. -/
noncomputable def round (sz : Sizes) (pose : Pose) (now : Int) (seen : Option Seen) (ally : Option (ℝ × ℝ)) (m : Map.Map) : Option Map.Map :=
  (opponentRound sz pose now seen m).bind (allyRound sz ally)

/-- The simulated beacon, hitl/ProximityBeaconEmulator.cpp:33-44: from the distance (m) and direction of the opponent, and the robot's heading to the start
and length that are sent. `none`: nothing is sent. -/
noncomputable def emulate (distance bearing heading : ℝ) : Option (ℝ × ℝ) :=
  if distance < 1.5 then some (bearing - heading, 0.08 / distance) else none

end Verif.Opponent
