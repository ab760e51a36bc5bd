import Mathlib.Algebra.Order.Field.Rat
import Mathlib.Tactic.Linarith
import Mathlib.Tactic.Ring
import Mathlib.Tactic.Positivity

/-!
# The rate limiter of the network adapter

tools/uavcan_ip_interface.py:75-101, `class RateLimiter`. Times and quotas are rational numbers; the rounding of Python's
floating point numbers is left out. The time of a call is the value of `time.time()` in it, which is the wall clock and
may be set back.
-/

namespace Verif.Tap

/-- The attributes, :81-84. -/
structure Limiter where
  maxRate : ℚ
  quota : ℚ
  lastTime : ℚ
deriving DecidableEq

/-- `__init__`, :81-84, at time `now`. -/
def Limiter.init (maxRate now : ℚ) : Limiter := ⟨maxRate, maxRate, now⟩

/-- `check`, :86-101, at time `t`. -/
def Limiter.check (l : Limiter) (t : ℚ) : Bool × Limiter :=
  let dt := t - l.lastTime
  let quota := l.quota + l.maxRate * dt
  let quota := min quota l.maxRate
  if quota ≤ 1 then (false, { l with quota := quota, lastTime := t })
  else (true, { l with quota := quota - 1, lastTime := t })

/-- The calls at these times, one after the other: the times with the answers, and the limiter afterwards. -/
def Limiter.calls (l : Limiter) : List ℚ → List (ℚ × Bool) × Limiter
  | [] => ([], l)
  | t :: ts =>
    let (ok, l) := l.check t
    let (h, l) := l.calls ts
    ((t, ok) :: h, l)

end Verif.Tap
