import Verif.Opponent.Model
import Verif.Opponent.Lemmas
import Verif.Map.Props
import Mathlib.Analysis.Real.Pi.Bounds
import Mathlib.Analysis.SpecialFunctions.Trigonometric.Bounds
import Mathlib.Tactic.NormNum

/-!
# C118: where the opponent is
-/

namespace Verif.Opponent

open Real Spec

/-! ## The signal of a round reflector -/

/-- C118: a reflector of the radius `r`, in the direction `β` and at the distance `d` of the beacon, gives a signal of exactly this length and start (up to full turns). -/
theorem signal_iff (b : ℝ × ℝ) (d β r zero start length : ℝ) (hr : 0 < r) (hd : r < d) :
    Signal b (b.1 + d * cos β, b.2 + d * sin β) r zero start length ↔
      length = 2 * arcsin (r / d) ∧ SameAngle start (β - zero - arcsin (r / d)) := by
  constructor
  · exact signal_eq hr hd
  · rintro ⟨hl, n, hn⟩
    have hd0 : 0 < d := by linarith
    have hα0 : 0 < arcsin (r / d) := arcsin_pos.mpr (div_pos hr hd0)
    have hα1 : arcsin (r / d) < π / 2 := arcsin_lt_pi_div_two.mpr ((div_lt_one hd0).mpr hd)
    refine ⟨⟨by linarith, by linarith⟩, fun φ => ?_⟩
    rw [hits_iff hr hd]
    constructor
    · rintro ⟨k, hk⟩
      obtain ⟨h1, h2⟩ := abs_le.mp hk
      refine ⟨k + n, ?_, ?_⟩ <;> · push_cast; linarith
    · rintro ⟨k, h1, h2⟩
      refine ⟨k - n, abs_le.mpr ⟨?_, ?_⟩⟩ <;> · push_cast; linarith

/-- C118: the angle is that of the middle of the signal; and between -π and π, if the start and offset are not more than one turn too large. -/
theorem angle_middle (start length : ℝ) : SameAngle (getAngle start length) (start + length / 2) ∧
    (|start + length / 2| ≤ 3 * π → |getAngle start length| ≤ π) := by
  have hp := pi_pos
  unfold getAngle
  dsimp only
  split
  · rename_i h
    refine ⟨⟨-1, by push_cast; ring⟩, fun ha => ?_⟩
    obtain ⟨h1, h2⟩ := abs_le.mp ha
    exact abs_le.mpr ⟨by linarith, by linarith⟩
  · split
    · rename_i h h'
      refine ⟨⟨1, by push_cast; ring⟩, fun ha => ?_⟩
      obtain ⟨h1, h2⟩ := abs_le.mp ha
      exact abs_le.mpr ⟨by linarith, by linarith⟩
    · rename_i h h'
      exact ⟨⟨0, by push_cast; ring⟩, fun _ => abs_le.mpr ⟨by linarith, by linarith⟩⟩

example : Signal (0, 0) (0 + 2 * cos 0, 0 + 2 * sin 0) 1 0 (2 * π - arcsin (1 / 2)) (2 * arcsin (1 / 2)) :=
  (signal_iff (0, 0) 2 0 1 0 _ _ (by norm_num) (by norm_num)).mpr ⟨rfl, 1, by push_cast; ring⟩

/-! ## The message to the other threads -/

/-- The signal is about this reflector (positions in m, the pose in mm and radian). -/
def About (pose : Pose) (offset r d β start length : ℝ) : Prop :=
  Signal (pose.x / 1000, pose.y / 1000) (pose.x / 1000 + d * cos β, pose.y / 1000 + d * sin β) r (pose.a + offset) start length

/-- C118: an exact signal gives the distance of the points where the beam touches the reflector, and the exact direction relative to the robot. -/
theorem published (pose : Pose) (offset r d β start length : ℝ) (now : Int) (hr : 0 < r) (hd : r < d) (h : About pose offset r d β start length) :
    ∃ s, onSignal (some r) (some offset) pose now start length = .published s ∧ s.time = now ∧ s.distance = √(d ^ 2 - r ^ 2) ∧
      SameAngle (pose.a + s.angle) β ∧ (|start + offset + length / 2| ≤ 3 * π → |s.angle| ≤ π) := by
  obtain ⟨hl, hs⟩ := signal_eq (b := (pose.x / 1000, pose.y / 1000)) hr hd h
  have hd0 : 0 < d := by linarith
  have hq : 0 < r / d ∧ r / d < 1 := ⟨div_pos hr hd0, (div_lt_one hd0).mpr hd⟩
  have hh : length / 2 = arcsin (r / d) := by rw [hl]; ring
  have hsin : sin (length / 2) = r / d := by rw [hh]; exact sin_arcsin (by linarith [hq.1]) hq.2.le
  have hcos : cos (length / 2) = √(d ^ 2 - r ^ 2) / d := by
    rw [hh, cos_arcsin, show 1 - (r / d) ^ 2 = (d ^ 2 - r ^ 2) / d ^ 2 by field_simp, sqrt_div' _ (by positivity), sqrt_sq hd0.le]
  unfold onSignal
  dsimp only
  rw [if_neg (by rw [hsin]; exact hq.1.ne')]
  refine ⟨_, rfl, rfl, ?_, ?_, ?_⟩
  · show r * cos (length / 2) / sin (length / 2) = _
    rw [hsin, hcos]
    field_simp
  · obtain ⟨k, hk⟩ := (angle_middle (start + offset) length).1
    obtain ⟨n, hn⟩ := hs
    show SameAngle (pose.a + getAngle (start + offset) length) β
    refine ⟨k + n, ?_⟩
    rw [hk, hh, hn]
    push_cast
    ring
  · exact (angle_middle (start + offset) length).2

/-- C118: so the distance is too short, by at most `r² / d`. -/
theorem distance_short (r d : ℝ) (hr : 0 < r) (hd : r < d) : √(d ^ 2 - r ^ 2) < d ∧ d - r ^ 2 / d ≤ √(d ^ 2 - r ^ 2) := by
  have hd0 : 0 < d := by linarith
  constructor
  · rw [sqrt_lt' hd0]
    nlinarith
  · apply le_sqrt_of_sq_le
    have : r ^ 2 / d ≤ d := by
      rw [div_le_iff₀ hd0]
      nlinarith
    have e : d * (r ^ 2 / d) = r ^ 2 := by field_simp
    have h0 : 0 ≤ r ^ 2 / d := by positivity
    nlinarith [mul_nonneg h0 (sub_nonneg.mpr this)]

/-- C118, negative: `x` and `y` of the message add metres to millimetres. Whatever the signal, they are a point at `distance` millimetres of the robot and not at a thousand times that. -/
theorem topic_units (pose : Pose) (r o : Option ℝ) (now : Int) (start length : ℝ) (s : Seen) (h : onSignal r o pose now start length = .published s) :
    (s.x - pose.x) ^ 2 + (s.y - pose.y) ^ 2 = s.distance ^ 2 := by
  unfold onSignal at h
  split at h
  · split at h
    · exact absurd h (by simp)
    · have e := Res.published.inj h
      rw [← e]
      dsimp only [cartesian]
      rename_i _ _ radius offset hn
      have g := sin_sq_add_cos_sq (pose.a + getAngle (start + offset) length)
      linear_combination ((radius * cos (length / 2) / sin (length / 2)) ^ 2) * g
  · exact absurd h (by simp)

/-- C118, negative: hence an opponent 1 m away is published at less than 1 mm from the robot. -/
theorem topic_units_witness : ∃ s, onSignal (some 0.04) (some 0) ⟨1500, 1000, 0⟩ 0 (-arcsin (0.04 / 1)) (2 * arcsin (0.04 / 1)) = .published s ∧
    About ⟨1500, 1000, 0⟩ 0 0.04 1 0 (-arcsin (0.04 / 1)) (2 * arcsin (0.04 / 1)) ∧ (s.x - 1500) ^ 2 + (s.y - 1000) ^ 2 < 1 := by
  have ha : About ⟨1500, 1000, 0⟩ 0 0.04 1 0 (-arcsin (0.04 / 1)) (2 * arcsin (0.04 / 1)) :=
    (signal_iff (1500 / 1000, 1000 / 1000) 1 0 0.04 (0 + 0) _ _ (by norm_num) (by norm_num)).mpr ⟨rfl, 0, by push_cast; ring⟩
  obtain ⟨s, hs, _, hd, _, _⟩ := published ⟨1500, 1000, 0⟩ 0 0.04 1 0 _ _ 0 (by norm_num) (by norm_num) ha
  refine ⟨s, hs, ha, ?_⟩
  have := topic_units _ _ _ _ _ _ s hs
  dsimp only at this
  rw [this, hd, sq_sqrt (by norm_num)]
  norm_num

/-- C118: nothing is published without the parameters, nor for a signal of no length (there, and only there, the quotient is not a number). -/
theorem not_published (pose : Pose) (r o : Option ℝ) (now : Int) (start length : ℝ) (h0 : 0 ≤ length) (h1 : length < 2 * π) :
    (onSignal r o pose now start length = .ignored ↔ r = none ∨ o = none) ∧
    (onSignal r o pose now start length = .infinite ↔ r ≠ none ∧ o ≠ none ∧ length = 0) := by
  have hz : sin (length / 2) = 0 ↔ length = 0 := by
    rw [sin_eq_zero_iff_of_lt_of_lt (by linarith [pi_pos]) (by linarith)]
    constructor <;> intro h <;> linarith
  unfold onSignal
  cases r <;> cases o <;> simp [hz]
  · by_cases h : length = 0 <;> simp [h]

/-- C118: the longer the signal, the nearer the opponent. -/
theorem nearer (pose pose' : Pose) (r o o' : ℝ) (now now' : Int) (start start' l l' : ℝ) (s s' : Seen) (hr : 0 < r) (hl : 0 < l) (hll : l < l') (hl' : l' < 2 * π)
    (h : onSignal (some r) (some o) pose now start l = .published s) (h' : onSignal (some r) (some o') pose' now' start' l' = .published s') :
    s'.distance < s.distance := by
  have p1 : 0 < sin (l / 2) := sin_pos_of_pos_of_lt_pi (by linarith) (by linarith)
  have p2 : 0 < sin (l' / 2) := sin_pos_of_pos_of_lt_pi (by linarith) (by linarith)
  unfold onSignal at h h'
  dsimp only at h h'
  rw [if_neg p1.ne'] at h
  rw [if_neg p2.ne'] at h'
  rw [← Res.published.inj h, ← Res.published.inj h']
  dsimp only
  rw [div_lt_div_iff₀ p2 p1]
  have p3 : 0 < sin (l' / 2 - l / 2) := sin_pos_of_pos_of_lt_pi (by linarith) (by linarith)
  rw [sin_sub] at p3
  nlinarith

/-! ## The obstacle on the map -/

theorem sameAngle_cos_sin {a b : ℝ} (h : SameAngle a b) : cos a = cos b ∧ sin a = sin b := by
  obtain ⟨k, rfl⟩ := h
  exact ⟨cos_add_int_mul_two_pi _ _, sin_add_int_mul_two_pi _ _⟩

theorem toI32_near {x : ℝ} {n : Int} (h : toI32 x = some n) : |(n : ℝ) - x| < 1 := by
  unfold toI32 Map.i32 at h
  by_cases hi : -2147483648 ≤ (if 0 ≤ x then ⌊x⌋ else ⌈x⌉) ∧ (if 0 ≤ x then ⌊x⌋ else ⌈x⌉) ≤ 2147483647
  · rw [if_pos hi] at h
    have e := Option.some.inj h
    rw [← e, abs_lt]
    split
    · have h1 := Int.floor_le x
      have h2 := Int.lt_floor_add_one x
      exact ⟨by linarith, by linarith⟩
    · have h1 := Int.le_ceil x
      have h2 := Int.ceil_lt_add_one x
      exact ⟨by linarith, by linarith⟩
  · rw [if_neg hi] at h
    exact absurd h (by simp)

theorem toI32_defined {x : ℝ} (h : |x| ≤ 2147483647) : ∃ n, toI32 x = some n := by
  obtain ⟨h1, h2⟩ := abs_le.mp h
  unfold toI32 Map.i32
  refine ⟨_, if_pos ?_⟩
  split
  · constructor
    · rw [Int.le_floor]; push_cast; linarith
    · have : (⌊x⌋ : ℝ) ≤ 2147483647 := le_trans (Int.floor_le x) h2
      exact_mod_cast this
  · constructor
    · have : (-2147483648 : ℝ) ≤ ⌈x⌉ := le_trans (by linarith) (Int.le_ceil x)
      exact_mod_cast this
    · rw [Int.ceil_le]; push_cast; exact h2

/-- C118: if the robot has not moved since the signal, the obstacle's centre is, in both coordinates, at most `1000 r² / d` and one millimetre away from the opponent. -/
theorem centre (pose : Pose) (offset r d β start length : ℝ) (now : Int) (hr : 0 < r) (hd : r < d) (h : About pose offset r d β start length) (s : Seen)
    (hs : onSignal (some r) (some offset) pose now start length = .published s) (x y : Int)
    (hx : toI32 (cartesian pose (1000 * s.distance) s.angle).1 = some x) (hy : toI32 (cartesian pose (1000 * s.distance) s.angle).2 = some y) :
    |(x : ℝ) - 1000 * (pose.x / 1000 + d * cos β)| < 1000 * (r ^ 2 / d) + 1 ∧ |(y : ℝ) - 1000 * (pose.y / 1000 + d * sin β)| < 1000 * (r ^ 2 / d) + 1 := by
  obtain ⟨s', hs', _, hdist, hang, _⟩ := published pose offset r d β start length now hr hd h
  have e : s' = s := Res.published.inj (hs'.symm.trans hs)
  subst e
  obtain ⟨hc, hsn⟩ := sameAngle_cos_sin hang
  have nx := toI32_near hx
  have ny := toI32_near hy
  unfold cartesian at nx ny
  dsimp only at nx ny
  rw [hc, hdist] at nx
  rw [hsn, hdist] at ny
  obtain ⟨d1, d2⟩ := distance_short r d hr hd
  have key : ∀ c : ℝ, |c| ≤ 1 → |(d - √(d ^ 2 - r ^ 2)) * c| ≤ r ^ 2 / d := by
    intro c hc
    rw [abs_mul, abs_of_pos (by linarith)]
    calc (d - √(d ^ 2 - r ^ 2)) * |c| ≤ (d - √(d ^ 2 - r ^ 2)) * 1 := mul_le_mul_of_nonneg_left hc (by linarith)
      _ ≤ r ^ 2 / d := by linarith
  have kx := abs_le.mp (key _ (abs_cos_le_one β))
  have ky := abs_le.mp (key _ (abs_sin_le_one β))
  rw [abs_lt] at nx ny
  refine ⟨abs_lt.mpr ⟨?_, ?_⟩, abs_lt.mpr ⟨?_, ?_⟩⟩ <;> linarith [kx.1, kx.2, ky.1, ky.2, nx.1, nx.2, ny.1, ny.2]

/-- A round does the opponents' part and then the ally's, which does not touch it. -/
theorem round_opponents {sz : Sizes} {pose : Pose} {now : Int} {seen : Option Seen} {ally : Option (ℝ × ℝ)} {m m' : Map.Map} (h : round sz pose now seen ally m = some m') :
    ∃ m1, opponentRound sz pose now seen m = some m1 ∧ m'.opponents = m1.opponents ∧ m'.last = m1.last ∧ ∀ i, m'.getOpponent i = m1.getOpponent i := by
  unfold round at h
  rw [Option.bind_eq_some_iff] at h
  obtain ⟨m1, h1, h2⟩ := h
  have key : ∀ x y a b, m1.setAlly x y a b = some m' → m'.opponents = m1.opponents ∧ m'.last = m1.last ∧ ∀ i, m'.getOpponent i = m1.getOpponent i := by
    intro x y a b hk
    unfold Map.Map.setAlly at hk
    simp only [Option.bind_eq_bind, Option.bind_eq_some_iff] at hk
    obtain ⟨p, _, hp⟩ := hk
    rw [← Option.some.inj hp]
    exact ⟨rfl, rfl, fun _ => rfl⟩
  refine ⟨m1, h1, ?_⟩
  unfold allyRound at h2
  split at h2
  · simp only [Option.bind_eq_some_iff] at h2
    obtain ⟨x, _, y, _, h3⟩ := h2
    exact key _ _ _ _ h3
  · exact key _ _ _ _ h2

/-- What a round with a recent signal writes, and where -/
theorem fresh_round {sz : Sizes} {pose : Pose} {now : Int} {s : Seen} {ally : Option (ℝ × ℝ)} {m m' : Map.Map} (hl : m.last < 2) (hf : fresh s.time now)
    (h : round sz pose now (some s) ally m = some m') :
    ∃ x y size pol, toI32 (cartesian pose (1000 * s.distance) s.angle).1 = some x ∧ toI32 (cartesian pose (1000 * s.distance) s.angle).2 = some y ∧
      toI32 (sz.opponent * 1.25) = some size ∧ Map.rect x y size size sz.robot = some pol ∧ m'.getOpponent m.last = some pol ∧
      m'.getOpponent (1 - m.last) = m.getOpponent (1 - m.last) ∧ m'.last = 1 - m.last := by
  obtain ⟨m1, h1, e1, e2, e3⟩ := round_opponents h
  unfold opponentRound at h1
  dsimp only at h1
  rw [if_pos hf] at h1
  simp only [Option.bind_eq_some_iff] at h1
  obtain ⟨x, hx, y, hy, size, hsz, hu⟩ := h1
  obtain ⟨p, hp, a1, a2, a3, _⟩ := Map.update_step (s := ⟨x, y, size, sz.robot⟩) hu hl
  exact ⟨x, y, size, p, hx, hy, hsz, hp, (e3 _).trans a2, (e3 _).trans a3, e2.trans a1⟩

/-- C118: after a round on a recent signal, if the robot has not moved since, every point of the table where the robot's centre would be too near to the opponent (its square made larger by half the robot)
is in the obstacle, as long as the margin of a quarter of the opponent's size covers the error. -/
theorem opponent_covered (sz : Sizes) (pose : Pose) (offset r d β start length : ℝ) (t now : Int) (ally : Option (ℝ × ℝ)) (m m' : Map.Map) (s : Seen) (hl : m.last < 2)
    (hr : 0 < r) (hd : r < d) (ho : 0 ≤ sz.opponent) (hz : 0 ≤ sz.robot) (hm : 1000 * (r ^ 2 / d) + 3 / 2 ≤ sz.opponent / 8)
    (ha : About pose offset r d β start length) (hs : onSignal (some r) (some offset) pose t start length = .published s) (hf : fresh t now)
    (h : round sz pose now (some s) ally m = some m') (px py : Int) (ht : Map.OnTable ⟨px, py⟩)
    (hx : |(px : ℝ) - 1000 * (pose.x / 1000 + d * cos β)| ≤ (sz.opponent + sz.robot) / 2) (hy : |(py : ℝ) - 1000 * (pose.y / 1000 + d * sin β)| ≤ (sz.opponent + sz.robot) / 2) :
    ∃ pol, m'.getOpponent m.last = some pol ∧ Geom.Hull pol ⟨px, py⟩ := by
  have ht' : s.time = t := by
    obtain ⟨s', hs', e, _⟩ := published pose offset r d β start length t hr hd ha
    rw [← Res.published.inj (hs'.symm.trans hs)]
    exact e
  obtain ⟨x, y, size, pol, ex, ey, es, er, eg, _⟩ := fresh_round hl (by rw [ht']; exact hf) h
  refine ⟨pol, eg, ?_⟩
  obtain ⟨cx, cy⟩ := centre pose offset r d β start length t hr hd ha s hs x y ex ey
  have cs := toI32_near es
  rw [abs_lt] at cx cy cs
  rw [abs_le] at hx hy
  have ho' : (0 : ℝ) ≤ sz.opponent := by exact_mod_cast ho
  have hz' : (0 : ℝ) ≤ sz.robot := by exact_mod_cast hz
  have hE : 0 < r ^ 2 / d := div_pos (by positivity) (by linarith)
  have hw : 0 ≤ size + sz.robot := by
    have : (-1 : ℝ) < size := by linarith [cs.1]
    have : -1 < size := by exact_mod_cast this
    omega
  have g : ∀ a b : Int, 2 * ((a : ℝ) - b) ≤ size + sz.robot → 2 * (a - b) ≤ size + sz.robot := fun a b h => by exact_mod_cast h
  refine Map.rect_covers x y size size sz.robot pol er hw hw px py ht (g _ _ ?_) (g _ _ ?_) (g _ _ ?_) (g _ _ ?_) <;>
    linarith [cx.1, cx.2, cy.1, cy.2, cs.1, cs.2, hx.1, hx.2, hy.1, hy.2]

/-- C118: with the configured sizes (a reflector of 8 cm, an opponent of 40 cm) the margin is enough at every distance. -/
theorem margin_configured (d : ℝ) (hd : 0.04 < d) : 1000 * ((0.04 : ℝ) ^ 2 / d) + 3 / 2 ≤ ((400 : Int) : ℝ) / 8 := by
  have hd0 : 0 < d := by linarith
  have : (0.04 : ℝ) ^ 2 / d ≤ 0.04 := by
    rw [div_le_iff₀ hd0]
    nlinarith
  push_cast
  linarith

/-- C118: a round is defined when the opponent, the robot and the ally are within a kilometre and sizes below a hundred metres. -/
theorem round_defined (sz : Sizes) (pose : Pose) (now : Int) (seen : Option Seen) (ally : Option (ℝ × ℝ)) (m : Map.Map) (hl : m.last < 2)
    (hx : |pose.x| ≤ 400000) (hy : |pose.y| ≤ 400000) (hs : ∀ s, seen = some s → |s.distance| ≤ 500) (ho : 0 ≤ sz.opponent ∧ sz.opponent ≤ 100000)
    (hz : 0 ≤ sz.robot ∧ sz.robot ≤ 100000) (ha : ∀ p, ally = some p → |p.1| ≤ 1000000 ∧ |p.2| ≤ 1000000) : (round sz pose now seen ally m).isSome := by
  have up : ∀ x y size robot : Int, (-1000000 ≤ x ∧ x ≤ 1000000) → (-1000000 ≤ y ∧ y ≤ 1000000) → (0 ≤ size ∧ size ≤ 1000000) → (0 ≤ robot ∧ robot ≤ 1000000) →
      ∃ m1, m.updateOpponent x y size robot = some m1 := by
    intro x y size robot h1 h2 h3 h4
    obtain ⟨p, hp⟩ := Option.isSome_iff_exists.mp (Map.rect_defined x y size size robot h1 h2 h3 h3 h4)
    unfold Map.Map.updateOpponent Map.Map.setOpponent
    rw [hp]
    have hc : m.last = 0 ∨ m.last = 1 := by omega
    rcases hc with hc | hc <;> rw [hc] <;> exact ⟨_, rfl⟩
  have al : ∀ (m1 : Map.Map) (x y a b : Int), 0 ≤ a + b ∧ a + b ≤ 1000000 → (m1.setAlly x y a b).isSome := by
    intro m1 x y a b h
    unfold Map.Map.setAlly Map.ally Map.i32
    rw [if_pos (by omega)]
    rfl
  have small : ∀ x : ℝ, |x| ≤ 999999 → ∃ n, toI32 x = some n ∧ -1000000 ≤ n ∧ n ≤ 1000000 := by
    intro x h
    obtain ⟨n, hn⟩ := toI32_defined (x := x) (by linarith)
    have hnear := toI32_near hn
    rw [abs_lt] at hnear
    rw [abs_le] at h
    have h1 : (-1000000 : ℝ) ≤ n := by linarith
    have h2 : (n : ℝ) ≤ 1000000 := by linarith
    exact ⟨n, hn, by exact_mod_cast h1, by exact_mod_cast h2⟩
  have first : ∃ m1, opponentRound sz pose now seen m = some m1 := by
    unfold opponentRound
    cases seen with
    | none => exact ⟨_, rfl⟩
    | some s =>
      dsimp only
      split
      · have hd := hs s rfl
        have bound : ∀ c p : ℝ, |c| ≤ 1 → |p| ≤ 400000 → |1000 * s.distance * c + p| ≤ 999999 := by
          intro c p hc hp
          refine le_trans (abs_add_le _ _) ?_
          have : |1000 * s.distance * c| ≤ 500000 := by
            rw [abs_mul, abs_mul, abs_of_pos (by norm_num : (0 : ℝ) < 1000)]
            have : |s.distance| * |c| ≤ 500 * 1 := mul_le_mul hd hc (abs_nonneg _) (by norm_num)
            linarith
          linarith
        obtain ⟨x, ex, x1, x2⟩ := small (cartesian pose (1000 * s.distance) s.angle).1 (bound _ _ (abs_cos_le_one _) hx)
        obtain ⟨y, ey, y1, y2⟩ := small (cartesian pose (1000 * s.distance) s.angle).2 (bound _ _ (abs_sin_le_one _) hy)
        have ho1 : (0 : ℝ) ≤ sz.opponent := by exact_mod_cast ho.1
        have ho2 : (sz.opponent : ℝ) ≤ 100000 := by exact_mod_cast ho.2
        obtain ⟨size, es, s1, s2⟩ := small (sz.opponent * 1.25) (by rw [abs_le]; constructor <;> linarith)
        have s0 : 0 ≤ size := by
          have hnear := toI32_near es
          rw [abs_lt] at hnear
          have : (-1 : ℝ) < size := by linarith [hnear.1]
          have : -1 < size := by exact_mod_cast this
          omega
        rw [ex, ey, es]
        exact up x y size sz.robot ⟨x1, x2⟩ ⟨y1, y2⟩ ⟨s0, s2⟩ ⟨hz.1, by omega⟩
      · exact up 0 0 0 0 (by omega) (by omega) (by omega) (by omega)
  obtain ⟨m1, hm1⟩ := first
  unfold round
  rw [hm1]
  show (allyRound sz ally m1).isSome
  unfold allyRound
  cases ally with
  | none => exact al m1 0 0 0 0 (by omega)
  | some p =>
    dsimp only
    obtain ⟨a1, a2⟩ := ha p rfl
    obtain ⟨x, ex⟩ := toI32_defined (x := p.1) (by linarith)
    obtain ⟨y, ey⟩ := toI32_defined (x := p.2) (by linarith)
    rw [ex, ey]
    exact al m1 x y _ _ (by omega)

/-- All hypotheses of `opponent_covered` hold for the first signal of a match: the opponent 1 m in front of the robot at the middle of the table. -/
example : ∃ m m' s, Map.Map.init 260 false = some m ∧ m.last < 2 ∧ About ⟨1500, 1000, 0⟩ 0 0.04 1 0 (-arcsin (0.04 / 1)) (2 * arcsin (0.04 / 1)) ∧
    onSignal (some 0.04) (some 0) ⟨1500, 1000, 0⟩ 7 (-arcsin (0.04 / 1)) (2 * arcsin (0.04 / 1)) = .published s ∧ fresh 7 100007 ∧
    round ⟨260, 400⟩ ⟨1500, 1000, 0⟩ 100007 (some s) none m = some m' ∧
    ∃ pol, m'.getOpponent m.last = some pol ∧ Geom.Hull pol ⟨(2200 : Int), (800 : Int)⟩ := by
  obtain ⟨m, hm, h0, _⟩ := Map.init_spec 260 (by omega) false
  have ha : About ⟨1500, 1000, 0⟩ 0 0.04 1 0 (-arcsin (0.04 / 1)) (2 * arcsin (0.04 / 1)) :=
    (signal_iff (1500 / 1000, 1000 / 1000) 1 0 0.04 (0 + 0) _ _ (by norm_num) (by norm_num)).mpr ⟨rfl, 0, by push_cast; ring⟩
  obtain ⟨s, hs, ht, hd, _, _⟩ := published ⟨1500, 1000, 0⟩ 0 0.04 1 0 _ _ 7 (by norm_num) (by norm_num) ha
  have hf : fresh 7 100007 := by
    unfold fresh
    decide +kernel
  obtain ⟨m', hm'⟩ := Option.isSome_iff_exists.mp (round_defined ⟨260, 400⟩ ⟨1500, 1000, 0⟩ 100007 (some s) none m (by omega)
    (by rw [abs_of_pos] <;> norm_num) (by rw [abs_of_pos] <;> norm_num)
    (fun s' e => by
      rw [← Option.some.inj e, hd, abs_of_nonneg (sqrt_nonneg _)]
      exact (distance_short 0.04 1 (by norm_num) (by norm_num)).1.le.trans (by norm_num)) (by dsimp only; omega) (by dsimp only; omega) (fun p e => absurd e (by simp)))
  refine ⟨m, m', s, hm, by omega, ha, hs, hf, hm', ?_⟩
  refine opponent_covered ⟨260, 400⟩ _ 0 0.04 1 0 _ _ 7 100007 none m m' s (by omega) (by norm_num) (by norm_num) (by norm_num) (by norm_num)
    (margin_configured 1 (by norm_num)) ha hs hf hm' 2200 800 (by unfold Map.OnTable; norm_num) ?_ ?_
  · rw [cos_zero, abs_le]
    constructor <;> norm_num
  · rw [sin_zero, abs_le]
    constructor <;> norm_num

/-- C118, negative: a very short signal, whose distance no `int32_t` of millimetres can hold, makes the conversion undefined. -/
theorem far_undefined (sz : Sizes) (now : Int) (ally : Option (ℝ × ℝ)) (m : Map.Map) (x y : ℝ) :
    round sz ⟨0, 0, 0⟩ now (some ⟨now, 3000000, 0, x, y⟩) ally m = none := by
  have hf : fresh now now := by
    unfold fresh Timestamp.durationS Timestamp.durationUs
    simp
  unfold round opponentRound
  dsimp only
  rw [if_pos hf]
  have : toI32 (cartesian ⟨0, 0, 0⟩ (1000 * 3000000) 0).1 = none := by
    unfold cartesian toI32 Map.i32
    dsimp only
    rw [show (1000 * 3000000 * cos (0 + 0) + 0 : ℝ) = ((3000000000 : Int) : ℝ) by rw [add_zero, add_zero, cos_zero]; norm_num,
      if_pos (show (0 : ℝ) ≤ ((3000000000 : Int) : ℝ) by norm_num), Int.floor_intCast, if_neg (by omega)]
  rw [this]
  rfl

/-! ## Old signals -/

/-- C118: a signal counts as recent exactly when its age, taken as a 32 bit number with a sign, is below half a second. -/
theorem fresh_iff (stamp now : Int) : fresh stamp now ↔ (now - stamp).bmod 4294967296 < 500000 := by
  unfold fresh Timestamp.durationS Timestamp.durationUs
  rw [show (BitVec.ofInt 32 now - BitVec.ofInt 32 stamp).toInt = (now - stamp).bmod 4294967296 by
    rw [BitVec.toInt_sub, BitVec.toInt_ofInt, BitVec.toInt_ofInt]
    show Int.bmod (Int.bmod now 4294967296 - Int.bmod stamp 4294967296) 4294967296 = _
    rw [Int.bmod_sub_bmod, Int.sub_bmod_bmod]]
  generalize Int.bmod (now - stamp) 4294967296 = v
  rw [div_lt_iff₀ (by norm_num)]
  constructor
  · intro h
    have : (v : ℚ) < 500000 := by linarith
    exact_mod_cast this
  · intro h
    have : (v : ℚ) < 500000 := by exact_mod_cast h
    linarith

/-- C118: so for half an hour it is right. -/
theorem fresh_half_hour (stamp now : Int) (h0 : stamp ≤ now) (h1 : now - stamp < 2147483648) : fresh stamp now ↔ now - stamp < 500000 := by
  rw [fresh_iff]
  have : (now - stamp).bmod 4294967296 = now - stamp := Int.bmod_eq_of_le (by omega) (by omega)
  rw [this]

/-- C118, negative: from then on, and for more than half an hour, the old signal is recent again. -/
theorem fresh_again (stamp now : Int) (h0 : 2147483648 ≤ now - stamp) (h1 : now - stamp < 4294967296 + 500000) : fresh stamp now := by
  rw [fresh_iff]
  have e : (now - stamp).bmod 4294967296 = now - stamp - 4294967296 := by
    rw [Int.bmod_def]
    split <;> omega
  omega

/-- C118: a round on an old signal empties one of the two obstacles (the older one). -/
theorem stale_round (sz : Sizes) (pose : Pose) (now : Int) (s : Seen) (ally : Option (ℝ × ℝ)) (m m' : Map.Map) (hl : m.last < 2) (hf : ¬ fresh s.time now)
    (h : round sz pose now (some s) ally m = some m') :
    ∃ pol, Map.rect 0 0 0 0 0 = some pol ∧ m'.getOpponent m.last = some pol ∧ m'.getOpponent (1 - m.last) = m.getOpponent (1 - m.last) ∧ m'.last = 1 - m.last := by
  obtain ⟨m1, h1, e1, e2, e3⟩ := round_opponents h
  unfold opponentRound at h1
  dsimp only at h1
  rw [if_neg hf] at h1
  obtain ⟨p, hp, a1, a2, a3, _⟩ := Map.update_step (s := ⟨0, 0, 0, 0⟩) h1 hl
  exact ⟨p, hp, (e3 _).trans a2, (e3 _).trans a3, e2.trans a1⟩

/-- C118: after two such rounds there is no opponent on the map: no straight path crosses one. Missing: that one round is enough, which is false (`stale_remains`). -/
theorem stale_twice_partial (sz : Sizes) (pose pose' : Pose) (now now' : Int) (s s' : Seen) (ally ally' : Option (ℝ × ℝ)) (m m1 m2 : Map.Map) (hl : m.last < 2)
    (hf : ¬ fresh s.time now) (hf' : ¬ fresh s'.time now') (h : round sz pose now (some s) ally m = some m1) (h' : round sz pose' now' (some s') ally' m1 = some m2) :
    ∀ i pol, m2.getOpponent i = some pol → ∀ p1 p2 ip, (Geom.isCrossingPoly p1 p2 ip pol).1 ≠ 1 := by
  obtain ⟨p, hp, a1, a2, a3⟩ := stale_round sz pose now s ally m m1 hl hf h
  obtain ⟨q, hq, b1, b2, b3⟩ := stale_round sz pose' now' s' ally' m1 m2 (by omega) hf' h'
  obtain ⟨pol0, h0, free, _⟩ := Map.reset_free
  have ep : p = pol0 := Option.some.inj (hp.symm.trans h0)
  have eq : q = pol0 := Option.some.inj (hq.symm.trans h0)
  have hb : m2.getOpponent (1 - m1.last) = some pol0 := by
    rw [b2, a3, show 1 - (1 - m.last) = m.last by omega, a1, ep]
  rw [eq] at b1
  intro i pol hi
  have hi2 : i = m1.last ∨ i = 1 - m1.last := by
    have : i < 2 := by
      unfold Map.Map.getOpponent at hi
      split at hi
      · omega
      · split at hi
        · omega
        · exact absurd hi (by simp)
    omega
  have : pol = pol0 := by
    rcases hi2 with rfl | rfl
    · exact Option.some.inj (hi.symm.trans b1)
    · exact Option.some.inj (hi.symm.trans hb)
  rw [this]
  exact free

/-- C118, negative: but after one such round the obstacle of the last recent signal is still there; as a round begins only with a publication, it stays as long as there is none. -/
theorem stale_remains (sz : Sizes) (pose pose' : Pose) (now now' : Int) (s s' : Seen) (ally ally' : Option (ℝ × ℝ)) (m m1 m2 : Map.Map) (hl : m.last < 2)
    (hf : fresh s.time now) (hf' : ¬ fresh s'.time now') (h : round sz pose now (some s) ally m = some m1) (h' : round sz pose' now' (some s') ally' m1 = some m2) :
    ∃ x y size, toI32 (cartesian pose (1000 * s.distance) s.angle).1 = some x ∧ toI32 (cartesian pose (1000 * s.distance) s.angle).2 = some y ∧
      toI32 (sz.opponent * 1.25) = some size ∧ m2.getOpponent m.last = Map.rect x y size size sz.robot := by
  obtain ⟨x, y, size, pol, ex, ey, es, er, eg, e1, e2⟩ := fresh_round hl hf h
  obtain ⟨q, hq, b1, b2, b3⟩ := stale_round sz pose' now' s' ally' m1 m2 (by omega) hf' h'
  refine ⟨x, y, size, ex, ey, es, ?_⟩
  rw [e2, show 1 - (1 - m.last) = m.last by omega] at b2
  rw [b2, eg, er]

/-- C118, negative: a round uses the pose of the round and not that of the signal: when the robot has driven by `(vx, vy)`, so has the opponent. -/
theorem moves_along (pose : Pose) (vx vy distance angle : ℝ) :
    cartesian ⟨pose.x + vx, pose.y + vy, pose.a⟩ distance angle = ((cartesian pose distance angle).1 + vx, (cartesian pose distance angle).2 + vy) := by
  unfold cartesian
  dsimp only
  rw [Prod.mk.injEq]
  constructor <;> ring

/-- C118, negative: and when it has turned by `ω`, the opponent has moved by `2 distance |sin (ω / 2)|`. -/
theorem turns_along (pose : Pose) (ω distance angle : ℝ) :
    let p := cartesian pose distance angle
    let q := cartesian ⟨pose.x, pose.y, pose.a + ω⟩ distance angle
    (q.1 - p.1) ^ 2 + (q.2 - p.2) ^ 2 = (2 * distance * sin (ω / 2)) ^ 2 := by
  dsimp only [cartesian]
  have e1 := cos_sub_cos (pose.a + ω + angle) (pose.a + angle)
  have e2 := sin_sub_sin (pose.a + ω + angle) (pose.a + angle)
  rw [show (pose.a + ω + angle - (pose.a + angle)) / 2 = ω / 2 by ring] at e1 e2
  have g := sin_sq_add_cos_sq ((pose.a + ω + angle + (pose.a + angle)) / 2)
  have r1 : distance * cos (pose.a + ω + angle) + pose.x - (distance * cos (pose.a + angle) + pose.x) =
      distance * (-2 * sin ((pose.a + ω + angle + (pose.a + angle)) / 2) * sin (ω / 2)) := by rw [← e1]; ring
  have r2 : distance * sin (pose.a + ω + angle) + pose.y - (distance * sin (pose.a + angle) + pose.y) =
      distance * (2 * sin (ω / 2) * cos ((pose.a + ω + angle + (pose.a + angle)) / 2)) := by rw [← e2]; ring
  rw [r1, r2]
  linear_combination (4 * distance ^ 2 * sin (ω / 2) ^ 2) * g

/-! ## The ally -/

/-- C118: the ally's obstacle is around the place where it last said to be, whatever the age of this; before that it is the single point of the origin. -/
theorem ally_obstacle (sz : Sizes) (pose : Pose) (now : Int) (seen : Option Seen) (ally : Option (ℝ × ℝ)) (m m' : Map.Map) (h : round sz pose now seen ally m = some m') :
    match ally with
    | none => m'.ally = Map.diamond 0 0 0
    | some p => ∃ x y : Int, |(x : ℝ) - p.1| < 1 ∧ |(y : ℝ) - p.2| < 1 ∧ m'.ally = Map.diamond x y (5 / 4 * sz.robot) := by
  unfold round at h
  rw [Option.bind_eq_some_iff] at h
  obtain ⟨m1, h1, h2⟩ := h
  have key : ∀ x y a b, m1.setAlly x y a b = some m' → m'.ally = Map.diamond x y (5 / 4 * ((b + a : Int) : ℚ) / 2) := by
    intro x y a b hk
    unfold Map.Map.setAlly Map.ally Map.i32 at hk
    split at hk
    · rw [← Option.some.inj hk]
    · exact absurd hk (by simp)
  unfold allyRound at h2
  cases ally with
  | none =>
    dsimp only at h2 ⊢
    rw [key _ _ _ _ h2]
    norm_num
  | some p =>
    dsimp only at h2 ⊢
    simp only [Option.bind_eq_some_iff] at h2
    obtain ⟨x, hx, y, hy, h3⟩ := h2
    refine ⟨x, y, toI32_near hx, toI32_near hy, ?_⟩
    rw [key _ _ _ _ h3]
    congr 1
    push_cast
    ring

/-! ## The simulated beacon -/

/-- C118, negative: the simulator sends the direction of the opponent as the start of the signal, so the master sees it half a signal further (`0.04 / d`, 1.5° at 1.5 m and 11° at 20 cm). -/
theorem emulated_angle (pose : Pose) (d β : ℝ) (now : Int) (hd : 0.02 ≤ d) (hd' : d < 1.5) :
    ∃ start length s, emulate d β pose.a = some (start, length) ∧ onSignal (some 0.04) (some 0) pose now start length = .published s ∧
      SameAngle (pose.a + s.angle) (β + 0.04 / d) ∧ 0.04 / d ≥ 0.04 / 1.5 := by
  have hd0 : 0 < d := by linarith
  have hn : ¬ sin (0.08 / d / 2) = 0 := by
    have : 0.08 / d / 2 ≤ 2 := by
      rw [div_div, div_le_iff₀ (by linarith)]
      linarith
    exact (sin_pos_of_pos_of_lt_pi (by positivity) (by linarith [pi_gt_three])).ne'
  refine ⟨_, _, _, if_pos hd', if_neg hn, ?_, div_le_div_of_nonneg_left (by norm_num) hd0 hd'.le⟩
  · obtain ⟨k, hk⟩ := (angle_middle (β - pose.a + 0) (0.08 / d)).1
    refine ⟨k, ?_⟩
    dsimp only
    rw [hk]
    ring

/-- C118: its distance is too short, as the real one's. -/
theorem emulated_distance (pose : Pose) (d β : ℝ) (now : Int) (hd : 0.04 ≤ d) (start length : ℝ) (s : Seen)
    (he : emulate d β pose.a = some (start, length)) (h : onSignal (some 0.04) (some 0) pose now start length = .published s) : 0 < s.distance ∧ s.distance < d := by
  have hd0 : 0 < d := by linarith
  unfold emulate at he
  split at he
  · have e := Option.some.inj he
    rw [Prod.mk.injEq] at e
    obtain ⟨_, e2⟩ := e
    have hl : length / 2 = 0.04 / d := by rw [← e2]; ring
    have h0 : 0 < length / 2 := by rw [hl]; positivity
    have h1 : length / 2 ≤ 1 := by rw [hl, div_le_one hd0]; exact hd
    have hs : 0 < sin (length / 2) := sin_pos_of_pos_of_lt_pi h0 (by linarith [pi_gt_three])
    have hc : 0 < cos (length / 2) := cos_pos_of_mem_Ioo ⟨by linarith [pi_gt_three], by linarith [pi_gt_three]⟩
    unfold onSignal at h
    dsimp only at h
    rw [if_neg hs.ne'] at h
    rw [← Res.published.inj h]
    dsimp only
    constructor
    · positivity
    · rw [div_lt_iff₀ hs]
      have ht := lt_tan h0 (by linarith [pi_gt_three])
      rw [tan_eq_sin_div_cos, lt_div_iff₀ hc, hl, div_mul_eq_mul_div, div_lt_iff₀ hd0] at ht
      rw [hl]
      linarith
  · exact absurd he (by simp)

end Verif.Opponent
