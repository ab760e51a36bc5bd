import Mathlib.Tactic.Linarith
import Mathlib.Tactic.Ring
import Mathlib.Tactic.Positivity
import Verif.Quadramp.Model

/-!
# Quadramp: properties
-/

namespace Verif.Quadramp

/-- What is needed of the square root: it is not below any root. This holds for the exact root and for one that is correctly rounded. -/
def Root (sqrt : ℚ → ℚ) : Prop := ∀ x y : ℚ, 0 ≤ y → y * y ≤ x → y ≤ sqrt x

/-- The limits are not negative, as they are when they are given as in the header. -/
def Qr.Ok (q : Qr) : Prop := 0 ≤ q.secondPos ∧ 0 ≤ q.secondNeg ∧ 0 ≤ q.firstPos ∧ 0 ≤ q.firstNeg

/-- `v'` follows `v`: it changes by no more than the accelerations, where zero is no limit. -/
def Follows (acc dec v v' : ℚ) : Prop := (acc ≠ 0 → v' ≤ v + acc) ∧ (dec ≠ 0 → v - dec ≤ v')

theorem decelerate_spec {sqrt : ℚ → ℚ} (hs : Root sqrt) {d : Int} {dF P N a b : ℚ} (hd : 0 < d → 0 ≤ dF) (hd' : d < 0 → dF ≤ 0)
    (hP : 0 ≤ P) (hN : N ≤ 0) (ha : 0 ≤ a) (hb : 0 ≤ b) :
    0 ≤ (decelerate sqrt d dF P N a (-b)).1 ∧ (decelerate sqrt d dF P N a (-b)).1 ≤ P ∧
    N ≤ (decelerate sqrt d dF P N a (-b)).2 ∧ (decelerate sqrt d dF P N a (-b)).2 ≤ 0 := by
  unfold decelerate
  by_cases h : d > 0 ∧ -b ≠ 0
  · rw [if_pos h]
    have h0 : 0 ≤ sqrt (-b * -b / 4 - 2 * dF * -b) + -b / 2 := by
      have := hs (-b * -b / 4 - 2 * dF * -b) (b / 2) (by linarith) (by
        have : 0 ≤ dF * b := mul_nonneg (hd h.1) hb
        linarith)
      linarith
    dsimp only
    by_cases hr : sqrt (-b * -b / 4 - 2 * dF * -b) + -b / 2 < P
    · rw [if_pos hr]; exact ⟨h0, hr.le, le_refl _, hN⟩
    · rw [if_neg hr]; exact ⟨hP, le_refl _, le_refl _, hN⟩
  · rw [if_neg h]
    by_cases h2 : d < 0 ∧ a ≠ 0
    · rw [if_pos h2]
      have h0 : -sqrt (a * a / 4 - 2 * dF * a) - a / 2 ≤ 0 := by
        have := hs (a * a / 4 - 2 * dF * a) (a / 2) (by linarith) (by
          have : 0 ≤ -dF * a := mul_nonneg (by linarith [hd' h2.1]) ha
          linarith)
        linarith
      dsimp only
      by_cases hr : -sqrt (a * a / 4 - 2 * dF * a) - a / 2 > N
      · rw [if_pos hr]; exact ⟨hP, le_refl _, hr.le, h0⟩
      · rw [if_neg hr]; exact ⟨hP, le_refl _, le_refl _, hN⟩
    · rw [if_neg h2]; exact ⟨hP, le_refl _, le_refl _, hN⟩

/-- Reaching a speed: as close to it as the accelerations allow -/
theorem reachPos_spec {v P a b : ℚ} (ha : 0 ≤ a) (hb : 0 ≤ b) :
    Follows a b v (reachPos v P a (-b)) ∧ (v ≤ P → v ≤ reachPos v P a (-b) ∧ reachPos v P a (-b) ≤ P) ∧ (P ≤ v → P ≤ reachPos v P a (-b) ∧ reachPos v P a (-b) ≤ v) ∧
    (b ≠ 0 → reachPos v P a (-b) ≤ max P (v - b)) := by
  unfold reachPos Follows
  split
  · split
    · rename_i h h2
      exact ⟨⟨fun _ => le_refl _, fun _ => by linarith⟩, fun _ => ⟨by linarith, by linarith⟩, fun _ => ⟨by linarith, by linarith⟩, fun _ => (by linarith : v + a ≤ P).trans (le_max_left _ _)⟩
    · rename_i h h2
      exact ⟨⟨fun h3 => Classical.byContradiction fun h4 => h2 ⟨h3, by linarith⟩, fun _ => by linarith⟩, fun _ => ⟨by linarith, le_refl _⟩, fun _ => ⟨le_refl _, by linarith⟩, fun _ => le_max_left _ _⟩
  · split
    · split
      · rename_i h h2 h3
        exact ⟨⟨fun _ => by linarith, fun _ => by linarith⟩, fun _ => ⟨by linarith, by linarith⟩, fun _ => ⟨by linarith, by linarith⟩, fun _ => (by linarith : v + -b ≤ v - b).trans (le_max_right _ _)⟩
      · rename_i h h2 h3
        exact ⟨⟨fun _ => by linarith, fun h4 => Classical.byContradiction fun h5 => h3 ⟨by intro h6; exact h4 (by linarith), by linarith⟩⟩, fun _ => ⟨by linarith, le_refl _⟩,
          fun _ => ⟨le_refl _, by linarith⟩, fun _ => le_max_left _ _⟩
    · exact ⟨⟨fun _ => by linarith, fun _ => by linarith⟩, fun _ => ⟨by linarith, le_refl _⟩, fun _ => ⟨le_refl _, by linarith⟩, fun _ => le_max_left _ _⟩

theorem reachNeg_spec {v N a b : ℚ} (ha : 0 ≤ a) (hb : 0 ≤ b) :
    Follows a b v (reachNeg v N a (-b)) ∧ (v ≤ N → v ≤ reachNeg v N a (-b) ∧ reachNeg v N a (-b) ≤ N) ∧ (N ≤ v → N ≤ reachNeg v N a (-b) ∧ reachNeg v N a (-b) ≤ v) ∧
    (a ≠ 0 → min N (v + a) ≤ reachNeg v N a (-b)) := by
  unfold reachNeg Follows
  split
  · split
    · rename_i h h2
      exact ⟨⟨fun _ => by linarith, fun _ => by linarith⟩, fun _ => ⟨by linarith, by linarith⟩, fun _ => ⟨by linarith, by linarith⟩, fun _ => (min_le_left _ _).trans (by linarith)⟩
    · rename_i h h2
      exact ⟨⟨fun _ => by linarith, fun h3 => Classical.byContradiction fun h4 => h2 ⟨by intro h6; exact h3 (by linarith), by linarith⟩⟩, fun _ => ⟨by linarith, le_refl _⟩,
        fun _ => ⟨le_refl _, by linarith⟩, fun _ => min_le_left _ _⟩
  · split
    · split
      · rename_i h h2 h3
        exact ⟨⟨fun _ => le_refl _, fun _ => by linarith⟩, fun _ => ⟨by linarith, by linarith⟩, fun _ => ⟨by linarith, by linarith⟩, fun _ => min_le_right _ _⟩
      · rename_i h h2 h3
        exact ⟨⟨fun h4 => Classical.byContradiction fun h5 => h3 ⟨h4, by linarith⟩, fun _ => by linarith⟩, fun _ => ⟨by linarith, le_refl _⟩, fun _ => ⟨le_refl _, by linarith⟩, fun _ => min_le_left _ _⟩
    · exact ⟨⟨fun _ => by linarith, fun _ => by linarith⟩, fun _ => ⟨by linarith, le_refl _⟩, fun _ => ⟨le_refl _, by linarith⟩, fun _ => min_le_left _ _⟩

theorem reach_mono {v P N a b : ℚ} (ha : 0 ≤ a) (hb : 0 ≤ b) (h : N ≤ P) : reachNeg v N a (-b) ≤ reachPos v P a (-b) := by
  rcases le_total v P with hP | hP
  · have h1 := (reachPos_spec ha hb).2.1 hP
    rcases le_total N v with hN | hN
    · exact ((reachNeg_spec ha hb).2.2.1 hN).2.trans h1.1
    · unfold reachNeg reachPos
      have hx : a ≠ 0 → N - v > a → P - v > a := fun _ h3 => by linarith
      split <;> split <;> first | (split <;> split) | split | skip
      all_goals grind
  · have hN : N ≤ v := h.trans hP
    have h1 := (reachNeg_spec ha hb).2.2.1 hN
    have h2 := (reachPos_spec ha hb).2.2.1 hP
    unfold reachNeg reachPos
    split <;> split <;> first | (split <;> split) | split | skip
    all_goals grind

theorem toI32_spec {x : ℚ} {n : Int} (h : toI32 x = some n) : |(n : ℚ) - x| < 1 ∧ (0 ≤ x → 0 ≤ n) ∧ (x ≤ 0 → n ≤ 0) ∧ (∀ m : Int, x = m → n = m) := by
  unfold toI32 at h
  dsimp only at h
  by_cases h0 : 0 ≤ x
  · rw [if_pos h0] at h
    split at h
    · cases h
      refine ⟨abs_lt.mpr ⟨by linarith [Int.lt_floor_add_one x], by linarith [Int.floor_le x]⟩, fun _ => Int.floor_nonneg.mpr h0, fun h1 => ?_, fun m hm => ?_⟩
      · have : x = 0 := le_antisymm h1 h0
        rw [this]; simp
      · rw [hm]; exact Int.floor_intCast m
    · cases h
  · rw [if_neg h0] at h
    split at h
    · cases h
      refine ⟨abs_lt.mpr ⟨by linarith [Int.le_ceil x], by linarith [Int.ceil_lt_add_one x]⟩, fun h1 => absurd h1 h0, fun h1 => ?_, fun m hm => ?_⟩
      · exact Int.ceil_le.mpr (by simpa using h1)
      · rw [hm]; exact Int.ceil_intCast m
    · cases h

/-- C46: one step of the ramp. Either it jumps onto a target less than 2 units away; or the speed changes by no more than the second order limits, is within the
first order limits or approaching them, and the position moves by the speed, up to the rounding. -/
theorem step {sqrt : ℚ → ℚ} (hs : Root sqrt) {q q' : Qr} (hq : q.Ok) {i : Int} (h : q.filter sqrt i = some q') :
    q'.inp = i ∧
    (|(i : ℚ) - q.out| < 2 ∧ q'.out = i ∧ q'.var = 0 ∨
     2 ≤ |(i : ℚ) - q.out| ∧ Follows q.secondPos q.secondNeg q.var q'.var ∧
     (q.var ≤ q.firstPos → q'.var ≤ q.firstPos) ∧ (-q.firstNeg ≤ q.var → -q.firstNeg ≤ q'.var) ∧
     (q.secondNeg ≠ 0 → q'.var ≤ max q.firstPos (q.var - q.secondNeg)) ∧ (q.secondPos ≠ 0 → min (-q.firstNeg) (q.var + q.secondPos) ≤ q'.var) ∧
     |(q'.out : ℚ) - (q.out + q'.var)| < 1) ∧
    q'.firstPos = q.firstPos ∧ q'.firstNeg = q.firstNeg ∧ q'.secondPos = q.secondPos ∧ q'.secondNeg = q.secondNeg := by
  unfold Qr.filter at h
  dsimp only at h
  by_cases hd : |(i : ℚ) - q.out| < 2
  · rw [if_pos hd] at h
    cases h
    exact ⟨rfl, .inl ⟨hd, rfl, rfl⟩, rfl, rfl, rfl, rfl⟩
  · rw [if_neg hd] at h
    cases hi : toI32 ((i : ℚ) - q.out) with
    | none => rw [hi] at h; cases h
    | some d =>
      rw [hi] at h
      dsimp only at h
      obtain ⟨ha, hb, hP, hN⟩ := hq
      have hdI := (toI32_spec hi).2.2.2 (i - q.out) (by push_cast; ring)
      have hdq : ((d : Int) : ℚ) = (i : ℚ) - q.out := by rw [hdI]; push_cast; ring
      have hD := decelerate_spec hs (d := d) (dF := (i : ℚ) - q.out) (P := q.firstPos) (N := -q.firstNeg) (a := q.secondPos) (b := q.secondNeg)
        (fun h => by rw [← hdq]; exact_mod_cast h.le) (fun h => by rw [← hdq]; exact_mod_cast h.le) hP (by linarith) ha hb
      generalize decelerate sqrt d ((i : ℚ) - q.out) q.firstPos (-q.firstNeg) q.secondPos (-q.secondNeg) = D at hD h
      obtain ⟨P, N⟩ := D
      dsimp only at hD h
      obtain ⟨hP0, hP1, hN1, hN0⟩ := hD
      have sP := reachPos_spec (v := q.var) (P := P) ha hb
      have sN := reachNeg_spec (v := q.var) (N := N) ha hb
      have hm := reach_mono (v := q.var) ha hb (hN0.trans hP0)
      generalize reachPos q.var P q.secondPos (-q.secondNeg) = vp at sP hm h
      generalize reachNeg q.var N q.secondPos (-q.secondNeg) = vn at sN hm h
      -- the chosen speed lies between the two
      have hv : ∃ (v : ℚ) (t : Int), vn ≤ v ∧ v ≤ vp ∧ |(t : ℚ) - (q.out + v)| < 1 ∧ q' = { q with var := v, out := t, inp := i } := by
        by_cases h1 : (i : ℚ) - q.out > vp
        · rw [if_pos h1] at h
          cases ht : toI32 ((q.out : ℚ) + vp) with
          | none => rw [ht] at h; cases h
          | some t =>
            rw [ht] at h
            cases h
            exact ⟨vp, t, hm, le_refl _, (toI32_spec ht).1, rfl⟩
        · rw [if_neg h1] at h
          by_cases h2 : (i : ℚ) - q.out < vn
          · rw [if_pos h2] at h
            cases ht : toI32 ((q.out : ℚ) + vn) with
            | none => rw [ht] at h; cases h
            | some t =>
              rw [ht] at h
              cases h
              exact ⟨vn, t, le_refl _, hm, (toI32_spec ht).1, rfl⟩
          · rw [if_neg h2] at h
            cases h
            refine ⟨(i : ℚ) - q.out, i, by linarith, by linarith, ?_, rfl⟩
            rw [show (i : ℚ) - (q.out + (i - q.out)) = 0 by ring, abs_zero]
            exact one_pos
      obtain ⟨v, t, h1, h2, h3, rfl⟩ := hv
      refine ⟨rfl, .inr ⟨by linarith, ?_, ?_, ?_, ?_, ?_, h3⟩, rfl, rfl, rfl, rfl⟩
      · exact ⟨fun hne => h2.trans (sP.1.1 hne), fun hne => (sN.1.2 hne).trans h1⟩
      · intro hvar
        dsimp only
        refine h2.trans ?_
        rcases le_total q.var P with hc | hc
        · exact (sP.2.1 hc).2.trans hP1
        · exact (sP.2.2.1 hc).2.trans hvar
      · intro hvar
        dsimp only
        refine le_trans ?_ h1
        rcases le_total N q.var with hc | hc
        · exact hN1.trans (sN.2.2.1 hc).1
        · exact hvar.trans (sN.2.1 hc).1
      · intro hne
        exact h2.trans ((sP.2.2.2 hne).trans (max_le_max_right _ hP1))
      · intro hne
        exact le_trans (min_le_min_right _ hN1) ((sN.2.2.2 hne).trans h1)

/-- C46: whatever the sequence of targets, the speed stays within the first order limits. -/
theorem speed_limited {sqrt : ℚ → ℚ} (hs : Root sqrt) {q q' : Qr} (hq : q.Ok) (h1 : q.var ≤ q.firstPos) (h2 : -q.firstNeg ≤ q.var) {is : List Int}
    (h : q.run sqrt is = some q') : q'.var ≤ q.firstPos ∧ -q.firstNeg ≤ q'.var := by
  induction is generalizing q with
  | nil => cases h; exact ⟨h1, h2⟩
  | cons i is ih =>
    unfold Qr.run at h
    cases hf : q.filter sqrt i with
    | none => rw [hf] at h; cases h
    | some q1 =>
      rw [hf] at h
      dsimp only at h
      obtain ⟨-, hst, e1, e2, e3, e4⟩ := step hs hq hf
      have hq1 : q1.Ok := by unfold Qr.Ok; rw [e1, e2, e3, e4]; exact hq
      rw [← e1, ← e2]
      refine ih hq1 ?_ ?_ h
      · rw [e1]
        rcases hst with ⟨-, -, hv⟩ | ⟨-, -, hv, -⟩
        · rw [hv]; exact hq.2.2.1
        · exact hv h1
      · rw [e2]
        rcases hst with ⟨-, -, hv⟩ | ⟨-, -, -, hv, -⟩
        · rw [hv]; linarith [hq.2.2.2]
        · exact hv h2

/-- C46: the acceleration of each step of a sequence, except for the final jump -/
theorem acceleration_limited {sqrt : ℚ → ℚ} (hs : Root sqrt) {q q1 q2 : Qr} (hq : q.Ok) {is : List Int} (h : q.run sqrt is = some q1) {i : Int}
    (hi : q1.filter sqrt i = some q2) :
    |(i : ℚ) - q1.out| < 2 ∧ q2.out = i ∧ q2.var = 0 ∨ Follows q.secondPos q.secondNeg q1.var q2.var := by
  have key : ∀ (is : List Int) (q : Qr), q.Ok → q.run sqrt is = some q1 → q1.Ok ∧ q1.secondPos = q.secondPos ∧ q1.secondNeg = q.secondNeg := by
    intro is
    induction is with
    | nil => intro q hq h; cases h; exact ⟨hq, rfl, rfl⟩
    | cons i is ih =>
      intro q hq h
      unfold Qr.run at h
      cases hf : q.filter sqrt i with
      | none => rw [hf] at h; cases h
      | some q' =>
        rw [hf] at h
        dsimp only at h
        obtain ⟨-, -, e1, e2, e3, e4⟩ := step hs hq hf
        obtain ⟨g1, g2, g3⟩ := ih q' (by unfold Qr.Ok; rw [e1, e2, e3, e4]; exact hq) h
        exact ⟨g1, g2.trans e3, g3.trans e4⟩
  obtain ⟨g1, g2, g3⟩ := key is q hq h
  rcases (step hs g1 hi).2.1 with h | ⟨-, h, -⟩
  · exact .inl h
  · right; rw [← g2, ← g3]; exact h

/-- C46, in terms of what the caller sets: whatever the ramp did before, after its limits and its position are set, the forward and the backward speed and the
acceleration and deceleration are bounded by the values given for them, and the ramp starts from the position at rest. -/
theorem limits_as_set {sqrt : ℚ → ℚ} (hs : Root sqrt) (q : Qr) {acc dec fwd back : ℚ} (h1 : 0 ≤ acc) (h2 : 0 ≤ dec) (h3 : 0 ≤ fwd) (h4 : 0 ≤ back) (o : Int)
    {is : List Int} {q1 : Qr} (h : (((q.setSecond acc dec).setFirst fwd back).setPosition o).run sqrt is = some q1) :
    q1.var ≤ fwd ∧ -back ≤ q1.var ∧ (is = [] → q1.out = o ∧ q1.var = 0) ∧
      ∀ i q2, q1.filter sqrt i = some q2 →
        |(i : ℚ) - q1.out| < 2 ∧ q2.out = i ∧ q2.var = 0 ∨ (acc ≠ 0 → q2.var ≤ q1.var + acc) ∧ (dec ≠ 0 → q1.var - dec ≤ q2.var) := by
  have hok : (((q.setSecond acc dec).setFirst fwd back).setPosition o).Ok := ⟨h1, h2, h3, h4⟩
  obtain ⟨a, b⟩ := speed_limited hs hok (show (0 : ℚ) ≤ fwd from h3) (show -back ≤ 0 by linarith) h
  refine ⟨a, b, ?_, fun i q2 hi => acceleration_limited hs hok h hi⟩
  rintro rfl
  cases h
  exact ⟨rfl, rfl⟩

example : ∃ q1, (((Qr.init.setSecond 10 20).setFirst 100 50).setPosition 7).run (fun _ => 0) [] = some q1 := ⟨_, rfl⟩

/-- The ramp says that it has finished exactly if it is at rest at the last target; a ramp that is reset is at rest at zero. -/
theorem finished_iff {sqrt : ℚ → ℚ} {q q' : Qr} {i : Int} (h : q.filter sqrt i = some q') :
    q'.isFinished = true ↔ q'.out = i ∧ q'.var = 0 := by
  have hi : q'.inp = i := by
    unfold Qr.filter at h
    dsimp only at h
    split at h
    · cases h; rfl
    · split at h
      · cases h
      · split at h
        · split at h
          · cases h
          · cases h; rfl
        · split at h
          · split at h
            · cases h
            · cases h; rfl
          · cases h; rfl
  unfold Qr.isFinished
  rw [decide_eq_true_iff, hi]

theorem reset_finished (q : Qr) : q.reset.out = 0 ∧ q.reset.var = 0 ∧ q.reset.isFinished = true ∧
    q.reset.firstPos = q.firstPos ∧ q.reset.firstNeg = q.firstNeg ∧ q.reset.secondPos = q.secondPos ∧ q.reset.secondNeg = q.secondNeg := by
  simp [Qr.reset, Qr.isFinished]

/-- A ramp that has arrived stays and reports so. -/
theorem finished {sqrt : ℚ → ℚ} {q q' : Qr} {i : Int} (hd : |(i : ℚ) - q.out| < 2) (h : q.filter sqrt i = some q') :
    q'.out = i ∧ q'.isFinished = true ∧ q'.filter sqrt i = some q' := by
  unfold Qr.filter at h
  dsimp only at h
  rw [if_pos hd] at h
  cases h
  refine ⟨rfl, ?_, ?_⟩
  · unfold Qr.isFinished; simp
  · unfold Qr.filter
    dsimp only
    rw [if_pos (by rw [sub_self, abs_zero]; exact two_pos)]

/-! ## What is wrong with it -/

/-- A square root for examples: rounded down to a multiple of 1/1000, by bisection -/
def isqrt (n : Nat) : Nat := (List.range 40).foldl (fun r k => let c := r + 2 ^ (39 - k); if c * c ≤ n then c else r) 0
def sqrtQ (x : ℚ) : ℚ := (isqrt ⌊x * 1000000⌋.toNat : ℚ) / 1000

/-- Positions and speeds for a constant target -/
def trace (q : Qr) (i : Int) : Nat → List (Int × ℚ)
  | 0 => []
  | n + 1 => match q.filter sqrtQ i with
    | none => []
    | some q => (q.out, q.var) :: trace q i n

/-- Forward, with the limits 100 and 10 and the target 1000: the ramp slows down and stops on the target. -/
theorem forward : (trace (Qr.init.setFirst 100 100 |>.setSecond 10 10) 1000 20).map (·.1) =
    [10, 30, 60, 100, 150, 210, 280, 360, 450, 550, 640, 720, 790, 850, 900, 940, 970, 990, 1000, 1000] := by decide +kernel

/-- Backward the term after the root has the wrong sign and the ramp brakes too late: it arrives with half of the full speed, and stops at once. -/
theorem backward_hard_stop : trace (Qr.init.setFirst 100 100 |>.setSecond 10 10) (-1000) 17 =
    [(-10, -10), (-30, -20), (-60, -30), (-100, -40), (-150, -50), (-210, -60), (-280, -70), (-360, -80), (-450, -90), (-550, -100), (-650, -100), (-740, -90),
     (-820, -80), (-890, -70), (-950, -60), (-1000, -50), (-1000, 0)] := by decide +kernel

/-- For the target -100 it overshoots by a third. -/
theorem backward_overshoot : (trace (Qr.init.setFirst 100 100 |>.setSecond 10 10) (-100) 11).map (·.1) =
    [-10, -30, -60, -93, -116, -129, -132, -125, -108, -100, -100] := by decide +kernel

/-- Because the output is truncated, a ramp with a speed limit below one never moves away from zero. -/
theorem slow_never_moves : ∀ (n : Nat) (q : Qr), q.out = 0 → q.firstPos = 1/2 → q.secondPos = 0 → q.secondNeg = 0 →
    ∃ q', q.run sqrtQ (List.replicate n 100) = some q' ∧ q'.out = 0 := by
  intro n
  induction n with
  | zero => intro q h _ _ _; exact ⟨q, rfl, h⟩
  | succ n ih =>
    intro q h h1 h2 h3
    have hf : q.filter sqrtQ 100 = some { q with var := 1/2, out := 0, inp := 100 } := by
      unfold Qr.filter
      dsimp only
      rw [h, h1, h2, h3]
      have hD : decelerate sqrtQ 100 (((100 : Int) : ℚ) - ((0 : Int) : ℚ)) (1/2) (-q.firstNeg) 0 (-0) = (1/2, -q.firstNeg) := by
        unfold decelerate; simp
      rw [if_neg (by decide +kernel), show toI32 (((100 : Int) : ℚ) - ((0 : Int) : ℚ)) = some 100 by decide +kernel]
      dsimp only
      rw [hD]
      have hP : reachPos q.var (1/2) 0 (-0) = 1/2 := by unfold reachPos; simp
      dsimp only
      rw [hP, if_pos (by decide +kernel), show toI32 (((0 : Int) : ℚ) + 1/2) = some 0 by decide +kernel]
    obtain ⟨q', g1, g2⟩ := ih { q with var := 1/2, out := 0, inp := 100 } rfl h1 h2 h3
    refine ⟨q', ?_, g2⟩
    show (match q.filter sqrtQ 100 with | none => none | some q => q.run sqrtQ (List.replicate n 100)) = some q'
    rw [hf]
    exact g1

/-- From negative positions it moves a full unit per step with a limit of half a unit. -/
theorem slow_from_negative : (trace { Qr.init.setFirst (1/2) (1/2) with out := -10 } 100 4).map (·.1) = [-9, -8, -7, -6] := by decide +kernel

/-- A far target overflows. -/
theorem far_target : Qr.filter sqrtQ { Qr.init with out := -2 ^ 30 } (2 ^ 30 + 2 ^ 29) = none := by decide +kernel

theorem root_exists : ∃ sqrt, Root sqrt :=
  ⟨fun x => x + 1, fun x y h0 h => by nlinarith [sq_nonneg (y - 1)]⟩

example : (Qr.init.setFirst 100 100 |>.setSecond 10 10).Ok := by unfold Qr.Ok Qr.init Qr.setFirst Qr.setSecond; norm_num

end Verif.Quadramp
