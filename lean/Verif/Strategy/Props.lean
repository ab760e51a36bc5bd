import Verif.Strategy.Model
import Verif.Goap.Props

/-!
# Strategy of the match: properties
-/

namespace Verif.Strategy

open Goap (Action Problem Heap)
open Goap.Spec (Executes Reachable Trail)

/-! ## C58: glasses -/

/-- The glasses in a list of places -/
def real (l : List Glass) : List Glass := l.filter (· ≠ .unknown)

/-- All places for glasses -/
def places (s : State) : List Glass :=
  [s.robot.frontLeft.val, s.robot.frontCenter.val, s.robot.frontRight.val, s.robot.backLeft.val, s.robot.backCenter.val, s.robot.backRight.val] ++
  s.ourDispenser.toList ++ s.sharedNear.toList ++ s.sharedFar.toList ++ s.table.toList ++ s.greenLine.toList ++ s.redLine.toList

/-- All glasses -/
def glasses (s : State) : List Glass := real (places s)

theorem mem_actions {a : Action State} : a ∈ actions ↔ a = enableLighthouse ∨ a = raiseWindsock0 ∨ a = raiseWindsock1 ∨ a = pickup := by
  simp [actions]

theorem pickup_canRun {s : State} : pickup.canRun s = true ↔
    (s.robot.backLeft.val = .unknown ∧ s.robot.backCenter.val = .unknown ∧ s.robot.backRight.val = .unknown) ∧
    (s.ourDispenser.g0 ≠ .unknown ∨ s.ourDispenser.g1 ≠ .unknown ∨ s.ourDispenser.g2 ≠ .unknown) := by
  unfold pickup
  simp only
  split
  · rename_i h
    simp only [Bool.false_eq_true, false_iff]
    grind
  · rename_i h
    split
    · rename_i h'
      simp only [Bool.false_eq_true, false_iff]
      grind
    · rename_i h'
      simp only [true_iff]
      grind

theorem pickup_conserves {s : State} (h1 : s.robot.backLeft.val = .unknown) (h2 : s.robot.backCenter.val = .unknown) (h3 : s.robot.backRight.val = .unknown) :
    (glasses (pickup.effects s)).Perm (glasses s) := by
  have e : real [.unknown] = [] := rfl
  have app : ∀ a b, real (a ++ b) = real a ++ real b := fun a b => List.filter_append ..
  have l1 : places (pickup.effects s) = [s.robot.frontLeft.val, s.robot.frontCenter.val, s.robot.frontRight.val] ++ [s.ourDispenser.g0, s.ourDispenser.g1, s.ourDispenser.g2] ++
      [.unknown, .unknown, .unknown] ++ ([s.ourDispenser.g3, s.ourDispenser.g4] ++ s.sharedNear.toList ++ s.sharedFar.toList ++ s.table.toList ++ s.greenLine.toList ++ s.redLine.toList) := rfl
  have l2 : places s = [s.robot.frontLeft.val, s.robot.frontCenter.val, s.robot.frontRight.val] ++ [.unknown, .unknown, .unknown] ++
      [s.ourDispenser.g0, s.ourDispenser.g1, s.ourDispenser.g2] ++ ([s.ourDispenser.g3, s.ourDispenser.g4] ++ s.sharedNear.toList ++ s.sharedFar.toList ++ s.table.toList ++ s.greenLine.toList ++ s.redLine.toList) := by
    unfold places
    rw [h1, h2, h3]
    rfl
  have e3 : real [.unknown, .unknown, .unknown] = [] := rfl
  unfold glasses
  rw [l1, l2, app, app, app, app _ ([s.ourDispenser.g3, s.ourDispenser.g4] ++ _ ++ _ ++ _ ++ _ ++ _), app _ [s.ourDispenser.g0, s.ourDispenser.g1, s.ourDispenser.g2],
    app _ [.unknown, .unknown, .unknown], e3]
  simp

/-- C58: an action that can run neither adds nor removes glasses. -/
theorem effects_conserve {a : Action State} (ha : a ∈ actions) {s : State} (h : a.canRun s = true) : (glasses (a.effects s)).Perm (glasses s) := by
  rcases mem_actions.mp ha with rfl | rfl | rfl | rfl
  · exact .refl _
  · exact .refl _
  · exact .refl _
  · obtain ⟨⟨h1, h2, h3⟩, -⟩ := pickup_canRun.mp h
    exact pickup_conserves h1 h2 h3

/-- C58: it can run only when the places it fills are empty. -/
theorem pickup_free {s : State} (h : pickup.canRun s = true) :
    s.robot.backLeft.val = .unknown ∧ s.robot.backCenter.val = .unknown ∧ s.robot.backRight.val = .unknown ∧
    real [(pickup.effects s).robot.backLeft.val, (pickup.effects s).robot.backCenter.val, (pickup.effects s).robot.backRight.val] =
      real [s.ourDispenser.g0, s.ourDispenser.g1, s.ourDispenser.g2] ∧
    real [s.ourDispenser.g0, s.ourDispenser.g1, s.ourDispenser.g2] ≠ [] := by
  obtain ⟨⟨h1, h2, h3⟩, h4⟩ := pickup_canRun.mp h
  refine ⟨h1, h2, h3, rfl, ?_⟩
  unfold real
  intro he
  rw [List.filter_eq_nil_iff] at he
  have a0 := he s.ourDispenser.g0 (by simp)
  have a1 := he s.ourDispenser.g1 (by simp)
  have a2 := he s.ourDispenser.g2 (by simp)
  simp only [ne_eq, decide_not, Bool.not_eq_true', decide_eq_false_iff_not, Classical.not_not] at a0 a1 a2
  grind

/-- A state with glasses -/
def sample : State :=
  { initial with
    ourDispenser := ⟨.green, .unknown, .red, .red, .unknown⟩
    greenLine := ⟨.green, .red, .unknown, .green, .unknown, .unknown⟩
    redLine := ⟨.red, .unknown, .red, .green, .unknown, .unknown⟩ }

example : pickup.canRun sample = true ∧ (pickup.effects sample).robot.backRight.val = .red := by decide

/-- The condition is needed: with glasses on board, the effect would lose them. -/
theorem overwrite : ∃ s, ¬ (glasses (pickup.effects s)).Perm (glasses s) :=
  ⟨{ initial with robot := { initial.robot with backLeft := ⟨true, .red⟩ } }, by decide⟩

/-- The fields are set without marking them as present, so they never appear in the encoded state that is sent to the outside. -/
theorem pickup_not_encoded {s : State} (h : s.robot.backLeft.has = false ∧ s.robot.backCenter.has = false ∧ s.robot.backRight.has = false) :
    (pickup.effects s).robot.backLeft.encoded = none ∧ (pickup.effects s).robot.backCenter.encoded = none ∧ (pickup.effects s).robot.backRight.encoded = none := by
  unfold Opt.encoded
  obtain ⟨h1, h2, h3⟩ := h
  refine ⟨?_, ?_, ?_⟩
  · rw [if_neg]; show ¬ s.robot.backLeft.has = true; rw [h1]; decide
  · rw [if_neg]; show ¬ s.robot.backCenter.has = true; rw [h2]; decide
  · rw [if_neg]; show ¬ s.robot.backRight.has = true; rw [h3]; decide

/-! ## C59: score -/

/-- The points for two opposite places in the port: one for each glass, one more for each of the right colour, two more for a pair of the right colours -/
def pairPoints (p : Glass × Glass) : Nat :=
  match p with
  | (.green, .red) => 6
  | (.green, .unknown) => 2
  | (.green, .green) => 3
  | (.red, .red) => 3
  | (.red, .unknown) => 1
  | (.red, .green) => 2
  | (.unknown, .red) => 2
  | (.unknown, .green) => 1
  | (.unknown, .unknown) => 0

theorem scorePair_eq (n : Int) (p : Glass × Glass) : scorePair n p = n + pairPoints p := by
  obtain ⟨g, r⟩ := p
  cases g <;> cases r <;> simp [scorePair, pairPoints] <;> omega

theorem foldl_scorePair (l : List (Glass × Glass)) (n : Int) : l.foldl scorePair n = n + (l.map pairPoints).sum := by
  induction l generalizing n with
  | nil => simp
  | cons p l ih =>
    rw [List.foldl_cons, ih, scorePair_eq, List.map_cons, List.sum_cons]
    omega

/-- The number of true conditions -/
def num (b : Bool) : Int := if b then 1 else 0

/-- C59: the score is the sum of the points of the rules. -/
theorem score_spec (s : State) (main : Bool) :
    score s main =
      (match s.windsock0, s.windsock1 with | true, true => 15 | false, false => 0 | _, _ => 5) +
      2 * num main + 13 * num s.lighthouse + 10 * num (main && s.robot.flagsDeployed.val) +
      ((List.zip [s.greenLine.g0, s.greenLine.g1, s.greenLine.g2, s.greenLine.g3, s.greenLine.g4, s.greenLine.g5]
          [s.redLine.g0, s.redLine.g1, s.redLine.g2, s.redLine.g3, s.redLine.g4, s.redLine.g5]).map pairPoints).sum := by
  unfold score scorePort
  rw [foldl_scorePair]
  unfold scoreWindsocks scoreLighthouse scoreFlags num
  have e : s.greenLine.toList.zip s.redLine.toList =
      List.zip [s.greenLine.g0, s.greenLine.g1, s.greenLine.g2, s.greenLine.g3, s.greenLine.g4, s.greenLine.g5]
        [s.redLine.g0, s.redLine.g1, s.redLine.g2, s.redLine.g3, s.redLine.g4, s.redLine.g5] := rfl
  rw [e]
  generalize (List.map pairPoints _).sum = x
  cases s.windsock0 <;> cases s.windsock1 <;> cases main <;> cases s.lighthouse <;> cases s.robot.flagsDeployed.val <;> simp

example : score sample true = 2 + (6 + 1 + 2 + 3) := by decide

/-- C59: the score is between 0 and 76 points. -/
theorem score_range (s : State) (main : Bool) : 0 ≤ score s main ∧ score s main ≤ 76 := by
  have hp : ∀ p, pairPoints p ≤ 6 := by
    intro p; obtain ⟨g, r⟩ := p; cases g <;> cases r <;> decide
  rw [score_spec]
  simp only [List.zip_cons_cons, List.zip_nil_right, List.map_cons, List.map_nil, List.sum_cons, List.sum_nil]
  have h0 := hp (s.greenLine.g0, s.redLine.g0)
  have h1 := hp (s.greenLine.g1, s.redLine.g1)
  have h2 := hp (s.greenLine.g2, s.redLine.g2)
  have h3 := hp (s.greenLine.g3, s.redLine.g3)
  have h4 := hp (s.greenLine.g4, s.redLine.g4)
  have h5 := hp (s.greenLine.g5, s.redLine.g5)
  have n : ∀ b, 0 ≤ num b ∧ num b ≤ 1 := by intro b; cases b <;> decide
  have n1 := n main
  have n2 := n s.lighthouse
  have n3 := n (main && s.robot.flagsDeployed.val)
  have w : (0 : Int) ≤ (match s.windsock0, s.windsock1 with | true, true => 15 | false, false => 0 | _, _ => 5) ∧
      (match s.windsock0, s.windsock1 with | true, true => 15 | false, false => 0 | _, _ => 5) ≤ (15 : Int) := by
    cases s.windsock0 <;> cases s.windsock1 <;> decide
  generalize (match s.windsock0, s.windsock1 with | true, true => (15 : Int) | false, false => 0 | _, _ => 5) = x at *
  omega

/-- What the score depends on -/
theorem score_mono {s t : State} (main : Bool) (h0 : s.windsock0 = true → t.windsock0 = true) (h1 : s.windsock1 = true → t.windsock1 = true)
    (h2 : s.lighthouse = true → t.lighthouse = true) (h3 : s.robot.flagsDeployed.val = true → t.robot.flagsDeployed.val = true) (h4 : t.greenLine = s.greenLine)
    (h5 : t.redLine = s.redLine) : score s main ≤ score t main := by
  rw [score_spec, score_spec, h4, h5]
  generalize (List.map pairPoints _).sum = x
  generalize s.windsock0 = a0 at *
  generalize t.windsock0 = b0 at *
  generalize s.windsock1 = a1 at *
  generalize t.windsock1 = b1 at *
  generalize s.lighthouse = a2 at *
  generalize t.lighthouse = b2 at *
  generalize s.robot.flagsDeployed.val = a3 at *
  generalize t.robot.flagsDeployed.val = b3 at *
  cases a0 <;> cases b0 <;> cases a1 <;> cases b1 <;> cases a2 <;> cases b2 <;> cases a3 <;> cases b3 <;> cases main <;> simp [num] at * <;> omega

/-- C59: no action reduces the score. -/
theorem effects_score {a : Action State} (ha : a ∈ actions) (s : State) (main : Bool) : score s main ≤ score (a.effects s) main := by
  rcases mem_actions.mp ha with rfl | rfl | rfl | rfl
  · exact score_mono main id id (fun _ => rfl) id rfl rfl
  · exact score_mono main (fun _ => rfl) id id id rfl rfl
  · exact score_mono main id (fun _ => rfl) id id rfl rfl
  · exact score_mono main id id id id rfl rfl

/-- C59: the points of each action -/
theorem effects_points (s : State) (main : Bool) :
    (s.lighthouse = false → score (enableLighthouse.effects s) main = score s main + 13) ∧
    (s.windsock0 = false → score (raiseWindsock0.effects s) main = score s main + (if s.windsock1 then 10 else 5)) ∧
    (s.windsock1 = false → score (raiseWindsock1.effects s) main = score s main + (if s.windsock0 then 10 else 5)) ∧
    score (pickup.effects s) main = score s main := by
  refine ⟨fun h => ?_, fun h => ?_, fun h => ?_, ?_⟩ <;> rw [score_spec, score_spec]
  · show (match s.windsock0, s.windsock1 with | true, true => 15 | false, false => 0 | _, _ => 5) + 2 * num main + 13 * num true + 10 * num (main && s.robot.flagsDeployed.val) + _ = _
    rw [h]
    simp only [num, if_true, Bool.false_eq_true, if_false, enableLighthouse]
    omega
  · show (match true, s.windsock1 with | true, true => 15 | false, false => 0 | _, _ => 5) + 2 * num main + 13 * num s.lighthouse + 10 * num (main && s.robot.flagsDeployed.val) + _ = _
    rw [h]
    simp only [raiseWindsock0]
    cases s.windsock1 <;> simp <;> omega
  · show (match s.windsock0, true with | true, true => 15 | false, false => 0 | _, _ => 5) + 2 * num main + 13 * num s.lighthouse + 10 * num (main && s.robot.flagsDeployed.val) + _ = _
    rw [h]
    simp only [raiseWindsock1]
    cases s.windsock0 <;> simp <;> omega
  · rfl

/-! ## C60: the planner finds plans -/

/-- The states that can be reached: each action changed the state or not -/
def states (s : State) : List State :=
  [false, true].flatMap fun l => [false, true].flatMap fun w0 => [false, true].flatMap fun w1 => [false, true].map fun p =>
    let s := if p then pickup.effects s else s
    { s with lighthouse := s.lighthouse || l, windsock0 := s.windsock0 || w0, windsock1 := s.windsock1 || w1 }

/-- The form of the reachable states -/
def combo (s : State) (l w0 w1 p : Bool) : State :=
  let s := if p then pickup.effects s else s
  { s with lighthouse := s.lighthouse || l, windsock0 := s.windsock0 || w0, windsock1 := s.windsock1 || w1 }

theorem combo_mem (s : State) (l w0 w1 p : Bool) : combo s l w0 w1 p ∈ states s := by
  unfold states
  simp only [List.mem_flatMap, List.mem_map]
  exact ⟨l, by cases l <;> simp, w0, by cases w0 <;> simp, w1, by cases w1 <;> simp, p, by cases p <;> simp, rfl⟩

theorem reachable_states {s s' : State} (h : Reachable actions s s') : ∃ l w0 w1 p, s' = combo s l w0 w1 p := by
  induction h with
  | refl => exact ⟨false, false, false, false, by unfold combo; simp⟩
  | step _ ha hr ih =>
    obtain ⟨l, w0, w1, p, rfl⟩ := ih
    rcases mem_actions.mp ha with rfl | rfl | rfl | rfl
    · exact ⟨true, w0, w1, p, by simp [combo, enableLighthouse]⟩
    · exact ⟨l, true, w1, p, by simp [combo, raiseWindsock0]⟩
    · exact ⟨l, w0, true, p, by simp [combo, raiseWindsock1]⟩
    · cases p with
      | false => exact ⟨l, w0, w1, true, rfl⟩
      | true =>
        exfalso
        obtain ⟨-, h⟩ := pickup_canRun.mp hr
        rcases h with h | h | h <;> exact h rfl

/-- How much of the work is done -/
def done (s : State) : Nat :=
  s.lighthouse.toNat + s.windsock0.toNat + s.windsock1.toNat +
    (decide (s.ourDispenser.g0 = .unknown ∧ s.ourDispenser.g1 = .unknown ∧ s.ourDispenser.g2 = .unknown)).toNat

theorem done_le (s : State) : done s ≤ 4 := by
  unfold done
  have := Bool.toNat_le s.lighthouse
  have := Bool.toNat_le s.windsock0
  have := Bool.toNat_le s.windsock1
  have := Bool.toNat_le (decide (s.ourDispenser.g0 = .unknown ∧ s.ourDispenser.g1 = .unknown ∧ s.ourDispenser.g2 = .unknown))
  omega

theorem done_lt {a : Action State} (ha : a ∈ actions) {s : State} (hr : a.canRun s = true) (hn : a.effects s ≠ s) : done s < done (a.effects s) := by
  rcases mem_actions.mp ha with rfl | rfl | rfl | rfl
  · have h : s.lighthouse = false := by
      cases h : s.lighthouse with
      | false => rfl
      | true => exact absurd (by unfold enableLighthouse; cases s; simp_all) hn
    unfold done
    show s.lighthouse.toNat + _ + _ + _ < true.toNat + s.windsock0.toNat + s.windsock1.toNat +
      (decide (s.ourDispenser.g0 = .unknown ∧ s.ourDispenser.g1 = .unknown ∧ s.ourDispenser.g2 = .unknown)).toNat
    rw [h]
    simp only [Bool.toNat_false, Bool.toNat_true]
    omega
  · have h : s.windsock0 = false := by simpa [raiseWindsock0] using hr
    unfold done
    show _ + s.windsock0.toNat + _ + _ < s.lighthouse.toNat + true.toNat + s.windsock1.toNat +
      (decide (s.ourDispenser.g0 = .unknown ∧ s.ourDispenser.g1 = .unknown ∧ s.ourDispenser.g2 = .unknown)).toNat
    rw [h]
    simp only [Bool.toNat_false, Bool.toNat_true]
    omega
  · have h : s.windsock1 = false := by simpa [raiseWindsock1] using hr
    unfold done
    show _ + _ + s.windsock1.toNat + _ < s.lighthouse.toNat + s.windsock0.toNat + true.toNat +
      (decide (s.ourDispenser.g0 = .unknown ∧ s.ourDispenser.g1 = .unknown ∧ s.ourDispenser.g2 = .unknown)).toNat
    rw [h]
    simp only [Bool.toNat_false, Bool.toNat_true]
    omega
  · obtain ⟨-, h⟩ := pickup_canRun.mp hr
    unfold done
    show s.lighthouse.toNat + s.windsock0.toNat + s.windsock1.toNat + _ < s.lighthouse.toNat + s.windsock0.toNat + s.windsock1.toNat + true.toNat
    rw [decide_eq_false (by grind)]
    simp

theorem trail_length {s : State} {vs : List State} (h : Trail actions s vs) : ∃ v l, vs = v :: l ∧ l.length ≤ done v := by
  induction h with
  | start => exact ⟨s, [], rfl, Nat.zero_le _⟩
  | step _ ha hr hn ih =>
    obtain ⟨v, l, e, hl⟩ := ih
    cases e
    refine ⟨_, _, rfl, ?_⟩
    have := done_lt ha hr (fun e => hn (by rw [e]; exact List.mem_cons_self))
    rw [List.length_cons]
    omega

theorem dist_range (g : Goal) (s : State) : 0 ≤ g.dist s ∧ g.dist s ≤ 2 := by
  have h : ∀ d b, shouldBeTrue d b = d ∨ shouldBeTrue d b = d + 1 := by
    intro d b; cases b <;> simp [shouldBeTrue]
  cases g with
  | lighthouseEnabled => have := h 0 s.lighthouse; unfold Goal.dist; simp only; omega
  | windsocksUp =>
    have h0 := h 0 s.windsock0
    have h1 := h (shouldBeTrue 0 s.windsock0) s.windsock1
    unfold Goal.dist; simp only; omega

/-- The goals -/
def Goal.Reached : Goal → State → Prop
  | .lighthouseEnabled, s => s.lighthouse = true
  | .windsocksUp, s => s.windsock0 = true ∧ s.windsock1 = true

theorem reached_iff (g : Goal) (s : State) : g.problem.reached s = true ↔ g.Reached s := by
  cases g with
  | lighthouseEnabled => unfold Goal.problem Goal.dist Goal.Reached shouldBeTrue; cases s.lighthouse <;> simp
  | windsocksUp =>
    show ((0 + (if s.windsock0 then 0 else 1) + (if s.windsock1 then 0 else 1) : Int) == 0) = true ↔ s.windsock0 = true ∧ s.windsock1 = true
    generalize s.windsock0 = a
    generalize s.windsock1 = b
    cases a <;> cases b <;> simp

theorem always_reachable (g : Goal) (s : State) : ∃ s', Reachable actions s s' ∧ g.Reached s' := by
  cases g with
  | lighthouseEnabled => exact ⟨_, .step .refl (mem_actions.mpr (.inl rfl)) rfl, rfl⟩
  | windsocksUp =>
    have h0 : ∃ s', Reachable actions s s' ∧ s'.windsock0 = true := by
      cases h : s.windsock0 with
      | true => exact ⟨s, .refl, h⟩
      | false => exact ⟨_, .step .refl (mem_actions.mpr (.inr (.inl rfl))) (by simp [raiseWindsock0, h]), rfl⟩
    obtain ⟨s', r, h0⟩ := h0
    cases h : s'.windsock1 with
    | true => exact ⟨s', r, h0, h⟩
    | false => exact ⟨_, .step r (mem_actions.mpr (.inr (.inr (.inl rfl)))) (by simp [raiseWindsock1, h]), h0, rfl⟩

/-- C60: from every state and with anything left in the pool, the planner finds a plan for every goal; it can be executed and reaches the goal. -/
theorem plan_always (g : Goal) (pool : Heap State) (s : State) :
    ∃ r, Goap.plan SPACE_SIZE g.problem MAX_PATH_LEN (SPACE_SIZE + 2) pool s = .ok r ∧ 0 ≤ r.code ∧ r.code = r.path.length ∧ r.path.length ≤ 10 ∧
      ∃ s', Executes actions s r.path s' ∧ g.Reached s' := by
  obtain ⟨r, h1, h2⟩ := Goap.plan_complete_trail_partial (P := g.problem) (N := SPACE_SIZE) (R := states s) (s := s) (D := 2) (pathLen := MAX_PATH_LEN)
    (fun s' hs => by obtain ⟨l, w0, w1, p, rfl⟩ := reachable_states hs; exact combo_mem s l w0 w1 p)
    (by show 16 < 150; decide) (dist_range g) (by decide)
    (fun vs hvs => by
      obtain ⟨v, l, rfl, hl⟩ := trail_length hvs
      have := done_le v
      rw [List.length_cons]
      unfold MAX_PATH_LEN
      omega) pool
  obtain ⟨s', hs', hg⟩ := always_reachable g s
  have hc := h2.mpr ⟨s', hs', (reached_iff g s').mpr hg⟩
  obtain ⟨e1, e2, s'', e3, e4⟩ := Goap.plan_sound h1 hc
  unfold MAX_PATH_LEN at e2
  exact ⟨r, h1, hc, e1, by omega, s'', e3, (reached_iff g s'').mp e4⟩

/-! ### The match -/

/-- What does not change for the worse -/
structure Better (s t : State) : Prop where
  windsock0 : s.windsock0 = true → t.windsock0 = true
  windsock1 : s.windsock1 = true → t.windsock1 = true
  lighthouse : s.lighthouse = true → t.lighthouse = true
  flags : s.robot.flagsDeployed.val = true → t.robot.flagsDeployed.val = true
  green : t.greenLine = s.greenLine
  red : t.redLine = s.redLine
  glasses : (glasses t).Perm (glasses s)

theorem Better.refl (s : State) : Better s s := ⟨id, id, id, id, rfl, rfl, .refl _⟩

theorem Better.trans {s t u : State} (h : Better s t) (k : Better t u) : Better s u :=
  ⟨k.windsock0 ∘ h.windsock0, k.windsock1 ∘ h.windsock1, k.lighthouse ∘ h.lighthouse, k.flags ∘ h.flags, k.green.trans h.green, k.red.trans h.red,
    k.glasses.trans h.glasses⟩

theorem Better.reached {s t : State} (h : Better s t) {g : Goal} (hg : g.Reached s) : g.Reached t := by
  cases g with
  | lighthouseEnabled => exact h.lighthouse hg
  | windsocksUp => exact ⟨h.windsock0 hg.1, h.windsock1 hg.2⟩

/-- Executing an action that can run has its planned effect, or, if it failed, none. -/
theorem execute_spec {i : Nat} {a : Action State} (ha : actions[i]? = some a) {o : Outcome} {s : State} (hr : a.canRun s = true) :
    ((execute i o s).2 = true → (execute i o s).1 = a.effects s) ∧ ((execute i o s).1 = a.effects s ∨ (execute i o s).1 = s) ∧
    (o = .success → (execute i o s).2 = true) ∧ Better s (execute i o s).1 := by
  have hc := effects_conserve (List.mem_of_getElem? ha) hr
  match i with
  | 0 =>
    cases ha
    cases o
    · exact ⟨(fun h => by cases h), .inr rfl, (fun h => by cases h), .refl _⟩
    · exact ⟨fun _ => rfl, .inl rfl, fun _ => rfl, id, id, fun _ => rfl, id, rfl, rfl, hc⟩
    · exact ⟨fun _ => rfl, .inl rfl, fun _ => rfl, id, id, fun _ => rfl, id, rfl, rfl, hc⟩
  | 1 =>
    cases ha
    cases o
    · exact ⟨(fun h => by cases h), .inr rfl, (fun h => by cases h), .refl _⟩
    · exact ⟨fun _ => rfl, .inl rfl, fun _ => rfl, fun _ => rfl, id, id, id, rfl, rfl, hc⟩
    · exact ⟨fun _ => rfl, .inl rfl, fun _ => rfl, fun _ => rfl, id, id, id, rfl, rfl, hc⟩
  | 2 =>
    cases ha
    cases o
    · exact ⟨(fun h => by cases h), .inr rfl, (fun h => by cases h), .refl _⟩
    · exact ⟨fun _ => rfl, .inl rfl, fun _ => rfl, id, fun _ => rfl, id, id, rfl, rfl, hc⟩
    · exact ⟨fun _ => rfl, .inl rfl, fun _ => rfl, id, fun _ => rfl, id, id, rfl, rfl, hc⟩
  | 3 =>
    cases ha
    cases o
    · exact ⟨(fun h => by cases h), .inr rfl, (fun h => by cases h), .refl _⟩
    · exact ⟨(fun h => by cases h), .inl rfl, (fun h => by cases h), id, id, id, id, rfl, rfl, hc⟩
    · exact ⟨fun _ => rfl, .inl rfl, fun _ => rfl, id, id, id, id, rfl, rfl, hc⟩
  | n + 4 => simp [actions] at ha

theorem runPath_spec {s s' : State} {path : List (Option Nat)} (h : Executes actions s path s') (os : List (Outcome × Bool)) :
    Better s (runPath path os s) ∧ (path.length ≤ os.length → (∀ x ∈ os, x = (.success, false)) → runPath path os s = s') := by
  induction h generalizing os with
  | nil =>
    have : runPath [] os s = s := by unfold runPath; rfl
    exact ⟨by unfold runPath; exact .refl _, fun _ _ => by unfold runPath; rfl⟩
  | @cons s i a l s' ha hr _ ih =>
    cases os with
    | nil => exact ⟨by unfold runPath; exact .refl _, fun h => by simp at h⟩
    | cons x os =>
      obtain ⟨o, ended⟩ := x
      obtain ⟨g1, -, g3, g4⟩ := execute_spec ha (o := o) hr
      unfold runPath
      generalize execute i o s = e at *
      obtain ⟨t, ok⟩ := e
      simp only at g1 g3 g4 ⊢
      cases ok with
      | false =>
        refine ⟨g4, fun _ hall => ?_⟩
        have := hall _ List.mem_cons_self
        cases this
        cases g3 rfl
      | true =>
        have := g1 rfl
        subst this
        cases ended with
        | true =>
          refine ⟨g4, fun _ hall => ?_⟩
          have := hall _ List.mem_cons_self
          cases this
        | false =>
          refine ⟨g4.trans (ih os).1, fun hlen hall => ?_⟩
          exact (ih os).2 (by simpa using hlen) (fun x hx => hall x (List.mem_cons_of_mem _ hx))

/-- C60: a pass over a goal is always defined; if no action fails and the game goes on, the goal is reached. Nothing is ever undone. -/
theorem pass_spec (g : Goal) (pool : Heap State) (os : List (Outcome × Bool)) (s : State) :
    ∃ t, pass g pool os s = some t ∧ Better s t ∧ (10 ≤ os.length → (∀ x ∈ os, x = (.success, false)) → g.Reached t) := by
  obtain ⟨r, h1, h2, h3, h4, s', h5, h6⟩ := plan_always g pool s
  refine ⟨runPath r.path os s, ?_, (runPath_spec h5 os).1, fun hl hall => ?_⟩
  · unfold pass; rw [h1]
  · rw [(runPath_spec h5 os).2 (by omega) hall]; exact h6

/-- C58, C59: in a match, whatever fails, glasses are conserved, the score never decreases, and goals that were reached stay reached. -/
theorem play_spec (l : List (Goal × Heap State × List (Outcome × Bool))) (s : State) :
    ∃ t, play l s = some t ∧ Better s t ∧ (glasses t).Perm (glasses s) ∧ (∀ main, score s main ≤ score t main) ∧ t.robot.flagsDeployed.val = true ∧
      ∀ g pool os, (g, pool, os) ∈ l → 10 ≤ os.length → (∀ x ∈ os, x = (.success, false)) → g.Reached t := by
  induction l generalizing s with
  | nil =>
    refine ⟨_, rfl, ⟨id, id, id, fun _ => rfl, rfl, rfl, .refl _⟩, .refl _, fun main => ?_, rfl, fun _ _ _ h => by simp at h⟩
    exact score_mono main id id id (fun _ => rfl) rfl rfl
  | cons x l ih =>
    obtain ⟨g, pool, os⟩ := x
    obtain ⟨t, h1, h2, h3⟩ := pass_spec g pool os s
    obtain ⟨u, k1, k2, -, -, k5, k6⟩ := ih t
    have hb := h2.trans k2
    refine ⟨u, by unfold play; rw [h1]; exact k1, hb, hb.glasses, fun main => score_mono main hb.windsock0 hb.windsock1 hb.lighthouse hb.flags hb.green hb.red, k5, ?_⟩
    intro g' pool' os' hm hl hall
    rcases List.mem_cons.mp hm with e | hm
    · cases e
      exact k2.reached (h3 hl hall)
    · exact k6 g' pool' os' hm hl hall

/-- C60: a match in which both goals had a pass without failure gets all the points of its goals. -/
theorem play_score {l : List (Goal × Heap State × List (Outcome × Bool))} {ok : List (Outcome × Bool)} (hok : 10 ≤ ok.length ∧ ∀ x ∈ ok, x = (.success, false))
    {p p' : Heap State} (h0 : (.lighthouseEnabled, p, ok) ∈ l) (h1 : (.windsocksUp, p', ok) ∈ l) :
    ∃ t, play l initial = some t ∧ score t true = 40 ∧ score t false = 28 := by
  obtain ⟨t, k1, k2, -, -, k5, k6⟩ := play_spec l initial
  have r0 : t.lighthouse = true := k6 _ _ _ h0 hok.1 hok.2
  have r1 : t.windsock0 = true ∧ t.windsock1 = true := k6 _ _ _ h1 hok.1 hok.2
  refine ⟨t, k1, ?_, ?_⟩ <;> rw [score_spec, k2.green, k2.red, r0, r1.1, r1.2, k5] <;> rfl

example : ∃ ok : List (Outcome × Bool), 10 ≤ ok.length ∧ ∀ x ∈ ok, x = (Outcome.success, false) := ⟨List.replicate 10 (.success, false), by simp, by simp⟩

/-- In a match started with `initial_state` the pickup never happens: the state knows of no glasses. -/
theorem pickup_never {s : State} (h : Reachable actions initial s) : pickup.canRun s = false := by
  obtain ⟨l, w0, w1, p, rfl⟩ := reachable_states h
  cases hp : pickup.canRun (combo initial l w0 w1 p) with
  | false => rfl
  | true =>
    obtain ⟨-, h⟩ := pickup_canRun.mp hp
    cases p <;> rcases h with h | h | h <;> exact absurd rfl h

end Verif.Strategy
