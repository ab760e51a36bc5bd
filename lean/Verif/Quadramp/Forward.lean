import Mathlib.Tactic.Linarith
import Mathlib.Tactic.Ring
import Mathlib.Tactic.Positivity
import Verif.Quadramp.Props

/-!
# Quadramp: moving forward

A ramp that starts from rest towards a constant target ahead of it, with equal limits for acceleration and deceleration,
arrives, and passes the target by no more than an eighth of the acceleration.
-/

namespace Verif.Quadramp

/-- What is needed of the square root here: it is rounded down to less than one. -/
def DownRoot (sqrt : ℚ → ℚ) : Prop := ∀ x : ℚ, 0 ≤ x → 0 ≤ sqrt x ∧ sqrt x * sqrt x ≤ x ∧ x < (sqrt x + 1) * (sqrt x + 1)

/-- Limits: at least one unit per period, two per period squared and the same in both directions. -/
structure Limits (q : Qr) (b : ℚ) : Prop where
  pos : q.secondPos = b
  neg : q.secondNeg = b
  acc : 2 ≤ b
  first : 1 ≤ q.firstPos
  back : b / 8 ≤ q.firstNeg

/-- The speed is one from which the ramp can brake, up to the last step. -/
structure Braking (q : Qr) (b : ℚ) (i : Int) : Prop where
  out : 0 ≤ q.out
  slow : 0 ≤ q.var
  fast : q.var ≤ q.firstPos
  room : q.var * (q.var - b) ≤ 2 * b * ((i : ℚ) - q.out)

/-- Never more than an eighth of the acceleration behind the target. -/
theorem Braking.near {q : Qr} {b : ℚ} {i : Int} (h : Braking q b i) (hb : 0 < b) : (q.out : ℚ) ≤ i + b / 8 := by
  have h1 := h.room
  have h2 : -(b * b / 4) ≤ q.var * (q.var - b) := by nlinarith [sq_nonneg (q.var - b / 2)]
  have h3 : -(b * b / 4) ≤ 2 * b * ((i : ℚ) - q.out) := h2.trans h1
  by_contra hc
  have h4 : (i : ℚ) - q.out < -(b / 8) := by linarith [not_le.mp hc]
  nlinarith

theorem toI32_down {x : ℚ} (h0 : 0 ≤ x) (h1 : x < 2 ^ 31) : toI32 x = some ⌊x⌋ := by
  unfold toI32
  dsimp only
  rw [if_pos h0, if_pos]
  constructor
  · have := Int.floor_nonneg.mpr h0
    omega
  · exact Int.floor_lt.mpr (by exact_mod_cast h1)

/-- The forward speed allowed by the distance. -/
theorem ramp_spec {sqrt : ℚ → ℚ} (hs : DownRoot sqrt) {b d : ℚ} (hb : 2 ≤ b) (hd : 2 ≤ d) :
    let r := sqrt (-b * -b / 4 - 2 * d * -b) + -b / 2
    1 ≤ r ∧ r * (r + b) ≤ 2 * b * d := by
  intro r
  obtain ⟨h0, h1, h2⟩ := hs (-b * -b / 4 - 2 * d * -b) (by nlinarith)
  set s := sqrt (-b * -b / 4 - 2 * d * -b) with hsd
  constructor
  · show 1 ≤ s + -b / 2
    by_contra hc
    have h3 : s + 1 < 2 + b / 2 := by linarith [not_le.mp hc]
    have h4 : (s + 1) * (s + 1) < (2 + b / 2) * (2 + b / 2) := by nlinarith
    nlinarith
  · show (s + -b / 2) * (s + -b / 2 + b) ≤ 2 * b * d
    nlinarith

theorem toI32_int {n : Int} (h0 : -2 ^ 31 ≤ n) (h1 : n < 2 ^ 31) : toI32 (n : ℚ) = some n := by
  unfold toI32
  dsimp only
  split
  · rw [Int.floor_intCast, if_pos ⟨h0, h1⟩]
  · rw [Int.ceil_intCast, if_pos ⟨h0, h1⟩]

/-- The backward speed which is reached at most. -/
theorem reachNeg_eq {v N b : ℚ} (hb : 0 < b) (h : N ≤ v) : reachNeg v N b (-b) = max N (v - b) := by
  unfold reachNeg
  by_cases h1 : v > N
  · rw [if_pos h1]
    by_cases h2 : N - v < -b
    · rw [if_pos ⟨by linarith, h2⟩, max_eq_right (by linarith)]; ring
    · rw [if_neg (fun hc => h2 hc.2), max_eq_left (by linarith)]
  · rw [if_neg h1, if_neg (by linarith [not_lt.mp h1]), max_eq_left (by linarith)]

/-- The forward speed which is reached. -/
theorem reachPos_eq {v P b : ℚ} (hb : 0 < b) : reachPos v P b (-b) = max (min P (v + b)) (v - b) := by
  unfold reachPos
  by_cases h1 : v < P
  · rw [if_pos h1]
    by_cases h2 : P - v > b
    · rw [if_pos ⟨by linarith, h2⟩, min_eq_right (by linarith), max_eq_left (by linarith)]
    · rw [if_neg (fun hc => h2 hc.2), min_eq_left (by linarith), max_eq_left (by linarith)]
  · rw [if_neg h1, min_eq_left (by linarith)]
    split
    · by_cases h2 : P - v < -b
      · rw [if_pos ⟨by linarith, h2⟩, max_eq_right (by linarith)]; ring
      · rw [if_neg (fun hc => h2 hc.2), max_eq_left (by linarith)]
    · rw [max_eq_left (by linarith)]

/-- The speed of a step towards a target ahead. -/
theorem speed_ahead {v b d f r : ℚ} (hb : 2 ≤ b) (hv : 0 ≤ v) (hf : v ≤ f) (h1 : 1 ≤ f) (hroom : v * (v - b) ≤ 2 * b * d) (hr : 1 ≤ r)
    (hr2 : r * (r + b) ≤ 2 * b * d) :
    let p := max (min (if r < f then r else f) (v + b)) (v - b)
    1 ≤ p ∧ p ≤ f ∧ p * (p + b) ≤ 2 * b * d := by
  have hP : 1 ≤ (if r < f then r else f) ∧ (if r < f then r else f) ≤ f ∧ (if r < f then r else f) ≤ r := by
    split <;> refine ⟨?_, ?_, ?_⟩ <;> linarith
  generalize (if r < f then r else f) = P at hP
  intro p
  obtain ⟨a1, a2, a3⟩ := hP
  have hm1 : 1 ≤ min P (v + b) := le_min a1 (by linarith)
  have hm2 : min P (v + b) ≤ r := (min_le_left _ _).trans a3
  refine ⟨hm1.trans (le_max_left _ _), max_le ((min_le_left _ _).trans a2) (by linarith), ?_⟩
  rcases le_total (v - b) (min P (v + b)) with h | h
  · have : p = min P (v + b) := max_eq_left h
    rw [this]
    nlinarith
  · have : p = v - b := max_eq_right h
    rw [this]
    nlinarith

/-- One step: the ramp is on the target, or it has moved forward by at least one unit. -/
theorem forward_step {sqrt : ℚ → ℚ} (hs : DownRoot sqrt) {q : Qr} {b : ℚ} {i : Int} (hl : Limits q b) (hq : Braking q b i)
    (h0 : 0 ≤ i) (hi : (i : ℚ) + b / 8 < 2 ^ 31) :
    ∃ q', q.filter sqrt i = some q' ∧ q'.inp = i ∧ Limits q' b ∧ q'.firstPos = q.firstPos ∧
      (q'.out = i ∨ q.out + 2 ≤ i ∧ Braking q' b i ∧ q.out + 1 ≤ q'.out) := by
  have hb := hl.acc
  have hb0 : 0 < b := by linarith
  have hnear := hq.near hb0
  have hi31 : i < 2 ^ 31 := by
    have : (i : ℚ) < 2 ^ 31 := by linarith
    exact_mod_cast this
  have ho31 : q.out < 2 ^ 31 := by
    have : (q.out : ℚ) < 2 ^ 31 := by linarith
    exact_mod_cast this
  have ho := hq.out
  have hdI : toI32 ((i : ℚ) - q.out) = some (i - q.out) := by
    have := toI32_int (n := i - q.out) (by omega) (by omega)
    rwa [Int.cast_sub] at this
  unfold Qr.filter
  dsimp only
  by_cases hd : |(i : ℚ) - q.out| < 2
  · rw [if_pos hd]
    exact ⟨_, rfl, rfl, ⟨hl.pos, hl.neg, hl.acc, hl.first, hl.back⟩, rfl, .inl rfl⟩
  · rw [if_neg hd, hdI]
    dsimp only
    rw [hl.pos, hl.neg]
    by_cases hdir : q.out + 2 ≤ i
    · -- ahead
      have hdq : (2 : ℚ) ≤ (i : ℚ) - q.out := by
        have : ((q.out + 2 : Int) : ℚ) ≤ (i : ℚ) := by exact_mod_cast hdir
        push_cast at this; linarith
      obtain ⟨r1, r2⟩ := ramp_spec hs hb hdq
      have hdec : decelerate sqrt (i - q.out) ((i : ℚ) - q.out) q.firstPos (-q.firstNeg) b (-b) =
          (if sqrt (-b * -b / 4 - 2 * ((i : ℚ) - q.out) * -b) + -b / 2 < q.firstPos then sqrt (-b * -b / 4 - 2 * ((i : ℚ) - q.out) * -b) + -b / 2 else q.firstPos, -q.firstNeg) :=
        if_pos ⟨by omega, by linarith⟩
      rw [hdec]
      dsimp only
      obtain ⟨p1, p2, p3⟩ := speed_ahead hb hq.slow hq.fast hl.first hq.room r1 r2
      rw [reachPos_eq hb0, reachNeg_eq hb0 (by linarith [hq.slow, hl.back])]
      generalize max (min (if sqrt (-b * -b / 4 - 2 * ((i : ℚ) - q.out) * -b) + -b / 2 < q.firstPos then sqrt (-b * -b / 4 - 2 * ((i : ℚ) - q.out) * -b) + -b / 2 else q.firstPos) (q.var + b)) (q.var - b) = p at p1 p2 p3
      by_cases c1 : (i : ℚ) - q.out > p
      · rw [if_pos c1]
        have hx0 : (0 : ℚ) ≤ (q.out : ℚ) + p := by
          have : (0 : ℚ) ≤ q.out := by exact_mod_cast ho
          linarith
        rw [toI32_down hx0 (by linarith)]
        dsimp only
        refine ⟨_, rfl, rfl, ⟨rfl, rfl, hl.acc, hl.first, hl.back⟩, rfl, .inr ⟨hdir, ?_, ?_⟩⟩
        · have hfl := Int.floor_le ((q.out : ℚ) + p)
          refine ⟨Int.floor_nonneg.mpr hx0, by dsimp only; linarith, p2, ?_⟩
          dsimp only
          nlinarith
        · dsimp only
          rw [Int.le_floor]
          push_cast
          linarith
      · rw [if_neg c1]
        by_cases c2 : (i : ℚ) - q.out < max (-q.firstNeg) (q.var - b)
        · rw [if_pos c2]
          have hvn : max (-q.firstNeg) (q.var - b) = q.var - b := by
            apply max_eq_right
            by_contra hc
            rw [max_eq_left (by linarith [not_le.mp hc])] at c2
            linarith [hl.back]
          rw [hvn] at c2 ⊢
          have hx0 : (0 : ℚ) ≤ (q.out : ℚ) + (q.var - b) := by
            have : (0 : ℚ) ≤ q.out := by exact_mod_cast ho
            linarith
          have hroom := hq.room
          have hov : (q.out : ℚ) + (q.var - b) ≤ i + b / 8 := by
            by_contra hc
            have h1 : (i : ℚ) - q.out < q.var - b - b / 8 := by linarith [not_le.mp hc]
            have h2 : 2 * b * ((i : ℚ) - q.out) < 2 * b * (q.var - b - b / 8) := by nlinarith
            nlinarith [sq_nonneg (q.var - 3 * b / 2)]
          rw [toI32_down hx0 (by linarith)]
          dsimp only
          refine ⟨_, rfl, rfl, ⟨rfl, rfl, hl.acc, hl.first, hl.back⟩, rfl, .inr ⟨hdir, ?_, ?_⟩⟩
          · have hfl := Int.floor_le ((q.out : ℚ) + (q.var - b))
            refine ⟨Int.floor_nonneg.mpr hx0, by dsimp only; linarith, by dsimp only; linarith [hq.fast], ?_⟩
            dsimp only
            nlinarith
          · dsimp only
            rw [Int.le_floor]
            push_cast
            linarith
        · rw [if_neg c2]
          exact ⟨_, rfl, rfl, ⟨rfl, rfl, hl.acc, hl.first, hl.back⟩, rfl, .inl rfl⟩
    · -- behind by at least two
      have hneg : (i : ℚ) - q.out ≤ -2 := by
        rcases abs_cases ((i : ℚ) - q.out) with ⟨h1, h2⟩ | ⟨h1, h2⟩
        · rw [h1] at hd
          have : (2 : ℚ) ≤ (i : ℚ) - q.out := not_lt.mp hd
          have : ((q.out + 2 : Int) : ℚ) ≤ (i : ℚ) := by push_cast; linarith
          exact absurd (by exact_mod_cast this) hdir
        · rw [h1] at hd
          linarith [not_lt.mp hd]
      have hneg' : i - q.out < 0 := by
        have : ((i - q.out : Int) : ℚ) < 0 := by push_cast; linarith
        exact_mod_cast this
      have hroom := hq.room
      have hvb : q.var < b := by
        by_contra hc
        have := not_lt.mp hc
        nlinarith [hq.slow]
      have hdec : decelerate sqrt (i - q.out) ((i : ℚ) - q.out) q.firstPos (-q.firstNeg) b (-b) =
          (q.firstPos, if -sqrt (b * b / 4 - 2 * ((i : ℚ) - q.out) * b) - b / 2 > -q.firstNeg then -sqrt (b * b / 4 - 2 * ((i : ℚ) - q.out) * b) - b / 2 else -q.firstNeg) :=
        (if_neg (by rintro ⟨h, _⟩; omega)).trans (if_pos ⟨hneg', by linarith⟩)
      rw [hdec]
      dsimp only
      obtain ⟨s0, s1, s2⟩ := hs (b * b / 4 - 2 * ((i : ℚ) - q.out) * b) (by nlinarith)
      generalize sqrt (b * b / 4 - 2 * ((i : ℚ) - q.out) * b) = s at s0 s1 s2
      have hdist : -(b / 8) ≤ (i : ℚ) - q.out := by linarith
      have hN : (if -s - b / 2 > -q.firstNeg then -s - b / 2 else -q.firstNeg) ≤ (i : ℚ) - q.out := by
        split
        · linarith
        · linarith [hl.back]
      generalize (if -s - b / 2 > -q.firstNeg then -s - b / 2 else -q.firstNeg) = N at hN
      rw [reachPos_eq hb0, reachNeg_eq hb0 (by linarith [hq.slow])]
      rw [if_neg, if_neg]
      · exact ⟨_, rfl, rfl, ⟨rfl, rfl, hl.acc, hl.first, hl.back⟩, rfl, .inl rfl⟩
      · rw [not_lt]
        refine max_le hN ?_
        have : q.var * (q.var - b) ≥ 2 * b * (q.var - b) := by nlinarith [hq.slow]
        by_contra hc
        have h1 : (i : ℚ) - q.out < q.var - b := not_le.mp hc
        nlinarith
      · have h3 : 0 ≤ min q.firstPos (q.var + b) := le_min (by linarith [hl.first]) (by linarith [hq.slow])
        have h4 := le_max_left (min q.firstPos (q.var + b)) (q.var - b)
        linarith

/-- On the target, the ramp stays. -/
theorem stays {sqrt : ℚ → ℚ} {q : Qr} {i : Int} (h : q.out = i) : ∀ n, q.run sqrt (List.replicate (n + 1) i) = some { q with var := 0, inp := i } := by
  intro n
  induction n generalizing q with
  | zero =>
    show (match q.filter sqrt i with | none => none | some q => q.run sqrt []) = _
    unfold Qr.filter
    dsimp only
    rw [if_pos (by rw [h, sub_self, abs_zero]; exact two_pos), ← h]
    rfl
  | succ n ih =>
    show (match q.filter sqrt i with | none => none | some q => q.run sqrt (List.replicate (n + 1) i)) = _
    unfold Qr.filter
    dsimp only
    rw [if_pos (by rw [h, sub_self, abs_zero]; exact two_pos)]
    dsimp only
    rw [ih rfl, ← h]

theorem forward_run {sqrt : ℚ → ℚ} (hs : DownRoot sqrt) {b : ℚ} {i : Int} (h0 : 0 ≤ i) (hi : (i : ℚ) + b / 8 < 2 ^ 31) :
    ∀ (n : Nat) (q : Qr), Limits q b → Braking q b i →
      ∃ q', q.run sqrt (List.replicate n i) = some q' ∧ min q.out i ≤ q'.out ∧ (q'.out : ℚ) ≤ i + b / 8 ∧
        (i - q.out + 2 ≤ n → 2 ≤ n → q'.out = i ∧ q'.isFinished = true)
  | 0, q, hl, hq => ⟨q, rfl, min_le_left _ _, hq.near (by linarith [hl.acc]), by omega⟩
  | n + 1, q, hl, hq => by
    obtain ⟨q1, e1, e2, e3, e4, e5⟩ := forward_step hs hl hq h0 hi
    have hrun : q.run sqrt (List.replicate (n + 1) i) = q1.run sqrt (List.replicate n i) := by
      show (match q.filter sqrt i with | none => none | some q => q.run sqrt (List.replicate n i)) = _
      rw [e1]
    rw [hrun]
    have hb0 : 0 < b := by linarith [hl.acc]
    rcases e5 with e5 | ⟨e5, e6, e7⟩
    · cases n with
      | zero => exact ⟨q1, rfl, by rw [e5]; exact min_le_right _ _, by rw [e5]; linarith, by omega⟩
      | succ n =>
        refine ⟨_, stays e5 n, ?_, ?_, fun _ _ => ⟨e5, ?_⟩⟩
        · show min q.out i ≤ q1.out
          rw [e5]; exact min_le_right _ _
        · show (q1.out : ℚ) ≤ _
          rw [e5]; linarith
        · simp [Qr.isFinished, e5]
    · obtain ⟨q2, f1, f2, f3, f4⟩ := forward_run hs h0 hi n q1 e3 e6
      refine ⟨q2, f1, ?_, f3, ?_⟩
      · have : min q.out i ≤ min q1.out i := min_le_min_right _ (by omega)
        exact this.trans f2
      · intro g1 g2
        by_cases h2 : 2 ≤ n
        · exact f4 (by push_cast at g1; omega) h2
        · push_cast at g1; omega

/-- From rest towards a constant target ahead: the ramp never goes back behind its start nor beyond the target by more than
an eighth of the acceleration, and it is on the target and finished after as many steps as there are units to it, and two. -/
theorem forward_arrives {sqrt : ℚ → ℚ} (hs : DownRoot sqrt) {b : ℚ} {q : Qr} (hl : Limits q b) (hv : q.var = 0) (ho : 0 ≤ q.out) {i : Int}
    (hi : q.out ≤ i) (hr : (i : ℚ) + b / 8 < 2 ^ 31) (n : Nat) :
    ∃ q', q.run sqrt (List.replicate n i) = some q' ∧ q.out ≤ q'.out ∧ (q'.out : ℚ) ≤ i + b / 8 ∧
      (i - q.out + 2 ≤ n → q'.out = i ∧ q'.isFinished = true) := by
  have hb : Braking q b i := by
    refine ⟨ho, by rw [hv], by rw [hv]; linarith [hl.first], ?_⟩
    rw [hv, zero_mul]
    have h1 : (q.out : ℚ) ≤ i := by exact_mod_cast hi
    have h2 : 0 < b := by linarith [hl.acc]
    nlinarith
  obtain ⟨q', h1, h2, h3, h4⟩ := forward_run hs (ho.trans hi) hr n q hl hb
  rw [min_eq_left hi] at h2
  exact ⟨q', h1, h2, h3, fun h => h4 h (by omega)⟩

/-- The bound is nearly met: 12 units beyond the target with an acceleration of 100. -/
theorem forward_overshoot : (trace (Qr.init.setFirst 1000 1000 |>.setSecond 100 100) 1050 8).map (·.1) =
    [100, 300, 600, 854, 1008, 1062, 1050, 1050] := by decide +kernel

example : Limits (Qr.init.setFirst 1000 1000 |>.setSecond 100 100) 100 :=
  ⟨rfl, rfl, by norm_num, by show (1 : ℚ) ≤ 1000; norm_num, by show (100 : ℚ) / 8 ≤ 1000; norm_num⟩

end Verif.Quadramp
