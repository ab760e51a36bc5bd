import Verif.Quadramp.Forward

/-!
# Quadramp: limits with which the ramp can always stop within a period

If the acceleration is at least the speed, then the ramp goes to its target from any state, in both directions, without passing it. And if the limit for
the speed is zero, then it does not move.
-/

namespace Verif.Quadramp

/-- Limits: at least one unit per period, two per period squared, the same in both directions, and the acceleration at least the speed. -/
structure Quick (q : Qr) (f b : ℚ) : Prop where
  pos : q.secondPos = b
  neg : q.secondNeg = b
  fpos : q.firstPos = f
  fneg : q.firstNeg = f
  one : 1 ≤ f
  two : 2 ≤ b
  le : f ≤ b

/-- One step: it goes towards the target, by at least one unit if the speed was not in the other direction, and not further than the target. -/
theorem quick_step {sqrt : ℚ → ℚ} (hs : DownRoot sqrt) {q : Qr} {f b : ℚ} (hq : Quick q f b) (hv : |q.var| ≤ f) (ho : 0 ≤ q.out) (ho' : q.out < 2 ^ 31)
    {i : Int} (h0 : 0 ≤ i) (hi : i < 2 ^ 31) :
    ∃ q', q.filter sqrt i = some q' ∧ Quick q' f b ∧ |q'.var| ≤ f ∧ q'.inp = i ∧
      (q'.out = i ∨
        (q.out ≤ q'.out ∧ q'.out < i ∧ 0 ≤ q'.var ∧ (0 ≤ q.var → q.out + 1 ≤ q'.out)) ∨
        (q'.out ≤ q.out ∧ i ≤ q'.out ∧ q'.var ≤ 0 ∧ (q.var ≤ 0 → q'.out + 1 ≤ q.out))) := by
  have hb := hq.two
  have hf := hq.one
  have hfb := hq.le
  have hb0 : 0 < b := by linarith
  obtain ⟨hv1, hv2⟩ := abs_le.mp hv
  have hdI : toI32 ((i : ℚ) - q.out) = some (i - q.out) := by
    have := toI32_int (n := i - q.out) (by omega) (by omega)
    rwa [Int.cast_sub] at this
  have ho31 : (q.out : ℚ) < 2 ^ 31 := by exact_mod_cast ho'
  have hi31 : (i : ℚ) < 2 ^ 31 := by exact_mod_cast hi
  have hoq : (0 : ℚ) ≤ q.out := by exact_mod_cast ho
  have hiq : (0 : ℚ) ≤ i := by exact_mod_cast h0
  unfold Qr.filter
  dsimp only
  by_cases hd : |(i : ℚ) - q.out| < 2
  · rw [if_pos hd]
    refine ⟨_, rfl, ⟨hq.pos, hq.neg, hq.fpos, hq.fneg, hf, hb, hfb⟩, ?_, rfl, .inl rfl⟩
    rw [abs_zero]; linarith
  · rw [if_neg hd, hdI]
    dsimp only
    rw [hq.pos, hq.neg, hq.fpos, hq.fneg]
    by_cases hdir : q.out + 2 ≤ i
    · have hdq : (2 : ℚ) ≤ (i : ℚ) - q.out := by
        have : ((q.out + 2 : Int) : ℚ) ≤ (i : ℚ) := by exact_mod_cast hdir
        push_cast at this; linarith
      obtain ⟨r1, -⟩ := ramp_spec hs hb hdq
      have hdec : decelerate sqrt (i - q.out) ((i : ℚ) - q.out) f (-f) b (-b) =
          (if sqrt (-b * -b / 4 - 2 * ((i : ℚ) - q.out) * -b) + -b / 2 < f then sqrt (-b * -b / 4 - 2 * ((i : ℚ) - q.out) * -b) + -b / 2 else f, -f) :=
        if_pos ⟨by omega, by linarith⟩
      rw [hdec]
      dsimp only
      generalize sqrt (-b * -b / 4 - 2 * ((i : ℚ) - q.out) * -b) + -b / 2 = r at r1
      have hP : 1 ≤ (if r < f then r else f) ∧ (if r < f then r else f) ≤ f := by split <;> constructor <;> linarith
      generalize (if r < f then r else f) = P at hP
      rw [reachPos_eq hb0, reachNeg_eq hb0 hv1]
      have hp0 : 0 ≤ max (min P (q.var + b)) (q.var - b) := (le_min (by linarith) (by linarith)).trans (le_max_left _ _)
      have hpf : max (min P (q.var + b)) (q.var - b) ≤ f := max_le ((min_le_left _ _).trans hP.2) (by linarith)
      have hp1 : 0 ≤ q.var → 1 ≤ max (min P (q.var + b)) (q.var - b) := fun h => (le_min hP.1 (by linarith)).trans (le_max_left _ _)
      have hn0 : max (-f) (q.var - b) ≤ 0 := max_le (by linarith) (by linarith)
      generalize max (min P (q.var + b)) (q.var - b) = p at hp0 hpf hp1
      by_cases c1 : (i : ℚ) - q.out > p
      · rw [if_pos c1, toI32_down (by linarith) (by linarith)]
        refine ⟨_, rfl, ⟨rfl, rfl, rfl, rfl, hf, hb, hfb⟩, abs_le.mpr ⟨by dsimp only; linarith, hpf⟩, rfl, .inr (.inl ⟨?_, ?_, hp0, ?_⟩)⟩
        · exact Int.le_floor.mpr (by linarith)
        · exact Int.floor_lt.mpr (by linarith)
        · intro h
          refine Int.le_floor.mpr ?_
          push_cast
          linarith [hp1 h]
      · rw [if_neg c1, if_neg (by linarith)]
        exact ⟨_, rfl, ⟨rfl, rfl, rfl, rfl, hf, hb, hfb⟩, abs_le.mpr ⟨by dsimp only; linarith, by dsimp only; linarith⟩, rfl, .inl rfl⟩
    · have hneg : (i : ℚ) - q.out ≤ -2 := by
        rcases abs_cases ((i : ℚ) - q.out) with ⟨h1, h2⟩ | ⟨h1, h2⟩
        · rw [h1] at hd
          have : (2 : ℚ) ≤ (i : ℚ) - q.out := not_lt.mp hd
          have : ((q.out + 2 : Int) : ℚ) ≤ (i : ℚ) := by push_cast; linarith
          exact absurd (by exact_mod_cast this) hdir
        · rw [h1] at hd
          linarith [not_lt.mp hd]
      have hneg' : i - q.out < 0 := by
        have : ((i - q.out : Int) : ℚ) < 0 := by push_cast; linarith
        exact_mod_cast this
      have hdec : decelerate sqrt (i - q.out) ((i : ℚ) - q.out) f (-f) b (-b) =
          (f, if -sqrt (b * b / 4 - 2 * ((i : ℚ) - q.out) * b) - b / 2 > -f then -sqrt (b * b / 4 - 2 * ((i : ℚ) - q.out) * b) - b / 2 else -f) :=
        (if_neg (by rintro ⟨h, _⟩; omega)).trans (if_pos ⟨hneg', by linarith⟩)
      rw [hdec]
      dsimp only
      obtain ⟨s0, s1, s2⟩ := hs (b * b / 4 - 2 * ((i : ℚ) - q.out) * b) (by nlinarith)
      generalize sqrt (b * b / 4 - 2 * ((i : ℚ) - q.out) * b) = s at s0 s1 s2
      have hN : (if -s - b / 2 > -f then -s - b / 2 else -f) = -f := by
        refine if_neg ?_
        have hsb : b / 2 ≤ s := by
          by_contra hc
          have : s + 1 < b / 2 + 1 := by linarith [not_le.mp hc]
          nlinarith
        linarith
      rw [hN, reachPos_eq hb0, reachNeg_eq hb0 hv1]
      have hp0 : 0 ≤ max (min f (q.var + b)) (q.var - b) := (le_min (by linarith) (by linarith)).trans (le_max_left _ _)
      have hn0 : max (-f) (q.var - b) ≤ 0 := max_le (by linarith) (by linarith)
      have hnf : -f ≤ max (-f) (q.var - b) := le_max_left _ _
      have hn1 : q.var ≤ 0 → max (-f) (q.var - b) ≤ -1 := fun h => max_le (by linarith) (by linarith)
      generalize max (-f) (q.var - b) = n at hn0 hnf hn1
      rw [if_neg (by linarith)]
      by_cases c2 : (i : ℚ) - q.out < n
      · rw [if_pos c2, toI32_down (by linarith) (by linarith)]
        refine ⟨_, rfl, ⟨rfl, rfl, rfl, rfl, hf, hb, hfb⟩, abs_le.mpr ⟨hnf, by dsimp only; linarith⟩, rfl, .inr (.inr ⟨?_, ?_, hn0, ?_⟩)⟩
        · have h1 := Int.floor_le ((q.out : ℚ) + n)
          have h2 : ((⌊(q.out : ℚ) + n⌋ : Int) : ℚ) ≤ q.out := by linarith
          exact_mod_cast h2
        · exact Int.le_floor.mpr (by linarith)
        · intro h
          have h1 := Int.floor_le ((q.out : ℚ) + n)
          have h2 : ((⌊(q.out : ℚ) + n⌋ + 1 : Int) : ℚ) ≤ q.out := by push_cast; linarith [hn1 h]
          exact_mod_cast h2
      · rw [if_neg c2]
        exact ⟨_, rfl, ⟨rfl, rfl, rfl, rfl, hf, hb, hfb⟩, abs_le.mpr ⟨by dsimp only; linarith, by dsimp only; linarith⟩, rfl, .inl rfl⟩

/-- The ramp stays between where it was and the target. -/
def Between (a i o : Int) : Prop := (a ≤ o ∧ o ≤ i) ∨ (i ≤ o ∧ o ≤ a)

theorem run_cons {sqrt : ℚ → ℚ} {q q' : Qr} {i : Int} (h : q.filter sqrt i = some q') (is : List Int) : q.run sqrt (i :: is) = q'.run sqrt is := by
  show (match q.filter sqrt i with | none => none | some q => q.run sqrt is) = _
  rw [h]

/-- A target that is kept: the ramp does not pass it, and it is there and finished after as many steps as there are units to it, and three. -/
theorem quick_arrives {sqrt : ℚ → ℚ} (hs : DownRoot sqrt) {f b : ℚ} {i : Int} (h0 : 0 ≤ i) (hi : i < 2 ^ 31) :
    ∀ (n : Nat) {q : Qr}, Quick q f b → |q.var| ≤ f → 0 ≤ q.out → q.out < 2 ^ 31 →
      ∃ q', q.run sqrt (List.replicate n i) = some q' ∧ Quick q' f b ∧ |q'.var| ≤ f ∧ Between q.out i q'.out ∧
        ((i - q.out).natAbs + 3 ≤ n → q'.out = i ∧ q'.inp = i ∧ q'.var = 0 ∧ q'.isFinished = true) ∧
        ((q.out ≤ i ∧ 0 ≤ q.var ∨ i ≤ q.out ∧ q.var ≤ 0) → (i - q.out).natAbs + 2 ≤ n → 
          q'.out = i ∧ q'.inp = i ∧ q'.var = 0 ∧ q'.isFinished = true)
  | 0, q, hq, hv, ho, ho' => by
    refine ⟨q, rfl, hq, hv, ?_, by omega, by omega⟩
    unfold Between
    omega
  | n + 1, q, hq, hv, ho, ho' => by
    obtain ⟨q1, e1, e2, e3, e4, e5⟩ := quick_step hs hq hv ho ho' h0 hi
    rw [List.replicate_succ, run_cons e1]
    by_cases hd : q1.out = i
    · cases n with
      | zero =>
        refine ⟨q1, rfl, e2, e3, ?_, by omega, by omega⟩
        unfold Between
        omega
      | succ n =>
        refine ⟨_, stays hd n, ⟨e2.pos, e2.neg, e2.fpos, e2.fneg, e2.one, e2.two, e2.le⟩, ?_, ?_, ?_, ?_⟩
        · rw [abs_zero]
          linarith [e2.one]
        · unfold Between
          dsimp only
          omega
        · exact fun _ => ⟨hd, rfl, rfl, by simp [Qr.isFinished, hd]⟩
        · exact fun _ _ => ⟨hd, rfl, rfl, by simp [Qr.isFinished, hd]⟩
    · have hb : 0 ≤ q1.out ∧ q1.out < 2 ^ 31 := by omega
      obtain ⟨q2, f1, f2, f3, f4, f5, f6⟩ := quick_arrives hs h0 hi n e2 e3 hb.1 hb.2
      rcases e5 with e5 | ⟨a1, a2, a3, a4⟩ | ⟨a1, a2, a3, a4⟩
      · exact absurd e5 hd
      · refine ⟨q2, f1, f2, f3, ?_, ?_, ?_⟩
        · unfold Between at f4 ⊢
          omega
        · exact fun hn => f6 (.inl ⟨by omega, a3⟩) (by omega)
        · rintro (⟨g1, g2⟩ | ⟨g1, g2⟩) hn
          · exact f6 (.inl ⟨by omega, a3⟩) (by have := a4 g2; omega)
          · omega
      · refine ⟨q2, f1, f2, f3, ?_, ?_, ?_⟩
        · unfold Between at f4 ⊢
          omega
        · exact fun hn => f6 (.inr ⟨by omega, a3⟩) (by omega)
        · rintro (⟨g1, g2⟩ | ⟨g1, g2⟩) hn
          · omega
          · exact f6 (.inr ⟨by omega, a3⟩) (by have := a4 g2; omega)

/-- Speed limits of zero. -/
structure Stuck (q : Qr) : Prop where
  fpos : q.firstPos = 0
  fneg : q.firstNeg = 0
  pos : q.secondPos = 0
  neg : q.secondNeg = 0
  var : q.var = 0

/-- With limits of zero, the ramp does not move unless the target is the next unit. -/
theorem stuck_step {sqrt : ℚ → ℚ} {q : Qr} (h : Stuck q) {i : Int} (ho : -2 ^ 30 ≤ q.out ∧ q.out < 2 ^ 30) (hi : -2 ^ 30 ≤ i ∧ i < 2 ^ 30) :
    ∃ q', q.filter sqrt i = some q' ∧ Stuck q' ∧ q'.out = if (i - q.out).natAbs < 2 then i else q.out := by
  unfold Qr.filter
  dsimp only
  by_cases hd : |(i : ℚ) - q.out| < 2
  · rw [if_pos hd]
    refine ⟨_, rfl, ⟨h.fpos, h.fneg, h.pos, h.neg, rfl⟩, ?_⟩
    have : |i - q.out| < 2 := by exact_mod_cast hd
    rw [Int.abs_eq_natAbs] at this
    rw [if_pos (by omega)]
  · rw [if_neg hd]
    have hd' : ¬ |i - q.out| < 2 := by
      intro hc
      exact hd (by exact_mod_cast hc)
    rw [Int.abs_eq_natAbs] at hd'
    have hdI : toI32 ((i : ℚ) - q.out) = some (i - q.out) := by
      have := toI32_int (n := i - q.out) (by omega) (by omega)
      rwa [Int.cast_sub] at this
    have hdec : decelerate sqrt (i - q.out) ((i : ℚ) - q.out) 0 (-0) 0 (-0) = (0, 0) := by
      unfold decelerate
      simp
    have hrp : reachPos 0 0 0 (-0) = 0 := by decide +kernel
    have hrn : reachNeg 0 0 0 (-0) = 0 := by decide +kernel
    rw [hdI, h.fpos, h.fneg, h.pos, h.neg, h.var]
    dsimp only
    rw [hdec]
    dsimp only
    rw [hrp, hrn, add_zero, toI32_int (by omega) (by omega)]
    dsimp only
    by_cases c : (i : ℚ) - q.out > 0
    · rw [if_pos c]
      exact ⟨_, rfl, ⟨rfl, rfl, rfl, rfl, rfl⟩, (if_neg (by omega)).symm⟩
    · have c2 : (i : ℚ) - q.out < 0 := by
        rcases lt_trichotomy ((i : ℚ) - q.out) 0 with h | h | h
        · exact h
        · rw [h, abs_zero] at hd
          exact absurd two_pos hd
        · exact absurd h c
      rw [if_neg c, if_pos c2]
      exact ⟨_, rfl, ⟨rfl, rfl, rfl, rfl, rfl⟩, (if_neg (by omega)).symm⟩

example : Quick (Qr.init.setFirst 1000 1000 |>.setSecond 1000 1000) 1000 1000 :=
  ⟨rfl, rfl, rfl, rfl, by norm_num, by norm_num, le_refl _⟩

/-- Turning round takes one step more. -/
def turning : Qr := ⟨1000, 1000, 1000, 1000, -1000, 5000, 0⟩

example : (trace turning 7000 4).map (·.1) = [5000, 6000, 7000, 7000] := by decide +kernel

end Verif.Quadramp
