import Verif.Servo.Model
import Verif.Quadramp.Quick
import Mathlib.Tactic.NormNum

namespace Verif.Servo

open Verif.Num (Ext)
open Verif.Quadramp (Qr Quick DownRoot Between Stuck)

theorem seq_some {n : Nat} {α : Type} {f : Fin n → Option α} {g : Fin n → α} (h : ∀ i, f i = some (g i)) : seq f = some g := by
  unfold seq
  have hs : ∀ i, (f i).isSome := fun i => by rw [h i]; rfl
  rw [dif_pos hs]
  congr 1
  funext i
  simp [h i]

theorem seq_eq {n : Nat} {α : Type} {f : Fin n → Option α} {g : Fin n → α} (h : seq f = some g) (i : Fin n) : f i = some (g i) := by
  unfold seq at h
  split at h
  · rename_i hs
    have := Option.some.inj h
    rw [← this]
    simp
  · cases h

/-! ## Timers -/

theorem countP_lt (n c : Nat) : (List.range n).countP (· < c) = min c n := by
  induction n with
  | zero => simp
  | succ n ih =>
    rw [List.range_succ, List.countP_append, ih]
    by_cases h : n < c
    · simp [h]; omega
    · simp [h]; omega

theorem high_eq (t : Timer) (ch c : Nat) : t.high ch c = if t.mask.testBit ch then min c (t.arr + 1) else 0 := by
  unfold Timer.high
  rw [countP_lt]

theorem ccr_nat {n : Nat} (h : n < 65536) : ccr n = n := by
  unfold ccr
  omega

/-! ## Positions -/

/-- The number between 0 and 1 that a position stands for -/
def part : Ext → ℚ
  | .fin q => max 0 (min 1 q)
  | .pinf => 1
  | _ => 0

theorem part_nonneg (p : Ext) : 0 ≤ part p := by
  cases p with
  | fin q => exact le_max_left _ _
  | pinf => exact zero_le_one
  | _ => exact le_refl _

theorem part_le (p : Ext) : part p ≤ 1 := by
  cases p with
  | fin q => exact max_le zero_le_one (min_le_left _ _)
  | pinf => exact le_refl _
  | _ => exact zero_le_one

theorem clamp_eq {p : Ext} (h : p ≠ .nan) : clamp p = .fin (part p) := by
  cases p with
  | nan => exact absurd rfl h
  | ninf => rfl
  | pinf => rfl
  | fin q =>
    show (if decide ((1 : ℚ) < q) = true then Ext.fin 1 else if decide (q < (0 : ℚ)) = true then Ext.fin 0 else Ext.fin q) = .fin (max 0 (min 1 q))
    by_cases h1 : (1 : ℚ) < q
    · rw [if_pos (decide_eq_true h1), min_eq_left (le_of_lt h1), max_eq_right zero_le_one]
    · rw [if_neg (by simpa using h1), min_eq_right (not_lt.mp h1)]
      by_cases h2 : q < 0
      · rw [if_pos (decide_eq_true h2), max_eq_left (le_of_lt h2)]
      · rw [if_neg (by simpa using h2), max_eq_right (not_lt.mp h2)]

theorem limit_eq {p : Ext} (h : p ≠ .nan) : Act.limit p = .fin (part p) := by
  cases p with
  | nan => exact absurd rfl h
  | ninf => decide +kernel
  | pinf => decide +kernel
  | fin q =>
    show (if Ext.lt (.fin 1) (if Ext.lt (.fin q) (.fin 0) = true then Ext.fin 0 else Ext.fin q) = true then Ext.fin 1
      else (if Ext.lt (.fin q) (.fin 0) = true then Ext.fin 0 else Ext.fin q)) = Ext.fin (max 0 (min 1 q))
    by_cases h2 : q < 0
    · have e : (if Ext.lt (.fin q) (.fin 0) = true then Ext.fin 0 else Ext.fin q) = .fin 0 := if_pos (decide_eq_true h2)
      rw [e, min_eq_right (by linarith), max_eq_left (le_of_lt h2)]
      exact if_neg (by decide +kernel)
    · have e : (if Ext.lt (.fin q) (.fin 0) = true then Ext.fin 0 else Ext.fin q) = .fin q := if_neg (by simpa [Ext.lt] using h2)
      rw [e]
      by_cases h1 : (1 : ℚ) < q
      · rw [min_eq_left (le_of_lt h1), max_eq_right zero_le_one]
        exact if_pos (decide_eq_true h1)
      · rw [min_eq_right (not_lt.mp h1), max_eq_right (not_lt.mp h2)]
        exact if_neg (by simpa [Ext.lt] using h1)

theorem limit_nan : Act.limit .nan = .nan := rfl

theorem part_fin {q : ℚ} (h0 : 0 ≤ q) (h1 : q ≤ 1) : part (.fin q) = q := by
  show max 0 (min 1 q) = q
  rw [min_eq_right h1, max_eq_right h0]

/-- The ticks of a position -/
def pulse (scale : Nat) (p : Ext) : Nat := ⌊part p * scale⌋.toNat

theorem ticks_eq {scale : Nat} {p : Ext} (h : p ≠ .nan) : ticks scale p = some (pulse scale p) := by
  unfold ticks
  rw [clamp_eq h]
  rfl

theorem ticks_nan (scale : Nat) : ticks scale .nan = none := rfl

theorem pulse_le (scale : Nat) (p : Ext) : pulse scale p ≤ scale := by
  unfold pulse
  have h1 : part p * scale ≤ scale := by
    have := part_le p
    have h : (0 : ℚ) ≤ scale := Nat.cast_nonneg _
    nlinarith
  have h2 : ⌊part p * scale⌋ ≤ scale := by
    have := Int.floor_le (part p * scale)
    have h3 : ((⌊part p * scale⌋ : Int) : ℚ) ≤ ((scale : Int) : ℚ) := by push_cast; linarith
    exact_mod_cast h3
  omega

theorem pulse_fin {scale : Nat} {q : ℚ} (h0 : 0 ≤ q) (h1 : q ≤ 1) : pulse scale (.fin q) = ⌊q * scale⌋.toNat := by
  unfold pulse
  rw [part_fin h0 h1]

/-! ## A servo with limits that allow it to stop within a period -/

structure Good (scale : Nat) (f b : ℚ) (s : Servo) : Prop where
  pos : s.setpoint ≠ .nan
  quick : Quick s.filter f b
  var : |s.filter.var| ≤ f
  low : 0 ≤ s.filter.out
  high : s.filter.out ≤ scale

theorem replicate_run {sqrt : ℚ → ℚ} {q q' : Qr} {i : Int} (n : Nat) (h : q.filter sqrt i = some q') :
    q.run sqrt (List.replicate (n + 1) i) = q'.run sqrt (List.replicate n i) := by
  rw [List.replicate_succ, Quadramp.run_cons h]

theorem good_tick {sqrt : ℚ → ℚ} (hs : DownRoot sqrt) {scale : Nat} (hsc : scale < 2 ^ 31) {f b : ℚ} {s : Servo} (h : Good scale f b s) :
    ∃ s', s.tick sqrt scale = some s' ∧ Good scale f b s' ∧ s'.setpoint = s.setpoint ∧ s.filter.filter sqrt (pulse scale s.setpoint) = some s'.filter ∧
      Between s.filter.out (pulse scale s.setpoint) s'.filter.out := by
  have hp := pulse_le scale s.setpoint
  have ho := h.high
  obtain ⟨q', h1, h2, h3, h4, h5⟩ := Quadramp.quick_step hs h.quick h.var h.low (by omega) (i := (pulse scale s.setpoint : Int)) (by omega) (by omega)
  have hb : Between s.filter.out (pulse scale s.setpoint) q'.out := by
    unfold Between
    have := h.low
    omega
  refine ⟨{ s with filter := q' }, ?_, ⟨h.pos, h2, h3, ?_, ?_⟩, rfl, h1, hb⟩
  · unfold Servo.tick
    rw [ticks_eq h.pos]
    dsimp only
    rw [h1]
  · have := h.low
    unfold Between at hb
    show 0 ≤ q'.out
    omega
  · unfold Between at hb
    show q'.out ≤ scale
    omega

/-- Rounds of one servo -/
def Servo.ticks (sqrt : ℚ → ℚ) (scale : Nat) (s : Servo) : Nat → Option Servo
  | 0 => some s
  | n + 1 => match s.tick sqrt scale with
    | none => none
    | some s => s.ticks sqrt scale n

theorem good_ticks {sqrt : ℚ → ℚ} (hs : DownRoot sqrt) {scale : Nat} (hsc : scale < 2 ^ 31) {f b : ℚ} :
    ∀ (n : Nat) {s : Servo}, Good scale f b s → ∃ s', s.ticks sqrt scale n = some s' ∧ Good scale f b s' ∧ s'.setpoint = s.setpoint ∧
      s.filter.run sqrt (List.replicate n (pulse scale s.setpoint : Int)) = some s'.filter
  | 0, s, h => ⟨s, rfl, h, rfl, rfl⟩
  | n + 1, s, h => by
    obtain ⟨s1, a1, a2, a3, a4, -⟩ := good_tick hs hsc h
    obtain ⟨s2, b1, b2, b3, b4⟩ := good_ticks hs hsc n a2
    refine ⟨s2, ?_, b2, b3.trans a3, ?_⟩
    · show (match s.tick sqrt scale with | none => none | some s => s.ticks sqrt scale n) = _
      rw [a1]
      exact b1
    · rw [replicate_run n a4, ← b4, a3]

theorem good_settles {sqrt : ℚ → ℚ} (hs : DownRoot sqrt) {scale : Nat} (hsc : scale < 2 ^ 31) {f b : ℚ} {s : Servo} (h : Good scale f b s) {n : Nat}
    (hn : scale + 3 ≤ n) : ∃ s', s.ticks sqrt scale n = some s' ∧ Good scale f b s' ∧ s'.setpoint = s.setpoint ∧ s'.filter.out = pulse scale s.setpoint := by
  obtain ⟨s', a1, a2, a3, a4⟩ := good_ticks hs hsc n h
  have hp := pulse_le scale s.setpoint
  have hl := h.low
  have hh := h.high
  obtain ⟨q', b1, -, -, -, b2, -⟩ := Quadramp.quick_arrives hs (f := f) (b := b) (i := (pulse scale s.setpoint : Int)) (by omega) (by omega) n h.quick h.var
    h.low (by omega)
  rw [a4] at b1
  cases b1
  exact ⟨s', a1, a2, a3, (b2 (by omega)).1⟩

/-! ## A servo without speed -/

theorem stuck_tick {sqrt : ℚ → ℚ} {scale : Nat} (hsc : scale < 2 ^ 30) {s : Servo} (h : Stuck s.filter) (hp : s.setpoint ≠ .nan)
    (ho : 0 ≤ s.filter.out ∧ s.filter.out ≤ scale) :
    ∃ s', s.tick sqrt scale = some s' ∧ Stuck s'.filter ∧ s'.setpoint = s.setpoint ∧
      s'.filter.out = if ((pulse scale s.setpoint : Int) - s.filter.out).natAbs < 2 then (pulse scale s.setpoint : Int) else s.filter.out := by
  have hp' := pulse_le scale s.setpoint
  obtain ⟨q', h1, h2, h3⟩ := Quadramp.stuck_step (sqrt := sqrt) h (i := (pulse scale s.setpoint : Int)) (by omega) (by omega)
  refine ⟨{ s with filter := q' }, ?_, h2, rfl, h3⟩
  unfold Servo.tick
  rw [ticks_eq hp]
  dsimp only
  rw [h1]

/-! ## Square roots -/

theorem downRoot_exists : ∃ sqrt, DownRoot sqrt := by
  refine ⟨fun x => (Nat.sqrt ⌊x⌋.toNat : ℚ), fun x hx => ⟨Nat.cast_nonneg _, ?_, ?_⟩⟩
  · have h1 : Nat.sqrt ⌊x⌋.toNat * Nat.sqrt ⌊x⌋.toNat ≤ ⌊x⌋.toNat := Nat.sqrt_le _
    have h2 : ((⌊x⌋.toNat : Int) : ℚ) ≤ x := by
      rw [Int.toNat_of_nonneg (Int.floor_nonneg.mpr hx)]
      exact Int.floor_le x
    have h3 : ((Nat.sqrt ⌊x⌋.toNat * Nat.sqrt ⌊x⌋.toNat : Nat) : ℚ) ≤ (⌊x⌋.toNat : ℚ) := by exact_mod_cast h1
    push_cast at h3 h2
    linarith
  · have h1 : ⌊x⌋.toNat < (Nat.sqrt ⌊x⌋.toNat + 1) * (Nat.sqrt ⌊x⌋.toNat + 1) := Nat.lt_succ_sqrt _
    have h2 : x < ((⌊x⌋.toNat : Int) : ℚ) + 1 := by
      rw [Int.toNat_of_nonneg (Int.floor_nonneg.mpr hx)]
      exact Int.lt_floor_add_one x
    have h3 : ((⌊x⌋.toNat + 1 : Nat) : ℚ) ≤ (((Nat.sqrt ⌊x⌋.toNat + 1) * (Nat.sqrt ⌊x⌋.toNat + 1) : Nat) : ℚ) := by exact_mod_cast h1
    push_cast at h3 h2
    linarith

end Verif.Servo
