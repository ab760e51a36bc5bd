import Mathlib.Tactic.Linarith
import Verif.Uwb.Frame

/-!
# UWB: timestamps
-/

namespace Verif.Uwb

/-! ## C40 -/

theorem fold_step {r : Nat} (h : r < 2 ^ 56) (b : Byte) : u64 (r <<< 8) ||| b.toNat = r * 256 + b.toNat := by
  have hu : u64 (r <<< 8) = r <<< 8 := by
    unfold u64
    rw [Nat.shiftLeft_eq]
    omega
  rw [hu, ← Nat.shiftLeft_add_eq_or_of_lt b.isLt, Nat.shiftLeft_eq]

theorem byte_toNat (v k : Nat) : (BitVec.ofNat 8 (v >>> k &&& 0xff)).toNat = v / 2 ^ k % 256 := by
  rw [BitVec.toNat_ofNat, show (0xff : Nat) = 2 ^ 8 - 1 from rfl, Nat.and_two_pow_sub_one_eq_mod, Nat.shiftRight_eq_div_pow, Nat.mod_mod]

/-- Reading the five bytes gives the lower 40 bits. -/
theorem fold40_bytes40 (v : Nat) : fold40 (bytes40 v) = v % 1099511627776 := by
  unfold fold40 bytes40
  simp only [List.foldl_cons, List.foldl_nil]
  have h0 : u64 (0 <<< 8) = 0 := rfl
  rw [h0, Nat.zero_or]
  rw [fold_step (r := (BitVec.ofNat 8 (v >>> 32 &&& 0xff)).toNat) (by rw [byte_toNat]; omega), byte_toNat, byte_toNat]
  rw [fold_step (r := v / 2 ^ 32 % 256 * 256 + v / 2 ^ 24 % 256) (by omega), byte_toNat]
  rw [fold_step (r := (v / 2 ^ 32 % 256 * 256 + v / 2 ^ 24 % 256) * 256 + v / 2 ^ 16 % 256) (by omega), byte_toNat]
  rw [fold_step (r := ((v / 2 ^ 32 % 256 * 256 + v / 2 ^ 24 % 256) * 256 + v / 2 ^ 16 % 256) * 256 + v / 2 ^ 8 % 256) (by omega), byte_toNat]
  omega

theorem length_bytes40 (v : Nat) : (bytes40 v).length = 5 := rfl

/-- C40: a timestamp of 40 bits written at any place of a buffer is read back unchanged, and the rest of the buffer is as before. -/
theorem timestamp_round_trip {v : Nat} (hv : v < 2 ^ 40) (a b c : List Byte) (hb : b.length = 5) :
    ∃ out, write40 v (a ++ b ++ c) a.length = .ok (a ++ out ++ c) ∧ out.length = 5 ∧ read40 (a ++ out ++ c) a.length = .ok v := by
  refine ⟨bytes40 v, put_at a b c _ (by rw [hb]; rfl), rfl, ?_⟩
  unfold read40
  have := slice_at a (bytes40 v) c
  rw [length_bytes40] at this
  rw [this, bind_ok, pure_eq, fold40_bytes40, Nat.mod_eq_of_lt (show v < 1099511627776 by omega)]

/-- What is read back in general -/
theorem read40_write40 (v : Nat) (a c : List Byte) : read40 (a ++ bytes40 v ++ c) a.length = .ok (v % 2 ^ 40) := by
  unfold read40
  have := slice_at a (bytes40 v) c
  rw [length_bytes40] at this
  rw [this, bind_ok, pure_eq, fold40_bytes40, show (2 : Nat) ^ 40 = 1099511627776 by decide]

/-- What `substract_40bit_int` computes: one less than the difference if the counter wrapped. -/
theorem sub40_eq {a b : Nat} (ha : a < 2 ^ 40) (hb : b < 2 ^ 40) : sub40 a b = if b ≤ a then a - b else a + 2 ^ 40 - b - 1 := by
  unfold sub40 u64Sub u64
  by_cases h : b ≤ a
  · rw [if_pos h, if_neg (by omega)]; omega
  · rw [if_neg h, if_pos (by omega)]; omega

/-- C40, as far as it holds: the time that passed between two readings of a 40-bit counter is computed exactly if the counter did not wrap between them.
In full it should hold whenever the time is less than 2^40; `elapsed_wrap` shows that it does not. -/
theorem elapsed_partial {s d : Nat} (h : s + d < 2 ^ 40) : sub40 ((s + d) % 2 ^ 40) (s % 2 ^ 40) = d := by
  rw [sub40_eq (Nat.mod_lt _ (by decide)) (Nat.mod_lt _ (by decide))]
  split <;> omega

/-- If the counter wraps once, the difference is always one too small. -/
theorem elapsed_wrap {s d : Nat} (hs : s < 2 ^ 40) (hd : d < 2 ^ 40) (h : 2 ^ 40 ≤ s + d) : sub40 ((s + d) % 2 ^ 40) (s % 2 ^ 40) = d - 1 := by
  rw [sub40_eq (Nat.mod_lt _ (by decide)) (Nat.mod_lt _ (by decide))]
  split <;> omega

/-- The counter wraps while 10 ticks pass: 9 are counted. -/
theorem elapsed_wrap_witness : sub40 ((1099511627770 + 10) % 2 ^ 40) 1099511627770 = 9 := by decide +kernel

example : sub40 ((1000 + 77) % 2 ^ 40) (1000 % 2 ^ 40) = 77 := elapsed_partial (by decide)

/-! ## Delayed transmission -/

theorem and_mask40 (x : Nat) : x &&& mask40 = x % 2 ^ 40 / 512 * 512 := by
  have hm : mask40 = (2 ^ 31 - 1) <<< 9 := by decide +kernel
  have hx : x % 2 ^ 40 / 512 * 512 = (x >>> 9 % 2 ^ 31) <<< 9 := by
    rw [Nat.shiftLeft_eq, Nat.shiftRight_eq_div_pow]; omega
  rw [hm, hx, ← Nat.and_two_pow_sub_one_eq_mod, Nat.shiftLeft_and_distrib]
  apply Nat.eq_of_testBit_eq
  intro i
  simp only [Nat.testBit_and, Nat.testBit_shiftLeft, Nat.testBit_shiftRight]
  by_cases h : i ≥ 9
  · simp only [h, decide_true, Bool.true_and]
    rw [show 9 + (i - 9) = i by omega]
  · simp [h]

/-- The time of transmission: at most `UWB_DELAY` later, at least `UWB_DELAY` minus 511 ticks later, and a multiple of 512, as the transceiver requires. -/
theorem later_spec {x : Nat} (h : x + 52428800 < 2 ^ 40) : x + 52428289 ≤ later x ∧ later x ≤ x + 52428800 ∧ later x % 512 = 0 := by
  unfold later
  rw [and_mask40]
  have : u64 (x + delay) = x + 52428800 := by unfold u64 delay; omega
  rw [this]
  omega

theorem later_lt (x : Nat) : later x < 2 ^ 40 := by
  unfold later
  rw [and_mask40]
  omega

/-! ## C41: the formula -/

theorem poly0 (T D1 D2 : Nat) : T * (2 * T + D1 + (2 * T + D2) + D1 + D2) + D1 * D2 ≤ (2 * T + D1) * (2 * T + D2) ∧
    (0 < T + D1 + D2 → (2 * T + D1) * (2 * T + D2) < (T + 1) * (2 * T + D1 + (2 * T + D2) + D1 + D2) + D1 * D2) := by
  constructor
  · nlinarith
  · intro h; nlinarith

theorem poly1 (U E1 E2 : Nat) : (U + 1) * ((2 * (U + 1) + (E1 + 1)) + (2 * (U + 1) + (E2 + 1)) + (E1 + 1) + (E2 + 1)) + (E1 + 1) * (E2 + 1) ≤ (2 * (U + 1) + (E1 + 1)) * (2 * (U + 1) + (E2 + 1)) ∧
    (2 * (U + 1) + (E1 + 1)) * (2 * (U + 1) + (E2 + 1)) < ((U + 1) + 1) * ((2 * (U + 1) + (E1 + 1)) + (2 * (U + 1) + (E2 + 1)) + (E1 + 1) + (E2 + 1)) + (E1 + 1) * (E2 + 1) := by
  constructor <;> nlinarith

theorem poly2 (U E1 E2 : Nat) : U * ((2 * (U + 1) + (E1 + 1)) + (2 * U + E2 + 2) + (E1 + 1) + (E2 + 1)) + (E1 + 1) * (E2 + 1) ≤ (2 * (U + 1) + (E1 + 1)) * (2 * U + E2 + 2) ∧
    (2 * (U + 1) + (E1 + 1)) * (2 * U + E2 + 2) < (U + 1) * ((2 * (U + 1) + (E1 + 1)) + (2 * U + E2 + 2) + (E1 + 1) + (E2 + 1)) + (E1 + 1) * (E2 + 1) := by
  constructor <;> nlinarith

theorem poly3 (U E1 E2 : Nat) : (U + 1) * ((2 * (U + 1) + (E1 + 1)) + (2 * (U + 1) + (E2 + 1)) + E1 + (E2 + 1)) + E1 * (E2 + 1) ≤ (2 * (U + 1) + (E1 + 1)) * (2 * (U + 1) + (E2 + 1)) ∧
    (2 * (U + 1) + (E1 + 1)) * (2 * (U + 1) + (E2 + 1)) < ((U + 1) + 1) * ((2 * (U + 1) + (E1 + 1)) + (2 * (U + 1) + (E2 + 1)) + E1 + (E2 + 1)) + E1 * (E2 + 1) := by
  constructor <;> nlinarith

theorem poly4 (U E1 E2 : Nat) : U * ((2 * U + E1 + 2) + (2 * (U + 1) + (E2 + 1)) + (E1 + 1) + (E2 + 1)) + (E1 + 1) * (E2 + 1) ≤ (2 * U + E1 + 2) * (2 * (U + 1) + (E2 + 1)) ∧
    (2 * U + E1 + 2) * (2 * (U + 1) + (E2 + 1)) < (U + 1) * ((2 * U + E1 + 2) + (2 * (U + 1) + (E2 + 1)) + (E1 + 1) + (E2 + 1)) + (E1 + 1) * (E2 + 1) := by
  constructor <;> nlinarith

theorem poly5 (U E1 E2 : Nat) : U * ((2 * U + E1 + 2) + (2 * U + E2 + 2) + (E1 + 1) + (E2 + 1)) + (E1 + 1) * (E2 + 1) ≤ (2 * U + E1 + 2) * (2 * U + E2 + 2) ∧
    (2 * U + E1 + 2) * (2 * U + E2 + 2) < (U + 1) * ((2 * U + E1 + 2) + (2 * U + E2 + 2) + (E1 + 1) + (E2 + 1)) + (E1 + 1) * (E2 + 1) := by
  constructor <;> nlinarith

theorem poly6 (U E1 E2 : Nat) : (U + 1) * ((2 * U + E1 + 2) + (2 * (U + 1) + (E2 + 1)) + E1 + (E2 + 1)) + E1 * (E2 + 1) ≤ (2 * U + E1 + 2) * (2 * (U + 1) + (E2 + 1)) ∧
    (2 * U + E1 + 2) * (2 * (U + 1) + (E2 + 1)) < ((U + 1) + 1) * ((2 * U + E1 + 2) + (2 * (U + 1) + (E2 + 1)) + E1 + (E2 + 1)) + E1 * (E2 + 1) := by
  constructor <;> nlinarith

theorem poly7 (U E1 E2 : Nat) : (U + 1) * ((2 * (U + 1) + (E1 + 1)) + (2 * (U + 1) + (E2 + 1)) + (E1 + 1) + E2) + (E1 + 1) * E2 ≤ (2 * (U + 1) + (E1 + 1)) * (2 * (U + 1) + (E2 + 1)) ∧
    (2 * (U + 1) + (E1 + 1)) * (2 * (U + 1) + (E2 + 1)) < ((U + 1) + 1) * ((2 * (U + 1) + (E1 + 1)) + (2 * (U + 1) + (E2 + 1)) + (E1 + 1) + E2) + (E1 + 1) * E2 := by
  constructor <;> nlinarith

theorem poly8 (U E1 E2 : Nat) : (U + 1) * ((2 * (U + 1) + (E1 + 1)) + (2 * U + E2 + 2) + (E1 + 1) + E2) + (E1 + 1) * E2 ≤ (2 * (U + 1) + (E1 + 1)) * (2 * U + E2 + 2) ∧
    (2 * (U + 1) + (E1 + 1)) * (2 * U + E2 + 2) < ((U + 1) + 1) * ((2 * (U + 1) + (E1 + 1)) + (2 * U + E2 + 2) + (E1 + 1) + E2) + (E1 + 1) * E2 := by
  constructor <;> nlinarith

theorem poly9 (U E1 E2 : Nat) : (U + 1) * ((2 * (U + 1) + (E1 + 1)) + (2 * (U + 1) + (E2 + 1)) + E1 + E2) + E1 * E2 ≤ (2 * (U + 1) + (E1 + 1)) * (2 * (U + 1) + (E2 + 1)) ∧
    (2 * (U + 1) + (E1 + 1)) * (2 * (U + 1) + (E2 + 1)) < ((U + 1) + 1) * ((2 * (U + 1) + (E1 + 1)) + (2 * (U + 1) + (E2 + 1)) + E1 + E2) + E1 * E2 := by
  constructor <;> nlinarith

theorem quotient {R0 R1 P0 P1 t : Nat} (hfit : R0 * R1 < 2 ^ 64) (hsum : R0 + R1 + P0 + P1 < 2 ^ 64) (lo : t * (R0 + R1 + P0 + P1) + P0 * P1 ≤ R0 * R1)
    (hi : R0 * R1 < (t + 1) * (R0 + R1 + P0 + P1) + P0 * P1) :
    (if u64 (R0 + R1 + P0 + P1) = 0 then .error .divZero else .ok (u64Sub (u64 (R0 * R1)) (u64 (P0 * P1)) / u64 (R0 + R1 + P0 + P1)) : Except Err Nat) = .ok t := by
  have e : u64 (R0 + R1 + P0 + P1) = R0 + R1 + P0 + P1 := Nat.mod_eq_of_lt hsum
  have e' : u64Sub (u64 (R0 * R1)) (u64 (P0 * P1)) = R0 * R1 - P0 * P1 := by
    unfold u64Sub u64
    have : 0 ≤ t * (R0 + R1 + P0 + P1) := Nat.zero_le _
    omega
  rw [e, e', if_neg]
  · congr 1
    exact Nat.div_eq_of_lt_le (by omega) (by omega)
  · intro h
    rw [h] at lo hi
    omega

/-- How far the difference of two readings is from the truth -/
theorem sub40_mod {s e : Nat} (he : s ≤ e) (hlt : e < s + 2 ^ 40) :
    sub40 (e % 2 ^ 40) (s % 2 ^ 40) = e - s - (e / 2 ^ 40 - s / 2 ^ 40) ∧ e / 2 ^ 40 - s / 2 ^ 40 ≤ e - s ∧ s / 2 ^ 40 ≤ e / 2 ^ 40 := by
  rw [sub40_eq (Nat.mod_lt _ (by decide)) (Nat.mod_lt _ (by decide))]
  split <;> omega

/-- C41: the propagation time from two symmetric measurements, for any two delays and without common clock. `a` are the times of the anchor, `b` those of the
tag, counted without wrapping; `d` is the difference of the clocks, `T` the propagation time, `D1` the time the tag takes to reply and `D2` the time the anchor
takes. Only the lower 40 bits are transmitted. The products must fit into 64 bits. If neither counter wraps during the exchange the result is exact. -/
theorem propagation_exact {a1 b1 b2 a2 a3 b3 T D1 D2 : Nat} {d : Int} (h1 : (b1 : Int) = a1 + d + T) (h2 : b2 = b1 + D1) (h3 : (a2 : Int) = b2 - d + T)
    (h4 : a3 = a2 + D2) (h5 : (b3 : Int) = a3 + d + T) (ha : a3 / 2 ^ 40 = a1 / 2 ^ 40) (hb : b3 / 2 ^ 40 = b1 / 2 ^ 40) (hpos : 0 < T + D1 + D2)
    (hfit : (2 * T + D1) * (2 * T + D2) < 2 ^ 64) :
    propagation (a1 % 2 ^ 40) (b1 % 2 ^ 40) (b2 % 2 ^ 40) (a2 % 2 ^ 40) (a3 % 2 ^ 40) (b3 % 2 ^ 40) = .ok T := by
  unfold propagation
  have r0 : sub40 (a2 % 2 ^ 40) (a1 % 2 ^ 40) = 2 * T + D1 := by rw [(sub40_mod (s := a1) (e := a2) (by omega) (by omega)).1]; omega
  have r1 : sub40 (b3 % 2 ^ 40) (b2 % 2 ^ 40) = 2 * T + D2 := by rw [(sub40_mod (s := b2) (e := b3) (by omega) (by omega)).1]; omega
  have p0 : sub40 (b2 % 2 ^ 40) (b1 % 2 ^ 40) = D1 := by rw [(sub40_mod (s := b1) (e := b2) (by omega) (by omega)).1]; omega
  have p1 : sub40 (a3 % 2 ^ 40) (a2 % 2 ^ 40) = D2 := by rw [(sub40_mod (s := a2) (e := a3) (by omega) (by omega)).1]; omega
  simp only [r0, r1, p0, p1]
  exact quotient hfit (by omega) (poly0 T D1 D2).1 ((poly0 T D1 D2).2 hpos)

theorem wraps {s m e : Nat} (h1 : s ≤ m) (h2 : m ≤ e) (h3 : e < s + 2 ^ 40) : m / 2 ^ 40 - s / 2 ^ 40 + (e / 2 ^ 40 - m / 2 ^ 40) ≤ 1 := by omega

theorem wrap_cases {T D1 D2 e0 e1 f0 f1 : Nat} (hT : 0 < T) (hD : 0 < D1 ∧ 0 < D2) (hsum : 4 * T + 2 * D1 + 2 * D2 < 2 ^ 64) (ha : e0 + f1 ≤ 1) (hb : f0 + e1 ≤ 1)
    (hfit : (2 * T + D1) * (2 * T + D2) < 2 ^ 64) :
    ∃ t, (if u64 (2 * T + D1 - e0 + (2 * T + D2 - e1) + (D1 - f0) + (D2 - f1)) = 0 then .error .divZero
      else .ok (u64Sub (u64 ((2 * T + D1 - e0) * (2 * T + D2 - e1))) (u64 ((D1 - f0) * (D2 - f1))) /
        u64 (2 * T + D1 - e0 + (2 * T + D2 - e1) + (D1 - f0) + (D2 - f1))) : Except Err Nat) = .ok t ∧ (t = T ∨ t + 1 = T) := by
  obtain ⟨U, rfl⟩ : ∃ U, T = U + 1 := ⟨T - 1, by omega⟩
  obtain ⟨E1, rfl⟩ : ∃ E1, D1 = E1 + 1 := ⟨D1 - 1, by omega⟩
  obtain ⟨E2, rfl⟩ : ∃ E2, D2 = E2 + 1 := ⟨D2 - 1, by omega⟩
  have f := Nat.lt_of_le_of_lt (Nat.mul_le_mul (Nat.sub_le (2 * (U + 1) + (E1 + 1)) e0) (Nat.sub_le (2 * (U + 1) + (E2 + 1)) e1)) hfit
  clear hfit hT hD
  have ca : e0 = 0 ∧ f1 = 0 ∨ e0 = 1 ∧ f1 = 0 ∨ e0 = 0 ∧ f1 = 1 := by omega
  have cb : e1 = 0 ∧ f0 = 0 ∨ e1 = 1 ∧ f0 = 0 ∨ e1 = 0 ∧ f0 = 1 := by omega
  have x1 : 2 * (U + 1) + (E1 + 1) - 1 = 2 * U + E1 + 2 := by omega
  have x2 : 2 * (U + 1) + (E2 + 1) - 1 = 2 * U + E2 + 2 := by omega
  rcases ca with ⟨rfl, rfl⟩ | ⟨rfl, rfl⟩ | ⟨rfl, rfl⟩ <;> rcases cb with ⟨rfl, rfl⟩ | ⟨rfl, rfl⟩ | ⟨rfl, rfl⟩ <;> clear ha hb
  · rw [Nat.sub_zero, Nat.sub_zero] at f
    rw [Nat.sub_zero, Nat.sub_zero, Nat.sub_zero, Nat.sub_zero]
    exact ⟨U + 1, quotient f (by omega) (poly1 U E1 E2).1 (poly1 U E1 E2).2, .inl rfl⟩
  · rw [Nat.sub_zero, x2] at f
    rw [x2, Nat.sub_zero, Nat.sub_zero, Nat.sub_zero]
    exact ⟨U, quotient f (by omega) (poly2 U E1 E2).1 (poly2 U E1 E2).2, .inr rfl⟩
  · rw [Nat.sub_zero, Nat.sub_zero] at f
    rw [Nat.sub_zero, Nat.sub_zero, Nat.sub_zero, Nat.add_sub_cancel E1]
    exact ⟨U + 1, quotient f (by omega) (poly3 U E1 E2).1 (poly3 U E1 E2).2, .inl rfl⟩
  · rw [Nat.sub_zero, x1] at f
    rw [x1, Nat.sub_zero, Nat.sub_zero, Nat.sub_zero]
    exact ⟨U, quotient f (by omega) (poly4 U E1 E2).1 (poly4 U E1 E2).2, .inr rfl⟩
  · rw [x1, x2] at f
    rw [x1, x2, Nat.sub_zero, Nat.sub_zero]
    exact ⟨U, quotient f (by omega) (poly5 U E1 E2).1 (poly5 U E1 E2).2, .inr rfl⟩
  · rw [Nat.sub_zero, x1] at f
    rw [x1, Nat.sub_zero, Nat.sub_zero, Nat.add_sub_cancel E1]
    exact ⟨U + 1, quotient f (by omega) (poly6 U E1 E2).1 (poly6 U E1 E2).2, .inl rfl⟩
  · rw [Nat.sub_zero, Nat.sub_zero] at f
    rw [Nat.sub_zero, Nat.sub_zero, Nat.sub_zero, Nat.add_sub_cancel E2]
    exact ⟨U + 1, quotient f (by omega) (poly7 U E1 E2).1 (poly7 U E1 E2).2, .inl rfl⟩
  · rw [Nat.sub_zero, x2] at f
    rw [x2, Nat.sub_zero, Nat.sub_zero, Nat.add_sub_cancel E2]
    exact ⟨U + 1, quotient f (by omega) (poly8 U E1 E2).1 (poly8 U E1 E2).2, .inl rfl⟩
  · rw [Nat.sub_zero, Nat.sub_zero] at f
    rw [Nat.sub_zero, Nat.sub_zero, Nat.add_sub_cancel E1, Nat.add_sub_cancel E2]
    exact ⟨U + 1, quotient f (by omega) (poly9 U E1 E2).1 (poly9 U E1 E2).2, .inl rfl⟩

/-- C41: if a counter wraps during the exchange, the wrong difference (C40) makes the result at most one tick too small. -/
theorem propagation_wrap {a1 b1 b2 a2 a3 b3 T D1 D2 : Nat} {d : Int} (h1 : (b1 : Int) = a1 + d + T) (h2 : b2 = b1 + D1) (h3 : (a2 : Int) = b2 - d + T)
    (h4 : a3 = a2 + D2) (h5 : (b3 : Int) = a3 + d + T) (hT : 0 < T) (hlen : 2 * T + D1 + D2 < 2 ^ 40) (hD : 0 < D1 ∧ 0 < D2)
    (hfit : (2 * T + D1) * (2 * T + D2) < 2 ^ 64) :
    ∃ t, propagation (a1 % 2 ^ 40) (b1 % 2 ^ 40) (b2 % 2 ^ 40) (a2 % 2 ^ 40) (a3 % 2 ^ 40) (b3 % 2 ^ 40) = .ok t ∧ (t = T ∨ t + 1 = T) := by
  have d0 : a2 = a1 + (2 * T + D1) := by omega
  have d1 : b3 = b2 + (2 * T + D2) := by omega
  clear h1 h3 h5
  have r0 := (sub40_mod (s := a1) (e := a2) (by omega) (by omega)).1
  have r1 := (sub40_mod (s := b2) (e := b3) (by omega) (by omega)).1
  have p0 := (sub40_mod (s := b1) (e := b2) (by omega) (by omega)).1
  have p1 := (sub40_mod (s := a2) (e := a3) (by omega) (by omega)).1
  have ha := wraps (s := a1) (m := a2) (e := a3) (by omega) (by omega) (by omega)
  have hb := wraps (s := b1) (m := b2) (e := b3) (by omega) (by omega) (by omega)
  rw [show a2 - a1 = 2 * T + D1 by omega] at r0
  rw [show b3 - b2 = 2 * T + D2 by omega] at r1
  rw [show b2 - b1 = D1 by omega] at p0
  rw [show a3 - a2 = D2 by omega] at p1
  unfold propagation
  rw [r0, r1, p0, p1]
  exact wrap_cases hT hD (by omega) ha hb hfit

/-- Without propagation time and without delays the code divides by zero. -/
theorem propagation_zero {t : Nat} : propagation t t t t t t = .error .divZero := by
  unfold propagation
  have : sub40 t t = 0 := by unfold sub40 u64Sub u64; simp
  simp [this, u64]

end Verif.Uwb
