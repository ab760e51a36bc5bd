import Verif.Map.Model
import Verif.Geom.Props

namespace Verif.Map

open Geom

/-- The points of a rectangle -/
def box (r b t l : ℚ) : List P := [⟨r, b⟩, ⟨r, t⟩, ⟨l, t⟩, ⟨l, b⟩]

theorem corners_box (r b t l : Int) : corners r b t l = box r b t l := rfl

theorem mul_between {a b t : ℚ} (h0 : 0 ≤ t) (h1 : t ≤ 1) (lo hi : ℚ) (ha : lo ≤ a ∧ a ≤ hi) (hb : lo ≤ b ∧ b ≤ hi) : lo ≤ a + t * (b - a) ∧ a + t * (b - a) ≤ hi := by
  constructor
  · nlinarith [mul_nonneg h0 (sub_nonneg.mpr hb.1), mul_nonneg (sub_nonneg.mpr h1) (sub_nonneg.mpr ha.1)]
  · nlinarith [mul_nonneg h0 (sub_nonneg.mpr hb.2), mul_nonneg (sub_nonneg.mpr h1) (sub_nonneg.mpr ha.2)]

theorem seg_param {lo hi x : ℚ} (h : lo ≤ x ∧ x ≤ hi) : ∃ t : ℚ, 0 ≤ t ∧ t ≤ 1 ∧ x = lo + t * (hi - lo) := by
  rcases lt_or_eq_of_le (le_trans h.1 h.2) with hl | hl
  · have hp : 0 < hi - lo := by linarith
    refine ⟨(x - lo) / (hi - lo), div_nonneg (by linarith) (le_of_lt hp), ?_, ?_⟩
    · rw [div_le_one₀ hp]; linarith
    · rw [div_mul_cancel₀ _ (ne_of_gt hp)]; ring
  · refine ⟨0, le_refl _, zero_le_one, ?_⟩
    rw [zero_mul, add_zero]
    subst hl
    exact le_antisymm h.2 h.1

/-- What the rectangle covers -/
theorem hull_box {r b t l : ℚ} (hx : l ≤ r) (hy : b ≤ t) (p : P) : Hull (box r b t l) p ↔ (l ≤ p.x ∧ p.x ≤ r) ∧ (b ≤ p.y ∧ p.y ≤ t) := by
  constructor
  · intro h
    induction h with
    | vertex hv =>
      simp only [box, List.mem_cons, List.not_mem_nil, or_false] at hv
      rcases hv with rfl | rfl | rfl | rfl <;> exact ⟨⟨by first | exact hx | exact le_refl _, by first | exact hx | exact le_refl _⟩, ⟨by first | exact hy | exact le_refl _, by first | exact hy | exact le_refl _⟩⟩
    | seg _ _ hs iha ihb =>
      obtain ⟨u, h0, h1, rfl⟩ := hs
      exact ⟨mul_between h0 h1 _ _ iha.1 ihb.1, mul_between h0 h1 _ _ iha.2 ihb.2⟩
  · rintro ⟨hpx, hpy⟩
    obtain ⟨u, u0, u1, hu⟩ := seg_param hpx
    obtain ⟨v, v0, v1, hv⟩ := seg_param hpy
    have hl : Hull (box r b t l) ⟨l, p.y⟩ := by
      refine .seg (a := ⟨l, b⟩) (b := ⟨l, t⟩) (.vertex (by simp [box])) (.vertex (by simp [box])) ⟨v, v0, v1, ?_⟩
      rw [hv]
      simp [at']
    have hr : Hull (box r b t l) ⟨r, p.y⟩ := by
      refine .seg (a := ⟨r, b⟩) (b := ⟨r, t⟩) (.vertex (by simp [box])) (.vertex (by simp [box])) ⟨v, v0, v1, ?_⟩
      rw [hv]
      simp [at']
    refine .seg hl hr ⟨u, u0, u1, ?_⟩
    cases p with
    | mk px py =>
      simp only at hu
      simp only [at', sub_self, mul_zero, add_zero, P.mk.injEq, and_true]
      exact hu

theorem interior_box {r b t l : ℚ} (hx : l ≤ r) (hy : b ≤ t) (p : P) : Interior (box r b t l) p ↔ (l < p.x ∧ p.x < r) ∧ (b < p.y ∧ p.y < t) := by
  constructor
  · rintro ⟨ε, he, h⟩
    have h1 := (hull_box hx hy _).mp (h ⟨p.x - ε, p.y - ε⟩ (by simp) (by simp; linarith) (by simp) (by simp; linarith))
    have h2 := (hull_box hx hy _).mp (h ⟨p.x + ε, p.y + ε⟩ (by simp; linarith) (by simp) (by simp; linarith) (by simp))
    simp only at h1 h2
    exact ⟨⟨by linarith, by linarith⟩, ⟨by linarith, by linarith⟩⟩
  · rintro ⟨⟨h1, h2⟩, ⟨h3, h4⟩⟩
    refine ⟨min (min (p.x - l) (r - p.x)) (min (p.y - b) (t - p.y)), ?_, ?_⟩
    · simp only [lt_min_iff]
      exact ⟨⟨by linarith, by linarith⟩, ⟨by linarith, by linarith⟩⟩
    · intro q q1 q2 q3 q4
      rw [hull_box hx hy]
      have m1 : min (min (p.x - l) (r - p.x)) (min (p.y - b) (t - p.y)) ≤ p.x - l := le_trans (min_le_left _ _) (min_le_left _ _)
      have m2 : min (min (p.x - l) (r - p.x)) (min (p.y - b) (t - p.y)) ≤ r - p.x := le_trans (min_le_left _ _) (min_le_right _ _)
      have m3 : min (min (p.x - l) (r - p.x)) (min (p.y - b) (t - p.y)) ≤ p.y - b := le_trans (min_le_right _ _) (min_le_left _ _)
      have m4 : min (min (p.x - l) (r - p.x)) (min (p.y - b) (t - p.y)) ≤ t - p.y := le_trans (min_le_right _ _) (min_le_right _ _)
      exact ⟨⟨by linarith, by linarith⟩, ⟨by linarith, by linarith⟩⟩

theorem convex_box {r b t l : ℚ} (hx : l < r) (hy : b < t) : Convex (box r b t l) := by
  refine ⟨by simp [box], fun i k hi hk hj h1 h2 => ?_⟩
  have e1 : 0 < (r - l) * (t - b) := mul_pos (by linarith) (by linarith)
  simp only [box, List.length_cons, List.length_nil] at hi hk hj h1 h2
  have hi' : i = 0 ∨ i = 1 ∨ i = 2 ∨ i = 3 := by omega
  have hk' : k = 0 ∨ k = 1 ∨ k = 2 ∨ k = 3 := by omega
  rcases hi' with rfl | rfl | rfl | rfl <;> rcases hk' with rfl | rfl | rfl | rfl <;>
    first
    | (exfalso; omega)
    | (simp only [box, turn, List.length_cons, List.length_nil, List.getElem_cons_zero, List.getElem_cons_succ, Nat.reduceAdd, Nat.reduceMod]; nlinarith)

theorem clamp_mem (v : Int) {lo hi : Int} (h : lo ≤ hi) : lo ≤ clamp v lo hi ∧ clamp v lo hi ≤ hi := by
  unfold clamp
  split
  · omega
  · split <;> omega

theorem clamp_le {v w : Int} (lo hi : Int) (h : v ≤ w) (h' : lo ≤ hi) : clamp v lo hi ≤ clamp w lo hi := by
  unfold clamp
  repeat' split
  all_goals omega

theorem rect_eq {cx cy sx sy robot : Int} {pol : List P} (h : rect cx cy sx sy robot = some pol) :
    pol = corners (tableX (cx + (sx + robot).tdiv 2)) (tableY (cy - (sy + robot).tdiv 2)) (tableY (cy + (sy + robot).tdiv 2)) (tableX (cx - (sx + robot).tdiv 2)) := by
  unfold rect at h
  have key : ∀ {x y : Int}, i32 x = some y → x = y := fun {x y} h => by
    unfold i32 at h
    split at h
    · exact Option.some.inj h
    · cases h
  simp only [Option.bind_eq_bind, Option.bind_eq_some_iff] at h
  obtain ⟨wx, h1, wy, h2, r, h3, b, h4, t, h5, l, h6, h7⟩ := h
  rw [← Option.some.inj h7, ← key h3, ← key h4, ← key h5, ← key h6, ← key h1, ← key h2]

theorem rectCorners_eq {blx bly trx try' robot : Int} {pol : List P} (h : rectCorners blx bly trx try' robot = some pol) :
    pol = corners (tableX (trx + robot.tdiv 2)) (tableY (bly - robot.tdiv 2)) (tableY (try' + robot.tdiv 2)) (tableX (blx - robot.tdiv 2)) := by
  unfold rectCorners at h
  have key : ∀ {x y : Int}, i32 x = some y → x = y := fun {x y} h => by
    unfold i32 at h
    split at h
    · exact Option.some.inj h
    · cases h
  simp only [Option.bind_eq_bind, Option.bind_eq_some_iff] at h
  obtain ⟨r, h3, b, h4, t, h5, l, h6, h7⟩ := h
  rw [← Option.some.inj h7, ← key h3, ← key h4, ← key h5, ← key h6]

theorem i32_of {x : Int} (h : -2147483648 ≤ x ∧ x ≤ 2147483647) : i32 x = some x := by
  unfold i32
  rw [if_pos h]

theorem rect_of {cx cy sx sy robot : Int} (h1 : -1000000000 ≤ cx ∧ cx ≤ 1000000000) (h2 : -1000000000 ≤ cy ∧ cy ≤ 1000000000)
    (h3 : 0 ≤ sx ∧ sx ≤ 1000000000) (h4 : 0 ≤ sy ∧ sy ≤ 1000000000) (h5 : 0 ≤ robot ∧ robot ≤ 1000000000) :
    rect cx cy sx sy robot = some (corners (tableX (cx + (sx + robot).tdiv 2)) (tableY (cy - (sy + robot).tdiv 2)) (tableY (cy + (sy + robot).tdiv 2)) (tableX (cx - (sx + robot).tdiv 2))) := by
  unfold rect
  have e1 : (sx + robot).tdiv 2 = (sx + robot) / 2 := Int.tdiv_eq_ediv_of_nonneg (by omega)
  have e2 : (sy + robot).tdiv 2 = (sy + robot) / 2 := Int.tdiv_eq_ediv_of_nonneg (by omega)
  rw [i32_of (by omega), i32_of (by omega)]
  simp only [Option.bind_eq_bind, Option.bind_some]
  rw [e1, e2, i32_of (by omega), i32_of (by omega), i32_of (by omega), i32_of (by omega)]
  rfl

theorem rectCorners_of {blx bly trx try' robot : Int} (h1 : -1000000000 ≤ blx ∧ blx ≤ 1000000000) (h2 : -1000000000 ≤ bly ∧ bly ≤ 1000000000)
    (h3 : -1000000000 ≤ trx ∧ trx ≤ 1000000000) (h4 : -1000000000 ≤ try' ∧ try' ≤ 1000000000) (h5 : 0 ≤ robot ∧ robot ≤ 1000000000) :
    rectCorners blx bly trx try' robot = some (corners (tableX (trx + robot.tdiv 2)) (tableY (bly - robot.tdiv 2)) (tableY (try' + robot.tdiv 2)) (tableX (blx - robot.tdiv 2))) := by
  unfold rectCorners
  have e1 : robot.tdiv 2 = robot / 2 := Int.tdiv_eq_ediv_of_nonneg (by omega)
  rw [e1, i32_of (by omega), i32_of (by omega), i32_of (by omega), i32_of (by omega)]
  rfl

end Verif.Map
