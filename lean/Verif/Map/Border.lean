import Verif.Map.Lemmas

namespace Verif.Map

open Geom

theorem inPolyLoop_two (p : P) (es : List (P × P)) : inPolyLoop p es 2 ≠ 1 := by
  induction es with
  | nil => exact (by decide : (2 : Nat) ≠ 1)
  | cons e es ih =>
    unfold inPolyLoop
    dsimp only
    split
    · exact (by decide : (0 : Nat) ≠ 1)
    · split <;> exact ih

theorem pvect_self (v : P) : pvectSign v v = 0 := by
  have : pvect v v = 0 := by unfold pvect; ring
  unfold pvectSign sign
  rw [if_pos this]

theorem inPolyLoop_degenerate (p a : P) (es : List (P × P)) (ret : Nat) (h : (a, a) ∈ es) : inPolyLoop p es ret ≠ 1 := by
  induction es generalizing ret with
  | nil => cases h
  | cons e es ih =>
    unfold inPolyLoop
    dsimp only
    rcases List.mem_cons.mp h with he | he
    · subst he
      rw [pvect_self]
      exact inPolyLoop_two p es
    · split
      · exact (by decide : (0 : Nat) ≠ 1)
      · split
        · exact ih 2 he
        · exact ih ret he

theorem isInPoly_degenerate (p a : P) (pol : List P) (h : (a, a) ∈ sides pol) : isInPoly p pol ≠ 1 := by
  unfold isInPoly
  split
  · exact (by decide : (2 : Nat) ≠ 1)
  · exact inPolyLoop_degenerate p a _ 1 h

theorem segment_degenerate' (s1 s2 t : P) : (intersectSegment s1 s2 t t).1 = 0 := by
  unfold intersectSegment intersectLine
  have : (pts2line t t).a = 0 ∧ (pts2line t t).b = 0 := by
    simp only [pts2line]; exact ⟨by ring, by ring⟩
  rw [if_pos (Or.inr this)]

theorem crossLoop_zero (p1 p2 : P) (es : List (P × P)) (cpt : Nat) (ip : P) (h : ∀ e ∈ es, (intersectSegment p1 p2 e.1 e.2).1 = 0) :
    crossLoop p1 p2 es cpt ip = .inr (cpt, ip) := by
  induction es with
  | nil => rfl
  | cons e es ih =>
    have h0 := h e (List.mem_cons_self)
    unfold crossLoop
    obtain ⟨a, b⟩ := e
    simp only at h0 ⊢
    revert h0
    generalize intersectSegment p1 p2 a b = r
    obtain ⟨c, q⟩ := r
    intro h0
    simp only at h0
    subst h0
    exact ih (fun e he => h e (List.mem_cons_of_mem _ he))

/-- A polygon with a side of length zero, none of whose sides meets the segment, does not block it -/
theorem crossing_degenerate (p1 p2 ip a : P) (pol : List P) (hd : (a, a) ∈ sides pol) (h : ∀ e ∈ sides pol, e.1 ≠ e.2 → ¬∃ q, InSeg q p1 p2 ∧ InSeg q e.1 e.2) :
    (isCrossingPoly p1 p2 ip pol).1 ≠ 1 := by
  have hz : crossLoop p1 p2 (sides pol) 0 ip = .inr (0, ip) := by
    refine crossLoop_zero _ _ _ _ _ fun e he => ?_
    by_cases hp : p1 = p2
    · rw [hp]; exact segment_degenerate _ _ _
    · by_cases hs : e.1 = e.2
      · rw [hs]; exact segment_degenerate' _ _ _
      · by_cases h0 : (intersectSegment p1 p2 e.1 e.2).1 = 0
        · exact h0
        · exact absurd ⟨_, segment_sound p1 p2 e.1 e.2 hp hs h0⟩ (h e he hs)
  unfold isCrossingPoly
  rw [hz]
  simp only
  rw [if_neg (by decide), if_pos trivial, if_neg (by
    rintro (h1 | h1)
    · exact isInPoly_degenerate p1 a pol hd h1
    · exact isInPoly_degenerate p2 a pol hd h1)]
  exact (by decide : (0 : Nat) ≠ 1)

theorem sides_box (r b t l : ℚ) : sides (box r b t l) = [(⟨r, b⟩, ⟨r, t⟩), (⟨r, t⟩, ⟨l, t⟩), (⟨l, t⟩, ⟨l, b⟩), (⟨l, b⟩, ⟨r, b⟩)] := by
  simp [sides, box, vtx, List.range_succ]

theorem box_flat_x (p1 p2 ip : P) (x b t : ℚ) (h : (p1.x < x ∧ p2.x < x) ∨ (x < p1.x ∧ x < p2.x)) : (isCrossingPoly p1 p2 ip (box x b t x)).1 ≠ 1 := by
  refine crossing_degenerate p1 p2 ip ⟨x, t⟩ _ (by rw [sides_box]; simp) ?_
  intro e he _ ⟨q, hq1, hq2⟩
  have hx : q.x = x := by
    rw [sides_box] at he
    simp only [List.mem_cons, List.not_mem_nil, or_false] at he
    obtain ⟨u, _, _, rfl⟩ := hq2
    rcases he with rfl | rfl | rfl | rfl <;> simp [at']
  obtain ⟨u, u0, u1, rfl⟩ := hq1
  simp only [at'] at hx
  rcases h with ⟨h1, h2⟩ | ⟨h1, h2⟩
  · nlinarith [mul_nonneg u0 (le_of_lt (sub_pos.mpr h2)), mul_nonneg (sub_nonneg.mpr u1) (le_of_lt (sub_pos.mpr h1))]
  · nlinarith [mul_nonneg u0 (le_of_lt (sub_pos.mpr h2)), mul_nonneg (sub_nonneg.mpr u1) (le_of_lt (sub_pos.mpr h1))]

theorem box_flat_y (p1 p2 ip : P) (r y l : ℚ) (h : (p1.y < y ∧ p2.y < y) ∨ (y < p1.y ∧ y < p2.y)) : (isCrossingPoly p1 p2 ip (box r y y l)).1 ≠ 1 := by
  refine crossing_degenerate p1 p2 ip ⟨r, y⟩ _ (by rw [sides_box]; simp) ?_
  intro e he _ ⟨q, hq1, hq2⟩
  have hx : q.y = y := by
    rw [sides_box] at he
    simp only [List.mem_cons, List.not_mem_nil, or_false] at he
    obtain ⟨u, _, _, rfl⟩ := hq2
    rcases he with rfl | rfl | rfl | rfl <;> simp [at']
  obtain ⟨u, u0, u1, rfl⟩ := hq1
  simp only [at'] at hx
  rcases h with ⟨h1, h2⟩ | ⟨h1, h2⟩
  · nlinarith [mul_nonneg u0 (le_of_lt (sub_pos.mpr h2)), mul_nonneg (sub_nonneg.mpr u1) (le_of_lt (sub_pos.mpr h1))]
  · nlinarith [mul_nonneg u0 (le_of_lt (sub_pos.mpr h2)), mul_nonneg (sub_nonneg.mpr u1) (le_of_lt (sub_pos.mpr h1))]

/-- Clamping makes no difference to points strictly inside -/
theorem clamp_lt_iff (v : Int) {hi : Int} (hh : 0 ≤ hi) {x : ℚ} (h0 : 0 < x) (h1 : x < hi) : ((clamp v 0 hi : Int) : ℚ) < x ↔ (v : ℚ) < x := by
  unfold clamp
  split
  · rename_i h
    have : (v : ℚ) < 0 := by exact_mod_cast h
    constructor
    · intro _; linarith
    · intro _; simpa using h0
  · split
    · rename_i h
      have : (hi : ℚ) < v := by exact_mod_cast h
      constructor <;> intro h <;> linarith
    · exact Iff.rfl

theorem lt_clamp_iff (v : Int) {hi : Int} (hh : 0 ≤ hi) {x : ℚ} (h0 : 0 < x) (h1 : x < hi) : x < ((clamp v 0 hi : Int) : ℚ) ↔ x < (v : ℚ) := by
  unfold clamp
  split
  · rename_i h
    have : (v : ℚ) < 0 := by exact_mod_cast h
    constructor
    · intro h'; simp at h'; linarith
    · intro _; linarith
  · split
    · rename_i h
      have : (hi : ℚ) < v := by exact_mod_cast h
      constructor
      · intro _; linarith
      · intro _; exact h1
    · exact Iff.rfl

theorem clamp_flat {v w : Int} {hi : Int} (hh : 0 < hi) (h : v < w) (he : clamp v 0 hi = clamp w 0 hi) : (clamp v 0 hi = 0 ∧ w ≤ 0) ∨ (clamp v 0 hi = hi ∧ hi ≤ v) := by
  unfold clamp at *
  repeat' split at he
  all_goals (repeat' split)
  all_goals omega

theorem seg_inside {q p1 p2 : P} (h : InSeg q p1 p2) {x y : ℚ} (h1 : (0 < p1.x ∧ p1.x < x) ∧ (0 < p1.y ∧ p1.y < y)) (h2 : (0 < p2.x ∧ p2.x < x) ∧ (0 < p2.y ∧ p2.y < y)) :
    (0 < q.x ∧ q.x < x) ∧ (0 < q.y ∧ q.y < y) := by
  have key : ∀ a b lo hi u : ℚ, lo < a ∧ a < hi → lo < b ∧ b < hi → 0 ≤ u → u ≤ 1 → lo < a + u * (b - a) ∧ a + u * (b - a) < hi := by
    intro a b lo hi u ha hb u0 u1
    rcases lt_or_eq_of_le u1 with hlt | rfl
    · constructor
      · nlinarith [mul_nonneg u0 (le_of_lt (sub_pos.mpr hb.1)), mul_pos (sub_pos.mpr hlt) (sub_pos.mpr ha.1)]
      · nlinarith [mul_nonneg u0 (le_of_lt (sub_pos.mpr hb.2)), mul_pos (sub_pos.mpr hlt) (sub_pos.mpr ha.2)]
    · constructor <;> linarith
  obtain ⟨u, u0, u1, rfl⟩ := h
  exact ⟨key _ _ _ _ u h1.1 h2.1 u0 u1, key _ _ _ _ u h1.2 h2.2 u0 u1⟩

theorem inRange_box {r b t l : ℚ} (hr : 0 ≤ r ∧ r ≤ 3000) (hl : 0 ≤ l ∧ l ≤ 3000) (hb : 0 ≤ b ∧ b ≤ 2000) (ht : 0 ≤ t ∧ t ≤ 2000) : ∀ v ∈ box r b t l, InRange v := by
  intro v hv
  simp only [box, List.mem_cons, List.not_mem_nil, or_false] at hv
  unfold InRange
  rcases hv with rfl | rfl | rfl | rfl <;> refine ⟨?_, ?_, ?_, ?_⟩ <;> simp only <;> linarith [hr.1, hr.2, hl.1, hl.2, hb.1, hb.2, ht.1, ht.2]

/-- A clamped rectangle blocks the same paths on the table as the rectangle itself -/
theorem clamped_crossing (R B T L : Int) (hx : L < R) (hy : B < T) (p1 p2 ip : P)
    (h1 : (0 < p1.x ∧ p1.x < 3000) ∧ (0 < p1.y ∧ p1.y < 2000)) (h2 : (0 < p2.x ∧ p2.x < 3000) ∧ (0 < p2.y ∧ p2.y < 2000)) :
    (isCrossingPoly p1 p2 ip (corners (tableX R) (tableY B) (tableY T) (tableX L))).1 = 1 ↔
      ∃ m, InSeg m p1 p2 ∧ (L < m.x ∧ m.x < R) ∧ (B < m.y ∧ m.y < T) := by
  rw [corners_box]
  have mX : ∀ v, 0 ≤ tableX v ∧ tableX v ≤ 3000 := fun v => clamp_mem v (by decide)
  have mY : ∀ v, 0 ≤ tableY v ∧ tableY v ≤ 2000 := fun v => clamp_mem v (by decide)
  have mX' : ∀ v, (0 : ℚ) ≤ tableX v ∧ (tableX v : ℚ) ≤ 3000 := fun v => ⟨by exact_mod_cast (mX v).1, by exact_mod_cast (mX v).2⟩
  have mY' : ∀ v, (0 : ℚ) ≤ tableY v ∧ (tableY v : ℚ) ≤ 2000 := fun v => ⟨by exact_mod_cast (mY v).1, by exact_mod_cast (mY v).2⟩
  have hxle : tableX L ≤ tableX R := clamp_le _ _ (le_of_lt hx) (by decide)
  have hyle : tableY B ≤ tableY T := clamp_le _ _ (le_of_lt hy) (by decide)
  have strict : ∀ m, InSeg m p1 p2 → (((tableX L : ℚ) < m.x ∧ m.x < tableX R) ∧ ((tableY B : ℚ) < m.y ∧ m.y < tableY T) ↔ ((L : ℚ) < m.x ∧ m.x < R) ∧ ((B : ℚ) < m.y ∧ m.y < T)) := by
    intro m hm
    obtain ⟨⟨a, b⟩, ⟨c, d⟩⟩ := seg_inside hm h1 h2
    have b' : m.x < ((sizeX : Int) : ℚ) := by unfold sizeX; exact_mod_cast b
    have d' : m.y < ((sizeY : Int) : ℚ) := by unfold sizeY; exact_mod_cast d
    unfold tableX tableY
    rw [clamp_lt_iff L (by decide) a b', lt_clamp_iff R (by decide) a b', clamp_lt_iff B (by decide) c d', lt_clamp_iff T (by decide) c d']
  by_cases ex : tableX L = tableX R
  · have hflat := clamp_flat (hi := sizeX) (by decide) hx ex
    have hne : (isCrossingPoly p1 p2 ip (box (tableX R) (tableY B) (tableY T) (tableX L))).1 ≠ 1 := by
      rw [ex]
      refine box_flat_x p1 p2 ip _ _ _ ?_
      rw [← ex]
      rcases hflat with ⟨e, _⟩ | ⟨e, _⟩
      · right
        rw [show tableX L = 0 from e]
        exact ⟨by simpa using h1.1.1, by simpa using h2.1.1⟩
      · left
        rw [show tableX L = 3000 from e]
        exact ⟨by exact_mod_cast h1.1.2, by exact_mod_cast h2.1.2⟩
    constructor
    · intro h; exact absurd h hne
    · rintro ⟨m, hm, hb⟩
      have := (strict m hm).mpr hb
      rw [ex] at this
      linarith [this.1.1, this.1.2]
  · by_cases ey : tableY B = tableY T
    · have hflat := clamp_flat (hi := sizeY) (by decide) hy ey
      have hne : (isCrossingPoly p1 p2 ip (box (tableX R) (tableY B) (tableY T) (tableX L))).1 ≠ 1 := by
        rw [← ey]
        refine box_flat_y p1 p2 ip _ _ _ ?_
        rcases hflat with ⟨e, _⟩ | ⟨e, _⟩
        · right
          rw [show tableY B = 0 from e]
          exact ⟨by simpa using h1.2.1, by simpa using h2.2.1⟩
        · left
          rw [show tableY B = 2000 from e]
          exact ⟨by exact_mod_cast h1.2.2, by exact_mod_cast h2.2.2⟩
      constructor
      · intro h; exact absurd h hne
      · rintro ⟨m, hm, hb⟩
        have := (strict m hm).mpr hb
        rw [ey] at this
        linarith [this.2.1, this.2.2]
    · have lx : (tableX L : ℚ) < tableX R := by exact_mod_cast (lt_of_le_of_ne hxle ex)
      have ly : (tableY B : ℚ) < tableY T := by exact_mod_cast (lt_of_le_of_ne hyle ey)
      rw [crossing_one _ (convex_box lx ly) (inRange_box (mX' R) (mX' L) (mY' B) (mY' T))]
      constructor
      · rintro ⟨m, hm, hi⟩
        exact ⟨m, hm, (strict m hm).mp ((interior_box (le_of_lt lx) (le_of_lt ly) m).mp hi)⟩
      · rintro ⟨m, hm, hi⟩
        exact ⟨m, hm, (interior_box (le_of_lt lx) (le_of_lt ly) m).mpr ((strict m hm).mpr hi)⟩

end Verif.Map
