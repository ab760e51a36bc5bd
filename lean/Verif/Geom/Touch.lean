import Verif.Geom.Crossing

/-! The geometry behind `is_crossing_poly` -/

namespace Verif.Geom

theorem turn_self_left (a b : P) : turn a b a = 0 := by simp only [turn]; ring
theorem turn_self_right (a b : P) : turn a b b = 0 := by simp only [turn]; ring

theorem collinear_iff {s1 s2 t1 t2 : P} (hs : s1 ≠ s2) (ht : t1 ≠ t2) : Collinear s1 s2 t1 t2 ↔ turn t1 t2 s1 = 0 ∧ turn t1 t2 s2 = 0 := by
  rcases seg_lines hs ht with ⟨p, _, _, _, hu, hc⟩ | ⟨_, hc, hi⟩ | ⟨_, hc, hi⟩
  · exact ⟨fun h => absurd h hc, fun h => absurd ((hu s1 (turn_self_left _ _) h.1).trans (hu s2 (turn_self_right _ _) h.2).symm) hs⟩
  · exact ⟨fun _ => ⟨(hi s1).1 (turn_self_left _ _), (hi s2).1 (turn_self_right _ _)⟩, fun _ => hc⟩
  · exact ⟨fun h => absurd h hc, fun h => absurd h.1 (hi s1 (turn_self_left _ _))⟩

/-- Two common points: the same line -/
theorem collinear_of_two {s1 s2 t1 t2 p q : P} (hs : s1 ≠ s2) (ht : t1 ≠ t2) (hpq : p ≠ q) (p1 : turn s1 s2 p = 0) (p2 : turn t1 t2 p = 0) (q1 : turn s1 s2 q = 0) (q2 : turn t1 t2 q = 0) :
    Collinear s1 s2 t1 t2 := by
  rcases seg_lines hs ht with ⟨r, _, _, _, hu, hc⟩ | ⟨_, hc, hi⟩ | ⟨_, hc, hi⟩
  · exact absurd ((hu p p1 p2).trans (hu q q1 q2).symm) hpq
  · exact hc
  · exact absurd p2 (hi p p1)

theorem collinear_all {s1 s2 t1 t2 p : P} (hs : s1 ≠ s2) (ht : t1 ≠ t2) (hc : Collinear s1 s2 t1 t2) (h : turn s1 s2 p = 0) : turn t1 t2 p = 0 := by
  rcases seg_lines hs ht with ⟨r, _, _, _, hu, hc'⟩ | ⟨_, _, hi⟩ | ⟨_, hc', hi⟩
  · exact absurd hc hc'
  · exact (hi p).1 h
  · exact absurd hc hc'

theorem inSeg_trans {q w m a b : P} (hq : InSeg q a b) (hw : InSeg w a b) (hm : InSeg m q w) : InSeg m a b := by
  obtain ⟨s, s0, s1, rfl⟩ := hq
  obtain ⟨t, t0, t1, rfl⟩ := hw
  obtain ⟨u, u0, u1, rfl⟩ := hm
  refine ⟨(1 - u) * s + u * t, ?_, ?_, ?_⟩
  · have := mul_nonneg (sub_nonneg.2 u1) s0
    have := mul_nonneg u0 t0
    linarith
  · have := mul_nonneg (sub_nonneg.2 u1) (sub_nonneg.2 s1)
    have := mul_nonneg u0 (sub_nonneg.2 t1)
    linarith
  · apply P.ext' <;> simp only [at'] <;> ring

theorem inSeg_open {p a b : P} (h : InSeg p a b) (ha : p ≠ a) (hb : p ≠ b) : InOpenSeg p a b := by
  obtain ⟨t, h0, h1, e⟩ := h
  refine ⟨t, lt_of_le_of_ne h0 (fun z => ha ?_), lt_of_le_of_ne h1 (fun z => hb ?_), e⟩
  · rw [e, ← z, at_zero]
  · rw [e, z, at_one]

section
variable {pol : List P} (hc : Convex pol)
include hc

/-- A point strictly inside a side is to the left of the other sides -/
theorem other_pos {q : P} {i j : Nat} (hi : i < pol.length) (hj : j < pol.length) (hij : i ≠ j) (h : InOpenSeg q (vtx pol i) (vtx pol (nx pol.length i))) : 0 < f pol j q := by
  have hn := conv_n hc
  obtain ⟨t, h0, h1, rfl⟩ := h
  rw [f_lin]
  have a := conv_nonneg hc hj hi
  have b := conv_nonneg hc hj (nx_lt hi)
  have a' := mul_nonneg (le_of_lt (sub_pos.2 h1)) a
  have b' := mul_nonneg (le_of_lt h0) b
  by_cases e : i = nx pol.length j
  · -- then the other end is not on side j
    have := conv_pos hc hj (nx_lt hi) (by rw [e]; exact nx_nx_ne hn hj) (fun e' => hij (nx_inj hi hj e'))
    have := mul_pos h0 this
    linarith
  · have := conv_pos hc hj hi hij e
    have := mul_pos (sub_pos.2 h1) this
    linarith

theorem vertex_on {j k : Nat} (hj : j < pol.length) (hk : k < pol.length) (h : f pol j (vtx pol k) = 0) : k = j ∨ k = nx pol.length j := by
  refine Classical.byContradiction (fun hno => ?_)
  have := conv_pos hc hj hk (fun e => hno (Or.inl e)) (fun e => hno (Or.inr e))
  linarith

theorem hull_range (hr : ∀ v ∈ pol, InRange v) {p : P} (h : Hull pol p) : InRange p := by
  induction h with
  | vertex hm => exact hr _ hm
  | seg _ _ hs ih1 ih2 => exact inRange_seg hs ih1 ih2

omit hc in
/-- A small step from `p` towards `w` -/
theorem nudge {p w : P} : ∀ m, m ≤ pol.length → (∀ j, j < m → 0 < f pol j p ∨ (f pol j p = 0 ∧ 0 < f pol j w)) →
    ∃ δ : ℚ, 0 < δ ∧ δ ≤ 1 ∧ ∀ d : ℚ, 0 < d → d ≤ δ → ∀ j, j < m → 0 < f pol j (at' p w d) := by
  intro m
  induction m with
  | zero => exact fun _ _ => ⟨1, by norm_num, le_refl _, fun _ _ _ j hj => absurd hj (Nat.not_lt_zero j)⟩
  | succ m ih =>
    intro hm h
    obtain ⟨δ, h0, h1, hd⟩ := ih (by omega) (fun j hj => h j (by omega))
    have : ∃ ε : ℚ, 0 < ε ∧ ∀ d : ℚ, 0 < d → d ≤ ε → d ≤ 1 → 0 < f pol m (at' p w d) := by
      rcases h m (by omega) with hp | ⟨hp, hw⟩
      · have hM : 0 < 2 * (f pol m p + |f pol m w|) := by
          have := abs_nonneg (f pol m w); linarith
        refine ⟨f pol m p / (2 * (f pol m p + |f pol m w|)), div_pos hp hM, fun d d0 d1 _ => ?_⟩
        rw [f_lin]
        rw [le_div_iff₀ hM] at d1
        have h2 := neg_abs_le (f pol m w)
        have h3 := mul_le_mul_of_nonneg_left h2 (le_of_lt d0)
        linarith
      · refine ⟨1, by norm_num, fun d d0 _ _ => ?_⟩
        rw [f_lin, hp]
        have := mul_pos d0 hw
        linarith
    obtain ⟨ε, e0, he⟩ := this
    refine ⟨min δ ε, lt_min h0 e0, le_trans (min_le_left _ _) h1, fun d d0 d1 j hj => ?_⟩
    by_cases e : j = m
    · rw [e]; exact he d d0 (le_trans d1 (min_le_right _ _)) (le_trans d1 (le_trans (min_le_left _ _) h1))
    · exact hd d d0 (le_trans d1 (min_le_left _ _)) j (by omega)

omit hc in
/-- Among the sides that `p` is to the right of, the one met last on the way to `m` -/
theorem last_side {p m : P} (hm : ∀ i, i < pol.length → 0 ≤ f pol i m) : ∀ k, k ≤ pol.length →
    (∀ i, i < k → 0 ≤ f pol i p) ∨ ∃ i, i < k ∧ f pol i p < 0 ∧ ∀ j, j < k → f pol j p < 0 → -f pol j p / (f pol j m - f pol j p) ≤ -f pol i p / (f pol i m - f pol i p) := by
  intro k
  induction k with
  | zero => exact fun _ => Or.inl (fun i hi => absurd hi (Nat.not_lt_zero i))
  | succ k ih =>
    intro hk
    by_cases hlt : f pol k p < 0
    · rcases ih (by omega) with h | ⟨i, hi, h1, h2⟩
      · refine Or.inr ⟨k, by omega, hlt, fun j hj hj' => ?_⟩
        by_cases e : j = k
        · rw [e]
        · exact absurd hj' (not_lt.2 (h j (by omega)))
      · by_cases hle : -f pol k p / (f pol k m - f pol k p) ≤ -f pol i p / (f pol i m - f pol i p)
        · refine Or.inr ⟨i, by omega, h1, fun j hj hj' => ?_⟩
          by_cases e : j = k
          · rw [e]; exact hle
          · exact h2 j (by omega) hj'
        · refine Or.inr ⟨k, by omega, hlt, fun j hj hj' => ?_⟩
          by_cases e : j = k
          · rw [e]
          · exact le_trans (h2 j (by omega) hj') (le_of_lt (not_le.1 hle))
    · rcases ih (by omega) with h | ⟨i, hi, h1, h2⟩
      · refine Or.inl (fun i hi => ?_)
        by_cases e : i = k
        · rw [e]; exact not_lt.1 hlt
        · exact h i (by omega)
      · refine Or.inr ⟨i, by omega, h1, fun j hj hj' => ?_⟩
        by_cases e : j = k
        · rw [e] at hj'; exact absurd hj' hlt
        · exact h2 j (by omega) hj'

/-- On the way from outside to a covered point one meets a side -/
theorem enter {p m : P} (hp : ¬Hull pol p) (hm : Hull pol m) : ∃ s : ℚ, 0 < s ∧ s ≤ 1 ∧ Boundary pol (at' p m s) ∧ (Interior pol m → s < 1) := by
  have hm' := hull_half hc hm
  rcases last_side hm' pol.length (Nat.le_refl _) with h | ⟨i, hi, h1, h2⟩
  · exact absurd (half_hull hc h) hp
  · have mi := hm' i hi
    have hD : 0 < f pol i m - f pol i p := by linarith
    have hs0 : 0 < -f pol i p / (f pol i m - f pol i p) := div_pos (by linarith) hD
    have hs1 : -f pol i p / (f pol i m - f pol i p) ≤ 1 := by rw [div_le_one₀ hD]; linarith
    refine ⟨_, hs0, hs1, ?_, ?_⟩
    · have half : ∀ j, j < pol.length → 0 ≤ f pol j (at' p m (-f pol i p / (f pol i m - f pol i p))) := by
        intro j hj
        have mj := hm' j hj
        rw [f_lin]
        by_cases hlt : f pol j p < 0
        · have hDj : 0 < f pol j m - f pol j p := by linarith
          have := h2 j hj hlt
          rw [div_le_iff₀ hDj] at this
          generalize -f pol i p / (f pol i m - f pol i p) = s at *
          nlinarith
        · generalize -f pol i p / (f pol i m - f pol i p) = s at *
          have := mul_nonneg (sub_nonneg.2 hs1) (not_lt.1 hlt)
          have := mul_nonneg (le_of_lt hs0) mj
          linarith
      have zero : f pol i (at' p m (-f pol i p / (f pol i m - f pol i p))) = 0 := by
        rw [f_lin]
        have e : -f pol i p / (f pol i m - f pol i p) * (f pol i m - f pol i p) = -f pol i p := div_mul_cancel₀ _ (ne_of_gt hD)
        generalize -f pol i p / (f pol i m - f pol i p) = s at *
        linarith
      exact (boundary_iff hc).2 ⟨i, hi, on_side hc half hi zero⟩
    · intro hint
      have := interior_pos hc hint i hi
      rw [div_lt_one₀ hD]; linarith

/-- From a point not in the interior towards an interior point -/
theorem leave {p m : P} (hp : ¬Interior pol p) (hm : Interior pol m) : ∃ s : ℚ, 0 ≤ s ∧ s < 1 ∧ Boundary pol (at' p m s) := by
  by_cases h : Hull pol p
  · exact ⟨0, le_refl _, by norm_num, by rw [at_zero]; exact ⟨h, hp⟩⟩
  · obtain ⟨s, s0, _, hb, hs⟩ := enter hc h (interior_hull hm)
    exact ⟨s, le_of_lt s0, hs hm, hb⟩

variable {p1 p2 : P} (hp : p1 ≠ p2)
include hp

/-- Result of `intersect_segment` for side `i` -/
abbrev cd (pol : List P) (p1 p2 : P) (i : Nat) : Nat := code p1 p2 (vtx pol i, vtx pol (nx pol.length i))

theorem cd_le {i : Nat} (hi : i < pol.length) : cd pol p1 p2 i ≤ 3 := seg_le hp (side_ne hc hi)

theorem cd_one {i : Nat} (hi : i < pol.length) (h : cd pol p1 p2 i = 1) : ∃ m, InSeg m p1 p2 ∧ Interior pol m := by
  have hne := side_ne hc hi
  obtain ⟨ncol, n1, n2, n3, n4⟩ := seg_one hp hne h
  obtain ⟨i1, i2⟩ := seg_sound hp hne (show (intersectSegment p1 p2 (vtx pol i) (vtx pol (nx pol.length i))).1 ≠ 0 by rw [show (intersectSegment p1 p2 (vtx pol i) (vtx pol (nx pol.length i))).1 = 1 from h]; decide)
  generalize (intersectSegment p1 p2 (vtx pol i) (vtx pol (nx pol.length i))).2 = q at *
  have hopen := inSeg_open i2 n3 n4
  obtain ⟨t, t0, t1, e⟩ := inSeg_open i1 n1 n2
  have z : f pol i q = 0 := inSeg_turn i2
  have z' : (1 - t) * f pol i p1 + t * f pol i p2 = 0 := by rw [← f_lin, ← e]; exact z
  -- one end is to the left of the side
  have : ∃ w, InSeg w p1 p2 ∧ 0 < f pol i w := by
    by_cases h1 : 0 < f pol i p1
    · exact ⟨p1, inSeg_left _ _, h1⟩
    by_cases h2 : 0 < f pol i p2
    · exact ⟨p2, inSeg_right _ _, h2⟩
    have a := mul_nonneg (le_of_lt (sub_pos.2 t1)) (neg_nonneg.2 (not_lt.1 h1))
    have b := mul_nonneg (le_of_lt t0) (neg_nonneg.2 (not_lt.1 h2))
    have a0 : (1 - t) * f pol i p1 = 0 := by linarith
    have b0 : t * f pol i p2 = 0 := by linarith
    have e1 : f pol i p1 = 0 := (mul_eq_zero.1 a0).resolve_left (by linarith)
    have e2 : f pol i p2 = 0 := (mul_eq_zero.1 b0).resolve_left (ne_of_gt t0)
    exact absurd ((collinear_iff hp hne).2 ⟨e1, e2⟩) ncol
  obtain ⟨w, hw, hpos⟩ := this
  obtain ⟨δ, d0, d1, hd⟩ := nudge (p := q) (w := w) pol.length (Nat.le_refl _) (fun j hj => by
    by_cases e : i = j
    · rw [← e]; exact Or.inr ⟨z, hpos⟩
    · exact Or.inl (other_pos hc hi hj e hopen))
  exact ⟨at' q w δ, inSeg_trans i1 hw ⟨δ, le_of_lt d0, d1, rfl⟩, (interior_iff hc).2 (hd δ d0 (le_refl _))⟩

/-- A segment that meets the interior is on no side's line -/
theorem not_col {m : P} (hm : InSeg m p1 p2) (hi' : Interior pol m) {i : Nat} (hi : i < pol.length) : ¬Collinear p1 p2 (vtx pol i) (vtx pol (nx pol.length i)) := by
  intro h
  have := collinear_all hp (side_ne hc hi) h (inSeg_turn hm)
  have := interior_pos hc hi' i hi
  unfold f at this
  linarith

theorem not_inside_of_not_col {i : Nat} (hi : i < pol.length) (h : ¬Collinear p1 p2 (vtx pol i) (vtx pol (nx pol.length i))) :
    ¬(InOpenSeg p1 (vtx pol i) (vtx pol (nx pol.length i)) ∧ InOpenSeg p2 (vtx pol i) (vtx pol (nx pol.length i))) :=
  fun ⟨a, b⟩ => h ((collinear_iff hp (side_ne hc hi)).2 ⟨inSeg_turn (inOpen_inSeg a), inSeg_turn (inOpen_inSeg b)⟩)

/-- A point of a side on the segment, which is on no side's line and crosses none: result 2, and the point is an end of one of the two -/
theorem cd_two (hr : ∀ v ∈ pol, InRange v) {i : Nat} (hi : i < pol.length) (hcol : ¬Collinear p1 p2 (vtx pol i) (vtx pol (nx pol.length i))) (h1 : cd pol p1 p2 i ≠ 1) (h3 : cd pol p1 p2 i ≠ 3)
    {q : P} (q1 : InSeg q p1 p2) (q2 : InSeg q (vtx pol i) (vtx pol (nx pol.length i))) : cd pol p1 p2 i = 2 ∧ (q = p1 ∨ q = p2 ∨ q = vtx pol i ∨ q = vtx pol (nx pol.length i)) := by
  have hne := side_ne hc hi
  have n0 : cd pol p1 p2 i ≠ 0 := seg_complete hp hne q1 q2 (hull_range hc hr (side_hull hi q2)) (not_inside_of_not_col hc hp hi hcol)
  have hle := cd_le hc hp hi
  have e2 : cd pol p1 p2 i = 2 := by omega
  refine ⟨e2, ?_⟩
  obtain ⟨i1, i2⟩ := seg_sound hp hne n0
  have := (seg_two hp hne e2).2
  have eq : (intersectSegment p1 p2 (vtx pol i) (vtx pol (nx pol.length i))).2 = q := by
    refine Classical.byContradiction (fun hno => hcol ?_)
    exact collinear_of_two hp hne hno (inSeg_turn i1) (inSeg_turn i2) (inSeg_turn q1) (inSeg_turn q2)
  rw [eq] at this
  exact this

end

end Verif.Geom
