import Verif.Geom.Touch

/-! The result of `is_crossing_poly`, case by case -/

namespace Verif.Geom

section
variable {pol : List P} {p1 p2 : P}

theorem cd_mem {i : Nat} (hi : i < pol.length) : (vtx pol i, vtx pol (nx pol.length i)) ∈ sides pol := mem_sides.2 ⟨i, hi, rfl⟩

/-- No side with result 1 or 3: the rest of the function -/
theorem cross_rest (ip : P) (h : ∀ i, i < pol.length → cd pol p1 p2 i = 0 ∨ cd pol p1 p2 i = 2) :
    (3 ≤ touches p1 p2 pol → (isCrossingPoly p1 p2 ip pol).1 = 1) ∧
    (isInPoly p1 pol = 1 ∨ isInPoly p2 pol = 1 → (isCrossingPoly p1 p2 ip pol).1 = 1) ∧
    (touches p1 p2 pol = 2 → isInPoly p1 pol ≠ 0 → isInPoly p2 pol ≠ 0 → (isCrossingPoly p1 p2 ip pol).1 = 1) ∧
    (touches p1 p2 pol = 2 → isInPoly p1 pol ≠ 1 → isInPoly p2 pol ≠ 1 → isInPoly p1 pol = 0 ∨ isInPoly p2 pol = 0 → (isCrossingPoly p1 p2 ip pol).1 = 3) ∧
    (touches p1 p2 pol = 1 → isInPoly p1 pol ≠ 1 → isInPoly p2 pol ≠ 1 → (isCrossingPoly p1 p2 ip pol).1 = 3) ∧
    (touches p1 p2 pol = 0 → isInPoly p1 pol ≠ 1 → isInPoly p2 pol ≠ 1 → (isCrossingPoly p1 p2 ip pol).1 = 0) ∧
    ((isCrossingPoly p1 p2 ip pol).2 = ip ∧ touches p1 p2 pol = 0 ∨ ∃ i, i < pol.length ∧ cd pol p1 p2 i = 2 ∧ (isCrossingPoly p1 p2 ip pol).2 = (intersectSegment p1 p2 (vtx pol i) (vtx pol (nx pol.length i))).2) := by
  obtain ⟨ip', e, hpt⟩ := crossLoop_count (p1 := p1) (p2 := p2) (sides pol) 0 ip (fun x hx => by
    obtain ⟨i, hi, rfl⟩ := mem_sides.1 hx
    exact h i hi)
  rw [touches_eq] at hpt
  rw [touches_eq, Nat.zero_add] at e
  have hpt' : ip' = ip ∧ touches p1 p2 pol = 0 ∨ ∃ i, i < pol.length ∧ cd pol p1 p2 i = 2 ∧ ip' = (intersectSegment p1 p2 (vtx pol i) (vtx pol (nx pol.length i))).2 := by
    rcases hpt with h | ⟨x, hx, h2, h3⟩
    · exact Or.inl h
    · obtain ⟨i, hi, rfl⟩ := mem_sides.1 hx
      exact Or.inr ⟨i, hi, h2, h3⟩
  unfold isCrossingPoly
  rw [e]
  dsimp only
  generalize touches p1 p2 pol = c at *
  generalize isInPoly p1 pol = r1 at *
  generalize isInPoly p2 pol = r2 at *
  have hsnd : ∀ x : Nat × P, x.2 = ip' → (x.2 = ip ∧ c = 0 ∨ ∃ i, i < pol.length ∧ cd pol p1 p2 i = 2 ∧ x.2 = (intersectSegment p1 p2 (vtx pol i) (vtx pol (nx pol.length i))).2) := by
    intro x hx; rw [hx]; exact hpt'
  refine ⟨?_, ?_, ?_, ?_, ?_, ?_, ?_⟩
  · intro hc
    by_cases h1 : c = 3 ∨ c = 4
    · rw [if_pos h1]
    · rw [if_neg h1, if_neg (by omega), if_neg (by omega), if_neg (by omega)]
  · intro hr
    by_cases h1 : c = 3 ∨ c = 4
    · rw [if_pos h1]
    · rw [if_neg h1]
      by_cases h2 : c = 0
      · rw [if_pos h2, if_pos hr]
      · rw [if_neg h2]
        by_cases h3 : c = 1
        · rw [if_pos h3, if_pos hr]
        · rw [if_neg h3]
          by_cases h4 : c = 2
          · rw [if_pos h4, if_pos hr]
          · rw [if_neg h4]
  · intro hc n1 n2
    rw [if_neg (by omega), if_neg (by omega), if_neg (by omega), if_pos hc]
    by_cases hr : r1 = 1 ∨ r2 = 1
    · rw [if_pos hr]
    · rw [if_neg hr, if_neg (by omega)]
  · intro hc n1 n2 hz
    rw [if_neg (by omega), if_neg (by omega), if_neg (by omega), if_pos hc, if_neg (by omega), if_pos hz]
  · intro hc n1 n2
    rw [if_neg (by omega), if_neg (by omega), if_pos hc, if_neg (by omega)]
  · intro hc n1 n2
    rw [if_neg (by omega), if_pos hc, if_neg (by omega)]
  · apply hsnd
    repeat' split
    all_goals rfl

theorem cross_return (hc : Convex pol) (hp : p1 ≠ p2) (ip : P) (h : ∃ i, i < pol.length ∧ (cd pol p1 p2 i = 1 ∨ cd pol p1 p2 i = 3)) :
    ∃ i, i < pol.length ∧ (isCrossingPoly p1 p2 ip pol).2 = (intersectSegment p1 p2 (vtx pol i) (vtx pol (nx pol.length i))).2 ∧
      (cd pol p1 p2 i = 1 ∧ (isCrossingPoly p1 p2 ip pol).1 = 1 ∨ cd pol p1 p2 i = 3 ∧ (isCrossingPoly p1 p2 ip pol).1 = 2) := by
  obtain ⟨i, hi, h⟩ := h
  obtain ⟨x, hx, h'⟩ := crossLoop_return (p1 := p1) (p2 := p2) (sides pol) 0 ip (fun x hx => by
    obtain ⟨j, hj, rfl⟩ := mem_sides.1 hx
    exact cd_le hc hp hj) ⟨_, cd_mem hi, h⟩
  obtain ⟨j, hj, rfl⟩ := mem_sides.1 hx
  refine ⟨j, hj, ?_⟩
  unfold isCrossingPoly
  rcases h' with ⟨e1, e2⟩ | ⟨e1, e2⟩
  · rw [e2]; exact ⟨rfl, Or.inl ⟨e1, rfl⟩⟩
  · rw [e2]; exact ⟨rfl, Or.inr ⟨e1, rfl⟩⟩

end

section
variable {pol : List P} (hc : Convex pol) (hr : ∀ v ∈ pol, InRange v) {p1 p2 : P} (hp : p1 ≠ p2)
include hc hp

/-- A side's result 1 or 3 is not both -/
theorem three_no_interior {i : Nat} (hi : i < pol.length) (h : cd pol p1 p2 i = 3) : ¬∃ m, InSeg m p1 p2 ∧ Interior pol m := by
  rintro ⟨m, hm, hint⟩
  exact not_col hc hp hm hint hi ((seg_three hp (side_ne hc hi)).1 h).1

include hr

/-- The segment meets the interior, seen from one of its ends: the boundary point on that side is touched by one side, by two if it is not the end itself -/
theorem touch_end (q m : P) (hm : InSeg m p1 p2) (hint : Interior pol m) (hn : ∀ i, i < pol.length → cd pol p1 p2 i ≠ 1 ∧ cd pol p1 p2 i ≠ 3) (hq : InSeg q p1 p2) (hb : Boundary pol q) :
    ∃ i, i < pol.length ∧ cd pol p1 p2 i = 2 ∧ f pol i q = 0 ∧ (q = p1 ∨ q = p2 ∨ ∃ j, j < pol.length ∧ j ≠ i ∧ cd pol p1 p2 j = 2 ∧ f pol j q = 0) := by
  have hn3 := conv_n hc
  obtain ⟨i, hi, hs⟩ := (boundary_iff hc).1 hb
  obtain ⟨h2, hend⟩ := cd_two hc hp hr hi (not_col hc hp hm hint hi) (hn i hi).1 (hn i hi).2 hq hs
  refine ⟨i, hi, h2, inSeg_turn hs, ?_⟩
  rcases hend with e | e | e | e
  · exact Or.inl e
  · exact Or.inr (Or.inl e)
  · obtain ⟨k, hk, ek⟩ := nx_pred hi
    have hs' : InSeg q (vtx pol k) (vtx pol (nx pol.length k)) := by rw [ek, e]; exact inSeg_right _ _
    have := cd_two hc hp hr hk (not_col hc hp hm hint hk) (hn k hk).1 (hn k hk).2 hq hs'
    exact Or.inr (Or.inr ⟨k, hk, fun e' => nx_ne (n := pol.length) (by omega) hk (by rw [ek, e']), this.1, inSeg_turn hs'⟩)
  · have hk := nx_lt hi
    have hs' : InSeg q (vtx pol (nx pol.length i)) (vtx pol (nx pol.length (nx pol.length i))) := by rw [e]; exact inSeg_left _ _
    have := cd_two hc hp hr hk (not_col hc hp hm hint hk) (hn _ hk).1 (hn _ hk).2 hq hs'
    exact Or.inr (Or.inr ⟨_, hk, nx_ne (by omega) hi, this.1, inSeg_turn hs'⟩)

/-- The interior is met: result 1 -/
theorem meets_interior (ip : P) {m : P} (hm : InSeg m p1 p2) (hint : Interior pol m) : (isCrossingPoly p1 p2 ip pol).1 = 1 := by
  by_cases hret : ∃ i, i < pol.length ∧ (cd pol p1 p2 i = 1 ∨ cd pol p1 p2 i = 3)
  · obtain ⟨i, hi, _, ⟨_, h⟩ | ⟨h3, _⟩⟩ := cross_return hc hp ip hret
    · exact h
    · exact absurd ⟨m, hm, hint⟩ (three_no_interior hc hp hi h3)
  have hn : ∀ i, i < pol.length → cd pol p1 p2 i ≠ 1 ∧ cd pol p1 p2 i ≠ 3 := fun i hi => ⟨fun h => hret ⟨i, hi, Or.inl h⟩, fun h => hret ⟨i, hi, Or.inr h⟩⟩
  have h02 : ∀ i, i < pol.length → cd pol p1 p2 i = 0 ∨ cd pol p1 p2 i = 2 := fun i hi => by
    have := cd_le hc hp hi; have := hn i hi; omega
  obtain ⟨R3, Rin, R2, _, _, _, _⟩ := cross_rest ip h02
  by_cases hin : isInPoly p1 pol = 1 ∨ isInPoly p2 pol = 1
  · exact Rin hin
  have hi1 : ¬Interior pol p1 := fun h => hin (Or.inl ((inPoly_iff hc p1).1.2 h))
  have hi2 : ¬Interior pol p2 := fun h => hin (Or.inr ((inPoly_iff hc p2).1.2 h))
  obtain ⟨s1, s10, s11, b1⟩ := leave hc hi1 hint
  obtain ⟨s2, s20, s21, b2⟩ := leave hc hi2 hint
  have q1 : InSeg (at' p1 m s1) p1 p2 := inSeg_trans (inSeg_left _ _) hm ⟨s1, s10, le_of_lt s11, rfl⟩
  have q2 : InSeg (at' p2 m s2) p1 p2 := inSeg_trans (inSeg_right _ _) hm ⟨s2, s20, le_of_lt s21, rfl⟩
  have m1 : m ≠ p1 := fun e => hi1 (by rw [← e]; exact hint)
  have m2 : m ≠ p2 := fun e => hi2 (by rw [← e]; exact hint)
  obtain ⟨t, t0, t1, et⟩ := inSeg_open hm m1 m2
  -- parameters along the segment
  have e1 : at' p1 m s1 = at' p1 p2 (s1 * t) := by rw [et]; apply P.ext' <;> simp only [at'] <;> ring
  have e2 : at' p2 m s2 = at' p1 p2 (1 + s2 * (t - 1)) := by rw [et]; apply P.ext' <;> simp only [at'] <;> ring
  have lt1 : s1 * t < t := by nlinarith
  have lt2 : t < 1 + s2 * (t - 1) := by nlinarith
  have ne12 : at' p1 m s1 ≠ at' p2 m s2 := fun e => by
    rw [e1, e2] at e
    have := at_inj hp e
    linarith
  -- no side has both
  have apart : ∀ i, i < pol.length → f pol i (at' p1 m s1) = 0 → f pol i (at' p2 m s2) = 0 → False := fun i hi z1 z2 =>
    not_col hc hp hm hint hi (collinear_of_two hp (side_ne hc hi) ne12 (inSeg_turn q1) z1 (inSeg_turn q2) z2)
  obtain ⟨i, hi, ci, fi, ri⟩ := touch_end hc hr hp _ m hm hint hn q1 b1
  obtain ⟨j, hj, cj, fj, rj⟩ := touch_end hc hr hp _ m hm hint hn q2 b2
  have hij : i ≠ j := fun e => apart i hi fi (by rw [e]; exact fj)
  have hnd := List.nodup_range (n := pol.length)
  have mi := List.mem_range.2 hi
  have mj := List.mem_range.2 hj
  have two : 2 ≤ touches p1 p2 pol := two_of_count hnd mi mj (decide_eq_true ci) (decide_eq_true cj) hij
  by_cases three : 3 ≤ touches p1 p2 pol
  · exact R3 three
  have extra : ∀ k, k < pol.length → cd pol p1 p2 k = 2 → k ≠ i → k ≠ j → False := fun k hk ck ki kj =>
    three (count_three hnd mi mj (List.mem_range.2 hk) (decide_eq_true ci) (decide_eq_true cj) (decide_eq_true ck) hij (Ne.symm ki) (Ne.symm kj))
  refine R2 (by omega) ?_ ?_
  · -- the first boundary point is p1
    have : at' p1 m s1 = p1 := by
      rcases ri with e | e | ⟨k, hk, ki, ck, fk⟩
      · exact e
      · rw [e1] at e
        have e' := at_inj hp (e.trans (at_one p1 p2).symm)
        linarith
      · exact absurd (extra k hk ck ki (fun e => apart k hk fk (by rw [e]; exact fj))) (fun h => h)
    rw [this] at b1
    rw [(inPoly_iff hc p1).2.1.2 b1]; decide
  · have : at' p2 m s2 = p2 := by
      rcases rj with e | e | ⟨k, hk, kj, ck, fk⟩
      · rw [e2] at e
        have e' := at_inj hp (e.trans (at_zero p1 p2).symm)
        linarith
      · exact e
      · exact absurd (extra k hk ck (fun e => apart k hk (by rw [e]; exact fi) fk) kj) (fun h => h)
    rw [this] at b2
    rw [(inPoly_iff hc p2).2.1.2 b2]; decide

omit hr in
/-- The interior is not met and the segment lies strictly inside no side: it has one covered point at most, unless it lies along a side -/
theorem covered_unique (hno : ¬∃ m, InSeg m p1 p2 ∧ Interior pol m) (hn3 : ∀ i, i < pol.length → cd pol p1 p2 i ≠ 3)
    (hins : ¬∃ i, i < pol.length ∧ InOpenSeg p1 (vtx pol i) (vtx pol (nx pol.length i)) ∧ InOpenSeg p2 (vtx pol i) (vtx pol (nx pol.length i)))
    {q r : P} (q1 : InSeg q p1 p2) (q2 : Hull pol q) (r1 : InSeg r p1 p2) (r2 : Hull pol r) : q = r := by
  refine Classical.byContradiction (fun hne => ?_)
  have hmid : InSeg (at' q r (1 / 2)) q r := ⟨1 / 2, by norm_num, by norm_num, rfl⟩
  have hb : Boundary pol (at' q r (1 / 2)) := ⟨Hull.seg q2 r2 hmid, fun h => hno ⟨_, inSeg_trans q1 r1 hmid, h⟩⟩
  obtain ⟨i, hi, hs⟩ := (boundary_iff hc).1 hb
  have z : f pol i (at' q r (1 / 2)) = 0 := inSeg_turn hs
  rw [f_lin] at z
  have a := hull_half hc q2 i hi
  have b := hull_half hc r2 i hi
  have za : f pol i q = 0 := by linarith
  have zb : f pol i r = 0 := by linarith
  have hcol := collinear_of_two hp (side_ne hc hi) hne (inSeg_turn q1) za (inSeg_turn r1) zb
  have h1 : ¬InSeg (vtx pol i) p1 p2 := fun h => hn3 i hi ((seg_three hp (side_ne hc hi)).2 ⟨hcol, Or.inl h⟩)
  have h2 : ¬InSeg (vtx pol (nx pol.length i)) p1 p2 := fun h => hn3 i hi ((seg_three hp (side_ne hc hi)).2 ⟨hcol, Or.inr h⟩)
  obtain ⟨c1, c2⟩ := (collinear_iff hp (side_ne hc hi)).1 hcol
  exact hins ⟨i, hi, collinear_inside (side_ne hc hi) hp c1 c2 q1 (on_side hc (hull_half hc q2) hi za) h1 h2⟩

omit hr in
/-- Then two sides at most are touched -/
theorem touches_le (hu : ∀ q r, InSeg q p1 p2 → Hull pol q → InSeg r p1 p2 → Hull pol r → q = r) : touches p1 p2 pol ≤ 2 := by
  refine Nat.not_lt.1 (fun h => ?_)
  obtain ⟨i, j, k, mi, mj, mk, ci, cj, ck, hij, hik, hjk⟩ := three_of_count List.nodup_range h
  have hi := List.mem_range.1 mi
  have hj := List.mem_range.1 mj
  have hk := List.mem_range.1 mk
  have pt : ∀ l, l < pol.length → cd pol p1 p2 l = 2 → ∃ q, InSeg q p1 p2 ∧ InSeg q (vtx pol l) (vtx pol (nx pol.length l)) := fun l hl cl => by
    have := seg_sound hp (side_ne hc hl) (show (intersectSegment p1 p2 (vtx pol l) (vtx pol (nx pol.length l))).1 ≠ 0 by
      rw [show (intersectSegment p1 p2 (vtx pol l) (vtx pol (nx pol.length l))).1 = 2 from cl]; decide)
    exact ⟨_, this⟩
  obtain ⟨q, q1, q2⟩ := pt i hi (of_decide_eq_true ci)
  obtain ⟨q', q1', q2'⟩ := pt j hj (of_decide_eq_true cj)
  obtain ⟨q'', q1'', q2''⟩ := pt k hk (of_decide_eq_true ck)
  have e1 := hu q q' q1 (side_hull hi q2) q1' (side_hull hj q2')
  have e2 := hu q q'' q1 (side_hull hi q2) q1'' (side_hull hk q2'')
  rw [← e1] at q2'
  rw [← e2] at q2''
  have fj : f pol j q = 0 := inSeg_turn q2'
  have fk : f pol k q = 0 := inSeg_turn q2''
  -- the point is an end of side i
  by_cases ea : q = vtx pol i
  · rw [ea] at fj fk
    have a := (vertex_on hc hj hi fj).resolve_left hij
    have b := (vertex_on hc hk hi fk).resolve_left hik
    exact hjk (nx_inj hj hk (a.symm.trans b))
  · by_cases eb : q = vtx pol (nx pol.length i)
    · rw [eb] at fj fk
      rcases vertex_on hc hj (nx_lt hi) fj with a | a
      · rcases vertex_on hc hk (nx_lt hi) fk with b | b
        · exact hjk (a.symm.trans b)
        · exact hik (nx_inj hi hk b)
      · exact hij (nx_inj hi hj a)
    · have := other_pos hc hi hj hij (inSeg_open q2 ea eb)
      linarith

omit hr in
/-- A segment strictly inside a side: result 0 -/
theorem inside_zero (ip : P) {i : Nat} (hi : i < pol.length) (h1 : InOpenSeg p1 (vtx pol i) (vtx pol (nx pol.length i))) (h2 : InOpenSeg p2 (vtx pol i) (vtx pol (nx pol.length i))) :
    (isCrossingPoly p1 p2 ip pol).1 = 0 := by
  have open_of : ∀ q, InSeg q p1 p2 → InOpenSeg q (vtx pol i) (vtx pol (nx pol.length i)) := by
    rintro q ⟨u, u0, u1, rfl⟩
    obtain ⟨a, a0, a1, rfl⟩ := h1
    obtain ⟨b, b0, b1, rfl⟩ := h2
    refine ⟨(1 - u) * a + u * b, ?_, ?_, ?_⟩
    · rcases eq_or_lt_of_le u1 with e | h
      · rw [e]; linarith
      · have := mul_pos (sub_pos.2 h) a0
        have := mul_nonneg u0 (le_of_lt b0)
        linarith
    · rcases eq_or_lt_of_le u1 with e | h
      · rw [e]; linarith
      · have := mul_pos (sub_pos.2 h) (sub_pos.2 a1)
        have := mul_nonneg u0 (le_of_lt (sub_pos.2 b1))
        linarith
    · apply P.ext' <;> simp only [at'] <;> ring
  have zero : ∀ j, j < pol.length → cd pol p1 p2 j = 0 := by
    intro j hj
    by_cases e : i = j
    · rw [← e]; exact seg_inside hp (side_ne hc hi) h1 h2
    · refine Classical.byContradiction (fun hne => ?_)
      obtain ⟨a, b⟩ := seg_sound hp (side_ne hc hj) hne
      have := other_pos hc hi hj e (open_of _ a)
      have z : f pol j _ = 0 := inSeg_turn b
      linarith
  obtain ⟨_, _, _, _, _, R0, _⟩ := cross_rest ip (fun j hj => Or.inl (zero j hj))
  refine R0 ?_ ?_ ?_
  · unfold touches
    rw [List.countP_eq_zero]
    intro j hj
    have := zero j (List.mem_range.1 hj)
    simp [this]
  · have : Boundary pol p1 := (boundary_iff hc).2 ⟨i, hi, inOpen_inSeg h1⟩
    rw [(inPoly_iff hc p1).2.1.2 this]; decide
  · have : Boundary pol p2 := (boundary_iff hc).2 ⟨i, hi, inOpen_inSeg h2⟩
    rw [(inPoly_iff hc p2).2.1.2 this]; decide

/-- The interior is not met, the segment lies strictly inside no side and no side gives 3: result 3 if a point is covered, 0 if none is -/
theorem no_interior (ip : P) (hno : ¬∃ m, InSeg m p1 p2 ∧ Interior pol m) (hn3 : ∀ i, i < pol.length → cd pol p1 p2 i ≠ 3)
    (hins : ¬∃ i, i < pol.length ∧ InOpenSeg p1 (vtx pol i) (vtx pol (nx pol.length i)) ∧ InOpenSeg p2 (vtx pol i) (vtx pol (nx pol.length i))) :
    ((∃ q, InSeg q p1 p2 ∧ Hull pol q) → (isCrossingPoly p1 p2 ip pol).1 = 3) ∧ ((¬∃ q, InSeg q p1 p2 ∧ Hull pol q) → (isCrossingPoly p1 p2 ip pol).1 = 0) := by
  have h1 : ∀ i, i < pol.length → cd pol p1 p2 i ≠ 1 := fun i hi h => hno (cd_one hc hp hi h)
  have h02 : ∀ i, i < pol.length → cd pol p1 p2 i = 0 ∨ cd pol p1 p2 i = 2 := fun i hi => by
    have := cd_le hc hp hi; have := h1 i hi; have := hn3 i hi; omega
  obtain ⟨_, _, _, R23, R1, R0, _⟩ := cross_rest ip h02
  have n1 : isInPoly p1 pol ≠ 1 := fun h => hno ⟨p1, inSeg_left _ _, (inPoly_iff hc p1).1.1 h⟩
  have n2 : isInPoly p2 pol ≠ 1 := fun h => hno ⟨p2, inSeg_right _ _, (inPoly_iff hc p2).1.1 h⟩
  have hu := fun q r q1 q2 r1 r2 => covered_unique hc hp hno hn3 hins (q := q) (r := r) q1 q2 r1 r2
  have hle := touches_le hc hp hu
  constructor
  · rintro ⟨q, q1, q2⟩
    have hb : Boundary pol q := ⟨q2, fun h => hno ⟨q, q1, h⟩⟩
    obtain ⟨i, hi, hs⟩ := (boundary_iff hc).1 hb
    have hci : cd pol p1 p2 i = 2 := by
      have : cd pol p1 p2 i ≠ 0 := seg_complete hp (side_ne hc hi) q1 hs (hull_range hc hr q2) (fun h => hins ⟨i, hi, h⟩)
      have := h02 i hi
      omega
    have pos : 0 < touches p1 p2 pol := List.countP_pos_iff.2 ⟨i, List.mem_range.2 hi, decide_eq_true hci⟩
    by_cases e : touches p1 p2 pol = 1
    · exact R1 e n1 n2
    · refine R23 (by omega) n1 n2 ?_
      refine Classical.byContradiction (fun hnn => hp ?_)
      have a : Hull pol p1 := Classical.byContradiction (fun h => hnn (Or.inl ((inPoly_iff hc p1).2.2.2 h)))
      have b : Hull pol p2 := Classical.byContradiction (fun h => hnn (Or.inr ((inPoly_iff hc p2).2.2.2 h)))
      exact hu p1 p2 (inSeg_left _ _) a (inSeg_right _ _) b
  · intro hq
    refine R0 ?_ n1 n2
    unfold touches
    rw [List.countP_eq_zero]
    intro j hj h
    have hj' := List.mem_range.1 hj
    have h2 : cd pol p1 p2 j = 2 := of_decide_eq_true h
    obtain ⟨a, b⟩ := seg_sound hp (side_ne hc hj') (show (intersectSegment p1 p2 (vtx pol j) (vtx pol (nx pol.length j))).1 ≠ 0 by
      rw [show (intersectSegment p1 p2 (vtx pol j) (vtx pol (nx pol.length j))).1 = 2 from h2]; decide)
    exact hq ⟨_, a, side_hull hj' b⟩

/-- A side gives 3 -/
theorem side_three (ip : P) (h : ∃ i, i < pol.length ∧ cd pol p1 p2 i = 3) : (isCrossingPoly p1 p2 ip pol).1 = 2 := by
  obtain ⟨k, hk, h3⟩ := h
  obtain ⟨i, hi, _, ⟨h1, _⟩ | ⟨_, h⟩⟩ := cross_return hc hp ip ⟨k, hk, Or.inr h3⟩
  · exact absurd (cd_one hc hp hi h1) (three_no_interior hc hp hk h3)
  · exact h

end

end Verif.Geom
