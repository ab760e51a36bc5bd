import Verif.Pose.Lemmas

namespace Verif.Pose

open Spec

theorem i32_some {x y : Int} (h : i32 x = some y) : y = x := by
  unfold i32 at h
  split at h
  · exact (Option.some.inj h).symm
  · cases h

/-- What a successful call did -/
theorem manage_inv {p q : Pos} {D A : Int} (h : p.manage D A = some q) (hrs : p.rs = true) :
    p.imp ≠ 0 ∧ p.track ≠ 0
    ∧ (q.x, q.y, q.a) = p.move (D - p.prevDistance) (A - p.prevAngle)
    ∧ i16 q.x = some q.int.1 ∧ i16 q.y = some q.int.2.1 ∧ i16 (q.a * (360 / (Real.pi * 2))) = some q.int.2.2
    ∧ q.prevDistance = D ∧ q.prevAngle = A ∧ q.track = p.track ∧ q.imp = p.imp ∧ q.coef = p.coef ∧ q.rs = true
    ∧ i32 (D - p.prevDistance) = some (D - p.prevDistance) ∧ i32 (A - p.prevAngle) = some (A - p.prevAngle) := by
  unfold Pos.manage at h
  rw [if_neg (by rw [hrs]; exact Bool.true_eq_false.mp)] at h
  cases hd : i32 (D - p.prevDistance) with
  | none => rw [hd] at h; cases h
  | some d =>
    cases hg : i32 (A - p.prevAngle) with
    | none => rw [hd, hg] at h; cases h
    | some g =>
      rw [hd, hg] at h
      have ed := i32_some hd
      have eg := i32_some hg
      subst ed eg
      replace h : (if p.imp = 0 ∨ p.track = 0 then none
        else (i16 (p.move (D - p.prevDistance) (A - p.prevAngle)).1).bind fun ix =>
          (i16 (p.move (D - p.prevDistance) (A - p.prevAngle)).2.1).bind fun iy =>
          (i16 ((p.move (D - p.prevDistance) (A - p.prevAngle)).2.2 * (360 / (Real.pi * 2)))).bind fun ia =>
          some ({ p with x := (p.move (D - p.prevDistance) (A - p.prevAngle)).1, y := (p.move (D - p.prevDistance) (A - p.prevAngle)).2.1, a := (p.move (D - p.prevDistance) (A - p.prevAngle)).2.2, int := (ix, iy, ia), prevDistance := D, prevAngle := A } : Pos)) = some q := h
      generalize hm : p.move (D - p.prevDistance) (A - p.prevAngle) = m at h ⊢
      by_cases hz : p.imp = 0 ∨ p.track = 0
      · rw [if_pos hz] at h; cases h
      · rw [if_neg hz] at h
        cases hx : i16 m.1 with
        | none => rw [hx] at h; cases h
        | some ix =>
          cases hy : i16 m.2.1 with
          | none => rw [hx, hy] at h; cases h
          | some iy =>
            cases ha : i16 (m.2.2 * (360 / (Real.pi * 2))) with
            | none => rw [hx, hy, ha] at h; cases h
            | some ia =>
              rw [hx, hy, ha] at h
              have e := Option.some.inj h
              subst e
              exact ⟨fun h => hz (.inl h), fun h => hz (.inr h), rfl, hx, hy, ha, rfl, rfl, rfl, rfl, rfl, hrs, rfl, rfl⟩

/-- When a call succeeds -/
theorem manage_isSome (p : Pos) (D A : Int) (hrs : p.rs = true) : (p.manage D A).isSome ↔
    (-2147483648 ≤ D - p.prevDistance ∧ D - p.prevDistance ≤ 2147483647) ∧ (-2147483648 ≤ A - p.prevAngle ∧ A - p.prevAngle ≤ 2147483647)
    ∧ p.imp ≠ 0 ∧ p.track ≠ 0
    ∧ (i16 (p.move (D - p.prevDistance) (A - p.prevAngle)).1).isSome
    ∧ (i16 (p.move (D - p.prevDistance) (A - p.prevAngle)).2.1).isSome
    ∧ (i16 ((p.move (D - p.prevDistance) (A - p.prevAngle)).2.2 * (360 / (Real.pi * 2)))).isSome := by
  constructor
  · intro h
    obtain ⟨q, hq⟩ := Option.isSome_iff_exists.mp h
    obtain ⟨h1, h2, h3, hx, hy, ha, _, _, _, _, _, _, hd, hg⟩ := manage_inv hq hrs
    rw [← h3, hx, hy, ha]
    unfold i32 at hd hg
    refine ⟨?_, ?_, h1, h2, rfl, rfl, rfl⟩
    · split at hd
      · assumption
      · cases hd
    · split at hg
      · assumption
      · cases hg
  · rintro ⟨hd, hg, h1, h2, hx, hy, ha⟩
    obtain ⟨ix, hx⟩ := Option.isSome_iff_exists.mp hx
    obtain ⟨iy, hy⟩ := Option.isSome_iff_exists.mp hy
    obtain ⟨ia, ha⟩ := Option.isSome_iff_exists.mp ha
    unfold Pos.manage
    rw [if_neg (by rw [hrs]; exact Bool.true_eq_false.mp)]
    have e1 : i32 (D - p.prevDistance) = some (D - p.prevDistance) := by
      unfold i32; rw [if_pos hd]
    have e2 : i32 (A - p.prevAngle) = some (A - p.prevAngle) := by
      unfold i32; rw [if_pos hg]
    rw [e1, e2]
    show (if p.imp = 0 ∨ p.track = 0 then none
        else (i16 (p.move (D - p.prevDistance) (A - p.prevAngle)).1).bind fun ix =>
          (i16 (p.move (D - p.prevDistance) (A - p.prevAngle)).2.1).bind fun iy =>
          (i16 ((p.move (D - p.prevDistance) (A - p.prevAngle)).2.2 * (360 / (Real.pi * 2)))).bind fun ia =>
          some ({ p with x := (p.move (D - p.prevDistance) (A - p.prevAngle)).1, y := (p.move (D - p.prevDistance) (A - p.prevAngle)).2.1, a := (p.move (D - p.prevDistance) (A - p.prevAngle)).2.2, int := (ix, iy, ia), prevDistance := D, prevAngle := A } : Pos)).isSome = true
    rw [if_neg (by rintro (h | h); exact h1 h; exact h2 h), hx, hy, ha]
    rfl

/-- The arc -/
noncomputable def Pos.arc (p : Pos) (g : Int) : ℝ := 2 * g / (p.track * p.imp)

theorem move_straight (p : Pos) (d : Int) : p.move d 0 = (p.x + Real.cos p.a * (d / p.imp), p.y + Real.sin p.a * (d / p.imp), p.a) := by
  unfold Pos.move
  rw [if_pos rfl]

theorem move_arc (p : Pos) {d g : Int} (hg : g ≠ 0) (hc : p.coef = 0) : p.move d g =
    (p.x + d * p.track / (g * 2) * (-Real.sin p.a + Real.sin (p.a + p.arc g)),
     p.y + d * p.track / (g * 2) * (Real.cos p.a - Real.cos (p.a + p.arc g)),
     wrap (p.a + p.arc g)) := by
  unfold Pos.move
  rw [if_neg hg]
  dsimp only
  rw [if_neg (by rintro ⟨h, _⟩; exact h hc)]
  rfl

/-- The heading turns by the arc -/
theorem move_heading (p : Pos) (d g : Int) (hc : p.coef = 0) : SameAngle (p.move d g).2.2 (p.a + p.arc g) := by
  by_cases hg : g = 0
  · subst hg
    rw [move_straight]
    refine ⟨0, ?_⟩
    simp [Pos.arc]
  · rw [move_arc p hg hc]
    exact wrap_same _

/-- The update is the end of the driven curve -/
theorem move_drive (p : Pos) (d g : Int) (hc : p.coef = 0) (hi : p.imp ≠ 0) (ht : p.track ≠ 0) {X Y Φ : ℝ → ℝ}
    (h : Drive p.track ((d - g) / p.imp) ((d + g) / p.imp) p.x p.y p.a X Y Φ) :
    (p.move d g).1 = X 1 ∧ (p.move d g).2.1 = Y 1 ∧ Φ 1 = p.a + p.arc g ∧ SameAngle (p.move d g).2.2 (Φ 1) := by
  obtain ⟨hA, hz, hnz⟩ := drive_solution h
  have ew : ((d + g) / p.imp - (d - g) / p.imp) / p.track = p.arc g := by
    unfold Pos.arc
    field_simp
    ring
  have ev : ((d - g) / p.imp + (d + g) / p.imp) / 2 = (d : ℝ) / p.imp := by
    field_simp
    ring
  rw [ew] at hA hz hnz
  rw [ev] at hz hnz
  have hΦ : Φ 1 = p.a + p.arc g := by rw [hA 1, mul_one]
  refine ⟨?_, ?_, hΦ, ?_⟩
  · by_cases hg : g = 0
    · subst hg
      rw [(hz (by simp [Pos.arc]) 1).1, move_straight]
      ring
    · have hg' : (g : ℝ) ≠ 0 := by exact_mod_cast hg
      have harc : p.arc g ≠ 0 := by
        unfold Pos.arc
        exact div_ne_zero (mul_ne_zero two_ne_zero hg') (mul_ne_zero ht hi)
      rw [(hnz harc 1).1, move_arc p hg hc, mul_one]
      have er : (d : ℝ) / p.imp / p.arc g = d * p.track / (g * 2) := by
        unfold Pos.arc
        field_simp
      rw [er]
      ring
  · by_cases hg : g = 0
    · subst hg
      rw [(hz (by simp [Pos.arc]) 1).2, move_straight]
      ring
    · have hg' : (g : ℝ) ≠ 0 := by exact_mod_cast hg
      have harc : p.arc g ≠ 0 := by
        unfold Pos.arc
        exact div_ne_zero (mul_ne_zero two_ne_zero hg') (mul_ne_zero ht hi)
      rw [(hnz harc 1).2, move_arc p hg hc, mul_one]
      have er : (d : ℝ) / p.imp / p.arc g = d * p.track / (g * 2) := by
        unfold Pos.arc
        field_simp
      rw [er]
  · rw [hΦ]
    exact move_heading p d g hc

/-- The update does not depend on the frame of reference -/
theorem move_frame (p p' : Pos) (s : Se2) (d g : Int) (hc : p.coef = 0) (hc' : p'.coef = 0) (hi : p'.imp = p.imp) (ht : p'.track = p.track)
    (hpos : (⟨p'.x, p'.y⟩ : Pt) = s.transform ⟨p.x, p.y⟩) (ha : SameAngle p'.a (s.angle + p.a)) :
    (⟨(p'.move d g).1, (p'.move d g).2.1⟩ : Pt) = s.transform ⟨(p.move d g).1, (p.move d g).2.1⟩
    ∧ SameAngle (p'.move d g).2.2 (s.angle + (p.move d g).2.2) := by
  have harc : p'.arc g = p.arc g := by unfold Pos.arc; rw [hi, ht]
  have hx := congrArg Pt.x hpos
  have hy := congrArg Pt.y hpos
  simp only [Se2.transform, rotate] at hx hy
  constructor
  · by_cases hg : g = 0
    · subst hg
      rw [move_straight, move_straight]
      simp only [Se2.transform, rotate]
      rw [sameAngle_cos ha, sameAngle_sin ha, hx, hy, hi, Real.cos_add, Real.sin_add]
      congr 1 <;> ring
    · rw [move_arc p hg hc, move_arc p' hg hc', harc, ht]
      simp only [Se2.transform, rotate]
      have ha2 := sameAngle_add ha (sameAngle_refl (p.arc g))
      rw [sameAngle_cos ha, sameAngle_sin ha, sameAngle_cos ha2, sameAngle_sin ha2, hx, hy, add_assoc s.angle p.a]
      rw [Real.cos_add s.angle, Real.sin_add s.angle, Real.cos_add s.angle, Real.sin_add s.angle]
      congr 1 <;> ring
  · refine sameAngle_trans (move_heading p' d g hc') ?_
    rw [harc]
    refine sameAngle_trans (sameAngle_add ha (sameAngle_refl _)) ?_
    rw [add_assoc]
    exact sameAngle_add (sameAngle_refl _) (sameAngle_symm (move_heading p d g hc))

/-- Two updates on the same circle or straight line -/
theorem move_split (p : Pos) (d g d' g' : Int) (hc : p.coef = 0) (hi : p.imp ≠ 0) (ht : p.track ≠ 0) (hk : d * g' = d' * g)
    (q : Pos) (hq : (q.x, q.y, q.a) = p.move d g) (hqi : q.imp = p.imp) (hqt : q.track = p.track) (hqc : q.coef = p.coef) :
    (q.move d' g').1 = (p.move (d + d') (g + g')).1 ∧ (q.move d' g').2.1 = (p.move (d + d') (g + g')).2.1
    ∧ SameAngle (q.move d' g').2.2 (p.move (d + d') (g + g')).2.2 := by
  have hcq : q.coef = 0 := by rw [hqc]; exact hc
  have harc : q.arc g' = p.arc g' := by unfold Pos.arc; rw [hqi, hqt]
  have ha : SameAngle q.a (p.a + p.arc g) := by
    have := congrArg (·.2.2) hq
    simp only at this
    rw [this]
    exact move_heading p d g hc
  have hadd : p.arc (g + g') = p.arc g + p.arc g' := by
    unfold Pos.arc
    push_cast
    ring
  have ha2 : SameAngle (q.a + q.arc g') (p.a + p.arc (g + g')) := by
    rw [hadd, ← add_assoc, harc]
    exact sameAngle_add ha (sameAngle_refl _)
  have hang : SameAngle (q.move d' g').2.2 (p.move (d + d') (g + g')).2.2 :=
    sameAngle_trans (move_heading q d' g' hcq) (sameAngle_trans ha2 (sameAngle_symm (move_heading p _ _ hc)))
  have hqx := congrArg (·.1) hq
  have hqy := congrArg (·.2.1) hq
  simp only at hqx hqy
  suffices h : (q.move d' g').1 = (p.move (d + d') (g + g')).1 ∧ (q.move d' g').2.1 = (p.move (d + d') (g + g')).2.1 from ⟨h.1, h.2, hang⟩
  have hkr : (d : ℝ) * g' = d' * g := by exact_mod_cast hk
  by_cases hg : g = 0
  · subst hg
    rw [move_straight] at hqx hqy hq
    have hqa := congrArg (·.2.2) hq
    simp only at hqa
    by_cases hg' : g' = 0
    · subst hg'
      rw [move_straight, show (0 : Int) + 0 = 0 from rfl, move_straight]
      simp only
      rw [hqx, hqy, hqa, hqi]
      push_cast
      constructor <;> ring
    · have hd : d = 0 := by
        rw [Int.mul_zero] at hk
        rcases Int.mul_eq_zero.mp hk with h | h
        · exact h
        · exact absurd h hg'
      subst hd
      rw [Int.zero_add, Int.zero_add, move_arc q hg' hcq, move_arc p hg' hc]
      simp only
      rw [hqx, hqy, hqa, harc, hqt]
      push_cast
      constructor <;> ring
  · have hgr : (g : ℝ) ≠ 0 := by exact_mod_cast hg
    rw [move_arc p hg hc] at hqx hqy
    simp only at hqx hqy
    by_cases hg' : g' = 0
    · subst hg'
      have hd : d' = 0 := by
        rw [Int.mul_zero] at hk
        rcases Int.mul_eq_zero.mp hk.symm with h | h
        · exact h
        · exact absurd h hg
      subst hd
      rw [move_straight, Int.add_zero, Int.add_zero, move_arc p hg hc]
      simp only
      rw [hqx, hqy]
      push_cast
      constructor <;> ring
    · have hgr' : (g' : ℝ) ≠ 0 := by exact_mod_cast hg'
      have er : (d' : ℝ) * p.track / (g' * 2) = d * p.track / (g * 2) := by
        field_simp
        linear_combination -hkr
      rw [move_arc q hg' hcq]
      simp only
      rw [hqx, hqy, hqt, er, sameAngle_cos ha2, sameAngle_sin ha2, sameAngle_cos ha, sameAngle_sin ha]
      by_cases hs : g + g' = 0
      · have hs' : (g' : ℝ) = -g := by
          have : ((g + g' : Int) : ℝ) = 0 := by rw [hs]; norm_num
          push_cast at this
          linarith
        have hd : d + d' = 0 := by
          have e : (d' : ℝ) = -d := by
            rw [hs'] at hkr
            have : ((d : ℝ) + d') * g = 0 := by linear_combination -hkr
            rcases mul_eq_zero.mp this with h | h
            · linarith
            · exact absurd h hgr
          have : ((d + d' : Int) : ℝ) = 0 := by push_cast; rw [e]; ring
          exact_mod_cast this
        rw [hs, hd, move_straight]
        have h0 : p.arc 0 = 0 := by simp [Pos.arc]
        rw [h0, add_zero]
        simp only
        push_cast
        constructor <;> ring
      · rw [move_arc p hs hc]
        have hsr : (g : ℝ) + g' ≠ 0 := by exact_mod_cast hs
        have er2 : ((d + d' : Int) : ℝ) * p.track / (((g + g' : Int) : ℝ) * 2) = d * p.track / (g * 2) := by
          push_cast
          field_simp
          linear_combination -hkr
        simp only
        rw [er2]
        constructor <;> ring

end Verif.Pose
