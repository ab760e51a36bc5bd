import Verif.Geom.Spec
import Mathlib.Tactic.Linarith
import Mathlib.Tactic.Ring
import Mathlib.Tactic.FieldSimp
import Mathlib.Tactic.Positivity
import Mathlib.Tactic.LinearCombination

/-! Lemmas about lines and segments -/

namespace Verif.Geom

theorem P.ext' {p q : P} (hx : p.x = q.x) (hy : p.y = q.y) : p = q := by
  cases p; cases q; simp_all

theorem sign_pos {z : ℚ} : sign z > 0 ↔ z > 0 := by
  unfold sign; split
  · constructor <;> intro h <;> [cases h; linarith]
  · split
    · simp [*]
    · constructor <;> intro h <;> [cases h; contradiction]

theorem sign_zero {z : ℚ} : sign z = 0 ↔ z = 0 := by
  unfold sign; split
  · simp [*]
  · split <;> simp [*]

theorem sign_nonpos {z : ℚ} : sign z ≤ 0 ↔ z ≤ 0 := by
  have := sign_pos (z := z)
  constructor <;> intro h
  · refine not_lt.1 (fun h' => ?_)
    have := this.2 h'
    omega
  · refine Int.not_lt.1 (fun h' => ?_)
    exact absurd (this.1 h') (not_lt.2 h)

theorem intersectLine_point {l1 l2 : Line} {p : P} (h : intersectLine l1 l2 = .point p) : OnLine p l1 ∧ OnLine p l2 ∧ l2.a * l1.b - l1.a * l2.b ≠ 0 := by
  unfold intersectLine at h
  by_cases h0 : (l1.a = 0 ∧ l1.b = 0) ∨ (l2.a = 0 ∧ l2.b = 0)
  · rw [if_pos h0] at h; cases h
  rw [if_neg h0] at h
  by_cases h1 : l1.a = 0
  · rw [if_pos h1] at h
    have hb : l1.b ≠ 0 := fun e => h0 (Or.inl ⟨h1, e⟩)
    by_cases h2 : l2.a = 0
    · rw [if_pos h2] at h; split at h <;> cases h
    · rw [if_neg h2] at h; cases h
      refine ⟨?_, ?_, ?_⟩
      · simp only [OnLine, h1]; field_simp; ring
      · simp only [OnLine]; field_simp; ring
      · rw [h1]; simp [h2, hb]
  rw [if_neg h1] at h
  by_cases h2 : l1.b = 0
  · rw [if_pos h2] at h
    by_cases h3 : l2.b = 0
    · rw [if_pos h3] at h; split at h <;> cases h
    · rw [if_neg h3] at h; cases h
      refine ⟨?_, ?_, ?_⟩
      · simp only [OnLine, h2]; field_simp; ring
      · simp only [OnLine]; field_simp; ring
      · rw [h2]; simp [h1, h3]
  rw [if_neg h2] at h
  by_cases h3 : l2.a * l1.b - l1.a * l2.b = 0
  · rw [if_pos h3] at h; split at h <;> cases h
  · rw [if_neg h3] at h
    cases h
    refine ⟨?_, ?_, h3⟩
    · simp only [OnLine]
      generalize l2.a * l1.b - l1.a * l2.b = D at h3
      field_simp; ring
    · simp only [OnLine]
      generalize hD : l2.a * l1.b - l1.a * l2.b = D at h3
      field_simp; rw [← hD]; ring

/-- Lines that are not parallel meet in one point at most -/
theorem meet_unique {l1 l2 : Line} {p q : P} (hd : l2.a * l1.b - l1.a * l2.b ≠ 0) (h1 : OnLine p l1) (h2 : OnLine p l2) (h3 : OnLine q l1) (h4 : OnLine q l2) : p = q := by
  unfold OnLine at *
  have hx : (l2.a * l1.b - l1.a * l2.b) * (p.x - q.x) = 0 := by linear_combination l2.b * h3 - l2.b * h1 + l1.b * h2 - l1.b * h4
  have hy : (l2.a * l1.b - l1.a * l2.b) * (p.y - q.y) = 0 := by linear_combination l2.a * h1 - l2.a * h3 - l1.a * h2 + l1.a * h4
  rcases mul_eq_zero.1 hx with e | e
  · exact absurd e hd
  rcases mul_eq_zero.1 hy with e' | e'
  · exact absurd e' hd
  exact P.ext' (by linarith) (by linarith)

/-- The other two results: the lines are parallel -/
theorem intersectLine_par {l1 l2 : Line} (p1 : Proper l1) (p2 : Proper l2) (h : ∀ p, intersectLine l1 l2 ≠ .point p) :
    l2.a * l1.b = l1.a * l2.b ∧ (intersectLine l1 l2 = .same ∧ l1.a * l2.c = l2.a * l1.c ∧ l1.b * l2.c = l2.b * l1.c ∨
      intersectLine l1 l2 = .none ∧ ¬(l1.a * l2.c = l2.a * l1.c ∧ l1.b * l2.c = l2.b * l1.c)) := by
  unfold intersectLine at *
  have h0 : ¬((l1.a = 0 ∧ l1.b = 0) ∨ (l2.a = 0 ∧ l2.b = 0)) := fun e => e.elim p1 p2
  simp only [if_neg h0] at *
  by_cases h1 : l1.a = 0
  · simp only [if_pos h1] at *
    have hb : l1.b ≠ 0 := fun e => h0 (Or.inl ⟨h1, e⟩)
    by_cases h2 : l2.a = 0
    · simp only [if_pos h2] at *
      refine ⟨by rw [h1, h2]; ring, ?_⟩
      by_cases h3 : l1.b * l2.c = l2.b * l1.c
      · rw [if_pos h3]; exact Or.inl ⟨rfl, by rw [h1, h2]; ring, h3⟩
      · rw [if_neg h3]; exact Or.inr ⟨rfl, fun e => h3 e.2⟩
    · simp only [if_neg h2] at *
      exact absurd rfl (h _)
  simp only [if_neg h1] at *
  have key : ∀ (hd : l2.a * l1.b = l1.a * l2.b), l1.a * l2.c = l2.a * l1.c → l1.b * l2.c = l2.b * l1.c := by
    intro hd hc
    have : l1.a * (l1.b * l2.c - l2.b * l1.c) = 0 := by linear_combination l1.b * hc + l1.c * hd
    rcases mul_eq_zero.1 this with e | e
    · exact absurd e h1
    · linarith
  by_cases h2 : l1.b = 0
  · simp only [if_pos h2] at *
    by_cases h3 : l2.b = 0
    · simp only [if_pos h3] at *
      have hd : l2.a * l1.b = l1.a * l2.b := by rw [h2, h3]; ring
      refine ⟨hd, ?_⟩
      by_cases h4 : l1.a * l2.c = l2.a * l1.c
      · rw [if_pos h4]; exact Or.inl ⟨rfl, h4, key hd h4⟩
      · rw [if_neg h4]; exact Or.inr ⟨rfl, fun e => h4 e.1⟩
    · simp only [if_neg h3] at *
      exact absurd rfl (h _)
  simp only [if_neg h2] at *
  by_cases h3 : l2.a * l1.b - l1.a * l2.b = 0
  · simp only [if_pos h3] at *
    have hd : l2.a * l1.b = l1.a * l2.b := by linarith
    refine ⟨hd, ?_⟩
    by_cases h4 : l1.a * l2.c = l2.a * l1.c
    · rw [if_pos h4]; exact Or.inl ⟨rfl, h4, key hd h4⟩
    · rw [if_neg h4]; exact Or.inr ⟨rfl, fun e => h4 e.1⟩
  · simp only [if_neg h3] at *
    exact absurd rfl (h _)

theorem par_common {l1 l2 : Line} {p : P} (hd : l2.a * l1.b = l1.a * l2.b) (h1 : OnLine p l1) (h2 : OnLine p l2) : l1.a * l2.c = l2.a * l1.c ∧ l1.b * l2.c = l2.b * l1.c := by
  unfold OnLine at *
  exact ⟨by linear_combination l1.a * h2 - l2.a * h1 + p.y * hd, by linear_combination l1.b * h2 - l2.b * h1 - p.x * hd⟩

/-- A point of a proper line -/
theorem exists_point {l : Line} (h : Proper l) : ∃ p, OnLine p l := by
  by_cases ha : l.a = 0
  · have hb : l.b ≠ 0 := fun e => h ⟨ha, e⟩
    exact ⟨⟨0, -l.c / l.b⟩, by unfold OnLine; field_simp; ring⟩
  · exact ⟨⟨-l.c / l.a, 0⟩, by unfold OnLine; field_simp; ring⟩

theorem same_points {l1 l2 : Line} (p1 : Proper l1) (hd : l2.a * l1.b = l1.a * l2.b) (ha : l1.a * l2.c = l2.a * l1.c) (hb : l1.b * l2.c = l2.b * l1.c) {p : P} (h : OnLine p l1) : OnLine p l2 := by
  unfold OnLine at *
  have e1 : l1.a * (l2.a * p.x + l2.b * p.y + l2.c) = 0 := by linear_combination l2.a * h + ha - p.y * hd
  have e2 : l1.b * (l2.a * p.x + l2.b * p.y + l2.c) = 0 := by linear_combination l2.b * h + hb + p.x * hd
  by_cases z : l1.a = 0
  · have hz : l1.b ≠ 0 := fun e => p1 ⟨z, e⟩
    exact (mul_eq_zero.1 e2).resolve_left hz
  · exact (mul_eq_zero.1 e1).resolve_left z

/-! ## Lines through two points -/

theorem pts2line_proper {a b : P} (h : a ≠ b) : Proper (pts2line a b) := by
  intro e
  simp only [pts2line] at e
  exact h (P.ext' (by linarith [e.2]) (by linarith [e.1]))

theorem onLine_turn {a b p : P} : OnLine p (pts2line a b) ↔ turn a b p = 0 := by
  simp only [OnLine, pts2line, turn]
  constructor <;> intro h <;> linear_combination h

theorem dist2_pos {a b : P} (h : a ≠ b) : 0 < dist2 a b := by
  unfold dist2
  by_cases hx : b.x - a.x = 0
  · by_cases hy : b.y - a.y = 0
    · exact absurd (P.ext' (by linarith) (by linarith)) h
    · have := mul_self_pos.2 hy
      have := mul_self_nonneg (b.x - a.x)
      linarith
  · have := mul_self_pos.2 hx
    have := mul_self_nonneg (b.y - a.y)
    linarith

theorem turn_at {a b : P} (t : ℚ) : turn a b (at' a b t) = 0 := by
  simp only [turn, at']; ring

/-- Every point of the line is at some parameter -/
theorem on_at {a b p : P} (hne : a ≠ b) (h : turn a b p = 0) : ∃ t, p = at' a b t := by
  have hd := dist2_pos hne
  refine ⟨((p.x - a.x) * (b.x - a.x) + (p.y - a.y) * (b.y - a.y)) / dist2 a b, ?_⟩
  unfold turn at h
  apply P.ext'
  · simp only [at']
    have : p.x - a.x = (((p.x - a.x) * (b.x - a.x) + (p.y - a.y) * (b.y - a.y)) / dist2 a b) * (b.x - a.x) := by
      rw [div_mul_eq_mul_div, eq_div_iff (ne_of_gt hd)]
      unfold dist2
      linear_combination -(b.y - a.y) * h
    linarith
  · simp only [at']
    have : p.y - a.y = (((p.x - a.x) * (b.x - a.x) + (p.y - a.y) * (b.y - a.y)) / dist2 a b) * (b.y - a.y) := by
      rw [div_mul_eq_mul_div, eq_div_iff (ne_of_gt hd)]
      unfold dist2
      linear_combination (b.x - a.x) * h
    linarith

theorem at_inj {a b : P} (hne : a ≠ b) {s t : ℚ} (h : at' a b s = at' a b t) : s = t := by
  have hd := dist2_pos hne
  have hx : (s - t) * (b.x - a.x) = 0 := by
    have := congrArg P.x h; simp only [at'] at this; linarith
  have hy : (s - t) * (b.y - a.y) = 0 := by
    have := congrArg P.y h; simp only [at'] at this; linarith
  have : (s - t) * dist2 a b = 0 := by unfold dist2; linear_combination (b.x - a.x) * hx + (b.y - a.y) * hy
  rcases mul_eq_zero.1 this with e | e
  · linarith
  · linarith

theorem at_zero (a b : P) : at' a b 0 = a := by apply P.ext' <;> simp [at']
theorem at_one (a b : P) : at' a b 1 = b := by apply P.ext' <;> simp [at']

theorem pscal_at {a b : P} (t : ℚ) : pscal ((at' a b t).sub a) ((at' a b t).sub b) = t * (t - 1) * dist2 a b := by
  simp only [pscal, P.sub, at', dist2]; ring

theorem inSeg_left (a b : P) : InSeg a a b := ⟨0, le_refl _, by norm_num, (at_zero a b).symm⟩
theorem inSeg_right (a b : P) : InSeg b a b := ⟨1, by norm_num, le_refl _, (at_one a b).symm⟩

theorem inSeg_turn {p a b : P} (h : InSeg p a b) : turn a b p = 0 := by
  obtain ⟨t, _, _, rfl⟩ := h; exact turn_at t

theorem inSeg_symm {p a b : P} (h : InSeg p a b) : InSeg p b a := by
  obtain ⟨t, h0, h1, rfl⟩ := h
  exact ⟨1 - t, by linarith, by linarith, by apply P.ext' <;> simp only [at'] <;> ring⟩

/-- The scalar product test of the code -/
theorem pscal_seg {a b p : P} (hne : a ≠ b) (h : turn a b p = 0) : pscal (p.sub a) (p.sub b) ≤ 0 ↔ InSeg p a b := by
  obtain ⟨t, rfl⟩ := on_at hne h
  have hd := dist2_pos hne
  rw [pscal_at]
  constructor
  · intro hp
    have ht : t * (t - 1) ≤ 0 := by
      refine not_lt.1 (fun hh => ?_)
      have := mul_pos hh hd
      linarith
    refine ⟨t, ?_, ?_, rfl⟩ <;> nlinarith
  · rintro ⟨s, h0, h1, e⟩
    cases at_inj hne e
    have : t * (t - 1) ≤ 0 := by nlinarith
    nlinarith

theorem pscal_seg_end {a b p : P} (hne : a ≠ b) (h : turn a b p = 0) : pscal (p.sub a) (p.sub b) = 0 ↔ p = a ∨ p = b := by
  obtain ⟨t, rfl⟩ := on_at hne h
  have hd := dist2_pos hne
  rw [pscal_at]
  constructor
  · intro hp
    rcases mul_eq_zero.1 hp with e | e
    · rcases mul_eq_zero.1 e with e | e
      · rw [e]; exact Or.inl (at_zero a b)
      · have : t = 1 := by linarith
        rw [this]; exact Or.inr (at_one a b)
    · linarith
  · rintro (e | e)
    · have : t = 0 := at_inj hne (e.trans (at_zero a b).symm)
      rw [this]; ring
    · have : t = 1 := at_inj hne (e.trans (at_one a b).symm)
      rw [this]; ring

theorem absQ_le {z : ℚ} : ¬absQ z > 32768 ↔ -32768 ≤ z ∧ z ≤ 32768 := by
  unfold absQ; split <;> constructor <;> intro h
  · constructor <;> linarith
  · linarith [h.1]
  · constructor <;> linarith
  · linarith [h.2]

theorem inRange_seg {p a b : P} (h : InSeg p a b) (ha : InRange a) (hb : InRange b) : InRange p := by
  obtain ⟨t, h0, h1, rfl⟩ := h
  unfold InRange at *
  simp only [at']
  obtain ⟨a1, a2, a3, a4⟩ := ha
  obtain ⟨b1, b2, b3, b4⟩ := hb
  refine ⟨?_, ?_, ?_, ?_⟩ <;> nlinarith

end Verif.Geom
