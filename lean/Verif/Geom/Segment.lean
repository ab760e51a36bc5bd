import Verif.Geom.Lemmas

/-! Lemmas about `intersect_segment` -/

namespace Verif.Geom

/-- Both segments on one line -/
def Collinear (s1 s2 t1 t2 : P) : Prop := turn s1 s2 t1 = 0 ∧ turn s1 s2 t2 = 0

theorem onLine_left (a b : P) : OnLine a (pts2line a b) := by rw [onLine_turn]; simp only [turn]; ring
theorem onLine_right (a b : P) : OnLine b (pts2line a b) := by rw [onLine_turn]; simp only [turn]; ring

/-- The three results of `intersect_line` for the lines of two segments -/
theorem seg_lines {s1 s2 t1 t2 : P} (hs : s1 ≠ s2) (ht : t1 ≠ t2) :
    (∃ p, intersectLine (pts2line s1 s2) (pts2line t1 t2) = .point p ∧ turn s1 s2 p = 0 ∧ turn t1 t2 p = 0 ∧ (∀ q, turn s1 s2 q = 0 → turn t1 t2 q = 0 → q = p) ∧ ¬Collinear s1 s2 t1 t2) ∨
    (intersectLine (pts2line s1 s2) (pts2line t1 t2) = .same ∧ Collinear s1 s2 t1 t2 ∧ ∀ q, turn s1 s2 q = 0 ↔ turn t1 t2 q = 0) ∨
    (intersectLine (pts2line s1 s2) (pts2line t1 t2) = .none ∧ ¬Collinear s1 s2 t1 t2 ∧ ∀ q, turn s1 s2 q = 0 → turn t1 t2 q ≠ 0) := by
  have ps := pts2line_proper hs
  have pt := pts2line_proper ht
  by_cases hp : ∃ p, intersectLine (pts2line s1 s2) (pts2line t1 t2) = .point p
  · obtain ⟨p, hp⟩ := hp
    obtain ⟨h1, h2, hd⟩ := intersectLine_point hp
    refine Or.inl ⟨p, hp, onLine_turn.1 h1, onLine_turn.1 h2, fun q q1 q2 => meet_unique hd (onLine_turn.2 q1) (onLine_turn.2 q2) h1 h2, ?_⟩
    rintro ⟨c1, c2⟩
    exact ht (meet_unique hd (onLine_turn.2 c1) (onLine_left _ _) (onLine_turn.2 c2) (onLine_right _ _))
  · obtain ⟨hd, h | h⟩ := intersectLine_par ps pt (fun p e => hp ⟨p, e⟩)
    · obtain ⟨e, ha, hb⟩ := h
      have iff : ∀ q, OnLine q (pts2line s1 s2) ↔ OnLine q (pts2line t1 t2) := fun q =>
        ⟨fun h => same_points ps hd ha hb h, fun h => same_points pt (by linarith) (by linarith) (by linarith) h⟩
      refine Or.inr (Or.inl ⟨e, ⟨onLine_turn.1 ((iff _).2 (onLine_left _ _)), onLine_turn.1 ((iff _).2 (onLine_right _ _))⟩, fun q => ?_⟩)
      rw [← onLine_turn, ← onLine_turn]; exact iff q
    · obtain ⟨e, hn⟩ := h
      have no : ∀ q, turn s1 s2 q = 0 → turn t1 t2 q ≠ 0 := fun q q1 q2 => hn (par_common hd (onLine_turn.2 q1) (onLine_turn.2 q2))
      refine Or.inr (Or.inr ⟨e, fun c => no t1 c.1 (by simp only [turn]; ring), no⟩)

theorem eq_of_xy {p q : P} : (p.x = q.x ∧ p.y = q.y) ↔ p = q := ⟨fun h => P.ext' h.1 h.2, fun h => by rw [h]; exact ⟨rfl, rfl⟩⟩

/-- What `intersect_segment` computes when the lines are not parallel -/
theorem seg_point {s1 s2 t1 t2 p : P} (hs : s1 ≠ s2) (ht : t1 ≠ t2) (h : intersectLine (pts2line s1 s2) (pts2line t1 t2) = .point p) (h1 : turn s1 s2 p = 0) (h2 : turn t1 t2 p = 0)
    (hu : ∀ q, turn s1 s2 q = 0 → turn t1 t2 q = 0 → q = p) :
    (InRange p → (intersectSegment s1 s2 t1 t2).1 = 0 → ¬(InSeg p s1 s2 ∧ InSeg p t1 t2)) ∧
    ((intersectSegment s1 s2 t1 t2).1 ≠ 0 → (intersectSegment s1 s2 t1 t2).2 = p ∧ InSeg p s1 s2 ∧ InSeg p t1 t2) ∧
    ((intersectSegment s1 s2 t1 t2).1 = 1 → p ≠ s1 ∧ p ≠ s2 ∧ p ≠ t1 ∧ p ≠ t2) ∧
    ((intersectSegment s1 s2 t1 t2).1 = 2 → p = s1 ∨ p = s2 ∨ p = t1 ∨ p = t2) ∧
    (intersectSegment s1 s2 t1 t2).1 < 3 := by
  have l1 : ∀ q r, turn q r q = 0 := fun q r => by simp only [turn]; ring
  have l2 : ∀ q r, turn q r r = 0 := fun q r => by simp only [turn]; ring
  unfold intersectSegment
  rw [h]
  dsimp only
  by_cases c1 : s1.x = t1.x ∧ s1.y = t1.y
  · rw [if_pos c1]; have e := eq_of_xy.1 c1
    have : s1 = p := hu s1 (l1 _ _) (by rw [e]; exact l1 _ _)
    refine ⟨by simp, fun _ => ⟨this, by rw [← this]; exact inSeg_left _ _, by rw [← this, e]; exact inSeg_left _ _⟩, by simp, fun _ => Or.inl this.symm, by simp⟩
  rw [if_neg c1]
  by_cases c2 : s1.x = t2.x ∧ s1.y = t2.y
  · rw [if_pos c2]; have e := eq_of_xy.1 c2
    have : s1 = p := hu s1 (l1 _ _) (by rw [e]; exact l2 _ _)
    refine ⟨by simp, fun _ => ⟨this, by rw [← this]; exact inSeg_left _ _, by rw [← this, e]; exact inSeg_right _ _⟩, by simp, fun _ => Or.inl this.symm, by simp⟩
  rw [if_neg c2]
  by_cases c3 : s2.x = t1.x ∧ s2.y = t1.y
  · rw [if_pos c3]; have e := eq_of_xy.1 c3
    have : s2 = p := hu s2 (l2 _ _) (by rw [e]; exact l1 _ _)
    refine ⟨by simp, fun _ => ⟨this, by rw [← this]; exact inSeg_right _ _, by rw [← this, e]; exact inSeg_left _ _⟩, by simp, fun _ => Or.inr (Or.inl this.symm), by simp⟩
  rw [if_neg c3]
  by_cases c4 : s2.x = t2.x ∧ s2.y = t2.y
  · rw [if_pos c4]; have e := eq_of_xy.1 c4
    have : s2 = p := hu s2 (l2 _ _) (by rw [e]; exact l2 _ _)
    refine ⟨by simp, fun _ => ⟨this, by rw [← this]; exact inSeg_right _ _, by rw [← this, e]; exact inSeg_right _ _⟩, by simp, fun _ => Or.inr (Or.inl this.symm), by simp⟩
  rw [if_neg c4]
  by_cases c5 : absQ p.x > 32768 ∨ absQ p.y > 32768
  · rw [if_pos c5]
    refine ⟨fun hr => ?_, by simp, by simp, by simp, by simp⟩
    obtain ⟨r1, r2, r3, r4⟩ := hr
    exact absurd c5 (fun c => c.elim (absQ_le.2 ⟨r1, r2⟩) (absQ_le.2 ⟨r3, r4⟩))
  rw [if_neg c5]
  have e1 := pscal_seg hs h1
  have e2 := pscal_seg ht h2
  have z1 := pscal_seg_end hs h1
  have z2 := pscal_seg_end ht h2
  by_cases c6 : pscalSign (p.sub s1) (p.sub s2) > 0 ∨ pscalSign (p.sub t1) (p.sub t2) > 0
  · rw [if_pos c6]
    refine ⟨fun _ _ hh => ?_, by simp, by simp, by simp, by simp⟩
    rcases c6 with c | c
    · exact absurd (e1.2 hh.1) (not_le.2 (sign_pos.1 c))
    · exact absurd (e2.2 hh.2) (not_le.2 (sign_pos.1 c))
  rw [if_neg c6]
  have i1 : InSeg p s1 s2 := e1.1 (not_lt.1 (fun hh => c6 (Or.inl (sign_pos.2 hh))))
  have i2 : InSeg p t1 t2 := e2.1 (not_lt.1 (fun hh => c6 (Or.inr (sign_pos.2 hh))))
  by_cases c7 : pscalSign (p.sub s1) (p.sub s2) = 0 ∨ pscalSign (p.sub t1) (p.sub t2) = 0
  · rw [if_pos c7]
    refine ⟨by simp, fun _ => ⟨rfl, i1, i2⟩, by simp, fun _ => ?_, by simp⟩
    rcases c7 with c | c
    · rcases z1.1 (sign_zero.1 c) with e | e
      · exact Or.inl e
      · exact Or.inr (Or.inl e)
    · rcases z2.1 (sign_zero.1 c) with e | e
      · exact Or.inr (Or.inr (Or.inl e))
      · exact Or.inr (Or.inr (Or.inr e))
  rw [if_neg c7]
  refine ⟨by simp, fun _ => ⟨rfl, i1, i2⟩, fun _ => ⟨?_, ?_, ?_, ?_⟩, by simp, by simp⟩
  · exact fun e => c7 (Or.inl (sign_zero.2 (z1.2 (Or.inl e))))
  · exact fun e => c7 (Or.inl (sign_zero.2 (z1.2 (Or.inr e))))
  · exact fun e => c7 (Or.inr (sign_zero.2 (z2.2 (Or.inl e))))
  · exact fun e => c7 (Or.inr (sign_zero.2 (z2.2 (Or.inr e))))

/-- When both are on the same line -/
theorem seg_same {s1 s2 t1 t2 : P} (hs : s1 ≠ s2) (h : intersectLine (pts2line s1 s2) (pts2line t1 t2) = .same) (hc : Collinear s1 s2 t1 t2) :
    (InSeg t1 s1 s2 → intersectSegment s1 s2 t1 t2 = (3, t1)) ∧ (¬InSeg t1 s1 s2 → InSeg t2 s1 s2 → intersectSegment s1 s2 t1 t2 = (3, t2)) ∧
    (¬InSeg t1 s1 s2 → ¬InSeg t2 s1 s2 → intersectSegment s1 s2 t1 t2 = (0, t2)) := by
  have e1 : pscalSign (t1.sub s1) (t1.sub s2) ≤ 0 ↔ InSeg t1 s1 s2 := sign_nonpos.trans (pscal_seg hs hc.1)
  have e2 : pscalSign (t2.sub s1) (t2.sub s2) ≤ 0 ↔ InSeg t2 s1 s2 := sign_nonpos.trans (pscal_seg hs hc.2)
  unfold intersectSegment
  rw [h]
  dsimp only
  refine ⟨fun c => ?_, fun c c' => ?_, fun c c' => ?_⟩
  · rw [if_pos (e1.2 c)]
  · rw [if_neg (fun hh => c (e1.1 hh)), if_pos (e2.2 c')]
  · rw [if_neg (fun hh => c (e1.1 hh)), if_neg (fun hh => c' (e2.1 hh))]

/-- Two collinear segments sharing a point, neither end of the second in the first: the first lies inside the second -/
theorem collinear_inside {s1 s2 t1 t2 q : P} (ht : t1 ≠ t2) (hs : s1 ≠ s2) (c1 : turn t1 t2 s1 = 0) (c2 : turn t1 t2 s2 = 0) (q1 : InSeg q s1 s2) (q2 : InSeg q t1 t2)
    (n1 : ¬InSeg t1 s1 s2) (n2 : ¬InSeg t2 s1 s2) : InOpenSeg s1 t1 t2 ∧ InOpenSeg s2 t1 t2 := by
  obtain ⟨a, rfl⟩ := on_at ht c1
  obtain ⟨b, rfl⟩ := on_at ht c2
  have hab : a ≠ b := fun e => hs (by rw [e])
  -- the point at parameter t is in the first segment when t is between a and b
  have between : ∀ t : ℚ, (a ≤ t ∧ t ≤ b ∨ b ≤ t ∧ t ≤ a) → InSeg (at' t1 t2 t) (at' t1 t2 a) (at' t1 t2 b) := by
    intro t h
    have hd : b - a ≠ 0 := fun e => hab (by linarith)
    refine ⟨(t - a) / (b - a), ?_, ?_, ?_⟩
    · rcases h with ⟨h1, h2⟩ | ⟨h1, h2⟩
      · exact div_nonneg (by linarith) (by linarith)
      · exact div_nonneg_of_nonpos (by linarith) (by linarith)
    · rcases h with ⟨h1, h2⟩ | ⟨h1, h2⟩
      · have : 0 < b - a := lt_of_le_of_ne (by linarith) (Ne.symm hd)
        rw [div_le_one₀ this]; linarith
      · have : 0 < a - b := lt_of_le_of_ne (by linarith) (fun e => hd (by linarith))
        have e : (t - a) / (b - a) = (a - t) / (a - b) := by rw [← neg_sub a t, ← neg_sub a b, neg_div_neg_eq]
        rw [e, div_le_one₀ this]; linarith
    · apply P.ext' <;> simp only [at'] <;> field_simp <;> ring
  have n1' : ¬(a ≤ 0 ∧ 0 ≤ b ∨ b ≤ 0 ∧ 0 ≤ a) := fun h => n1 (by have := between 0 h; rwa [at_zero] at this)
  have n2' : ¬(a ≤ 1 ∧ 1 ≤ b ∨ b ≤ 1 ∧ 1 ≤ a) := fun h => n2 (by have := between 1 h; rwa [at_one] at this)
  obtain ⟨u, u0, u1, eu⟩ := q1
  obtain ⟨v, v0, v1, ev⟩ := q2
  have : at' t1 t2 v = at' t1 t2 (a + u * (b - a)) := by
    rw [← ev, eu]; apply P.ext' <;> simp only [at'] <;> ring
  have huv := at_inj ht this
  rcases le_total a b with hle | hle
  · have g1 : a ≤ v := by nlinarith
    have g2 : v ≤ b := by nlinarith
    have k1 : 0 < a := by
      refine not_le.1 (fun h => n1' (Or.inl ⟨h, by linarith⟩))
    have k2 : b < 1 := by
      refine not_le.1 (fun h => n2' (Or.inl ⟨by linarith, h⟩))
    exact ⟨⟨a, k1, by linarith, rfl⟩, ⟨b, by linarith, k2, rfl⟩⟩
  · have g1 : b ≤ v := by nlinarith
    have g2 : v ≤ a := by nlinarith
    have k1 : 0 < b := by
      refine not_le.1 (fun h => n1' (Or.inr ⟨h, by linarith⟩))
    have k2 : a < 1 := by
      refine not_le.1 (fun h => n2' (Or.inr ⟨by linarith, h⟩))
    exact ⟨⟨a, by linarith, k2, rfl⟩, ⟨b, k1, by linarith, rfl⟩⟩

/-- A segment inside the other has neither end of it -/
theorem inside_not {s1 s2 t1 t2 : P} (ht : t1 ≠ t2) (h1 : InOpenSeg s1 t1 t2) (h2 : InOpenSeg s2 t1 t2) : ¬InSeg t1 s1 s2 ∧ ¬InSeg t2 s1 s2 := by
  obtain ⟨a, a0, a1, rfl⟩ := h1
  obtain ⟨b, b0, b1, rfl⟩ := h2
  constructor
  · rintro ⟨u, u0, u1, e⟩
    have : at' t1 t2 0 = at' t1 t2 (a + u * (b - a)) := by
      rw [at_zero]; refine e.trans ?_; apply P.ext' <;> simp only [at'] <;> ring
    have := at_inj ht this
    rcases eq_or_lt_of_le u1 with e | h
    · rw [e] at this; linarith
    · nlinarith
  · rintro ⟨u, u0, u1, e⟩
    have : at' t1 t2 1 = at' t1 t2 (a + u * (b - a)) := by
      rw [at_one]; refine e.trans ?_; apply P.ext' <;> simp only [at'] <;> ring
    have := at_inj ht this
    rcases eq_or_lt_of_le u1 with e | h
    · rw [e] at this; linarith
    · nlinarith

theorem seg_le {s1 s2 t1 t2 : P} (hs : s1 ≠ s2) (ht : t1 ≠ t2) : (intersectSegment s1 s2 t1 t2).1 ≤ 3 := by
  rcases seg_lines hs ht with ⟨p, e, h1, h2, hu, hc⟩ | ⟨e, hc, _⟩ | ⟨e, hc, _⟩
  · have := (seg_point hs ht e h1 h2 hu).2.2.2.2
    omega
  · obtain ⟨a, b, c⟩ := seg_same hs e hc
    by_cases c1 : InSeg t1 s1 s2
    · rw [a c1]
    · by_cases c2 : InSeg t2 s1 s2
      · rw [b c1 c2]
      · rw [c c1 c2]; exact Nat.zero_le _
  · unfold intersectSegment; rw [e]; simp

theorem seg_sound {s1 s2 t1 t2 : P} (hs : s1 ≠ s2) (ht : t1 ≠ t2) (h : (intersectSegment s1 s2 t1 t2).1 ≠ 0) :
    InSeg (intersectSegment s1 s2 t1 t2).2 s1 s2 ∧ InSeg (intersectSegment s1 s2 t1 t2).2 t1 t2 := by
  rcases seg_lines hs ht with ⟨p, e, h1, h2, hu, hc⟩ | ⟨e, hc, _⟩ | ⟨e, hc, _⟩
  · obtain ⟨e', i1, i2⟩ := (seg_point hs ht e h1 h2 hu).2.1 h
    rw [e']; exact ⟨i1, i2⟩
  · obtain ⟨a, b, c⟩ := seg_same hs e hc
    by_cases c1 : InSeg t1 s1 s2
    · rw [a c1]; exact ⟨c1, inSeg_left _ _⟩
    · by_cases c2 : InSeg t2 s1 s2
      · rw [b c1 c2]; exact ⟨c2, inSeg_right _ _⟩
      · rw [c c1 c2] at h; exact absurd rfl h
  · unfold intersectSegment at h; rw [e] at h; exact absurd rfl h

theorem seg_complete {s1 s2 t1 t2 q : P} (hs : s1 ≠ s2) (ht : t1 ≠ t2) (q1 : InSeg q s1 s2) (q2 : InSeg q t1 t2) (hr : InRange q) (hn : ¬(InOpenSeg s1 t1 t2 ∧ InOpenSeg s2 t1 t2)) :
    (intersectSegment s1 s2 t1 t2).1 ≠ 0 := by
  rcases seg_lines hs ht with ⟨p, e, h1, h2, hu, hc⟩ | ⟨e, hc, hi⟩ | ⟨e, hc, hi⟩
  · have : q = p := hu q (inSeg_turn q1) (inSeg_turn q2)
    intro z
    exact (seg_point hs ht e h1 h2 hu).1 (by rw [← this]; exact hr) z ⟨by rw [← this]; exact q1, by rw [← this]; exact q2⟩
  · obtain ⟨a, b, c⟩ := seg_same hs e hc
    by_cases c1 : InSeg t1 s1 s2
    · rw [a c1]; exact (by decide : (3 : Nat) ≠ 0)
    · by_cases c2 : InSeg t2 s1 s2
      · rw [b c1 c2]; exact (by decide : (3 : Nat) ≠ 0)
      · exact absurd (collinear_inside ht hs ((hi _).1 (by simp only [turn]; ring)) ((hi _).1 (by simp only [turn]; ring)) q1 q2 c1 c2) hn
  · exact absurd (inSeg_turn q2) (hi q (inSeg_turn q1))

theorem seg_three {s1 s2 t1 t2 : P} (hs : s1 ≠ s2) (ht : t1 ≠ t2) : (intersectSegment s1 s2 t1 t2).1 = 3 ↔ Collinear s1 s2 t1 t2 ∧ (InSeg t1 s1 s2 ∨ InSeg t2 s1 s2) := by
  rcases seg_lines hs ht with ⟨p, e, h1, h2, hu, hc⟩ | ⟨e, hc, _⟩ | ⟨e, hc, _⟩
  · have := (seg_point hs ht e h1 h2 hu).2.2.2.2
    exact ⟨fun h => by omega, fun h => absurd h.1 hc⟩
  · obtain ⟨a, b, c⟩ := seg_same hs e hc
    by_cases c1 : InSeg t1 s1 s2
    · rw [a c1]; exact ⟨fun _ => ⟨hc, Or.inl c1⟩, fun _ => rfl⟩
    · by_cases c2 : InSeg t2 s1 s2
      · rw [b c1 c2]; exact ⟨fun _ => ⟨hc, Or.inr c2⟩, fun _ => rfl⟩
      · rw [c c1 c2]; exact ⟨(fun h => by cases h), fun h => absurd h.2 (fun o => o.elim c1 c2)⟩
  · refine ⟨fun h => ?_, fun h => absurd h.1 hc⟩
    unfold intersectSegment at h; rw [e] at h; cases h

theorem seg_one {s1 s2 t1 t2 : P} (hs : s1 ≠ s2) (ht : t1 ≠ t2) (h : (intersectSegment s1 s2 t1 t2).1 = 1) :
    ¬Collinear s1 s2 t1 t2 ∧ (intersectSegment s1 s2 t1 t2).2 ≠ s1 ∧ (intersectSegment s1 s2 t1 t2).2 ≠ s2 ∧ (intersectSegment s1 s2 t1 t2).2 ≠ t1 ∧ (intersectSegment s1 s2 t1 t2).2 ≠ t2 := by
  rcases seg_lines hs ht with ⟨p, e, h1, h2, hu, hc⟩ | ⟨e, hc, _⟩ | ⟨e, hc, _⟩
  · obtain ⟨e', _, _⟩ := (seg_point hs ht e h1 h2 hu).2.1 (by rw [h]; decide)
    obtain ⟨n1, n2, n3, n4⟩ := (seg_point hs ht e h1 h2 hu).2.2.1 h
    rw [e']; exact ⟨hc, n1, n2, n3, n4⟩
  · obtain ⟨a, b, c⟩ := seg_same hs e hc
    by_cases c1 : InSeg t1 s1 s2
    · rw [a c1] at h; cases h
    · by_cases c2 : InSeg t2 s1 s2
      · rw [b c1 c2] at h; cases h
      · rw [c c1 c2] at h; cases h
  · unfold intersectSegment at h; rw [e] at h; cases h

theorem seg_two {s1 s2 t1 t2 : P} (hs : s1 ≠ s2) (ht : t1 ≠ t2) (h : (intersectSegment s1 s2 t1 t2).1 = 2) :
    ¬Collinear s1 s2 t1 t2 ∧ ((intersectSegment s1 s2 t1 t2).2 = s1 ∨ (intersectSegment s1 s2 t1 t2).2 = s2 ∨ (intersectSegment s1 s2 t1 t2).2 = t1 ∨ (intersectSegment s1 s2 t1 t2).2 = t2) := by
  rcases seg_lines hs ht with ⟨p, e, h1, h2, hu, hc⟩ | ⟨e, hc, _⟩ | ⟨e, hc, _⟩
  · obtain ⟨e', _, _⟩ := (seg_point hs ht e h1 h2 hu).2.1 (by rw [h]; decide)
    have := (seg_point hs ht e h1 h2 hu).2.2.2.1 h
    rw [e']; exact ⟨hc, this⟩
  · obtain ⟨a, b, c⟩ := seg_same hs e hc
    by_cases c1 : InSeg t1 s1 s2
    · rw [a c1] at h; cases h
    · by_cases c2 : InSeg t2 s1 s2
      · rw [b c1 c2] at h; cases h
      · rw [c c1 c2] at h; cases h
  · unfold intersectSegment at h; rw [e] at h; cases h

theorem inOpen_inSeg {p a b : P} (h : InOpenSeg p a b) : InSeg p a b := by
  obtain ⟨t, h0, h1, e⟩ := h
  exact ⟨t, le_of_lt h0, le_of_lt h1, e⟩

theorem seg_inside {s1 s2 t1 t2 : P} (hs : s1 ≠ s2) (ht : t1 ≠ t2) (h1 : InOpenSeg s1 t1 t2) (h2 : InOpenSeg s2 t1 t2) : (intersectSegment s1 s2 t1 t2).1 = 0 := by
  obtain ⟨n1, n2⟩ := inside_not ht h1 h2
  rcases seg_lines hs ht with ⟨p, e, _, _, hu, hc⟩ | ⟨e, hc, _⟩ | ⟨e, hc, hi⟩
  · exact absurd ((hu _ (by simp only [turn]; ring) (inSeg_turn (inOpen_inSeg h1))).trans (hu _ (by simp only [turn]; ring) (inSeg_turn (inOpen_inSeg h2))).symm) hs
  · rw [(seg_same hs e hc).2.2 n1 n2]
  · exact absurd (inSeg_turn (inOpen_inSeg h1)) (hi s1 (by simp only [turn]; ring))

end Verif.Geom
