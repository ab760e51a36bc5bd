import Verif.Geom.Segment

/-! Lemmas about convex polygons -/

namespace Verif.Geom

/-- Index of the next vertex -/
def nx (n i : Nat) : Nat := (i + 1) % n

theorem nx_lt {n i : Nat} (h : i < n) : nx n i < n := Nat.mod_lt _ (by omega)

theorem nx_eq {n i : Nat} (h : i < n) : (i + 1 < n ∧ nx n i = i + 1) ∨ (i + 1 = n ∧ nx n i = 0) := by
  unfold nx
  by_cases e : i + 1 = n
  · exact Or.inr ⟨e, by rw [e, Nat.mod_self]⟩
  · exact Or.inl ⟨by omega, Nat.mod_eq_of_lt (by omega)⟩

theorem nx_pred {n i : Nat} (h : i < n) : ∃ k, k < n ∧ nx n k = i := by
  by_cases e : i = 0
  · refine ⟨n - 1, by omega, ?_⟩
    rcases nx_eq (n := n) (i := n - 1) (by omega) with ⟨a, _⟩ | ⟨_, b⟩
    · omega
    · rw [b, e]
  · refine ⟨i - 1, by omega, ?_⟩
    rcases nx_eq (n := n) (i := i - 1) (by omega) with ⟨a, b⟩ | ⟨a, b⟩ <;> omega

theorem nx_inj {n i j : Nat} (hi : i < n) (hj : j < n) (h : nx n i = nx n j) : i = j := by
  rcases nx_eq hi with ⟨a, b⟩ | ⟨a, b⟩ <;> rcases nx_eq hj with ⟨c, d⟩ | ⟨c, d⟩ <;> omega

theorem nx_ne {n i : Nat} (hn : 2 ≤ n) (hi : i < n) : nx n i ≠ i := by
  rcases nx_eq hi with ⟨a, b⟩ | ⟨a, b⟩ <;> omega

theorem nx_nx_ne {n i : Nat} (hn : 3 ≤ n) (hi : i < n) : nx n (nx n i) ≠ i := by
  rcases nx_eq hi with ⟨a, b⟩ | ⟨a, b⟩ <;> rcases nx_eq (nx_lt hi) with ⟨c, d⟩ | ⟨c, d⟩ <;> omega

/-- Position with respect to side `i` -/
def f (pol : List P) (i : Nat) (p : P) : ℚ := turn (vtx pol i) (vtx pol (nx pol.length i)) p

theorem vtx_eq {pol : List P} {i : Nat} (h : i < pol.length) : vtx pol i = pol[i] := by
  unfold vtx; rw [List.getD_eq_getElem?_getD, List.getElem?_eq_getElem h]; rfl

theorem vtx_mem {pol : List P} {i : Nat} (h : i < pol.length) : vtx pol i ∈ pol := by
  rw [vtx_eq h]; exact List.getElem_mem h

theorem mem_vtx {pol : List P} {p : P} (h : p ∈ pol) : ∃ i, i < pol.length ∧ p = vtx pol i := by
  obtain ⟨i, hi, e⟩ := List.mem_iff_getElem.1 h
  exact ⟨i, hi, by rw [vtx_eq hi, e]⟩

theorem side_iff {pol : List P} {a b : P} : Side pol a b ↔ ∃ i, i < pol.length ∧ a = vtx pol i ∧ b = vtx pol (nx pol.length i) := by
  constructor
  · rintro ⟨i, hi, hj, e1, e2⟩
    exact ⟨i, hi, by rw [vtx_eq hi, e1], by rw [vtx_eq (nx_lt hi), e2]; rfl⟩
  · rintro ⟨i, hi, e1, e2⟩
    exact ⟨i, hi, nx_lt hi, by rw [e1, vtx_eq hi], by rw [e2, vtx_eq (nx_lt hi)]; rfl⟩

theorem turn_lin (a b p q : P) (t : ℚ) : turn a b (at' p q t) = (1 - t) * turn a b p + t * turn a b q := by
  simp only [turn, at']; ring

theorem f_lin (pol : List P) (i : Nat) (p q : P) (t : ℚ) : f pol i (at' p q t) = (1 - t) * f pol i p + t * f pol i q := turn_lin _ _ _ _ _

theorem f_left (pol : List P) (i : Nat) : f pol i (vtx pol i) = 0 := by simp only [f, turn]; ring
theorem f_right (pol : List P) (i : Nat) : f pol i (vtx pol (nx pol.length i)) = 0 := by simp only [f, turn]; ring

section
variable {pol : List P} (hc : Convex pol)
include hc

theorem conv_n : 3 ≤ pol.length := hc.1

theorem conv_pos {i k : Nat} (hi : i < pol.length) (hk : k < pol.length) (h1 : k ≠ i) (h2 : k ≠ nx pol.length i) : 0 < f pol i (vtx pol k) := by
  have := hc.2 i k hi hk (nx_lt hi) h1 h2
  unfold f
  rw [vtx_eq hi, vtx_eq hk, vtx_eq (nx_lt hi)]
  exact this

theorem conv_nonneg {i k : Nat} (hi : i < pol.length) (hk : k < pol.length) : 0 ≤ f pol i (vtx pol k) := by
  by_cases h1 : k = i
  · rw [h1, f_left]
  by_cases h2 : k = nx pol.length i
  · rw [h2, f_right]
  exact le_of_lt (conv_pos hc hi hk h1 h2)

/-- The sides have two different ends -/
theorem side_ne {i : Nat} (hi : i < pol.length) : vtx pol i ≠ vtx pol (nx pol.length i) := by
  intro e
  have hn := conv_n hc
  have h := conv_pos hc (nx_lt hi) hi (fun e => nx_ne (by omega) hi e.symm) (fun e => nx_nx_ne hn hi e.symm)
  rw [e, f_left] at h
  exact absurd h (lt_irrefl _)

theorem hull_half {p : P} (h : Hull pol p) : ∀ i, i < pol.length → 0 ≤ f pol i p := by
  induction h with
  | vertex hm =>
    intro i hi
    obtain ⟨k, hk, e⟩ := mem_vtx hm
    rw [e]; exact conv_nonneg hc hi hk
  | seg _ _ hs ih1 ih2 =>
    intro i hi
    obtain ⟨t, h0, h1, rfl⟩ := hs
    rw [f_lin]
    have := mul_nonneg (sub_nonneg.2 h1) (ih1 i hi)
    have := mul_nonneg h0 (ih2 i hi)
    linarith

omit hc in
/-- A triangle of covered points is covered -/
theorem hull_tri {a b c p : P} (ha : Hull pol a) (hb : Hull pol b) (hcc : Hull pol c) {x y z : ℚ} (hx : 0 ≤ x) (hy : 0 ≤ y) (hz : 0 ≤ z) (hsum : x + y + z = 1)
    (ex : p.x = x * a.x + y * b.x + z * c.x) (ey : p.y = x * a.y + y * b.y + z * c.y) : Hull pol p := by
  by_cases h0 : y + z = 0
  · have hy0 : y = 0 := by linarith
    have hz0 : z = 0 := by linarith
    have hx1 : x = 1 := by linarith
    have : p = a := P.ext' (by rw [ex, hy0, hz0, hx1]; ring) (by rw [ey, hy0, hz0, hx1]; ring)
    rw [this]; exact ha
  · have hpos : 0 < y + z := lt_of_le_of_ne (by linarith) (Ne.symm h0)
    have hq : Hull pol (at' b c (z / (y + z))) := Hull.seg hb hcc ⟨z / (y + z), div_nonneg hz (le_of_lt hpos), by rw [div_le_one₀ hpos]; linarith, rfl⟩
    refine Hull.seg ha hq ⟨y + z, le_of_lt hpos, by linarith, ?_⟩
    have hx' : x = 1 - (y + z) := by linarith
    apply P.ext'
    · rw [ex, hx']; simp only [at']; field_simp; ring
    · rw [ey, hx']; simp only [at']; field_simp; ring

/-- Discrete intermediate value: the sign changes somewhere -/
theorem sign_change (g : Nat → ℚ) : ∀ (k m : Nat), 0 ≤ g k → g (k + m) ≤ 0 → 0 < m → ∃ i, k ≤ i ∧ i < k + m ∧ 0 ≤ g i ∧ g (i + 1) ≤ 0 := by
  intro k m
  induction m generalizing k with
  | zero => intro _ _ h; omega
  | succ m ih =>
    intro h0 h1 _
    by_cases h : g (k + 1) ≤ 0
    · exact ⟨k, Nat.le_refl _, by omega, h0, h⟩
    · have h' : 0 < g (k + 1) := not_le.1 h
      by_cases hm : m = 0
      · subst hm; exact absurd h1 (not_le.2 h')
      · obtain ⟨i, a, b, c, d⟩ := ih (k + 1) (le_of_lt h') (by rw [show k + 1 + m = k + (m + 1) by omega]; exact h1) (by omega)
        exact ⟨i, by omega, by omega, c, d⟩

theorem half_hull {p : P} (h : ∀ i, i < pol.length → 0 ≤ f pol i p) : Hull pol p := by
  have hn := conv_n hc
  -- g k: position of p with respect to the ray from vertex 0 to vertex k
  let g : Nat → ℚ := fun k => turn (vtx pol 0) (vtx pol k) p
  have g1 : 0 ≤ g 1 := by
    have := h 0 (by omega)
    unfold f at this
    rcases nx_eq (n := pol.length) (i := 0) (by omega) with ⟨_, e⟩ | ⟨e, _⟩
    · rw [e] at this; exact this
    · omega
  have g2 : g (1 + (pol.length - 2)) ≤ 0 := by
    have := h (pol.length - 1) (by omega)
    unfold f at this
    rcases nx_eq (n := pol.length) (i := pol.length - 1) (by omega) with ⟨e, _⟩ | ⟨_, e⟩
    · omega
    · rw [e] at this
      have e2 : 1 + (pol.length - 2) = pol.length - 1 := by omega
      show turn (vtx pol 0) (vtx pol (1 + (pol.length - 2))) p ≤ 0
      rw [e2]
      have e3 : turn (vtx pol 0) (vtx pol (pol.length - 1)) p = -turn (vtx pol (pol.length - 1)) (vtx pol 0) p := by simp only [turn]; ring
      rw [e3]; linarith
  obtain ⟨k, k1, k2, gk, gk'⟩ := sign_change hc g 1 (pol.length - 2) g1 g2 (by omega)
  have hk : k < pol.length := by omega
  have hnx : nx pol.length k = k + 1 := by
    rcases nx_eq hk with ⟨_, e⟩ | ⟨e, _⟩
    · exact e
    · omega
  have ek : 0 ≤ turn (vtx pol k) (vtx pol (k + 1)) p := by
    have := h k hk; unfold f at this; rw [hnx] at this; exact this
  have hD : 0 < turn (vtx pol k) (vtx pol (k + 1)) (vtx pol 0) := by
    have := conv_pos hc hk (show 0 < pol.length by omega) (by omega) (by rw [hnx]; omega)
    unfold f at this; rw [hnx] at this; exact this
  have v0 : Hull pol (vtx pol 0) := .vertex (vtx_mem (by omega))
  have vk : Hull pol (vtx pol k) := .vertex (vtx_mem hk)
  have vk' : Hull pol (vtx pol (k + 1)) := .vertex (vtx_mem (by omega))
  have gk1 : 0 ≤ turn (vtx pol 0) (vtx pol k) p := gk
  have gk2 : turn (vtx pol 0) (vtx pol (k + 1)) p ≤ 0 := gk'
  generalize vtx pol 0 = a at *
  generalize vtx pol k = b at *
  generalize vtx pol (k + 1) = c at *
  have hne := ne_of_gt hD
  refine hull_tri v0 vk vk' (x := turn b c p / turn b c a) (y := -turn a c p / turn b c a) (z := turn a b p / turn b c a)
    (div_nonneg ek (le_of_lt hD)) (div_nonneg (by linarith) (le_of_lt hD)) (div_nonneg gk1 (le_of_lt hD)) ?_ ?_ ?_
  · rw [← add_div, ← add_div, div_eq_one_iff_eq hne]; simp only [turn]; ring
  · rw [div_mul_eq_mul_div, div_mul_eq_mul_div, div_mul_eq_mul_div, ← add_div, ← add_div, eq_div_iff hne]; simp only [turn]; ring
  · rw [div_mul_eq_mul_div, div_mul_eq_mul_div, div_mul_eq_mul_div, ← add_div, ← add_div, eq_div_iff hne]; simp only [turn]; ring

theorem hull_iff {p : P} : Hull pol p ↔ ∀ i, i < pol.length → 0 ≤ f pol i p := ⟨hull_half hc, half_hull hc⟩

/-- A covered point on the line of a side is on the side -/
theorem on_side {p : P} (h : ∀ i, i < pol.length → 0 ≤ f pol i p) {i : Nat} (hi : i < pol.length) (h0 : f pol i p = 0) : InSeg p (vtx pol i) (vtx pol (nx pol.length i)) := by
  have hn := conv_n hc
  obtain ⟨t, e⟩ := on_at (side_ne hc hi) h0
  refine ⟨t, ?_, ?_, e⟩
  · -- the side before
    obtain ⟨k, hk, ek⟩ := nx_pred hi
    have h1 := h k hk
    rw [e, f_lin] at h1
    have z : f pol k (vtx pol i) = 0 := by rw [← ek]; exact f_right _ _
    rw [z] at h1
    have hp : 0 < f pol k (vtx pol (nx pol.length i)) := by
      refine conv_pos hc hk (nx_lt hi) ?_ ?_
      · rw [← ek]; exact nx_nx_ne hn hk
      · rw [ek]; exact nx_ne (by omega) hi
    refine not_lt.1 (fun ht => ?_)
    nlinarith
  · have h1 := h _ (nx_lt hi)
    rw [e, f_lin, f_left] at h1
    have hp : 0 < f pol (nx pol.length i) (vtx pol i) :=
      conv_pos hc (nx_lt hi) hi (fun e => nx_ne (by omega) hi e.symm) (fun e => nx_nx_ne hn hi e.symm)
    refine not_lt.1 (fun ht => ?_)
    nlinarith

omit hc in
theorem side_hull {p : P} {i : Nat} (hi : i < pol.length) (h : InSeg p (vtx pol i) (vtx pol (nx pol.length i))) : Hull pol p :=
  .seg (.vertex (vtx_mem hi)) (.vertex (vtx_mem (nx_lt hi))) h

/-! ## Interior -/

theorem interior_pos {p : P} (h : Interior pol p) : ∀ i, i < pol.length → 0 < f pol i p := by
  intro i hi
  obtain ⟨ε, hε, hq⟩ := h
  refine not_le.1 (fun hle => ?_)
  have hne := side_ne hc hi
  have hd := dist2_pos hne
  -- a step to the right of the side
  let dx := (vtx pol (nx pol.length i)).x - (vtx pol i).x
  let dy := (vtx pol (nx pol.length i)).y - (vtx pol i).y
  have hM : 0 < 1 + |dx| + |dy| := by positivity
  let s := ε / (1 + |dx| + |dy|)
  have hs : 0 < s := div_pos hε hM
  have hse : s * (1 + |dx| + |dy|) = ε := div_mul_cancel₀ _ (ne_of_gt hM)
  have ax := abs_le.1 (le_refl |dx|)
  have ay := abs_le.1 (le_refl |dy|)
  have px := abs_nonneg dx
  have py := abs_nonneg dy
  have := hull_half hc (hq ⟨p.x + s * dy, p.y - s * dx⟩ (by dsimp only; nlinarith) (by dsimp only; nlinarith) (by dsimp only; nlinarith) (by dsimp only; nlinarith)) i hi
  have e : f pol i ⟨p.x + s * dy, p.y - s * dx⟩ = f pol i p - s * dist2 (vtx pol i) (vtx pol (nx pol.length i)) := by
    simp only [f, turn, dist2, dx, dy]; ring
  rw [e] at this
  have := mul_pos hs hd
  linarith

omit hc in
/-- Around a point to the left of the first `m` sides there is a square to the left of them -/
theorem square_pos {p : P} : ∀ m, m ≤ pol.length → (∀ i, i < m → 0 < f pol i p) →
    ∃ ε : ℚ, 0 < ε ∧ ∀ q : P, p.x - ε ≤ q.x → q.x ≤ p.x + ε → p.y - ε ≤ q.y → q.y ≤ p.y + ε → ∀ i, i < m → 0 ≤ f pol i q := by
  intro m
  induction m with
  | zero => exact fun _ _ => ⟨1, by norm_num, fun _ _ _ _ _ i hi => absurd hi (Nat.not_lt_zero i)⟩
  | succ m ih =>
    intro hm hp
    obtain ⟨ε, hε, hq⟩ := ih (by omega) (fun i hi => hp i (by omega))
    let dx := (vtx pol (nx pol.length m)).x - (vtx pol m).x
    let dy := (vtx pol (nx pol.length m)).y - (vtx pol m).y
    have hM : 0 < 1 + |dx| + |dy| := by positivity
    have hf := hp m (by omega)
    let s := f pol m p / (1 + |dx| + |dy|)
    have hs : 0 < s := div_pos hf hM
    have hse : s * (1 + |dx| + |dy|) = f pol m p := div_mul_cancel₀ _ (ne_of_gt hM)
    have px := abs_nonneg dx
    have py := abs_nonneg dy
    refine ⟨min ε s, lt_min hε hs, fun q h1 h2 h3 h4 i hi => ?_⟩
    have m1 := min_le_left ε s
    have m2 := min_le_right ε s
    by_cases e : i = m
    · subst e
      have ef : f pol i q = f pol i p + dx * (q.y - p.y) - dy * (q.x - p.x) := by simp only [f, turn, dx, dy]; ring
      have b1 : |dx * (q.y - p.y)| ≤ |dx| * s := by
        rw [abs_mul]; exact mul_le_mul_of_nonneg_left (abs_le.2 ⟨by linarith, by linarith⟩) px
      have b2 : |dy * (q.x - p.x)| ≤ |dy| * s := by
        rw [abs_mul]; exact mul_le_mul_of_nonneg_left (abs_le.2 ⟨by linarith, by linarith⟩) py
      have c1 := (abs_le.1 b1).1
      have c2 := (abs_le.1 b2).2
      rw [ef]
      nlinarith
    · exact hq q (by linarith) (by linarith) (by linarith) (by linarith) i (by omega)

theorem interior_iff {p : P} : Interior pol p ↔ ∀ i, i < pol.length → 0 < f pol i p := by
  refine ⟨interior_pos hc, fun h => ?_⟩
  obtain ⟨ε, hε, hq⟩ := square_pos pol.length (Nat.le_refl _) h
  exact ⟨ε, hε, fun q h1 h2 h3 h4 => half_hull hc (hq q h1 h2 h3 h4)⟩

omit hc in
theorem interior_hull {p : P} (h : Interior pol p) : Hull pol p := by
  obtain ⟨ε, hε, hq⟩ := h
  exact hq p (by linarith) (by linarith) (by linarith) (by linarith)

/-- Boundary points are exactly the points of the sides -/
theorem boundary_iff {p : P} : Boundary pol p ↔ ∃ i, i < pol.length ∧ InSeg p (vtx pol i) (vtx pol (nx pol.length i)) := by
  constructor
  · rintro ⟨hh, hn⟩
    have hp := hull_half hc hh
    have : ∃ i, i < pol.length ∧ f pol i p = 0 := by
      refine Classical.byContradiction (fun hno => hn ((interior_iff hc).2 (fun i hi => ?_)))
      exact lt_of_le_of_ne (hp i hi) (fun e => hno ⟨i, hi, e.symm⟩)
    obtain ⟨i, hi, h0⟩ := this
    exact ⟨i, hi, on_side hc hp hi h0⟩
  · rintro ⟨i, hi, hs⟩
    refine ⟨side_hull hi hs, fun hin => ?_⟩
    have := interior_pos hc hin i hi
    have z : f pol i p = 0 := inSeg_turn hs
    linarith

end

end Verif.Geom
