import Verif.Oa.Scene

/-!
# Obstacle avoidance: properties
-/

namespace Verif.Oa

variable {idx : Vertex → Nat} {rays : List Ray} {pts : List Vertex} {W : Nat}

/-! ## C37: the path -/

/-- C37 for any set of rays: the search ends, a path that is returned is a chain of rays from the start to the end no lighter than which exists, the failure
-2 means that there is no chain, and the failure -1 that the lightest chain found has more than 100 points. -/
theorem solve_spec (E : Env idx rays pts W) (hb : begin' ∈ pts) {fuel : Nat} (hf : pts.length * (pts.length * W + 1) < fuel) :
    ∃ r, solve idx rays pts fuel = .ok r ∧
      match r with
      | .ok l => ∃ w, Chain rays origin l begin' w ∧ Lightest rays begin' origin w ∧ l.length ≤ 100
      | .error .invalid => ∀ l w, ¬ Chain rays origin l begin' w
      | .error .tooLong => ∃ l w, Chain rays origin l begin' w ∧ Lightest rays begin' origin w ∧ 100 < l.length := by
  obtain ⟨st, h1, h2⟩ := search_spec E (f := fuel) (st := St.init idx) (by rw [todo_init]; exact hf) (init_inv E)
  refine ⟨getPath idx st maxChkpoints begin', by simp only [solve, h1], ?_⟩
  have hbo : begin' ≠ origin := by decide
  by_cases h0 : st.pweight (idx begin') = 0
  · have hv := h2.inv.unseen _ hb hbo h0
    have : getPath idx st maxChkpoints begin' = .error .invalid := by
      unfold getPath maxChkpoints
      rw [if_neg hbo]
      simp only
      rw [if_pos hv]
    rw [this]
    intro l w hc
    rcases h2.lower E hc with h | h
    · exact hbo h
    · exact h.1 h0
  · obtain ⟨l, g1, g2⟩ := h2.path E (Nat.le_refl _) hb fun _ => h0
    rw [g2]
    have hl : Lightest rays begin' origin (lab idx st begin') := by
      intro l' w' hc
      rcases h2.lower E hc with h | h
      · exact absurd h hbo
      · rw [lab_ne _ _ hbo]; exact h.2
    by_cases hlen : l.length ≤ maxChkpoints
    · rw [if_pos hlen]; exact ⟨_, g1, hl, hlen⟩
    · rw [if_neg hlen]
      refine ⟨l, _, g1, hl, ?_⟩
      unfold maxChkpoints at hlen
      omega

/-- The rays of a scene are fit for the search. -/
theorem scene_env {s : Scene} (h : Ok s) {g : Geometry} {W : Nat} (hW : ∀ u v, g.norm u v < W) (hfit : 201 * W ≤ 2147483647)
    {out : List (Vertex × Vertex)} (hr : calcRays g s.sizes = .ok out) :
    Env s.idx (withWeights g out) (points s.sizes) W ∧ begin' ∈ points s.sizes := by
  obtain ⟨h1, _⟩ := pushAll_eq hr
  rw [List.nil_append] at h1
  have hfst : 0 < s.sizes.length ∧ s.sizes.getD 0 0 = 2 := by
    unfold Scene.sizes
    have := List.getElem?_eq_some_iff.mp h.first
    refine ⟨by rw [List.length_map]; exact this.1, ?_⟩
    rw [List.getD_eq_getElem?_getD, List.getElem?_map, h.first]
    rfl
  have hadj : ∀ u v c, Adj (withWeights g out) u v c → ((u, v) ∈ out ∨ (v, u) ∈ out) ∧ 0 < c ∧ c ≤ W := by
    intro u v c ha
    unfold Adj withWeights at ha
    simp only [List.mem_map, Ray.mk.injEq] at ha
    rcases ha with ⟨⟨a, b⟩, h2, rfl, rfl, rfl⟩ | ⟨⟨a, b⟩, h2, rfl, rfl, rfl⟩
    · exact ⟨.inl h2, by omega, hW _ _⟩
    · exact ⟨.inr h2, by omega, hW _ _⟩
  have hout : ∀ u v, (u, v) ∈ out → u ∈ points s.sizes ∧ v ∈ points s.sizes := by
    intro u v huv
    rw [h1] at huv
    rcases List.mem_append.mp huv with h | h
    · exact ⟨(mem_innerRays h).1, (mem_innerRays h).2.1⟩
    · exact ⟨(mem_interRays h).1, (mem_interRays h).2.1⟩
  have hself : (origin, origin) ∉ out := by
    intro ho
    rw [h1] at ho
    rcases List.mem_append.mp ho with h | h
    · have := (mem_innerRays h).2.2.2
      simp only [origin] at this
      rw [hfst.2] at this
      omega
    · exact absurd (mem_interRays h).2.2 (Nat.lt_irrefl _)
  refine ⟨⟨idx_inj h, points_nodup _, mem_points.mpr ⟨hfst.1, by simp only [origin]; rw [hfst.2]; omega⟩, ?_, ?_, ?_, ?_⟩,
    mem_points.mpr ⟨hfst.1, by simp only [begin']; rw [hfst.2]; omega⟩⟩
  · intro u v c ha
    rcases (hadj u v c ha).1 with h | h
    · exact (hout _ _ h).1
    · exact (hout _ _ h).2
  · intro u v c ha
    exact (hadj u v c ha).2
  · intro c ha
    rcases (hadj _ _ c ha).1 with h | h <;> exact hself h
  · have := length_points h
    unfold maxPts at this
    have := Nat.mul_le_mul_right W (show (points s.sizes).length + 1 ≤ 201 by omega)
    unfold intMax
    omega

/-- C37 for `oa_process`: whatever obstacles were added before and wherever they are, if the rays fit into their table and are shorter than `W`, the path is a
lightest chain of visible rays from the start to the end. -/
theorem process_shortest {cs : List Call} (hc : ∀ c ∈ cs, c.Fair) {g : Geometry} {W : Nat} (hW : ∀ u v, g.norm u v < W) (hfit : 201 * W ≤ 2147483647) :
    ∃ s, runCalls Scene.init cs = .ok s ∧ ∀ out, calcRays g s.sizes = .ok out → ∀ fuel > 200 * (200 * W + 1), ∃ r, process s g fuel = .ok r ∧
      match r with
      | .ok l => ∃ w, Chain (withWeights g out) origin l begin' w ∧ Lightest (withWeights g out) begin' origin w ∧ l.length ≤ 100
      | .error .invalid => ∀ l w, ¬ Chain (withWeights g out) origin l begin' w
      | .error .tooLong => ∃ l w, Chain (withWeights g out) origin l begin' w ∧ Lightest (withWeights g out) begin' origin w ∧ 100 < l.length := by
  obtain ⟨s, h1, h2⟩ := runCalls_ok (cs := cs) init_ok hc
  refine ⟨s, h1, ?_⟩
  intro out hout fuel hf
  obtain ⟨E, hb⟩ := scene_env h2 hW hfit hout
  obtain ⟨r, g1, g2⟩ := solve_spec E hb (fuel := fuel) (by
    have h3 := length_points h2
    unfold maxPts at h3
    have h4 := Nat.mul_le_mul h3 (Nat.add_le_add_right (Nat.mul_le_mul_right W h3) 1)
    omega)
  refine ⟨r, ?_, g2⟩
  unfold process
  rw [hout]
  exact g1

/-! ## C38: tables -/

/-- C38: whatever calls are made, with polygons of any size from 0 to `INT_MAX` - 200, there are at most 20 polygons and 200 points, every point of every polygon
has its own entry in the tables, and the entries of the last polygon end where the next free point is. -/
theorem tables {cs : List Call} (hc : ∀ c ∈ cs, c.Fair) :
    ∃ s, runCalls Scene.init cs = .ok s ∧ s.polys.length ≤ 20 ∧ 2 ≤ s.curPt ∧ s.curPt ≤ 200 ∧
      (∀ (i : Nat) (p : Poly), s.polys[i]? = some p → ∀ t < p.l, 0 ≤ t → 0 ≤ p.pts + t ∧ p.pts + t < s.curPt) ∧
      ∀ (i j : Nat) (p q : Poly), i ≠ j → s.polys[i]? = some p → s.polys[j]? = some q → ∀ t u, 0 ≤ t → t < p.l → 0 ≤ u → u < q.l → p.pts + t ≠ q.pts + u := by
  obtain ⟨s, h1, h2⟩ := runCalls_ok (cs := cs) init_ok hc
  refine ⟨s, h1, h2.few, ?_, h2.cur, ?_, ?_⟩
  · have := h2.pos _ (List.mem_of_getElem? h2.first)
    simp only at this
    omega
  · intro i p hp t ht h0
    have := h2.pos p (List.mem_of_getElem? hp)
    omega
  · intro i j p q hij hp hq t u h1 h3 h4 h5 he
    obtain ⟨hi, hp'⟩ := List.getElem?_eq_some_iff.mp hp
    obtain ⟨hj, hq'⟩ := List.getElem?_eq_some_iff.mp hq
    rcases Nat.lt_or_gt_of_ne hij with h | h
    · have := List.pairwise_iff_getElem.mp h2.apart i j hi hj h
      rw [hp', hq'] at this
      omega
    · have := List.pairwise_iff_getElem.mp h2.apart j i hj hi h
      rw [hp', hq'] at this
      omega

/-- A polygon is refused exactly when there is no room for it. -/
theorem newPoly_refused {s : Scene} (h : Ok s) {n : Int} (hn : 0 ≤ n ∧ n ≤ intMax - maxPts) :
    (∃ s', s.newPoly n = .ok (none, s')) ↔ (200 < s.curPt + n ∨ s.polys.length = 20) := by
  have hc := h.cur
  have hf := h.few
  have h0 : 0 ≤ s.curPt := by
    have := h.pos _ (List.mem_of_getElem? h.first)
    simp only at this
    omega
  unfold maxPts intMax maxPoly at *
  unfold Scene.newPoly maxPts intMax maxPoly
  rw [if_neg (by omega)]
  by_cases h1 : s.curPt + n > (200 : Nat)
  · rw [if_pos h1]
    exact ⟨fun _ => .inl (by omega), fun _ => ⟨s, rfl⟩⟩
  · rw [if_neg h1]
    by_cases h2 : s.polys.length + 1 > 20
    · rw [if_pos h2]
      exact ⟨fun _ => .inr (by omega), fun _ => ⟨s, rfl⟩⟩
    · rw [if_neg h2]
      constructor
      · rintro ⟨s', h⟩; cases h
      · intro h; omega

/-- C37: a side of a polygon is a ray if its two ends are in the box and no other obstacle than the polygon itself crosses it. -/
theorem sides_visible (g : Geometry) (ls : List Nat) (u v : Vertex) :
    (u, v) ∈ innerRays g ls ↔
      u.1 < ls.length ∧ u.2 < ls.getD u.1 0 ∧ v = (u.1, (u.2 + 1) % ls.getD u.1 0) ∧ g.inBox u = true ∧ g.inBox v = true ∧
        ∀ k, 0 < k → k < ls.length → k ≠ u.1 → g.crossed u v k = false := by
  unfold innerRays
  simp only [List.mem_flatMap, List.mem_filterMap, List.mem_range, Option.ite_none_right_eq_some, Option.some.injEq, Prod.mk.injEq, Bool.and_eq_true,
    List.all_eq_true, Bool.or_eq_true, beq_iff_eq, Bool.not_eq_true']
  constructor
  · rintro ⟨i, hi, ii, hii, ⟨⟨h1, h2⟩, h3⟩, rfl, rfl⟩
    refine ⟨hi, hii, rfl, h1, h2, fun k hk hk' hne => ?_⟩
    rcases h3 k hk' with (h | h) | h
    · omega
    · exact absurd h hne
    · exact h
  · rintro ⟨hi, hii, rfl, h1, h2, h3⟩
    refine ⟨u.1, hi, u.2, hii, ⟨⟨h1, h2⟩, fun k hk => ?_⟩, rfl, rfl⟩
    by_cases h0 : k = 0
    · exact .inl (.inl h0)
    · by_cases hk' : k = u.1
      · exact .inl (.inr hk')
      · exact .inr (h3 k (Nat.pos_of_ne_zero h0) hk hk')

/-- C37: two points of different polygons are joined by a ray if they are in the box and no obstacle crosses the segment. -/
theorem pairs_visible (g : Geometry) (ls : List Nat) (u v : Vertex) :
    (u, v) ∈ interRays g ls ↔
      u.1 < v.1 ∧ v.1 < ls.length ∧ u.2 < ls.getD u.1 0 ∧ v.2 < ls.getD v.1 0 ∧ g.inBox u = true ∧ g.inBox v = true ∧
        ∀ k, 0 < k → k < ls.length → g.crossed u v k = false := by
  unfold interRays
  simp only [List.mem_flatMap, List.mem_range]
  constructor
  · rintro ⟨i, hi, p1, hp1, h⟩
    by_cases hb : g.inBox (i, p1) = true
    · rw [if_pos hb] at h
      simp only [List.mem_flatMap, List.mem_range] at h
      obtain ⟨j, hj, h⟩ := h
      by_cases hij : i < j
      · rw [if_pos hij] at h
        simp only [List.mem_filterMap, List.mem_range, Option.ite_none_right_eq_some, Option.some.injEq, Prod.mk.injEq, Bool.and_eq_true,
          List.all_eq_true, Bool.or_eq_true, beq_iff_eq, Bool.not_eq_true'] at h
        obtain ⟨p2, hp2, ⟨h1, h2⟩, rfl, rfl⟩ := h
        refine ⟨hij, hj, hp1, hp2, hb, h1, fun k hk hk' => ?_⟩
        rcases h2 k hk' with h | h
        · omega
        · exact h
      · rw [if_neg hij] at h
        cases h
    · rw [if_neg hb] at h
      cases h
  · rintro ⟨hij, hj, hp1, hp2, hb, h1, h2⟩
    refine ⟨u.1, by omega, u.2, hp1, ?_⟩
    rw [if_pos hb]
    simp only [List.mem_flatMap, List.mem_range]
    refine ⟨v.1, hj, ?_⟩
    rw [if_pos hij]
    simp only [List.mem_filterMap, List.mem_range, Option.ite_none_right_eq_some, Option.some.injEq, Bool.and_eq_true,
      List.all_eq_true, Bool.or_eq_true, beq_iff_eq, Bool.not_eq_true']
    refine ⟨v.2, hp2, ⟨h1, fun k hk => ?_⟩, rfl⟩
    by_cases h0 : k = 0
    · exact .inl h0
    · exact .inr (h2 k (Nat.pos_of_ne_zero h0) hk)

/-- Rays always fit into their table when there are at most 31 points. The full statement of C38 does not restrict the number of points, and is false
(`rays_overflow`). -/
theorem calcRays_fits_partial (g : Geometry) {ls : List Nat} (h : (points ls).length ≤ 31) : ∃ out, calcRays g ls = .ok out := by
  rw [length_points_total] at h
  have h1 := length_inner g ls
  have h2 := length_inter g ls
  refine ⟨_, pushAll_ok ?_⟩
  rw [List.length_append, List.length_nil]
  unfold raysSize
  have h3 : total ls ls.length * total ls ls.length ≤ 31 * total ls ls.length := Nat.mul_le_mul_right _ h
  omega

/-- In general the rays are those found, and they are all stored, or the code writes behind the table. -/
theorem calcRays_iff (g : Geometry) (ls : List Nat) :
    (∃ out, calcRays g ls = .ok out) ↔ (innerRays g ls ++ interRays g ls).length ≤ 500 := by
  constructor
  · rintro ⟨out, h⟩
    obtain ⟨h1, h2⟩ := pushAll_eq h
    have := h2 (by simp)
    rw [List.nil_append] at h1
    rw [← h1]
    unfold raysSize at this
    omega
  · intro h
    exact ⟨_, pushAll_ok (by rw [List.length_nil]; unfold raysSize; omega)⟩

/-- Points in an open field: everything sees everything. -/
def openField : Geometry := ⟨fun _ => true, fun _ _ _ => false, fun _ _ => 10⟩

/-- C38 is false for the rays: with 10 obstacles of four points that all see each other, which `oa_new_poly` accepts, the table overflows. -/
theorem rays_overflow : ∃ s, runCalls Scene.init (List.replicate 10 (.newPoly 4)) = .ok s ∧ calcRays openField s.sizes = .error .bounds :=
  ⟨⟨[⟨0, 2⟩, ⟨2, 4⟩, ⟨6, 4⟩, ⟨10, 4⟩, ⟨14, 4⟩, ⟨18, 4⟩, ⟨22, 4⟩, ⟨26, 4⟩, ⟨30, 4⟩, ⟨34, 4⟩, ⟨38, 4⟩], 42⟩, rfl, by decide +kernel⟩

/-- Polygons of negative size are accepted; the next one then shares points with the polygon before. -/
theorem negative_size : ∃ s p q, runCalls Scene.init [.newPoly 4, .newPoly (-3), .newPoly 4] = .ok s ∧ s.polys[1]? = some p ∧ s.polys[3]? = some q ∧
    p = ⟨2, 4⟩ ∧ q = ⟨3, 4⟩ := ⟨_, _, _, rfl, rfl, rfl, rfl, rfl⟩

/-- The overflow of `cur_pt_idx + size` -/
example : Scene.init.newPoly 2147483647 = .error .overflow := rfl

/-! ## Examples -/

/-- A square between start and end: one has to go round it. -/
def square : Geometry where
  inBox _ := true
  crossed u v i := i == 1 && (u == (0, 0) && v == (0, 1) || u == (0, 1) && v == (0, 0) || u == (0, 0) && (v == (1, 2) || v == (1, 3)) || u == (0, 1) && (v == (1, 0) || v == (1, 1)))
  norm u v := if u.1 = v.1 then 10 else if v.2 = 0 ∨ v.2 = 2 then 15 else 12

example : process ⟨[⟨0, 2⟩, ⟨2, 4⟩], 6⟩ square 1000 = .ok (.ok [(1, 2), (1, 1), (0, 0)]) := by decide +kernel

/-- The hypotheses of `process_shortest` are met by that scene. -/
example : ∃ s, runCalls Scene.init [.newPoly 4, .process] = .ok s ∧ ∃ out, calcRays square s.sizes = .ok out := by
  obtain ⟨s, h1, _⟩ := process_shortest (cs := [.newPoly 4, .process]) (g := square) (W := 16) (by
    intro c hc
    simp only [List.mem_cons, List.not_mem_nil, or_false] at hc
    rcases hc with rfl | rfl
    · unfold Call.Fair intMax maxPts; omega
    · trivial) (by intro u v; unfold square; simp only; split <;> [skip; split] <;> omega) (by omega)
  refine ⟨s, h1, ?_⟩
  have : s = ⟨[⟨0, 2⟩, ⟨2, 4⟩], 6⟩ := (Except.ok.inj (h1.symm.trans rfl))
  subst this
  exact calcRays_fits_partial _ (by decide +kernel)

/-- When the end is fenced in there is no path. -/
example : process ⟨[⟨0, 2⟩, ⟨2, 4⟩], 6⟩ { square with crossed := fun u v i => square.crossed u v i || u == (0, 0) } 1000 = .ok (.error .invalid) := by decide +kernel

end Verif.Oa
