import Verif.Oa.Search
import Mathlib.Tactic.Linarith

/-!
# Obstacle avoidance: polygons and rays
-/

namespace Verif.Oa

/-- The calls that change or use the set of obstacles. `oa_start_end_points` only writes the two points of polygon 0 and `oa_process` only the tables of the
search and the result. -/
inductive Call where
  | newPoly (size : Int)
  | startEnd
  | process

def Call.run (s : Scene) : Call → Except Err Scene
  | .newPoly n =>
    match s.newPoly n with
    | .error e => .error e
    | .ok (_, s) => .ok s
  | .startEnd => .ok s
  | .process => .ok s

def runCalls : Scene → List Call → Except Err Scene
  | s, [] => .ok s
  | s, c :: cs =>
    match c.run s with
    | .error e => .error e
    | .ok s => runCalls s cs

/-- Sizes that `oa_new_poly` copes with -/
def Call.Fair : Call → Prop
  | .newPoly n => 0 ≤ n ∧ n ≤ intMax - maxPts
  | _ => True

/-- Polygons lie one behind the other inside of the table of points. -/
structure Ok (s : Scene) : Prop where
  few : s.polys.length ≤ maxPoly
  first : s.polys[0]? = some ⟨0, 2⟩
  pos : ∀ p ∈ s.polys, 0 ≤ p.pts ∧ 0 ≤ p.l ∧ p.pts + p.l ≤ s.curPt
  apart : s.polys.Pairwise fun p q => p.pts + p.l ≤ q.pts
  cur : s.curPt ≤ maxPts

theorem init_ok : Ok Scene.init := by
  refine ⟨by decide, rfl, ?_, by simp [Scene.init], by decide⟩
  intro p hp
  rw [List.mem_singleton.mp hp]
  decide

theorem newPoly_ok {s : Scene} (h : Ok s) {n : Int} (hn : 0 ≤ n ∧ n ≤ intMax - maxPts) : ∃ r s', s.newPoly n = .ok (r, s') ∧ Ok s' := by
  have hc := h.cur
  have h0 : 0 ≤ s.curPt := by
    have := h.pos _ (List.mem_of_getElem? h.first)
    simp only at this
    omega
  unfold Scene.newPoly
  rw [if_neg (by omega)]
  by_cases h1 : s.curPt + n > maxPts
  · rw [if_pos h1]; exact ⟨none, s, rfl, h⟩
  · rw [if_neg h1]
    by_cases h2 : s.polys.length + 1 > maxPoly
    · rw [if_pos h2]; exact ⟨none, s, rfl, h⟩
    · rw [if_neg h2]
      refine ⟨_, _, rfl, ?_, ?_, ?_, ?_, ?_⟩
      · simp only [List.length_append, List.length_singleton]; omega
      · simp only
        rw [List.getElem?_append_left]
        · exact h.first
        · have := List.getElem?_eq_some_iff.mp h.first
          exact this.1
      · intro p hp
        simp only at hp ⊢
        rcases List.mem_append.mp hp with hp | hp
        · have := h.pos p hp; omega
        · rw [List.mem_singleton.mp hp]; simp only; omega
      · simp only
        refine List.pairwise_append.mpr ⟨h.apart, List.pairwise_singleton _ _, ?_⟩
        intro p hp q hq
        rw [List.mem_singleton.mp hq]
        exact (h.pos p hp).2.2
      · simp only; omega

theorem runCalls_ok : ∀ {cs : List Call} {s : Scene}, Ok s → (∀ c ∈ cs, c.Fair) → ∃ s', runCalls s cs = .ok s' ∧ Ok s'
  | [], s, h, _ => ⟨s, rfl, h⟩
  | c :: cs, s, h, hf => by
    have hc := hf c List.mem_cons_self
    have : ∃ s', c.run s = .ok s' ∧ Ok s' := by
      cases c with
      | newPoly n =>
        obtain ⟨r, s', h1, h2⟩ := newPoly_ok h hc
        exact ⟨s', by simp only [Call.run, h1], h2⟩
      | startEnd => exact ⟨s, rfl, h⟩
      | process => exact ⟨s, rfl, h⟩
    obtain ⟨s1, h1, h2⟩ := this
    obtain ⟨s2, h3, h4⟩ := runCalls_ok (cs := cs) h2 fun c hc => hf c (List.mem_cons_of_mem _ hc)
    exact ⟨s2, by simp only [runCalls, h1]; exact h3, h4⟩

/-! ## Points -/

theorem mem_points {ls : List Nat} {v : Vertex} : v ∈ points ls ↔ v.1 < ls.length ∧ v.2 < ls.getD v.1 0 := by
  unfold points
  simp only [List.mem_flatMap, List.mem_map, List.mem_range]
  constructor
  · rintro ⟨p, hp, t, ht, rfl⟩; exact ⟨hp, ht⟩
  · rintro ⟨h1, h2⟩; exact ⟨v.1, h1, v.2, h2, rfl⟩

theorem points_nodup (ls : List Nat) : (points ls).Nodup := by
  unfold points
  refine List.nodup_flatMap.mpr ⟨?_, ?_⟩
  · intro p _
    exact List.Nodup.map_on (fun a _ b _ h => (Prod.mk.inj h).2) List.nodup_range
  · refine List.Pairwise.imp_of_mem ?_ List.nodup_range
    intro a b _ _ hab x hx hy
    simp only [List.mem_map] at hx hy
    obtain ⟨_, _, rfl⟩ := hx
    obtain ⟨_, _, h⟩ := hy
    exact hab (Prod.mk.inj h).1.symm

theorem mem_scene_points {s : Scene} {v : Vertex} (h : v ∈ points s.sizes) : ∃ p, s.polys[v.1]? = some p ∧ v.2 < p.l.toNat := by
  obtain ⟨h1, h2⟩ := mem_points.mp h
  unfold Scene.sizes at h1 h2
  rw [List.length_map] at h1
  refine ⟨s.polys[v.1], List.getElem?_eq_getElem h1, ?_⟩
  simpa [List.getD_eq_getElem?_getD, List.getElem?_map, List.getElem?_eq_getElem h1] using h2

theorem idx_inj {s : Scene} (h : Ok s) : ∀ u ∈ points s.sizes, ∀ v ∈ points s.sizes, s.idx u = s.idx v → u = v := by
  have key : ∀ u v : Vertex, ∀ p q : Poly, s.polys[u.1]? = some p → u.2 < p.l.toNat → s.polys[v.1]? = some q → v.2 < q.l.toNat → u.1 < v.1 → s.idx u < s.idx v := by
    intro u v p q hp hu hq hv hlt
    obtain ⟨hu', hpe⟩ := List.getElem?_eq_some_iff.mp hp
    obtain ⟨hv', hqe⟩ := List.getElem?_eq_some_iff.mp hq
    have h1 := List.pairwise_iff_getElem.mp h.apart u.1 v.1 hu' hv' hlt
    rw [hpe, hqe] at h1
    have h2 := h.pos p (List.mem_of_getElem? hp)
    unfold Scene.idx
    rw [hp, hq]
    simp only
    omega
  intro u hu v hv he
  obtain ⟨p, hp, hpl⟩ := mem_scene_points hu
  obtain ⟨q, hq, hql⟩ := mem_scene_points hv
  rcases Nat.lt_trichotomy u.1 v.1 with hlt | heq | hgt
  · have := key u v p q hp hpl hq hql hlt; omega
  · rw [← heq, hp] at hq
    cases hq
    unfold Scene.idx at he
    rw [← heq, hp] at he
    simp only at he
    exact Prod.ext heq (by omega)
  · have := key v u q p hq hql hp hpl hgt; omega

theorem idx_lt {s : Scene} (h : Ok s) : ∀ u ∈ points s.sizes, s.idx u < maxPts := by
  intro u hu
  obtain ⟨p, hp, hpl⟩ := mem_scene_points hu
  have h1 := h.pos p (List.mem_of_getElem? hp)
  have h2 := h.cur
  unfold Scene.idx
  rw [hp]
  simp only
  omega

theorem length_points {s : Scene} (h : Ok s) : (points s.sizes).length ≤ maxPts := by
  have h1 : ((points s.sizes).map s.idx).Nodup := List.Nodup.map_on (fun u hu v hv => idx_inj h u hu v hv) (points_nodup _)
  have h2 := (List.subperm_of_subset h1 (l₂ := List.range maxPts) (by
    intro i hi
    obtain ⟨u, hu, rfl⟩ := List.mem_map.mp hi
    exact List.mem_range.mpr (idx_lt h u hu))).length_le
  rwa [List.length_map, List.length_range] at h2

/-! ## Rays -/

theorem pushAll_ok : ∀ {rs acc : List (Vertex × Vertex)}, 4 * (acc.length + rs.length) ≤ raysSize → pushAll acc rs = .ok (acc ++ rs)
  | [], acc, _ => by unfold pushAll; rw [List.append_nil]
  | r :: rs, acc, h => by
    rw [List.length_cons] at h
    unfold pushAll push
    rw [if_neg (by omega)]
    simp only
    rw [pushAll_ok (by simp only [List.length_append, List.length_singleton]; omega), List.append_assoc]
    rfl

theorem pushAll_eq : ∀ {rs acc out : List (Vertex × Vertex)}, pushAll acc rs = .ok out → out = acc ++ rs ∧ (4 * acc.length ≤ raysSize → 4 * out.length ≤ raysSize)
  | [], acc, out, h => by
    unfold pushAll at h
    cases h
    exact ⟨(List.append_nil _).symm, id⟩
  | r :: rs, acc, out, h => by
    unfold pushAll push at h
    by_cases hc : 4 * acc.length + 4 > raysSize
    · rw [if_pos hc] at h; cases h
    · rw [if_neg hc] at h
      simp only at h
      obtain ⟨h1, h2⟩ := pushAll_eq h
      refine ⟨by rw [h1, List.append_assoc]; rfl, fun _ => h2 (by simp only [List.length_append, List.length_singleton]; omega)⟩

theorem mem_innerRays {g : Geometry} {ls : List Nat} {u v : Vertex} (h : (u, v) ∈ innerRays g ls) :
    u ∈ points ls ∧ v ∈ points ls ∧ u.1 = v.1 ∧ v.2 = (u.2 + 1) % ls.getD u.1 0 := by
  unfold innerRays at h
  simp only [List.mem_flatMap, List.mem_range, List.mem_filterMap, Option.ite_none_right_eq_some, Option.some.injEq, Prod.mk.injEq] at h
  obtain ⟨i, hi, ii, hii, _, rfl, rfl⟩ := h
  exact ⟨mem_points.mpr ⟨hi, hii⟩, mem_points.mpr ⟨hi, Nat.mod_lt _ (by omega)⟩, rfl, rfl⟩

theorem mem_interRays {g : Geometry} {ls : List Nat} {u v : Vertex} (h : (u, v) ∈ interRays g ls) :
    u ∈ points ls ∧ v ∈ points ls ∧ u.1 < v.1 := by
  unfold interRays at h
  simp only [List.mem_flatMap, List.mem_range, List.mem_ite_nil_right, List.mem_filterMap, Option.ite_none_right_eq_some, Option.some.injEq, Prod.mk.injEq] at h
  obtain ⟨i, hi, pt1, h1, _, ii, hii, hlt, pt2, h2, _, rfl, rfl⟩ := h
  exact ⟨mem_points.mpr ⟨by simp only; omega, h1⟩, mem_points.mpr ⟨hii, h2⟩, hlt⟩

/-- Number of points of the first `k` polygons -/
def total (ls : List Nat) : Nat → Nat
  | 0 => 0
  | k + 1 => total ls k + ls.getD k 0

theorem total_mono (ls : List Nat) {a b : Nat} (h : a ≤ b) : total ls a ≤ total ls b := by
  induction b with
  | zero => have : a = 0 := by omega
            subst this; exact Nat.le_refl _
  | succ b ih =>
    rcases Nat.lt_or_ge b a with h' | h'
    · have : a = b + 1 := by omega
      subst this; exact Nat.le_refl _
    · have := ih h'
      show _ ≤ total ls b + _
      omega

theorem length_flatMap_range_le {α : Type} {f : Nat → List α} {b : Nat → Nat} (h : ∀ i, (f i).length ≤ b i) : ∀ n, ((List.range n).flatMap f).length ≤ ((List.range n).map b).sum
  | 0 => by simp
  | n + 1 => by
    rw [List.range_succ, List.flatMap_append, List.map_append, List.length_append, List.sum_append]
    have := length_flatMap_range_le h n
    have := h n
    simp only [List.flatMap_cons, List.flatMap_nil, List.append_nil, List.map_cons, List.map_nil, List.sum_cons, List.sum_nil]
    omega

theorem length_points_total (ls : List Nat) : (points ls).length = total ls ls.length := by
  have : ∀ n, ((List.range n).flatMap fun p => (List.range (ls.getD p 0)).map fun t => ((p, t) : Vertex)).length = total ls n := by
    intro n
    induction n with
    | zero => rfl
    | succ n ih => rw [List.range_succ, List.flatMap_append, List.length_append, ih]; simp [total]
  exact this ls.length

theorem length_inner (g : Geometry) (ls : List Nat) : (innerRays g ls).length ≤ total ls ls.length := by
  have h := length_flatMap_range_le (b := fun i => ls.getD i 0) (f := fun i =>
    let l := ls.getD i 0
    (List.range l).filterMap fun ii =>
      let n := (ii + 1) % l
      if g.inBox (i, ii) && g.inBox (i, n) && (List.range ls.length).all (fun index => index == 0 || index == i || !g.crossed (i, ii) (i, n) index)
      then some (((i, ii), (i, n)) : Vertex × Vertex) else none) (by
        intro i
        refine Nat.le_trans (List.length_filterMap_le _ _) ?_
        rw [List.length_range]) ls.length
  refine Nat.le_trans h ?_
  have : ∀ n, ((List.range n).map fun i => ls.getD i 0).sum = total ls n := by
    intro n
    induction n with
    | zero => rfl
    | succ n ih => rw [List.range_succ, List.map_append, List.sum_append, ih]; simp [total]
  rw [this]

theorem sum_const (c : Nat) : ∀ n, ((List.range n).map fun _ => c).sum = n * c
  | 0 => by simp
  | n + 1 => by rw [List.range_succ, List.map_append, List.sum_append, sum_const c n, Nat.succ_mul]; simp

theorem later_sum (ls : List Nat) (i : Nat) : ∀ n, ((List.range n).map fun ii => if i < ii then ls.getD ii 0 else 0).sum = total ls n - total ls (i + 1)
  | 0 => by simp [total]
  | n + 1 => by
    rw [List.range_succ, List.map_append, List.sum_append, later_sum ls i n]
    simp only [List.map_cons, List.map_nil, List.sum_cons, List.sum_nil]
    by_cases h : i < n
    · rw [if_pos h]
      have := total_mono ls (show i + 1 ≤ n by omega)
      show _ = total ls n + ls.getD n 0 - _
      omega
    · rw [if_neg h]
      have h1 := total_mono ls (show n ≤ i + 1 by omega)
      have h2 := total_mono ls (show n + 1 ≤ i + 1 by omega)
      omega

theorem length_inter (g : Geometry) (ls : List Nat) : 2 * (interRays g ls).length + total ls ls.length ≤ total ls ls.length * total ls ls.length := by
  have hb : (interRays g ls).length ≤ ((List.range (ls.length - 1)).map fun i => ls.getD i 0 * (total ls ls.length - total ls (i + 1))).sum := by
    unfold interRays
    refine length_flatMap_range_le (fun i => ?_) _
    refine Nat.le_trans (length_flatMap_range_le (b := fun _ => total ls ls.length - total ls (i + 1)) (fun pt1 => ?_) _) ?_
    · split
      · rw [← later_sum ls i ls.length]
        refine length_flatMap_range_le (fun ii => ?_) _
        split
        · refine Nat.le_trans (List.length_filterMap_le _ _) ?_
          rw [List.length_range]
        · exact Nat.le_refl _
      · exact Nat.zero_le _
    · rw [sum_const]
  have key : ∀ k, k ≤ ls.length → 2 * ((List.range k).map fun i => ls.getD i 0 * (total ls ls.length - total ls (i + 1))).sum + total ls k + total ls k * total ls k ≤ 2 * (total ls ls.length * total ls k) := by
    intro k
    induction k with
    | zero => intro _; simp [total]
    | succ k ih =>
      intro hk
      have := ih (by omega)
      rw [List.range_succ, List.map_append, List.sum_append]
      simp only [List.map_cons, List.map_nil, List.sum_cons, List.sum_nil, Nat.add_zero]
      have hle := total_mono ls hk
      obtain ⟨d, hd⟩ := Nat.exists_eq_add_of_le hle
      have ht : total ls (k + 1) = total ls k + ls.getD k 0 := rfl
      generalize total ls ls.length = P at *
      generalize total ls k = q at *
      generalize ls.getD k 0 = l at *
      rw [show P - total ls (k + 1) = d by omega, ht]
      rw [ht] at hd
      subst hd
      have hl : l ≤ l * l := Nat.le_mul_self l
      nlinarith
  have h1 := key (ls.length - 1) (by omega)
  have h2 := key ls.length (Nat.le_refl _)
  have h3 : ((List.range (ls.length - 1)).map fun i => ls.getD i 0 * (total ls ls.length - total ls (i + 1))).sum ≤
      ((List.range ls.length).map fun i => ls.getD i 0 * (total ls ls.length - total ls (i + 1))).sum := by
    rcases Nat.eq_zero_or_pos ls.length with h | h
    · rw [h]
    · rw [show ls.length = ls.length - 1 + 1 by omega, List.range_succ, List.map_append, List.sum_append]
      simp only [Nat.add_sub_cancel]
      exact Nat.le_add_right _ _
  generalize total ls ls.length = P at *
  generalize (interRays g ls).length = x at *
  generalize ((List.range ls.length).map fun i => ls.getD i 0 * (P - total ls (i + 1))).sum = y at *
  nlinarith

end Verif.Oa
