import Verif.Plan.Table
import Batteries.Data.List.Basic
import Mathlib.Data.List.Perm.Subperm

/-! The path, and the map after any reports -/

namespace Verif.Plan

open Geom
open Oa (Vertex Adj Chain Lightest withWeights calcRays innerRays interRays points origin begin')
open Map (InsideTable OnTable)

theorem range_pt {ps : List (List P)} (hr : ∀ pol ∈ ps, ∀ v ∈ pol, InRange v) (v : Vertex) : InRange (pt ps v) := by
  have h0 : InRange ⟨0, 0⟩ := by unfold InRange; norm_num
  unfold pt
  rw [List.getD_eq_getElem?_getD, List.getD_eq_getElem?_getD]
  cases e : ps[v.1]? with
  | none => exact h0
  | some pol =>
    simp only [Option.getD_some]
    cases e' : pol[v.2]? with
    | none => exact h0
    | some p => exact hr pol (List.mem_of_getElem? e) p (List.mem_of_getElem? e')

/-- What `oa_process` returns, for any scene whose polygons block areas -/
def Result (ps : List (List P)) (box : ℚ × ℚ × ℚ × ℚ) (areas : List (P → Prop)) : Except Oa.Fail (List Vertex) → Prop
  | .ok l => Route ps box areas ((0, 1) :: l) ∧ l.length ≤ 100 ∧ ∀ q, Route ps box areas q → length (((0, 1) :: l).map (pt ps)) ≤ length (q.map (pt ps)) + (q.length - 1 : Nat)
  | .error .invalid => ∀ q, ¬Route ps box areas q
  | .error .tooLong => 101 < (points (ps.map List.length)).length

theorem path_ok {s : Oa.Scene} (hs : Oa.Ok s) {ps : List (List P)} {box : ℚ × ℚ × ℚ × ℚ} {areas : List (P → Prop)} (F : Fits ps box areas)
    (hr : ∀ pol ∈ ps, ∀ v ∈ pol, InRange v) (hsz : s.sizes = ps.map List.length) {out : List (Vertex × Vertex)} (hout : calcRays (geo ps box) s.sizes = .ok out)
    {fuel : Nat} (hf : fuel > 200 * (200 * 92683 + 1)) : ∃ r, Oa.process s (geo ps box) fuel = .ok r ∧ Result ps box areas r := by
  have hW : ∀ u v, (geo ps box).norm u v < 92683 := fun u v => norm_lt (range_pt hr u) (range_pt hr v)
  obtain ⟨E, hb⟩ := Oa.scene_env hs hW (by decide) hout
  obtain ⟨r, g1, g2⟩ := Oa.solve_spec E hb (fuel := fuel) (by
    have h3 := Oa.length_points hs
    unfold Oa.maxPts at h3
    have h4 := Nat.mul_le_mul h3 (Nat.add_le_add_right (Nat.mul_le_mul_right 92683 h3) 1)
    omega)
  refine ⟨r, by unfold Oa.process; rw [hout]; exact g1, ?_⟩
  have hout' : out = innerRays (geo ps box) (ps.map List.length) ++ interRays (geo ps box) (ps.map List.length) := by
    have := (Oa.pushAll_eq hout).1
    rw [List.nil_append, hsz] at this
    exact this
  have hpos : ∀ a b c, Adj (withWeights (geo ps box) out) a b c → 0 < c := by
    intro a b c h
    rw [((adj_iff F hout' a b c).mp h).1]
    exact Nat.succ_pos _
  have hbegin : Vtx ps begin' := by
    obtain ⟨a, b, e⟩ := F.two
    exact ⟨_, e, (by show 1 < 2; decide)⟩
  have conv : ∀ q, Route ps box areas q → ∃ l w, q = begin' :: l ∧ Chain (withWeights (geo ps box) out) origin l begin' w := by
    intro q hq
    cases q with
    | nil => cases hq.start
    | cons u l =>
      have e := hq.start
      rw [List.head?_cons] at e
      have e := Option.some.inj e
      subst e
      obtain ⟨w, hw⟩ := route_chain F hout' l (0, 1) hq.goal hq.exist hq.free
      exact ⟨l, w, rfl, hw⟩
  match r, g2 with
  | .ok l, ⟨w, h1, h2, h3⟩ =>
    obtain ⟨c1, c2, c3, c4, c5⟩ := chain_route F hout' h1 hbegin
    refine ⟨⟨rfl, c1, c2, c3⟩, h3, ?_⟩
    intro q hq
    obtain ⟨l', w', rfl, hc⟩ := conv q hq
    have := (chain_route F hout' hc hbegin).2.2.2.2
    have hw : (w : ℝ) ≤ w' := by exact_mod_cast h2 _ _ hc
    have e : (begin' :: l').length - 1 = l'.length := rfl
    rw [e]
    exact le_trans c4 (le_trans hw this)
  | .error .invalid, h =>
    intro q hq
    obtain ⟨l', w', _, hc⟩ := conv q hq
    exact h _ _ hc
  | .error .tooLong, ⟨l, w, h1, h2, h3⟩ =>
    have hnd := lightest_nodup hpos h1 h2
    have hsub : ∀ v ∈ begin' :: l, v ∈ points (ps.map List.length) := by
      intro v hv
      exact Oa.mem_points.mpr (vtx_iff.mp ((chain_route F hout' h1 hbegin).2.1 v hv))
    have := (List.subperm_of_subset hnd hsub).length_le
    rw [List.length_cons] at this
    show 101 < _
    omega

theorem fits_of {a b : P} {rest : List (List P)} {box : ℚ × ℚ × ℚ × ℚ} {areas : List (P → Prop)} (h : List.Forall₂ (Blocks box) rest areas) : Fits ([a, b] :: rest) box areas := by
  have hl := h.length_eq
  refine ⟨⟨a, b, rfl⟩, by rw [List.length_cons, hl], ?_⟩
  intro k hk hp
  have : ∀ {xs : List (List P)} {ys : List (P → Prop)}, List.Forall₂ (Blocks box) xs ys → ∀ (k : Nat) (h1 : k < xs.length) (h2 : k < ys.length), Blocks box xs[k] ys[k] := by
    intro xs ys h
    induction h with
    | nil => intro k h1; cases h1
    | cons h hs ih =>
      intro k h1 h2
      cases k with
      | zero => exact h
      | succ k => exact ih k (Nat.lt_of_succ_lt_succ h1) (Nat.lt_of_succ_lt_succ h2)
  exact this h k (by rw [List.length_cons] at hp; omega) hk

theorem route_congr {ps : List (List P)} {box : ℚ × ℚ × ℚ × ℚ} {A B : List (P → Prop)} (h : ∀ R, R ∈ A ↔ R ∈ B) (q : List (Nat × Nat)) : Route ps box A q ↔ Route ps box B q := by
  constructor
  · intro ⟨h1, h2, h3, h4⟩
    exact ⟨h1, h2, h3, fun e he => ⟨(h4 e he).1, (h4 e he).2.1, (h4 e he).2.2.1, fun R hR => (h4 e he).2.2.2 R ((h R).mpr hR)⟩⟩
  · intro ⟨h1, h2, h3, h4⟩
    exact ⟨h1, h2, h3, fun e he => ⟨(h4 e he).1, (h4 e he).2.1, (h4 e he).2.2.1, fun R hR => (h4 e he).2.2.2 R ((h R).mp hR)⟩⟩

/-! ## Reports -/

/-- A polygon of the map: its points are not too far away, and it blocks an area. -/
structure Poly (box : ℚ × ℚ × ℚ × ℚ) (pol : List P) (R : P → Prop) : Prop where
  blocks : Blocks box pol R
  four : pol.length = 4
  range : ∀ v ∈ pol, InRange v

structure Inv (box : ℚ × ℚ × ℚ × ℚ) (m0 m : Map.Map) (s : Robot × Robot × Robot) : Prop where
  last : m.last < 2
  ally : Poly box m.ally s.1.allied
  newest : ∃ p, m.getOpponent (1 - m.last) = some p ∧ Poly box p s.2.1.around
  older : ∃ p, m.getOpponent m.last = some p ∧ Poly box p s.2.2.around
  rest : m = { m0 with ally := m.ally, opponents := m.opponents, last := m.last }

def Report.apply (s : Robot × Robot × Robot) : Report → Robot × Robot × Robot
  | .ally x y size robot => (⟨x, y, robot + size⟩, s.2)
  | .opponent x y size robot => (s.1, ⟨x, y, size + robot⟩, s.2.1)

theorem state_eq (rs : List Report) : rs.foldl Report.apply (⟨0, 0, 0⟩, ⟨0, 0, 0⟩, ⟨0, 0, 0⟩) = (Plan.ally rs, newest rs, older rs) := by
  induction rs using List.reverseRecOn with
  | nil => rfl
  | append_singleton l r ih =>
    rw [List.foldl_append, ih]
    cases r with
    | ally x y size robot => simp [Report.apply, Plan.ally, newest, older, allies, opponents, List.filterMap_append]
    | opponent x y size robot =>
      have : ∀ (xs : List Robot) (y : Robot), (xs ++ [y]).reverse.getD 1 ⟨0, 0, 0⟩ = xs.reverse.getD 0 ⟨0, 0, 0⟩ := by
        intro xs y
        rw [List.reverse_append]
        rfl
      simp [Report.apply, Plan.ally, newest, older, allies, opponents, List.filterMap_append, List.getElem?_append]

theorem range_table {v : P} (h : OnTable v) : InRange v := by
  unfold OnTable at h
  unfold InRange
  refine ⟨?_, ?_, ?_, ?_⟩ <;> linarith [h.1.1, h.1.2, h.2.1, h.2.2]

theorem rect_poly {box : ℚ × ℚ × ℚ × ℚ} (hb : ∀ p, InBox box p → InsideTable p) {cx cy sx sy robot : Int} {pol : List P} (h : Map.rect cx cy sx sy robot = some pol)
    (hx : 2 ≤ sx + robot) (hy : 2 ≤ sy + robot) :
    Poly box pol (fun p => (((cx - (sx + robot) / 2 : Int) : ℚ) < p.x ∧ p.x < (cx + (sx + robot) / 2 : Int)) ∧ (((cy - (sy + robot) / 2 : Int) : ℚ) < p.y ∧ p.y < (cy + (sy + robot) / 2 : Int))) := by
  have e1 : (sx + robot).tdiv 2 = (sx + robot) / 2 := Int.tdiv_eq_ediv_of_nonneg (by omega)
  have e2 : (sy + robot).tdiv 2 = (sy + robot) / 2 := Int.tdiv_eq_ediv_of_nonneg (by omega)
  have e := Map.rect_eq h
  rw [e1, e2] at e
  rw [e]
  exact ⟨rect_blocks hb (by omega) (by omega), rfl, fun v hv => range_table (Map.corners_table _ _ _ _ v hv)⟩

theorem rectCorners_poly {box : ℚ × ℚ × ℚ × ℚ} (hb : ∀ p, InBox box p → InsideTable p) {blx bly trx try' robot : Int} {pol : List P} (h : Map.rectCorners blx bly trx try' robot = some pol)
    (hr : 0 ≤ robot) (hx : blx < trx) (hy : bly < try') : Poly box pol (near (robot / 2) blx bly trx try') := by
  have e1 : robot.tdiv 2 = robot / 2 := Int.tdiv_eq_ediv_of_nonneg hr
  have e := Map.rectCorners_eq h
  rw [e1] at e
  rw [e]
  refine ⟨blocks_congr (rect_blocks hb (by omega) (by omega)) fun p => ?_, rfl, fun v hv => range_table (Map.corners_table _ _ _ _ v hv)⟩
  unfold near
  push_cast
  rfl

theorem around_poly {box : ℚ × ℚ × ℚ × ℚ} (hb : ∀ p, InBox box p → InsideTable p) {x y size robot : Int} {pol : List P} (h : Map.rect x y size size robot = some pol)
    (hf : (Report.opponent x y size robot).Fair) : Poly box pol (Robot.around ⟨x, y, size + robot⟩) := by
  rcases hf with ⟨_, _, _, _, h2⟩ | ⟨rfl, rfl, rfl, rfl⟩
  · have P := rect_poly hb h h2 h2
    refine ⟨blocks_congr P.blocks fun p => ?_, P.four, P.range⟩
    unfold Robot.around near
    push_cast
    rfl
  · have e : pol = [⟨0, 0⟩, ⟨0, 0⟩, ⟨0, 0⟩, ⟨0, 0⟩] := by
      have : Map.rect 0 0 0 0 0 = some [⟨0, 0⟩, ⟨0, 0⟩, ⟨0, 0⟩, ⟨0, 0⟩] := by decide +kernel
      rw [h] at this
      exact Option.some.inj this
    rw [e]
    refine ⟨reset_blocks hb ?_, rfl, ?_⟩
    · intro p hp
      unfold Robot.around near at hp
      simp at hp
      linarith [hp.1.1, hp.1.2]
    · intro v hv
      simp only [List.mem_cons, List.not_mem_nil, or_false, or_self] at hv
      rw [hv]
      unfold InRange
      norm_num

theorem allied_poly {box : ℚ × ℚ × ℚ × ℚ} (hb : ∀ p, InBox box p → InsideTable p) {x y size robot : Int} {pol : List P} (h : Map.ally x y size robot = some pol)
    (hf : (Report.ally x y size robot).Fair) : Poly box pol (Robot.allied ⟨x, y, robot + size⟩) := by
  rcases hf with ⟨hx, hy, h3, h4, h2⟩ | ⟨rfl, rfl, rfl, rfl⟩
  · refine ⟨ally_blocks box h (by omega) hx hy (by omega), by rw [ally_eq h]; rfl, ?_⟩
    rw [ally_eq h]
    have hr : (0 : ℚ) ≤ ((robot + size : Int) : ℚ) := by exact_mod_cast (by omega : 0 ≤ robot + size)
    have hr' : ((robot + size : Int) : ℚ) ≤ 20000 := by exact_mod_cast (by omega : robot + size ≤ 20000)
    have hx1 : (-10000 : ℚ) ≤ x := by exact_mod_cast hx.1
    have hx2 : (x : ℚ) ≤ 10000 := by exact_mod_cast hx.2
    have hy1 : (-10000 : ℚ) ≤ y := by exact_mod_cast hy.1
    have hy2 : (y : ℚ) ≤ 10000 := by exact_mod_cast hy.2
    generalize ((robot + size : Int) : ℚ) = r at hr hr'
    intro v hv
    simp only [Map.diamond, List.mem_cons, List.not_mem_nil, or_false] at hv
    unfold InRange
    rcases hv with rfl | rfl | rfl | rfl <;> refine ⟨?_, ?_, ?_, ?_⟩ <;> simp only <;> linarith
  · have e : pol = [⟨0, 0⟩, ⟨0, 0⟩, ⟨0, 0⟩, ⟨0, 0⟩] := by
      rw [ally_eq h]
      norm_num [Map.diamond]
    rw [e]
    refine ⟨reset_blocks hb ?_, rfl, ?_⟩
    · intro p hp
      unfold Robot.allied at hp
      simp at hp
      have := abs_nonneg p.x
      have := abs_nonneg p.y
      linarith
    · intro v hv
      simp only [List.mem_cons, List.not_mem_nil, or_false, or_self] at hv
      rw [hv]
      unfold InRange
      norm_num

theorem report_inv {box : ℚ × ℚ × ℚ × ℚ} (hb : ∀ p, InBox box p → InsideTable p) {m0 m : Map.Map} {s : Robot × Robot × Robot} (h : Inv box m0 m s) {r : Report} (hf : r.Fair) :
    ∃ m', r.run m = some m' ∧ Inv box m0 m' (r.apply s) := by
  cases r with
  | ally x y size robot =>
    have : ∃ p, Map.ally x y size robot = some p := by
      unfold Map.ally
      rw [Map.i32_of (by unfold Report.Fair at hf; omega)]
      exact ⟨_, rfl⟩
    obtain ⟨p, hp⟩ := this
    refine ⟨{ m with ally := p }, ?_, ?_⟩
    · simp only [Report.run, Map.Map.setAlly, hp]; rfl
    · refine ⟨h.last, allied_poly hb hp hf, h.newest, h.older, ?_⟩
      rw [h.rest]
  | opponent x y size robot =>
    have hp := Map.rect_of (cx := x) (cy := y) (sx := size) (sy := size) (robot := robot) (by unfold Report.Fair at hf; omega) (by unfold Report.Fair at hf; omega)
      (by unfold Report.Fair at hf; omega) (by unfold Report.Fair at hf; omega) (by unfold Report.Fair at hf; omega)
    obtain ⟨p, hp'⟩ : ∃ p, Map.rect x y size size robot = some p := ⟨_, hp⟩
    have hdef : ∃ m', m.updateOpponent x y size robot = some m' := by
      have hc : m.last = 0 ∨ m.last = 1 := by have := h.last; omega
      unfold Map.Map.updateOpponent Map.Map.setOpponent
      rw [hp']
      rcases hc with hc | hc
      · rw [hc]; exact ⟨_, rfl⟩
      · rw [hc]; exact ⟨_, rfl⟩
    obtain ⟨m', hm'⟩ := hdef
    obtain ⟨q, h1, h2, h3, h4, h5⟩ := Map.update_step (s := ⟨x, y, size, robot⟩) hm' h.last
    refine ⟨m', hm', ?_⟩
    have e1 : 1 - m'.last = m.last := by have := h.last; omega
    have hal : m'.ally = m.ally := by rw [h5]
    refine ⟨by have := h.last; omega, by rw [hal]; exact h.ally, ⟨q, by rw [e1]; exact h3, around_poly hb h1 hf⟩, ?_, ?_⟩
    · obtain ⟨p', g1, g2⟩ := h.newest
      exact ⟨p', by rw [h2, h4]; exact g1, g2⟩
    · rw [h5, h.rest]

theorem reports_inv {box : ℚ × ℚ × ℚ × ℚ} (hb : ∀ p, InBox box p → InsideTable p) {m0 : Map.Map} : ∀ (rs : List Report) {m : Map.Map} {s : Robot × Robot × Robot}, Inv box m0 m s →
    (∀ r ∈ rs, r.Fair) → ∃ m', runAll m rs = some m' ∧ Inv box m0 m' (rs.foldl Report.apply s)
  | [], m, s, h, _ => ⟨m, rfl, h⟩
  | r :: rs, m, s, h, hf => by
    obtain ⟨m1, h1, h2⟩ := report_inv hb h (hf r List.mem_cons_self)
    obtain ⟨m2, h3, h4⟩ := reports_inv hb rs h2 fun r hr => hf r (List.mem_cons_of_mem _ hr)
    exact ⟨m2, by unfold runAll; rw [h1]; exact h3, h4⟩

end Verif.Plan
