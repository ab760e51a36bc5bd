import Verif.Plan.Path

/-!
# C82: planned paths
-/

namespace Verif.Plan

open Geom
open Oa (Vertex calcRays points)
open Map (InsideTable OnTable)

/-! ## Any convex obstacles -/

/-- C82: for any strictly convex polygons with coordinates up to 32768, in any box, as long as the rays fit into their table: a path that is returned leads from the
start to the end, on straight legs that do not leave the box at their ends and do not enter the inside of any polygon; it has at most 100 points; and no other such
path over corners of the polygons is shorter by more than 1 mm per leg. If the search fails there is no such path at all, or there are more than 101 points. -/
theorem path_convex {cs : List Oa.Call} (hc : ∀ c ∈ cs, c.Fair) (start goal : P) (pols : List (List P)) (box : ℚ × ℚ × ℚ × ℚ) (hconv : ∀ pol ∈ pols, Convex pol)
    (hr : ∀ pol ∈ [goal, start] :: pols, ∀ v ∈ pol, InRange v) :
    ∃ s, Oa.runCalls .init cs = .ok s ∧ (s.sizes = ([goal, start] :: pols).map List.length → ∀ out, calcRays (geo ([goal, start] :: pols) box) s.sizes = .ok out →
      ∀ fuel > 200 * (200 * 92683 + 1), ∃ r, Oa.process s (geo ([goal, start] :: pols) box) fuel = .ok r ∧
        match r with
        | .ok l => Route ([goal, start] :: pols) box (pols.map Interior) ((0, 1) :: l) ∧ l.length ≤ 100 ∧
            ∀ q, Route ([goal, start] :: pols) box (pols.map Interior) q →
              length (((0, 1) :: l).map (pt ([goal, start] :: pols))) ≤ length (q.map (pt ([goal, start] :: pols))) + (q.length - 1 : Nat)
        | .error .invalid => ∀ q, ¬Route ([goal, start] :: pols) box (pols.map Interior) q
        | .error .tooLong => 101 < (points (([goal, start] :: pols).map List.length)).length) := by
  obtain ⟨s, h1, h2⟩ := Oa.runCalls_ok (cs := cs) Oa.init_ok hc
  refine ⟨s, h1, ?_⟩
  intro hsz out hout fuel hf
  have hF : List.Forall₂ (Blocks box) pols (pols.map Interior) := by
    have : ∀ l : List (List P), (∀ pol ∈ l, Convex pol) → (∀ pol ∈ l, ∀ v ∈ pol, InRange v) → List.Forall₂ (Blocks box) l (l.map Interior) := by
      intro l
      induction l with
      | nil => intro _ _; exact .nil
      | cons a l ih =>
        intro g1 g2
        exact .cons (convex_blocks box (g1 a List.mem_cons_self) (g2 a List.mem_cons_self))
          (ih (fun p hp => g1 p (List.mem_cons_of_mem _ hp)) (fun p hp => g2 p (List.mem_cons_of_mem _ hp)))
    exact this pols hconv fun p hp => hr p (List.mem_cons_of_mem _ hp)
  obtain ⟨r, g1, g2⟩ := path_ok h2 (fits_of hF) hr hsz hout hf
  refine ⟨r, g1, ?_⟩
  match r, g2 with
  | .ok l, h => exact h
  | .error .invalid, h => exact h
  | .error .tooLong, h => exact h

/-! ## On the map -/

/-- Where the centre of the robot may be: half a robot away from the borders of the table -/
def inner (robot : Int) : ℚ × ℚ × ℚ × ℚ := ((robot / 2 : Int), (robot / 2 : Int), ((3000 - robot / 2 : Int)), ((2000 - robot / 2 : Int)))

theorem inner_inside {robot : Int} (h : 2 ≤ robot) (p : P) (hp : InBox (inner robot) p) : InsideTable p := by
  unfold InBox inner at hp
  simp only at hp
  have h1 : (1 : ℚ) ≤ ((robot / 2 : Int) : ℚ) := by exact_mod_cast (by omega : 1 ≤ robot / 2)
  push_cast at hp h1
  obtain ⟨⟨a, b⟩, ⟨c, d⟩⟩ := hp
  exact ⟨⟨by linarith, by linarith⟩, ⟨by linarith, by linarith⟩⟩

theorem legs_map {α β : Type} (f : α → β) : ∀ l : List α, legs (l.map f) = (legs l).map fun e => (f e.1, f e.2)
  | [] => rfl
  | [_] => rfl
  | a :: b :: l => by
    have := legs_map f (b :: l)
    simp only [List.map_cons] at this ⊢
    rw [legs, this]
    rfl

/-- The polygons of the initial map -/
theorem init_parts {robot : Int} (hr : 2 ≤ robot ∧ robot ≤ 10000) {wall : Bool} {m0 : Map.Map} (h0 : Map.Map.init robot wall = some m0) :
    Map.ally 0 0 0 0 = some m0.ally ∧ (∀ w, m0.wall = some w → Map.rect 1500 1450 40 200 robot = some w) ∧
      Map.rectCorners 450 1543 1050 1578 robot = some m0.distributors.1 ∧ Map.rectCorners 1950 1543 2550 1578 robot = some m0.distributors.2 ∧
      Map.rectCorners 450 1578 2550 2000 robot = some m0.ramp ∧ Oa.Ok m0.oa := by
  have e1 : robot.tdiv 2 = robot / 2 := Int.tdiv_eq_ediv_of_nonneg (by omega)
  have r1 := Map.rectCorners_of (blx := 450) (bly := 1543) (trx := 1050) (try' := 1578) (robot := robot) (by omega) (by omega) (by omega) (by omega) (by omega)
  have r2 := Map.rectCorners_of (blx := 1950) (bly := 1543) (trx := 2550) (try' := 1578) (robot := robot) (by omega) (by omega) (by omega) (by omega) (by omega)
  have r3 := Map.rectCorners_of (blx := 450) (bly := 1578) (trx := 2550) (try' := 2000) (robot := robot) (by omega) (by omega) (by omega) (by omega) (by omega)
  have r4 := Map.rect_of (cx := 1500) (cy := 1450) (sx := 40) (sy := 200) (robot := robot) (by omega) (by omega) (by omega) (by omega) (by omega)
  have h0' := h0
  unfold Map.Map.init at h0'
  rw [e1, Map.i32_of (by unfold Map.sizeX; omega), Map.i32_of (by unfold Map.sizeY; omega), Map.rect_of (cx := 0) (by omega) (by omega) (by omega) (by omega) (by omega), r1, r2, r3, r4] at h0'
  have calls : ∀ n, ∃ s, Oa.runCalls .init (List.replicate n (.newPoly 4)) = .ok s ∧ Oa.Ok s := fun n => Oa.runCalls_ok Oa.init_ok (by
    intro c hc
    rw [(List.mem_replicate.mp hc).2]
    exact ⟨by decide, by decide⟩)
  cases wall with
  | true =>
    have e := (Option.some.inj h0').symm
    subst e
    obtain ⟨s, g1, g2⟩ := calls 7
    have : s = _ := (Except.ok.inj (g1.symm.trans rfl))
    subst this
    exact ⟨rfl, (fun w hw => by rw [r4]; exact hw), r1, r2, r3, g2⟩
  | false =>
    have e := (Option.some.inj h0').symm
    subst e
    obtain ⟨s, g1, g2⟩ := calls 6
    have : s = _ := (Except.ok.inj (g1.symm.trans rfl))
    subst this
    exact ⟨rfl, (fun w hw => by cases hw), r1, r2, r3, g2⟩

/-- C82: on the map, with two to 10000 mm of robot, with or without the wall, after any reports about the ally and opponents: planning is defined (nothing overflows)
and ends. A path that is returned leads from the start to the goal on straight legs; every leg stays in the part of the table where the robot fits, and keeps the
distances from the fixed obstacles, the ally and the last two opponents. No other such path over corners is shorter by more than 1 mm per leg. If planning fails,
there is no such path. -/
theorem plan_spec (robot : Int) (hr : 2 ≤ robot ∧ robot ≤ 10000) (wall : Bool) (rs : List Report) (hf : ∀ r ∈ rs, r.Fair) (start goal : Int × Int)
    (hs : InRange ⟨start.1, start.2⟩) (hg : InRange ⟨goal.1, goal.2⟩) (fuel : Nat) (hfuel : fuel > 200 * (200 * 92683 + 1)) :
    ∃ m0 m r, Map.Map.init robot wall = some m0 ∧ runAll m0 rs = some m ∧ plan m start goal fuel = .ok r ∧
      match r with
      | .ok l => ((⟨start.1, start.2⟩ : P) :: l).getLast? = some ⟨goal.1, goal.2⟩ ∧
          (∀ e ∈ legs ((⟨start.1, start.2⟩ : P) :: l), Free (inner robot) (table robot wall (ally rs) (newest rs) (older rs)) e.1 e.2) ∧
          ∀ q, Route (polys m start goal) (inner robot) (table robot wall (ally rs) (newest rs) (older rs)) q →
            length ((⟨start.1, start.2⟩ : P) :: l) ≤ length (q.map (pt (polys m start goal))) + (q.length - 1 : Nat)
      | .error .invalid => ∀ q, ¬Route (polys m start goal) (inner robot) (table robot wall (ally rs) (newest rs) (older rs)) q
      | .error .tooLong => False := by
  obtain ⟨m0, h0, i1, i2, i3, i4, i5, _, i7, _⟩ := Map.init_spec robot (by omega) wall
  have hb := inner_inside hr.1
  obtain ⟨a1, a2, a3, a4, a5, a6⟩ := init_parts hr h0
  have hzero : (Report.opponent 0 0 0 0).Fair := .inr ⟨rfl, rfl, rfl, rfl⟩
  have hzero' : (Report.ally 0 0 0 0).Fair := .inr ⟨rfl, rfl, rfl, rfl⟩
  have hinv0 : Inv (inner robot) m0 m0 (⟨0, 0, 0⟩, ⟨0, 0, 0⟩, ⟨0, 0, 0⟩) := by
    obtain ⟨p, hp⟩ : ∃ p, Map.rect 0 0 0 0 0 = some p := ⟨_, rfl⟩
    have l1 : 1 - m0.last = 1 := by omega
    rw [hp] at i2 i3
    have A := allied_poly hb a1 hzero'
    have O := around_poly hb hp hzero
    exact ⟨by omega, A, ⟨p, by rw [l1]; exact i3, O⟩, ⟨p, by rw [i1]; exact i2, O⟩, rfl⟩
  obtain ⟨m, hrun, hinv⟩ := reports_inv hb rs hinv0 hf
  rw [state_eq] at hinv
  have pd1 := rectCorners_poly hb a3 (by omega) (by omega) (by omega)
  have pd2 := rectCorners_poly hb a4 (by omega) (by omega) (by omega)
  have prp := rectCorners_poly hb a5 (by omega) (by omega) (by omega)
  have pw : ∀ w, m0.wall = some w → Poly (inner robot) w (near (robot / 2) 1480 1350 1520 1550) := by
    intro w hw
    have P := rect_poly hb (a2 w hw) (by omega) (by omega)
    refine ⟨blocks_congr P.blocks fun p => ?_, P.four, P.range⟩
    rw [show (40 + robot) / 2 = 20 + robot / 2 by omega, show (200 + robot) / 2 = 100 + robot / 2 by omega]
    unfold near
    push_cast
    constructor
    · rintro ⟨⟨b1, b2⟩, ⟨b3, b4⟩⟩
      exact ⟨⟨by linarith, by linarith⟩, ⟨by linarith, by linarith⟩⟩
    · rintro ⟨⟨b1, b2⟩, ⟨b3, b4⟩⟩
      exact ⟨⟨by linarith, by linarith⟩, ⟨by linarith, by linarith⟩⟩
  -- the opponents in the order of the polygons
  obtain ⟨A, B, hAB, pA, pB⟩ : ∃ A B, (∀ R : P → Prop, (R = A ∨ R = B) ↔ (R = (newest rs).around ∨ R = (older rs).around)) ∧ Poly (inner robot) m.opponents.1 A ∧ Poly (inner robot) m.opponents.2 B := by
    obtain ⟨pn, n1, n2⟩ := hinv.newest
    obtain ⟨po, o1, o2⟩ := hinv.older
    have hc : m.last = 0 ∨ m.last = 1 := by have := hinv.last; omega
    rcases hc with hc | hc
    · rw [hc] at n1 o1
      have e1 := Option.some.inj n1
      have e2 := Option.some.inj o1
      exact ⟨_, _, fun R => or_comm, by rw [e2]; exact o2, by rw [e1]; exact n2⟩
    · rw [hc] at n1 o1
      have e1 := Option.some.inj n1
      have e2 := Option.some.inj o1
      exact ⟨_, _, fun R => Iff.rfl, by rw [e1]; exact n2, by rw [e2]; exact o2⟩
  have hm := hinv.rest
  have ew : m.wall = m0.wall := by rw [hm]
  have ed : m.distributors = m0.distributors := by rw [hm]
  have er : m.ramp = m0.ramp := by rw [hm]
  have eo : m.oa = m0.oa := by rw [hm]
  have ebx : m.box = m0.box := by rw [hm]
  let areas : List (P → Prop) := [(ally rs).allied, A, B] ++ (if wall then [near (robot / 2) 1480 1350 1520 1550] else []) ++
    [near (robot / 2) 450 1543 1050 1578, near (robot / 2) 1950 1543 2550 1578, near (robot / 2) 450 1578 2550 2000]
  have hall : List.Forall₂ (fun p R => Poly (inner robot) p R) (obstacles m) areas := by
    unfold obstacles
    rw [ew, ed, er]
    cases wall with
    | true =>
      obtain ⟨w, hw⟩ := Option.isSome_iff_exists.mp i5
      rw [hw]
      exact .cons hinv.ally (.cons pA (.cons pB (.cons (pw w hw) (.cons pd1 (.cons pd2 (.cons prp .nil))))))
    | false =>
      have hw : m0.wall = none := by
        cases e : m0.wall with
        | none => rfl
        | some w => rw [e] at i5; cases i5
      rw [hw]
      exact .cons hinv.ally (.cons pA (.cons pB (.cons pd1 (.cons pd2 (.cons prp .nil)))))
  have hprops : ∀ {xs : List (List P)} {ys : List (P → Prop)}, List.Forall₂ (fun p R => Poly (inner robot) p R) xs ys →
      List.Forall₂ (Blocks (inner robot)) xs ys ∧ (∀ p ∈ xs, ∀ v ∈ p, InRange v) ∧ xs.map List.length = List.replicate xs.length 4 := by
    intro xs ys h
    induction h with
    | nil => exact ⟨.nil, (fun p hp => by cases hp), rfl⟩
    | cons h hs ih =>
      refine ⟨.cons h.blocks ih.1, ?_, ?_⟩
      · intro p hp
        rcases List.mem_cons.mp hp with rfl | hp
        · exact h.range
        · exact ih.2.1 p hp
      · rw [List.map_cons, ih.2.2, h.four]; rfl
  obtain ⟨f1, f2, f3⟩ := hprops hall
  have hF : Fits (polys m start goal) (inner robot) areas := fits_of f1
  have hrange : ∀ pol ∈ polys m start goal, ∀ v ∈ pol, InRange v := by
    intro pol hpol v hv
    rcases List.mem_cons.mp hpol with rfl | hpol
    · simp only [List.mem_cons, List.not_mem_nil, or_false] at hv
      rcases hv with rfl | rfl
      · exact hg
      · exact hs
    · exact f2 pol hpol v hv
  have hsz : m.oa.sizes = (polys m start goal).map List.length := by
    rw [eo, i4]
    unfold polys
    rw [List.map_cons, f3]
    have hlen := hall.length_eq
    rw [hlen]
    cases wall <;> rfl
  obtain ⟨out, hout⟩ := Oa.calcRays_fits_partial (geo (polys m start goal) (inner robot)) (ls := m.oa.sizes) (by rw [eo, i4]; cases wall <;> decide)
  obtain ⟨r, g1, g2⟩ := path_ok (by rw [eo]; exact a6) hF hrange hsz hout hfuel
  have hbox : ((m.box.1 : ℚ), (m.box.2.1 : ℚ), (m.box.2.2.1 : ℚ), (m.box.2.2.2 : ℚ)) = inner robot := by rw [ebx, i7]; rfl
  have hareas : ∀ R, R ∈ areas ↔ R ∈ table robot wall (ally rs) (newest rs) (older rs) := by
    intro R
    have := hAB R
    simp only [areas, table, List.mem_append, List.mem_cons, List.not_mem_nil, or_false]
    constructor
    · rintro (((h | h | h) | h) | h)
      · exact .inl (.inl (.inl h))
      · exact .inl (.inl (.inr (this.mp (.inl h))))
      · exact .inl (.inl (.inr (this.mp (.inr h))))
      · exact .inl (.inr h)
      · exact .inr h
    · rintro (((h | h | h) | h) | h)
      · exact .inl (.inl (.inl h))
      · exact .inl (.inl (.inr (this.mpr (.inl h))))
      · exact .inl (.inl (.inr (this.mpr (.inr h))))
      · exact .inl (.inr h)
      · exact .inr h
  match r, g1, g2 with
  | .ok l, g1, ⟨g3, g4, g5⟩ =>
    refine ⟨m0, m, .ok (l.map (pt (polys m start goal))), h0, hrun, by unfold plan; rw [hbox, g1], ?_⟩
    have g3' := (route_congr hareas _).mp g3
    have est : (pt (polys m start goal) (0, 1)) = ⟨start.1, start.2⟩ := rfl
    have ego : (pt (polys m start goal) (0, 0)) = ⟨goal.1, goal.2⟩ := rfl
    have emap : (⟨start.1, start.2⟩ : P) :: l.map (pt (polys m start goal)) = (((0, 1) : Nat × Nat) :: l).map (pt (polys m start goal)) := rfl
    simp only
    rw [emap]
    refine ⟨?_, ?_, ?_⟩
    · rw [List.getLast?_map, g3'.goal]; rfl
    · intro e he
      rw [legs_map] at he
      obtain ⟨e', h1, rfl⟩ := List.mem_map.mp he
      exact (g3'.free e' h1).2
    · intro q hq
      exact g5 q ((route_congr hareas _).mpr hq)
  | .error .invalid, g1, h => exact ⟨m0, m, .error .invalid, h0, hrun, by unfold plan; rw [hbox, g1], fun q hq => h q ((route_congr hareas _).mpr hq)⟩
  | .error .tooLong, g1, h =>
    exfalso
    have h' : 101 < (points ((polys m start goal).map List.length)).length := h
    rw [← hsz, eo, i4] at h'
    cases wall with
    | true => exact absurd h' (by decide)
    | false => exact absurd h' (by decide)

/-- The fixed obstacles: wall, distributors, ramp -/
def fixed (wall : Bool) : List (Int × Int × Int × Int) :=
  (if wall then [(1480, 1350, 1520, 1550)] else []) ++ [(450, 1543, 1050, 1578), (1950, 1543, 2550, 1578), (450, 1578, 2550, 2000)]

theorem near_overlap {half x1 y1 x2 y2 : Int} {m q : P} (h1 : |q.x - m.x| < half ∧ |q.y - m.y| < half) (h2 : ((x1 : ℚ) < q.x ∧ q.x < x2) ∧ ((y1 : ℚ) < q.y ∧ q.y < y2)) :
    near half x1 y1 x2 y2 m := by
  rw [abs_lt, abs_lt] at h1
  obtain ⟨⟨a, b⟩, ⟨c, d⟩⟩ := h1
  obtain ⟨⟨e, f⟩, ⟨g, h⟩⟩ := h2
  exact ⟨⟨by linarith, by linarith⟩, ⟨by linarith, by linarith⟩⟩

/-- C82: what a free leg means for a square robot that does not turn, whose centre is anywhere on the leg: the robot is on the table, and it does not overlap any of
the fixed obstacles. The centre is at least half the sizes away from the centre of both opponents, in one of the directions, so squares of those sizes do not overlap;
and the distances to the centre of the ally add up to at least 1.25 times half the sizes. -/
theorem free_safe {robot : Int} (heven : robot % 2 = 0) {wall : Bool} {al nw od : Robot} {a b m : P} (h : Free (inner robot) (table robot wall al nw od) a b) (hm : InSeg m a b) :
    (∀ q : P, |q.x - m.x| ≤ (robot : ℚ) / 2 → |q.y - m.y| ≤ (robot : ℚ) / 2 → OnTable q) ∧
    (∀ r ∈ fixed wall, ¬∃ q : P, (|q.x - m.x| < (robot : ℚ) / 2 ∧ |q.y - m.y| < (robot : ℚ) / 2) ∧ ((r.1 : ℚ) < q.x ∧ q.x < r.2.2.1) ∧ ((r.2.1 : ℚ) < q.y ∧ q.y < r.2.2.2)) ∧
    (∀ o, o = nw ∨ o = od → ∀ ours theirs : Int, ours + theirs = o.sizes → o.sizes % 2 = 0 →
      ¬∃ q : P, (|q.x - m.x| < (ours : ℚ) / 2 ∧ |q.y - m.y| < (ours : ℚ) / 2) ∧ (|q.x - o.x| < (theirs : ℚ) / 2 ∧ |q.y - o.y| < (theirs : ℚ) / 2)) ∧
    5 / 4 * (al.sizes : ℚ) / 2 ≤ |m.x - al.x| + |m.y - al.y| := by
  have half : ((robot / 2 : Int) : ℚ) = (robot : ℚ) / 2 := by
    have : 2 * (robot / 2) = robot := by omega
    have : (2 : ℚ) * ((robot / 2 : Int) : ℚ) = robot := by exact_mod_cast this
    linarith
  obtain ⟨ha, hb, hR⟩ := h
  have hbox : InBox (inner robot) m := by
    obtain ⟨t, h0, h1, rfl⟩ := hm
    unfold InBox at *
    simp only [at']
    exact ⟨Map.mul_between h0 h1 _ _ ha.1 hb.1, Map.mul_between h0 h1 _ _ ha.2 hb.2⟩
  refine ⟨?_, ?_, ?_, ?_⟩
  · intro q h1 h2
    unfold InBox inner at hbox
    simp only at hbox
    push_cast at hbox
    rw [abs_le] at h1 h2
    rw [show ((robot : Int) / 2 : Int) = robot / 2 from rfl] at hbox
    obtain ⟨⟨c1, c2⟩, ⟨c3, c4⟩⟩ := hbox
    rw [half] at c1 c2 c3 c4
    exact ⟨⟨by linarith [h1.1], by linarith [h1.2]⟩, ⟨by linarith [h2.1], by linarith [h2.2]⟩⟩
  · rintro ⟨x1, y1, x2, y2⟩ hr ⟨q, h1, h2⟩
    rw [← half] at h1
    refine hR (near (robot / 2) x1 y1 x2 y2) ?_ m hm (near_overlap h1 h2)
    unfold table
    unfold fixed at hr
    cases wall with
    | true =>
      simp only [if_true, List.cons_append, List.nil_append, List.mem_cons, List.not_mem_nil, or_false, Prod.mk.injEq] at hr
      rcases hr with ⟨rfl, rfl, rfl, rfl⟩ | ⟨rfl, rfl, rfl, rfl⟩ | ⟨rfl, rfl, rfl, rfl⟩ | ⟨rfl, rfl, rfl, rfl⟩ <;> simp
    | false =>
      simp only [Bool.false_eq_true, if_false, List.nil_append, List.mem_cons, List.not_mem_nil, or_false, Prod.mk.injEq] at hr
      rcases hr with ⟨rfl, rfl, rfl, rfl⟩ | ⟨rfl, rfl, rfl, rfl⟩ | ⟨rfl, rfl, rfl, rfl⟩ <;> simp
  · rintro o ho ours theirs hsum hev ⟨q, ⟨h1, h2⟩, ⟨h3, h4⟩⟩
    have hs : ((o.sizes / 2 : Int) : ℚ) = (ours : ℚ) / 2 + (theirs : ℚ) / 2 := by
      have e1 : 2 * (o.sizes / 2) = ours + theirs := by omega
      have e2 : (2 : ℚ) * ((o.sizes / 2 : Int) : ℚ) = ours + theirs := by exact_mod_cast e1
      linarith
    refine hR o.around ?_ m hm ?_
    · unfold table
      rcases ho with rfl | rfl <;> simp
    · rw [abs_lt] at h1 h2 h3 h4
      unfold Robot.around near
      rw [hs]
      exact ⟨⟨by linarith [h1.2, h3.1], by linarith [h1.1, h3.2]⟩, ⟨by linarith [h2.2, h4.1], by linarith [h2.1, h4.2]⟩⟩
  · refine not_lt.mp fun hlt => hR al.allied ?_ m hm hlt
    unfold table
    simp

/-- The flag `enable_opponent`, which `strategy_goto_avoid` clears in order to plan as if there were no opponent (base.cpp:44-48), has no influence on the plan: no other
function reads it. -/
theorem enable_ignored (m : Map.Map) (b : Bool) (start goal : Int × Int) (fuel : Nat) : plan { m with enableOpponent := b } start goal fuel = plan m start goal fuel := rfl

/-! ## Examples -/

/-- A robot of 200 mm and an opponent of 300 mm in the middle of its way: the path leads over the two corners farther up. -/
def sighted : Option Map.Map := (Map.Map.init 200 true).bind fun m => runAll m [.opponent 1500 700 300 200]

example : (sighted.map fun m => match plan m (500, 750) (2500, 750) 100000 with | .ok (.ok l) => decide (l = [⟨1250, 950⟩, ⟨1750, 950⟩, ⟨2500, 750⟩]) | _ => false) = some true := by
  decide +kernel

/-- A goal on the ramp cannot be reached. -/
example : (sighted.map fun m => match plan m (500, 750) (1500, 1800) 100000 with | .ok (.error e) => decide (e = .invalid) | _ => false) = some true := by
  decide +kernel

/-- The hypotheses of `plan_spec` are met by that situation; so it is proved that there is a plan, and that it is free. -/
example : ∃ m0 m r, Map.Map.init 200 true = some m0 ∧ runAll m0 [.opponent 1500 700 300 200] = some m ∧ plan m (500, 750) (2500, 750) 10000000000 = .ok r := by
  obtain ⟨m0, m, r, h1, h2, h3, _⟩ := plan_spec 200 (by decide) true [.opponent 1500 700 300 200]
    (by intro r hr; rw [List.mem_singleton.mp hr]; exact .inl (by decide)) (500, 750) (2500, 750) (by unfold InRange; norm_num) (by unfold InRange; norm_num) 10000000000 (by decide)
  exact ⟨m0, m, r, h1, h2, h3⟩

/-- A free leg: along the lower side of the table -/
example : Free (inner 200) (table 200 true ⟨0, 0, 0⟩ ⟨1500, 700, 500⟩ ⟨0, 0, 0⟩) ⟨500, 200⟩ ⟨2500, 200⟩ := by
  refine ⟨by unfold InBox inner; norm_num, by unfold InBox inner; norm_num, ?_⟩
  intro R hR m hm hin
  obtain ⟨t, h0, h1, rfl⟩ := hm
  simp only [table, if_true, List.cons_append, List.nil_append, List.mem_cons, List.not_mem_nil, or_false] at hR
  have habs := abs_nonneg (500 + t * (2500 - 500) : ℚ)
  rcases hR with rfl | rfl | rfl | rfl | rfl | rfl | rfl
  · simp only [Robot.allied, at'] at hin
    norm_num at hin
    linarith [abs_nonneg (500 + t * 2000 : ℚ)]
  all_goals
    simp only [Robot.around, near, at'] at hin
    norm_num at hin
    try linarith [hin.1.1, hin.1.2, hin.2]

end Verif.Plan
