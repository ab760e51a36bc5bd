import Verif.Plan.Spec
import Verif.Oa.Props
import Verif.Geom.Props
import Mathlib.Tactic.Linarith
import Mathlib.Tactic.NormNum
import Mathlib.Tactic.Positivity

/-! Lemmas on planning -/

namespace Verif.Plan

open Geom
open Oa (Vertex Adj Chain Lightest withWeights calcRays innerRays interRays points origin begin')

/-! ## Lengths -/

theorem norm_spec (a b : P) : (norm a b : ℝ) ≤ dist a b ∧ dist a b < norm a b + 1 := by
  unfold norm dist
  have hq : (0 : ℚ) ≤ (a.x - b.x) ^ 2 + (a.y - b.y) ^ 2 := by positivity
  have hr : (((a.x - b.x) ^ 2 + (a.y - b.y) ^ 2 : ℚ) : ℝ) = ((a.x : ℝ) - b.x) ^ 2 + ((a.y : ℝ) - b.y) ^ 2 := by push_cast; ring
  rw [← hr]
  generalize (a.x - b.x) ^ 2 + (a.y - b.y) ^ 2 = q at hq
  have hf : (0 : Int) ≤ ⌊q⌋ := Int.floor_nonneg.mpr hq
  have hn : ((⌊q⌋.toNat : Int) : ℚ) ≤ q := by rw [Int.toNat_of_nonneg hf]; exact Int.floor_le q
  have hn' : q < ((⌊q⌋.toNat : Int) : ℚ) + 1 := by rw [Int.toNat_of_nonneg hf]; exact Int.lt_floor_add_one q
  generalize ⌊q⌋.toNat = n at hn hn'
  have h1 : Nat.sqrt n * Nat.sqrt n ≤ n := Nat.sqrt_le n
  have h2 : n < (Nat.sqrt n + 1) * (Nat.sqrt n + 1) := Nat.lt_succ_sqrt n
  have r1 : ((Nat.sqrt n : ℝ)) * (Nat.sqrt n : ℝ) ≤ n := by exact_mod_cast h1
  have h2' : n + 1 ≤ (Nat.sqrt n + 1) * (Nat.sqrt n + 1) := h2
  have r2 : ((n : ℝ)) + 1 ≤ ((Nat.sqrt n : ℝ) + 1) * ((Nat.sqrt n : ℝ) + 1) := by exact_mod_cast h2'
  have q1 : (n : ℝ) ≤ (q : ℝ) := by exact_mod_cast hn
  have q2 : (q : ℝ) < (n : ℝ) + 1 := by exact_mod_cast hn'
  constructor
  · refine Real.le_sqrt_of_sq_le ?_
    rw [pow_two]
    linarith
  · rw [Real.sqrt_lt' (by positivity), pow_two]
    linarith

theorem norm_symm (a b : P) : norm a b = norm b a := by
  unfold norm
  rw [show (a.x - b.x) ^ 2 + (a.y - b.y) ^ 2 = (b.x - a.x) ^ 2 + (b.y - a.y) ^ 2 by ring]

theorem norm_lt {a b : P} (ha : InRange a) (hb : InRange b) : norm a b < 92683 := by
  unfold norm
  rw [Nat.sqrt_lt]
  unfold InRange at ha hb
  have h1 : (a.x - b.x) ^ 2 ≤ 65536 ^ 2 := by
    rw [sq_le_sq, abs_of_pos (show (0 : ℚ) < 65536 by norm_num), abs_le]
    constructor <;> linarith [ha.1, ha.2.1, hb.1, hb.2.1]
  have h2 : (a.y - b.y) ^ 2 ≤ 65536 ^ 2 := by
    rw [sq_le_sq, abs_of_pos (show (0 : ℚ) < 65536 by norm_num), abs_le]
    constructor <;> linarith [ha.2.2.1, ha.2.2.2, hb.2.2.1, hb.2.2.2]
  have h3 : ⌊(a.x - b.x) ^ 2 + (a.y - b.y) ^ 2⌋ ≤ 8589934592 := by
    have := Int.floor_le ((a.x - b.x) ^ 2 + (a.y - b.y) ^ 2)
    have h4 : ((⌊(a.x - b.x) ^ 2 + (a.y - b.y) ^ 2⌋ : Int) : ℚ) ≤ 8589934592 := by linarith
    exact_mod_cast h4
  omega

theorem length_cons (a b : P) (l : List P) : length (a :: b :: l) = dist a b + length (b :: l) := by
  unfold length
  rw [legs, List.map_cons, List.sum_cons]

theorem length_one (a : P) : length [a] = 0 := by unfold length; rw [legs]; rfl; intro _ _ _ h; cases h

/-! ## Rays -/

theorem inBox_iff (ps : List (List P)) (box : ℚ × ℚ × ℚ × ℚ) (v : Vertex) : (geo ps box).inBox v = true ↔ InBox box (pt ps v) := by
  unfold geo InBox
  exact box_spec _ _ _ _ _

/-- A polygon that blocks exactly the ways through an area, when the ends are in the box -/
structure Blocks (box : ℚ × ℚ × ℚ × ℚ) (pol : List P) (R : P → Prop) : Prop where
  size : 3 ≤ pol.length
  cross : ∀ a b, InBox box a → InBox box b → ((isCrossingPoly a b ⟨0, 0⟩ pol).1 = 1 ↔ ∃ m, InSeg m a b ∧ R m)
  side : ∀ a b, Side pol a b → InBox box a → InBox box b → ∀ m, InSeg m a b → ¬R m
  diag : ∀ (i j : Nat) (hi : i < pol.length) (hj : j < pol.length), i ≠ j → (i + 1) % pol.length ≠ j → (j + 1) % pol.length ≠ i → InBox box pol[i] → InBox box pol[j] →
    ∃ m, InSeg m pol[i] pol[j] ∧ R m

/-- The scene: the polygons, the first of which has two points, and the areas of the others -/
structure Fits (ps : List (List P)) (box : ℚ × ℚ × ℚ × ℚ) (areas : List (P → Prop)) : Prop where
  two : ∃ a b, ps[0]? = some [a, b]
  len : areas.length + 1 = ps.length
  blocks : ∀ (k : Nat) (hk : k < areas.length) (hp : k + 1 < ps.length), Blocks box ps[k + 1] areas[k]

def Vtx (ps : List (List P)) (v : Vertex) : Prop := ∃ pol, ps[v.1]? = some pol ∧ v.2 < pol.length

theorem vtx_iff {ps : List (List P)} {v : Vertex} : Vtx ps v ↔ v.1 < (ps.map List.length).length ∧ v.2 < (ps.map List.length).getD v.1 0 := by
  unfold Vtx
  rw [List.length_map, List.getD_eq_getElem?_getD, List.getElem?_map]
  constructor
  · rintro ⟨pol, h1, h2⟩
    rw [h1]
    exact ⟨(List.getElem?_eq_some_iff.mp h1).1, h2⟩
  · rintro ⟨h1, h2⟩
    rw [List.getElem?_eq_getElem h1] at h2
    exact ⟨_, List.getElem?_eq_getElem h1, h2⟩

theorem pt_eq {ps : List (List P)} {v : Vertex} {pol : List P} (h : ps[v.1]? = some pol) (h2 : v.2 < pol.length) : pt ps v = pol[v.2] := by
  unfold pt
  rw [List.getD_eq_getElem?_getD, List.getD_eq_getElem?_getD, h]
  simp only [Option.getD_some]
  rw [List.getElem?_eq_getElem h2]
  rfl

theorem free_symm {box : ℚ × ℚ × ℚ × ℚ} {areas : List (P → Prop)} {a b : P} (h : Free box areas a b) : Free box areas b a :=
  ⟨h.2.1, h.1, fun R hR m hm => h.2.2 R hR m (inSeg_symm hm)⟩

section
variable {ps : List (List P)} {box : ℚ × ℚ × ℚ × ℚ} {areas : List (P → Prop)} (F : Fits ps box areas)
include F

theorem not_crossed {u v : Vertex} (hu : InBox box (pt ps u)) (hv : InBox box (pt ps v)) {k : Nat} (hk : k < areas.length) :
    (geo ps box).crossed u v (k + 1) = false ↔ ∀ m, InSeg m (pt ps u) (pt ps v) → ¬areas[k] m := by
  have hp : k + 1 < ps.length := by have := F.len; omega
  have hb := (F.blocks k hk hp).cross _ _ hu hv
  unfold geo
  simp only
  rw [List.getD_eq_getElem?_getD, List.getElem?_eq_getElem hp, Option.getD_some, beq_eq_false_iff_ne, Ne, hb]
  constructor
  · intro h m hm hR; exact h ⟨m, hm, hR⟩
  · rintro h ⟨m, hm, hR⟩; exact h m hm hR

theorem mem_areas {R : P → Prop} (h : R ∈ areas) : ∃ (k : Nat) (hk : k < areas.length), R = areas[k] := by
  obtain ⟨k, hk, e⟩ := List.mem_iff_getElem.mp h
  exact ⟨k, hk, e.symm⟩

theorem inner_free {u v : Vertex} (h : (u, v) ∈ innerRays (geo ps box) (ps.map List.length)) : Vtx ps u ∧ Vtx ps v ∧ u ≠ v ∧ Free box areas (pt ps u) (pt ps v) := by
  obtain ⟨h1, h2, h3, h4, h5, h6⟩ := (Oa.sides_visible _ _ _ _).mp h
  have vu : Vtx ps u := vtx_iff.mpr ⟨h1, h2⟩
  have hl2 : 2 ≤ (ps.map List.length).getD u.1 0 := by
    obtain ⟨pol, e1, e2⟩ := vu
    rw [List.getD_eq_getElem?_getD, List.getElem?_map, e1]
    simp only [Option.map_some, Option.getD_some]
    by_cases e0 : u.1 = 0
    · obtain ⟨a, b, e3⟩ := F.two
      rw [e0, e3] at e1
      cases e1
      exact Nat.le_refl 2
    · obtain ⟨e3, e4⟩ := List.getElem?_eq_some_iff.mp e1
      obtain ⟨k, e5⟩ := Nat.exists_eq_succ_of_ne_zero e0
      have hk : k < areas.length := by have := F.len; omega
      have := (F.blocks k hk (by omega)).size
      have e6 : ps[k + 1]'(by omega) = pol := by rw [← e4]; simp only [e5]
      rw [e6] at this
      omega
  have vv : Vtx ps v := by
    rw [h3]
    exact vtx_iff.mpr ⟨h1, Nat.mod_lt _ (Nat.lt_of_lt_of_le (by decide) hl2)⟩
  have bu := (inBox_iff _ _ _).mp h4
  have bv := (inBox_iff _ _ _).mp h5
  refine ⟨vu, vv, ?_, bu, bv, ?_⟩
  · intro e
    rw [e] at h3
    have e2 : v.2 = (v.2 + 1) % (ps.map List.length).getD v.1 0 := congrArg Prod.snd h3
    rw [e] at h2 hl2
    by_cases h : v.2 + 1 < (ps.map List.length).getD v.1 0
    · rw [Nat.mod_eq_of_lt h] at e2; omega
    · have : v.2 + 1 = (ps.map List.length).getD v.1 0 := by omega
      rw [← this, Nat.mod_self] at e2
      omega
  · intro R hR
    obtain ⟨k, hk, rfl⟩ := mem_areas F hR
    have hp : k + 1 < ps.length := by have := F.len; omega
    by_cases hown : k + 1 = u.1
    · obtain ⟨pol, e1, e2⟩ := vu
      obtain ⟨pol', e3, e4⟩ := vv
      have ev : v.1 = u.1 := by rw [h3]
      rw [ev, e1] at e3
      cases e3
      refine (F.blocks k hk hp).side _ _ ?_ bu bv
      have ek : ps[k + 1] = pol := by
        have := e1
        rw [← hown, List.getElem?_eq_getElem hp] at this
        exact Option.some.inj this
      rw [ek, pt_eq e1 e2, pt_eq (by rw [ev]; exact e1) e4]
      have e5 : v.2 = (u.2 + 1) % pol.length := by
        have := congrArg Prod.snd h3
        simp only at this
        rw [this, List.getD_eq_getElem?_getD, List.getElem?_map, e1]
        rfl
      have e4' := e4
      rw [e5] at e4'
      refine ⟨u.2, e2, e4', rfl, ?_⟩
      simp only [e5]
    · exact (not_crossed F bu bv hk).mp (h6 (k + 1) (Nat.succ_pos _) (by rw [List.length_map]; exact hp) hown)

theorem inter_free {u v : Vertex} (h : (u, v) ∈ interRays (geo ps box) (ps.map List.length)) : Vtx ps u ∧ Vtx ps v ∧ u ≠ v ∧ Free box areas (pt ps u) (pt ps v) := by
  obtain ⟨h1, h2, h3, h4, h5, h6, h7⟩ := (Oa.pairs_visible _ _ _ _).mp h
  have bu := (inBox_iff _ _ _).mp h5
  have bv := (inBox_iff _ _ _).mp h6
  refine ⟨vtx_iff.mpr ⟨by omega, h3⟩, vtx_iff.mpr ⟨h2, h4⟩, fun e => by rw [e] at h1; omega, bu, bv, ?_⟩
  intro R hR
  obtain ⟨k, hk, rfl⟩ := mem_areas F hR
  have hp : k + 1 < ps.length := by have := F.len; omega
  exact (not_crossed F bu bv hk).mp (h7 (k + 1) (Nat.succ_pos _) (by rw [List.length_map]; exact hp))

theorem free_crossed {u v : Vertex} (h : Free box areas (pt ps u) (pt ps v)) : ∀ k, 0 < k → k < (ps.map List.length).length → (geo ps box).crossed u v k = false := by
  intro k h0 hk
  rw [List.length_map] at hk
  obtain ⟨j, rfl⟩ := Nat.exists_eq_succ_of_ne_zero (Nat.ne_of_gt h0)
  have hj : j < areas.length := by have := F.len; omega
  exact (not_crossed F h.1 h.2.1 hj).mpr (h.2.2 _ (List.getElem_mem hj))

theorem free_ray {u v : Vertex} (hu : Vtx ps u) (hv : Vtx ps v) (hne : u ≠ v) (h : Free box areas (pt ps u) (pt ps v)) :
    (u, v) ∈ innerRays (geo ps box) (ps.map List.length) ++ interRays (geo ps box) (ps.map List.length) ∨
    (v, u) ∈ innerRays (geo ps box) (ps.map List.length) ++ interRays (geo ps box) (ps.map List.length) := by
  have hc := free_crossed F h
  have hc' := free_crossed F (free_symm h)
  have bu := (inBox_iff ps box u).mpr h.1
  have bv := (inBox_iff ps box v).mpr h.2.1
  have vu := vtx_iff.mp hu
  have vv := vtx_iff.mp hv
  rcases Nat.lt_trichotomy u.1 v.1 with hlt | heq | hgt
  · exact .inl (List.mem_append_right _ ((Oa.pairs_visible _ _ _ _).mpr ⟨hlt, vv.1, vu.2, vv.2, bu, bv, hc⟩))
  · obtain ⟨pol, e1, e2⟩ := hu
    obtain ⟨pol', e3, e4⟩ := hv
    have e3' := e3
    rw [← heq, e1] at e3'
    cases e3'
    have hl : ∀ w : Vertex, ps[w.1]? = some pol → (ps.map List.length).getD w.1 0 = pol.length := by
      intro w hw
      rw [List.getD_eq_getElem?_getD, List.getElem?_map, hw]
      rfl
    have hne2 : u.2 ≠ v.2 := fun e => hne (Prod.ext heq e)
    by_cases a1 : (u.2 + 1) % pol.length = v.2
    · refine .inl (List.mem_append_left _ ((Oa.sides_visible _ _ _ _).mpr ⟨vu.1, vu.2, ?_, bu, bv, fun k h0 hk _ => hc k h0 hk⟩))
      rw [hl u e1, a1]
      exact Prod.ext heq.symm rfl
    · by_cases a2 : (v.2 + 1) % pol.length = u.2
      · refine .inr (List.mem_append_left _ ((Oa.sides_visible _ _ _ _).mpr ⟨vv.1, vv.2, ?_, bv, bu, fun k h0 hk _ => hc' k h0 hk⟩))
        rw [hl v e3, a2]
        exact Prod.ext heq rfl
      · exfalso
        by_cases e0 : u.1 = 0
        · obtain ⟨a, b, e5⟩ := F.two
          rw [e0, e5] at e1
          cases e1
          simp only [List.length_cons, List.length_nil] at e2 e4 a1 a2
          omega
        · obtain ⟨k, e5⟩ := Nat.exists_eq_succ_of_ne_zero e0
          obtain ⟨e6, e7⟩ := List.getElem?_eq_some_iff.mp e1
          have hk : k < areas.length := by have := F.len; omega
          have hp : k + 1 < ps.length := by omega
          have ek : ps[k + 1] = pol := by
            have := e1
            rw [e5, List.getElem?_eq_getElem hp] at this
            exact Option.some.inj this
          have hd := (F.blocks k hk hp).diag
          rw [ek] at hd
          have h1 := h.1
          have h2 := h.2.1
          have h3 := h.2.2 _ (List.getElem_mem hk)
          rw [pt_eq e1 e2] at h1 h3
          rw [pt_eq e3 e4] at h2 h3
          obtain ⟨m, hm, hR⟩ := hd u.2 v.2 e2 e4 hne2 a1 a2 h1 h2
          exact h3 m hm hR
  · exact .inr (List.mem_append_right _ ((Oa.pairs_visible _ _ _ _).mpr ⟨hgt, vu.1, vv.2, vu.2, bv, bu, hc'⟩))

/-- The rays are the free ways between different points, their weight is the length rounded down, plus one. -/
theorem adj_iff {out : List (Vertex × Vertex)} (hout : out = innerRays (geo ps box) (ps.map List.length) ++ interRays (geo ps box) (ps.map List.length)) (u v : Vertex) (c : Nat) :
    Adj (withWeights (geo ps box) out) u v c ↔ c = norm (pt ps u) (pt ps v) + 1 ∧ Vtx ps u ∧ Vtx ps v ∧ u ≠ v ∧ Free box areas (pt ps u) (pt ps v) := by
  unfold Adj withWeights
  simp only [List.mem_map, Oa.Ray.mk.injEq]
  have hmem : ∀ a b, (a, b) ∈ out → Vtx ps a ∧ Vtx ps b ∧ a ≠ b ∧ Free box areas (pt ps a) (pt ps b) := by
    intro a b h
    rw [hout] at h
    rcases List.mem_append.mp h with h | h
    · exact inner_free F h
    · exact inter_free F h
  constructor
  · rintro (⟨⟨a, b⟩, h1, rfl, rfl, rfl⟩ | ⟨⟨a, b⟩, h1, rfl, rfl, rfl⟩)
    · exact ⟨rfl, hmem _ _ h1⟩
    · obtain ⟨g1, g2, g3, g4⟩ := hmem _ _ h1
      exact ⟨by rw [norm_symm]; rfl, g2, g1, fun e => g3 e.symm, free_symm g4⟩
  · rintro ⟨rfl, hu, hv, hne, hf⟩
    rw [hout]
    rcases free_ray F hu hv hne hf with h | h
    · exact .inl ⟨(u, v), h, rfl, rfl, rfl⟩
    · exact .inr ⟨(v, u), h, rfl, rfl, by rw [norm_symm]; rfl⟩

/-! ## Chains and routes -/

theorem chain_route {out : List (Vertex × Vertex)} (hout : out = innerRays (geo ps box) (ps.map List.length) ++ interRays (geo ps box) (ps.map List.length)) :
    ∀ {l : List Vertex} {u : Vertex} {w : Nat}, Chain (withWeights (geo ps box) out) origin l u w → Vtx ps u →
      (u :: l).getLast? = some origin ∧ (∀ v ∈ u :: l, Vtx ps v) ∧ (∀ e ∈ legs (u :: l), e.1 ≠ e.2 ∧ Free box areas (pt ps e.1) (pt ps e.2)) ∧
      length ((u :: l).map (pt ps)) ≤ w ∧ (w : ℝ) ≤ length ((u :: l).map (pt ps)) + l.length := by
  intro l u w hc
  induction hc with
  | nil =>
    intro hu
    refine ⟨rfl, ?_, ?_, ?_, ?_⟩
    · intro v hv; rw [List.mem_singleton.mp hv]; exact hu
    · intro e he; rw [legs] at he; cases he; intro _ _ _ h; cases h
    · rw [List.map_cons, List.map_nil, length_one]; simp
    · rw [List.map_cons, List.map_nil, length_one]; simp
  | @cons u x c l w ha hc ih =>
    intro hu
    obtain ⟨rfl, _, hx, hne, hf⟩ := (adj_iff F hout _ _ _).mp ha
    obtain ⟨h1, h2, h3, h4, h5⟩ := ih hx
    refine ⟨by rw [List.getLast?_cons_cons]; exact h1, ?_, ?_, ?_, ?_⟩
    · intro v hv
      rcases List.mem_cons.mp hv with rfl | hv
      · exact hu
      · exact h2 v hv
    · intro e he
      rw [legs] at he
      rcases List.mem_cons.mp he with rfl | he
      · exact ⟨hne, hf⟩
      · exact h3 e he
    · have := (norm_spec (pt ps u) (pt ps x)).2
      simp only [List.map_cons] at h4 ⊢
      rw [length_cons]
      push_cast
      linarith
    · have := (norm_spec (pt ps u) (pt ps x)).1
      simp only [List.map_cons] at h5 ⊢
      rw [length_cons, List.length_cons]
      push_cast
      linarith

theorem route_chain {out : List (Vertex × Vertex)} (hout : out = innerRays (geo ps box) (ps.map List.length) ++ interRays (geo ps box) (ps.map List.length)) :
    ∀ (l : List Vertex) (u : Vertex), (u :: l).getLast? = some origin → (∀ v ∈ u :: l, Vtx ps v) → (∀ e ∈ legs (u :: l), e.1 ≠ e.2 ∧ Free box areas (pt ps e.1) (pt ps e.2)) →
      ∃ w, Chain (withWeights (geo ps box) out) origin l u w
  | [], u, h, _, _ => by
    rw [List.getLast?_singleton] at h
    cases h
    exact ⟨0, .nil⟩
  | x :: l, u, h, h2, h3 => by
    rw [List.getLast?_cons_cons] at h
    obtain ⟨w, hw⟩ := route_chain hout l x h (fun v hv => h2 v (List.mem_cons_of_mem _ hv)) (fun e he => h3 e (by rw [legs]; exact List.mem_cons_of_mem _ he))
    obtain ⟨hne, hf⟩ := h3 (u, x) (by rw [legs]; exact List.mem_cons_self)
    exact ⟨_, .cons ((adj_iff F hout _ _ _).mpr ⟨rfl, h2 u List.mem_cons_self, h2 x (List.mem_cons_of_mem _ List.mem_cons_self), hne, hf⟩) hw⟩

end

/-! ## Lightest chains visit no point twice -/

theorem chain_suffix {rays : List Oa.Ray} {o : Vertex} : ∀ {l : List Vertex} {u : Vertex} {w : Nat}, Chain rays o l u w → ∀ v ∈ l, (∀ a b c, Adj rays a b c → 0 < c) →
    ∃ l' w', Chain rays o l' v w' ∧ w' < w
  | _, _, _, .nil, v, hv, _ => by cases hv
  | _, _, _, .cons (x := x) (l := l) (w := w) (c := c) ha hc, v, hv, hpos => by
    have := hpos _ _ _ ha
    rcases List.mem_cons.mp hv with rfl | hv
    · exact ⟨l, w, hc, by omega⟩
    · obtain ⟨l', w', h1, h2⟩ := chain_suffix hc v hv hpos
      exact ⟨l', w', h1, by omega⟩

theorem lightest_nodup {rays : List Oa.Ray} {o : Vertex} (hpos : ∀ a b c, Adj rays a b c → 0 < c) :
    ∀ {l : List Vertex} {u : Vertex} {w : Nat}, Chain rays o l u w → Lightest rays u o w → (u :: l).Nodup := by
  intro l u w hc
  induction hc with
  | nil => intro _; exact List.nodup_singleton _
  | @cons u x c l w ha hc ih =>
    intro hl
    refine List.nodup_cons.mpr ⟨?_, ih ?_⟩
    · intro hu
      obtain ⟨l', w', h1, h2⟩ := chain_suffix (.cons ha hc) u hu hpos
      have := hl _ _ h1
      omega
    · intro l' w' h'
      have := hl _ _ (.cons ha h')
      omega

end Verif.Plan
