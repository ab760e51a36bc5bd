import Verif.Plan.Lemmas
import Verif.Map.Props

/-! Which ways the polygons of the map block -/

namespace Verif.Plan

open Geom
open Map (box tableX tableY clamp corners diamond InsideTable)

/-- A strictly convex polygon blocks its interior. -/
theorem convex_blocks (bx : ℚ × ℚ × ℚ × ℚ) {pol : List P} (hc : Convex pol) (hr : ∀ v ∈ pol, InRange v) : Blocks bx pol (Interior pol) := by
  refine ⟨hc.1, fun a b _ _ => crossing_one pol hc hr a b _, ?_, ?_⟩
  · intro a b hs _ _ m hm hi
    obtain ⟨i, hi', rfl, rfl⟩ := side_iff.mp hs
    have := interior_pos hc hi i hi'
    unfold f at this
    rw [inSeg_turn hm] at this
    exact absurd this (lt_irrefl _)
  · intro i j hi hj hij h1 h2 _ _
    refine ⟨at' pol[i] pol[j] (1 / 2), ⟨1 / 2, by norm_num, by norm_num, rfl⟩, ?_⟩
    rw [interior_iff hc]
    intro k hk
    rw [f_lin, ← vtx_eq hi, ← vtx_eq hj]
    have p1 := conv_nonneg hc hk hi
    have p2 := conv_nonneg hc hk hj
    by_cases e1 : i = k ∨ i = nx pol.length k
    · have : 0 < f pol k (vtx pol j) := by
        refine conv_pos hc hk hj ?_ ?_
        · intro e
          rcases e1 with e1 | e1
          · exact hij (e1.trans e.symm)
          · rw [← e] at e1; exact h2 e1.symm
        · intro e
          rcases e1 with e1 | e1
          · rw [← e1] at e; exact h1 e.symm
          · exact hij (e1.trans e.symm)
      linarith
    · have : 0 < f pol k (vtx pol i) := conv_pos hc hk hi (fun e => e1 (.inl e)) (fun e => e1 (.inr e))
      linarith

theorem clamp_inside {v hi : Int} {x : ℚ} (he : x = ((clamp v 0 hi : Int) : ℚ)) (h0 : 0 < x) (h1 : x < hi) : x = v := by
  rw [he] at h0 h1 ⊢
  have a : 0 < clamp v 0 hi := by exact_mod_cast h0
  have b : clamp v 0 hi < hi := by exact_mod_cast h1
  unfold clamp at *
  split at a
  · omega
  · split at a
    · rename_i h2 h3
      rw [if_neg h2, if_pos h3] at b
      omega
    · rename_i h2 h3
      rw [if_neg h2, if_neg h3]

/-- A rectangle cut off at the borders of the table blocks the inside of the rectangle. -/
theorem rect_blocks {bx : ℚ × ℚ × ℚ × ℚ} (hb : ∀ p, InBox bx p → InsideTable p) {R B T L : Int} (hx : L < R) (hy : B < T) :
    Blocks bx (corners (tableX R) (tableY B) (tableY T) (tableX L)) (fun p => ((L : ℚ) < p.x ∧ p.x < R) ∧ ((B : ℚ) < p.y ∧ p.y < T)) := by
  refine ⟨(by show 3 ≤ 4; decide), fun a b ha hb' => Map.clamped_crossing R B T L hx hy a b _ (hb a ha) (hb b hb'), ?_, ?_⟩
  · intro a b hs ha hb' m hm hR
    obtain ⟨⟨m1, m2⟩, ⟨m3, m4⟩⟩ := Map.seg_inside hm (hb a ha) (hb b hb')
    have m2' : m.x < ((Map.sizeX : Int) : ℚ) := by unfold Map.sizeX; exact_mod_cast m2
    have m4' : m.y < ((Map.sizeY : Int) : ℚ) := by unfold Map.sizeY; exact_mod_cast m4
    have hside : m.x = tableX R ∨ m.x = tableX L ∨ m.y = tableY B ∨ m.y = tableY T := by
      have hmem : (a, b) ∈ sides (box (tableX R) (tableY B) (tableY T) (tableX L)) := by
        obtain ⟨i, hi, e1, e2⟩ := side_iff.mp hs
        exact mem_sides.mpr ⟨i, hi, by rw [e1, e2]; rfl⟩
      rw [Map.sides_box] at hmem
      simp only [List.mem_cons, List.not_mem_nil, or_false, Prod.mk.injEq] at hmem
      obtain ⟨t, _, _, rfl⟩ := hm
      simp only [at']
      rcases hmem with ⟨rfl, rfl⟩ | ⟨rfl, rfl⟩ | ⟨rfl, rfl⟩ | ⟨rfl, rfl⟩
      · left; simp
      · right; right; right; simp
      · right; left; simp
      · right; right; left; simp
    rcases hside with e | e | e | e
    · exact absurd (clamp_inside e m1 m2') (ne_of_lt hR.1.2)
    · exact absurd (clamp_inside e m1 m2') (ne_of_gt hR.1.1)
    · exact absurd (clamp_inside e m3 m4') (ne_of_gt hR.2.1)
    · exact absurd (clamp_inside e m3 m4') (ne_of_lt hR.2.2)
  · intro i j hi hj hij h1 h2 bi bj
    have hxq : (L : ℚ) < R := by exact_mod_cast hx
    have hyq : (B : ℚ) < T := by exact_mod_cast hy
    have mid : ∀ p q : P, InSeg (at' p q (1 / 2)) p q := fun p q => ⟨1 / 2, by norm_num, by norm_num, rfl⟩
    have opp : ∀ p q : P, ((p.x = tableX R ∧ q.x = tableX L) ∨ (p.x = tableX L ∧ q.x = tableX R)) → ((p.y = tableY B ∧ q.y = tableY T) ∨ (p.y = tableY T ∧ q.y = tableY B)) →
        InsideTable p → InsideTable q → ∃ m, InSeg m p q ∧ ((L : ℚ) < m.x ∧ m.x < R) ∧ ((B : ℚ) < m.y ∧ m.y < T) := by
      intro p q ex ey ⟨⟨a1, a2⟩, ⟨a3, a4⟩⟩ ⟨⟨b1, b2⟩, ⟨b3, b4⟩⟩
      refine ⟨at' p q (1 / 2), mid p q, ?_⟩
      have cx : ∀ {z : ℚ} {v : Int}, z = tableX v → 0 < z → z < 3000 → z = v := fun e h1 h2 => clamp_inside e h1 (by unfold Map.sizeX; exact_mod_cast h2)
      have cy : ∀ {z : ℚ} {v : Int}, z = tableY v → 0 < z → z < 2000 → z = v := fun e h1 h2 => clamp_inside e h1 (by unfold Map.sizeY; exact_mod_cast h2)
      simp only [at']
      rcases ex with ⟨e1, e2⟩ | ⟨e1, e2⟩ <;> rcases ey with ⟨e3, e4⟩ | ⟨e3, e4⟩ <;>
        rw [cx e1 a1 a2, cx e2 b1 b2, cy e3 a3 a4, cy e4 b3 b4] <;> refine ⟨⟨?_, ?_⟩, ⟨?_, ?_⟩⟩ <;> linarith
    have hi' : i < 4 := hi
    have hj' : j < 4 := hj
    have h1' : (i + 1) % 4 ≠ j := h1
    have h2' : (j + 1) % 4 ≠ i := h2
    have hcase : (i = 0 ∧ j = 2) ∨ (i = 1 ∧ j = 3) ∨ (i = 2 ∧ j = 0) ∨ (i = 3 ∧ j = 1) := by omega
    have bi' := hb _ bi
    have bj' := hb _ bj
    rcases hcase with ⟨rfl, rfl⟩ | ⟨rfl, rfl⟩ | ⟨rfl, rfl⟩ | ⟨rfl, rfl⟩
    · exact opp _ _ (.inl ⟨rfl, rfl⟩) (.inl ⟨rfl, rfl⟩) bi' bj'
    · exact opp _ _ (.inl ⟨rfl, rfl⟩) (.inr ⟨rfl, rfl⟩) bi' bj'
    · exact opp _ _ (.inr ⟨rfl, rfl⟩) (.inr ⟨rfl, rfl⟩) bi' bj'
    · exact opp _ _ (.inr ⟨rfl, rfl⟩) (.inl ⟨rfl, rfl⟩) bi' bj'

/-- Four times the origin, outside of the box, blocks nothing. -/
theorem reset_blocks {bx : ℚ × ℚ × ℚ × ℚ} (hb : ∀ p, InBox bx p → InsideTable p) {Q : P → Prop} (hQ : ∀ p, ¬Q p) :
    Blocks bx [⟨0, 0⟩, ⟨0, 0⟩, ⟨0, 0⟩, ⟨0, 0⟩] Q := by
  refine ⟨by decide, ?_, fun _ _ _ _ _ m _ => hQ m, ?_⟩
  · intro a b _ _
    obtain ⟨pol, h1, h2, _⟩ := Map.reset_free
    have e : pol = [⟨0, 0⟩, ⟨0, 0⟩, ⟨0, 0⟩, ⟨0, 0⟩] := by
      have : Map.rect 0 0 0 0 0 = some [⟨0, 0⟩, ⟨0, 0⟩, ⟨0, 0⟩, ⟨0, 0⟩] := by decide +kernel
      rw [h1] at this
      exact Option.some.inj this
    rw [← e]
    exact ⟨fun h => absurd h (h2 a b _), fun ⟨m, _, h⟩ => absurd h (hQ m)⟩
  · intro i j hi hj _ _ _ bi _
    exfalso
    have hi' : i < 4 := hi
    have : ([⟨0, 0⟩, ⟨0, 0⟩, ⟨0, 0⟩, ⟨0, 0⟩] : List P)[i] = ⟨0, 0⟩ := by
      have hc : i = 0 ∨ i = 1 ∨ i = 2 ∨ i = 3 := by omega
      rcases hc with rfl | rfl | rfl | rfl <;> rfl
    rw [this] at bi
    exact lt_irrefl _ (hb _ bi).1.1

theorem diamond_convex {x y r : ℚ} (hr : 0 < r) : Convex (diamond x y r) := by
  refine ⟨(by show 3 ≤ 4; decide), ?_⟩
  intro i k hi hk hj h1 h2
  have hi' : i < 4 := hi
  have hk' : k < 4 := hk
  have h2' : k ≠ (i + 1) % 4 := h2
  have hrr : 0 < r * r := mul_pos hr hr
  have ci : i = 0 ∨ i = 1 ∨ i = 2 ∨ i = 3 := by omega
  have ck : k = 0 ∨ k = 1 ∨ k = 2 ∨ k = 3 := by omega
  rcases ci with rfl | rfl | rfl | rfl <;> rcases ck with rfl | rfl | rfl | rfl <;>
    first
    | exact absurd rfl h1
    | exact absurd rfl h2'
    | (simp [diamond, turn]; nlinarith)

theorem blocks_congr {bx : ℚ × ℚ × ℚ × ℚ} {pol : List P} {Q Q' : P → Prop} (h : Blocks bx pol Q) (e : ∀ p, Q p ↔ Q' p) : Blocks bx pol Q' := by
  have : Q = Q' := funext fun p => propext (e p)
  rw [← this]; exact h

theorem ally_eq {x y size robot : Int} {pol : List P} (h : Map.ally x y size robot = some pol) : pol = diamond x y (5 / 4 * ((robot + size : Int) : ℚ) / 2) := by
  unfold Map.ally at h
  simp only [Option.bind_eq_bind, Option.bind_eq_some_iff] at h
  obtain ⟨s, h1, h2⟩ := h
  unfold Map.i32 at h1
  split at h1
  · rw [← Option.some.inj h1] at h2
    exact (Option.some.inj h2).symm
  · cases h1

/-- The ally's polygon blocks its inside. -/
theorem ally_blocks (bx : ℚ × ℚ × ℚ × ℚ) {x y size robot : Int} {pol : List P} (h : Map.ally x y size robot = some pol) (hs : 0 < robot + size)
    (hx : -10000 ≤ x ∧ x ≤ 10000) (hy : -10000 ≤ y ∧ y ≤ 10000) (hsz : robot + size ≤ 20000) : Blocks bx pol (Robot.allied ⟨x, y, robot + size⟩) := by
  have e := ally_eq h
  have hr : (0 : ℚ) < 5 / 4 * ((robot + size : Int) : ℚ) / 2 := by
    have : (0 : ℚ) < ((robot + size : Int) : ℚ) := by exact_mod_cast hs
    linarith
  have hr' : 5 / 4 * ((robot + size : Int) : ℚ) / 2 ≤ 12500 := by
    have : ((robot + size : Int) : ℚ) ≤ 20000 := by exact_mod_cast hsz
    linarith
  have hx1 : (-10000 : ℚ) ≤ x := by exact_mod_cast hx.1
  have hx2 : (x : ℚ) ≤ 10000 := by exact_mod_cast hx.2
  have hy1 : (-10000 : ℚ) ≤ y := by exact_mod_cast hy.1
  have hy2 : (y : ℚ) ≤ 10000 := by exact_mod_cast hy.2
  have hc : Convex pol := by rw [e]; exact diamond_convex hr
  have hrange : ∀ v ∈ pol, InRange v := by
    rw [e]
    generalize 5 / 4 * ((robot + size : Int) : ℚ) / 2 = r at hr hr'
    intro v hv
    simp only [diamond, List.mem_cons, List.not_mem_nil, or_false] at hv
    unfold InRange
    rcases hv with rfl | rfl | rfl | rfl <;> refine ⟨?_, ?_, ?_, ?_⟩ <;> simp only <;> linarith
  refine blocks_congr (convex_blocks bx hc hrange) fun p => ?_
  rw [← (inPoly_iff hc p).1, Map.ally_inside x y size robot pol h hs p]
  rfl

end Verif.Plan
