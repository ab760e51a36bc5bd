import Verif.Geom.Poly

/-! Lemmas about `is_in_poly` and `is_crossing_poly` -/

namespace Verif.Geom

theorem mem_sides {pol : List P} {e : P × P} : e ∈ sides pol ↔ ∃ i, i < pol.length ∧ e = (vtx pol i, vtx pol (nx pol.length i)) := by
  unfold sides
  rw [List.mem_map]
  constructor
  · rintro ⟨i, hi, h⟩
    exact ⟨i, List.mem_range.1 hi, h.symm⟩
  · rintro ⟨i, hi, h⟩
    exact ⟨i, List.mem_range.2 hi, h.symm⟩

theorem pvect_turn (a b p : P) : pvect (b.sub p) (a.sub p) = -turn a b p := by simp only [pvect, P.sub, turn]; ring

theorem pvectSign_pos {a b p : P} : pvectSign (b.sub p) (a.sub p) > 0 ↔ turn a b p < 0 := by
  unfold pvectSign; rw [sign_pos, pvect_turn]; constructor <;> intro h <;> linarith

theorem pvectSign_zero {a b p : P} : pvectSign (b.sub p) (a.sub p) = 0 ↔ turn a b p = 0 := by
  unfold pvectSign; rw [sign_zero, pvect_turn]; constructor <;> intro h <;> linarith

theorem inPolyLoop_out {p : P} : ∀ (es : List (P × P)) (ret : Nat), (∃ e ∈ es, turn e.1 e.2 p < 0) → inPolyLoop p es ret = 0 := by
  intro es
  induction es with
  | nil => rintro ret ⟨e, he, _⟩; cases he
  | cons x es ih =>
    obtain ⟨a, b⟩ := x
    rintro ret ⟨e, he, hlt⟩
    simp only [inPolyLoop]
    by_cases h1 : pvectSign (b.sub p) (a.sub p) > 0
    · rw [if_pos h1]
    · rw [if_neg h1]
      have he' : e ∈ es := by
        rcases List.mem_cons.1 he with h | h
        · exact absurd (pvectSign_pos.2 (by rw [h] at hlt; exact hlt)) h1
        · exact h
      split
      · exact ih _ ⟨e, he', hlt⟩
      · exact ih _ ⟨e, he', hlt⟩

theorem inPolyLoop_in {p : P} : ∀ (es : List (P × P)) (ret : Nat), (∀ e ∈ es, 0 ≤ turn e.1 e.2 p) →
    ((∃ e ∈ es, turn e.1 e.2 p = 0) → inPolyLoop p es ret = 2) ∧ ((∀ e ∈ es, turn e.1 e.2 p ≠ 0) → inPolyLoop p es ret = ret) := by
  intro es
  induction es with
  | nil => exact fun ret _ => ⟨(fun ⟨e, he, _⟩ => nomatch he), fun _ => rfl⟩
  | cons x es ih =>
    obtain ⟨a, b⟩ := x
    intro ret h
    have h0 := h (a, b) List.mem_cons_self
    have hr := fun e he => h e (List.mem_cons_of_mem _ he)
    have n1 : ¬pvectSign (b.sub p) (a.sub p) > 0 := fun hh => absurd (pvectSign_pos.1 hh) (not_lt.2 h0)
    simp only [inPolyLoop]
    rw [if_neg n1]
    constructor
    · rintro ⟨e, he, hz⟩
      by_cases h2 : pvectSign (b.sub p) (a.sub p) = 0
      · rw [if_pos h2]
        by_cases h3 : ∃ e ∈ es, turn e.1 e.2 p = 0
        · exact (ih 2 hr).1 h3
        · exact (ih 2 hr).2 (fun e he hz => h3 ⟨e, he, hz⟩)
      · rw [if_neg h2]
        rcases List.mem_cons.1 he with h4 | h4
        · exact absurd (pvectSign_zero.2 (by rw [h4] at hz; exact hz)) h2
        · exact (ih ret hr).1 ⟨e, h4, hz⟩
    · intro hz
      rw [if_neg (fun h2 => hz (a, b) List.mem_cons_self (pvectSign_zero.1 h2))]
      exact (ih ret hr).2 (fun e he => hz e (List.mem_cons_of_mem _ he))

theorem any_vertex {pol : List P} {p : P} : (pol.any (fun q => decide (p.x = q.x ∧ p.y = q.y)) = true) ↔ p ∈ pol := by
  rw [List.any_eq_true]
  constructor
  · rintro ⟨q, hq, h⟩
    rw [eq_of_xy.1 (of_decide_eq_true h)]; exact hq
  · intro h
    exact ⟨p, h, decide_eq_true ⟨rfl, rfl⟩⟩

section
variable {pol : List P} (hc : Convex pol)
include hc

theorem vertex_boundary {p : P} (h : p ∈ pol) : Boundary pol p := by
  obtain ⟨i, hi, e⟩ := mem_vtx h
  exact (boundary_iff hc).2 ⟨i, hi, by rw [e]; exact inSeg_left _ _⟩

theorem inPoly_out {p : P} (h : ¬Hull pol p) : isInPoly p pol = 0 := by
  have hv : ¬p ∈ pol := fun hm => h (.vertex hm)
  unfold isInPoly
  rw [if_neg (fun ha => hv (any_vertex.1 ha))]
  have : ∃ i, i < pol.length ∧ f pol i p < 0 := by
    refine Classical.byContradiction (fun hno => h (half_hull hc (fun i hi => ?_)))
    exact not_lt.1 (fun hlt => hno ⟨i, hi, hlt⟩)
  obtain ⟨i, hi, hlt⟩ := this
  exact inPolyLoop_out _ _ ⟨_, mem_sides.2 ⟨i, hi, rfl⟩, hlt⟩

theorem inPoly_boundary {p : P} (h : Boundary pol p) : isInPoly p pol = 2 := by
  unfold isInPoly
  by_cases hv : p ∈ pol
  · rw [if_pos (any_vertex.2 hv)]
  · rw [if_neg (fun ha => hv (any_vertex.1 ha))]
    have hh := hull_half hc h.1
    refine (inPolyLoop_in _ _ ?_).1 ?_
    · intro e he
      obtain ⟨i, hi, rfl⟩ := mem_sides.1 he
      exact hh i hi
    · obtain ⟨i, hi, hs⟩ := (boundary_iff hc).1 h
      exact ⟨_, mem_sides.2 ⟨i, hi, rfl⟩, inSeg_turn hs⟩

theorem inPoly_interior {p : P} (h : Interior pol p) : isInPoly p pol = 1 := by
  have hh := interior_pos hc h
  have hv : ¬p ∈ pol := fun hm => (vertex_boundary hc hm).2 h
  unfold isInPoly
  rw [if_neg (fun ha => hv (any_vertex.1 ha))]
  refine (inPolyLoop_in _ _ ?_).2 ?_
  · intro e he
    obtain ⟨i, hi, rfl⟩ := mem_sides.1 he
    exact le_of_lt (hh i hi)
  · intro e he
    obtain ⟨i, hi, rfl⟩ := mem_sides.1 he
    exact ne_of_gt (hh i hi)

/-- The three values -/
theorem inPoly_iff (p : P) : (isInPoly p pol = 1 ↔ Interior pol p) ∧ (isInPoly p pol = 2 ↔ Boundary pol p) ∧ (isInPoly p pol = 0 ↔ ¬Hull pol p) := by
  by_cases h1 : Interior pol p
  · have e := inPoly_interior hc h1
    refine ⟨⟨fun _ => h1, fun _ => e⟩, ⟨fun h => by omega, fun h => absurd h1 h.2⟩, ⟨fun h => by omega, fun h => absurd (interior_hull h1) h⟩⟩
  · by_cases h2 : Hull pol p
    · have e := inPoly_boundary hc ⟨h2, h1⟩
      exact ⟨⟨fun h => by omega, fun h => absurd h h1⟩, ⟨fun _ => ⟨h2, h1⟩, fun _ => e⟩, ⟨fun h => by omega, fun h => absurd h2 h⟩⟩
    · have e := inPoly_out hc h2
      exact ⟨⟨fun h => by omega, fun h => absurd h h1⟩, ⟨fun h => by omega, fun h => absurd h.1 h2⟩, ⟨fun _ => h2, fun _ => e⟩⟩

end

/-! ## The loop of `is_crossing_poly` -/

/-- Result of `intersect_segment` for a side -/
def code (p1 p2 : P) (e : P × P) : Nat := (intersectSegment p1 p2 e.1 e.2).1

theorem crossLoop_count {p1 p2 : P} : ∀ (es : List (P × P)) (cpt : Nat) (ip : P), (∀ e ∈ es, code p1 p2 e = 0 ∨ code p1 p2 e = 2) →
    ∃ ip', crossLoop p1 p2 es cpt ip = .inr (cpt + es.countP (fun e => decide (code p1 p2 e = 2)), ip') ∧
      (ip' = ip ∧ es.countP (fun e => decide (code p1 p2 e = 2)) = 0 ∨ ∃ e ∈ es, code p1 p2 e = 2 ∧ ip' = (intersectSegment p1 p2 e.1 e.2).2) := by
  intro es
  induction es with
  | nil => exact fun cpt ip _ => ⟨ip, rfl, Or.inl ⟨rfl, rfl⟩⟩
  | cons x es ih =>
    obtain ⟨a, b⟩ := x
    intro cpt ip h
    have hr := fun e he => h e (List.mem_cons_of_mem _ he)
    have h0 := h (a, b) List.mem_cons_self
    cases hx : intersectSegment p1 p2 a b with
    | mk c q =>
      have hcode : code p1 p2 (a, b) = c := by unfold code; rw [hx]
      rcases h0 with h0 | h0
      · have : c = 0 := by omega
        subst this
        obtain ⟨ip', e1, e2⟩ := ih cpt ip hr
        refine ⟨ip', ?_, ?_⟩
        · simp only [crossLoop, hx]
          rw [e1, List.countP_cons_of_neg (by simp [h0])]
        · rw [List.countP_cons_of_neg (by simp [h0])]
          rcases e2 with e2 | ⟨e, he, e2⟩
          · exact Or.inl e2
          · exact Or.inr ⟨e, List.mem_cons_of_mem _ he, e2⟩
      · have : c = 2 := by omega
        subst this
        obtain ⟨ip', e1, e2⟩ := ih (cpt + 1) q hr
        refine ⟨ip', ?_, Or.inr ?_⟩
        · simp only [crossLoop, hx]
          rw [e1, List.countP_cons_of_pos (by simp [h0])]
          congr 2; omega
        · rcases e2 with ⟨e2, _⟩ | ⟨e, he, e2⟩
          · exact ⟨(a, b), List.mem_cons_self, h0, by rw [e2, hx]⟩
          · exact ⟨e, List.mem_cons_of_mem _ he, e2⟩

theorem crossLoop_return {p1 p2 : P} : ∀ (es : List (P × P)) (cpt : Nat) (ip : P), (∀ e ∈ es, code p1 p2 e ≤ 3) → (∃ e ∈ es, code p1 p2 e = 1 ∨ code p1 p2 e = 3) →
    ∃ e ∈ es, (code p1 p2 e = 1 ∧ crossLoop p1 p2 es cpt ip = .inl (1, (intersectSegment p1 p2 e.1 e.2).2)) ∨ (code p1 p2 e = 3 ∧ crossLoop p1 p2 es cpt ip = .inl (2, (intersectSegment p1 p2 e.1 e.2).2)) := by
  intro es
  induction es with
  | nil => rintro cpt ip _ ⟨e, he, _⟩; cases he
  | cons x es ih =>
    obtain ⟨a, b⟩ := x
    rintro cpt ip hle ⟨e, he, h⟩
    have hr := fun e he => hle e (List.mem_cons_of_mem _ he)
    have h0 := hle (a, b) List.mem_cons_self
    cases hx : intersectSegment p1 p2 a b with
    | mk c q =>
      have hcode : code p1 p2 (a, b) = c := by unfold code; rw [hx]
      have hc : c = 0 ∨ c = 1 ∨ c = 2 ∨ c = 3 := by omega
      have tail : c ≠ 1 → c ≠ 3 → ∃ e ∈ es, code p1 p2 e = 1 ∨ code p1 p2 e = 3 := by
        intro n1 n3
        rcases List.mem_cons.1 he with h4 | h4
        · rw [h4, hcode] at h; omega
        · exact ⟨e, h4, h⟩
      rcases hc with rfl | rfl | rfl | rfl
      · obtain ⟨e', he', h'⟩ := ih cpt ip hr (tail (by decide) (by decide))
        refine ⟨e', List.mem_cons_of_mem _ he', ?_⟩
        simp only [crossLoop, hx]; exact h'
      · refine ⟨(a, b), List.mem_cons_self, Or.inl ⟨hcode, ?_⟩⟩
        simp only [crossLoop, hx]
      · obtain ⟨e', he', h'⟩ := ih (cpt + 1) q hr (tail (by decide) (by decide))
        refine ⟨e', List.mem_cons_of_mem _ he', ?_⟩
        simp only [crossLoop, hx]; exact h'
      · refine ⟨(a, b), List.mem_cons_self, Or.inr ⟨hcode, ?_⟩⟩
        simp only [crossLoop, hx]

theorem three_of_count {α : Type} {l : List α} (hn : l.Nodup) {q : α → Bool} (h : 3 ≤ l.countP q) :
    ∃ a b c, a ∈ l ∧ b ∈ l ∧ c ∈ l ∧ q a = true ∧ q b = true ∧ q c = true ∧ a ≠ b ∧ a ≠ c ∧ b ≠ c := by
  rw [List.countP_eq_length_filter] at h
  have hnd := hn.filter q
  have hm : ∀ x, x ∈ l.filter q → x ∈ l ∧ q x = true := fun x hx => List.mem_filter.1 hx
  generalize l.filter q = m at *
  match m, h with
  | a :: b :: c :: _, _ =>
    obtain ⟨h1, h2⟩ := List.nodup_cons.1 hnd
    obtain ⟨h3, _⟩ := List.nodup_cons.1 h2
    refine ⟨a, b, c, (hm a (by simp)).1, (hm b (by simp)).1, (hm c (by simp)).1, (hm a (by simp)).2, (hm b (by simp)).2, (hm c (by simp)).2, ?_, ?_, ?_⟩
    · intro e; exact h1 (by simp [e])
    · intro e; exact h1 (by simp [e])
    · intro e; exact h3 (by simp [e])

theorem two_of_count {α : Type} {l : List α} (hn : l.Nodup) {q : α → Bool} {a b : α} (ha : a ∈ l) (hb : b ∈ l) (qa : q a = true) (qb : q b = true) (hab : a ≠ b) : 2 ≤ l.countP q := by
  rw [List.countP_eq_length_filter]
  have h1 : a ∈ l.filter q := List.mem_filter.2 ⟨ha, qa⟩
  have h2 : b ∈ l.filter q := List.mem_filter.2 ⟨hb, qb⟩
  generalize l.filter q = m at *
  match m, h1, h2 with
  | [x], h1, h2 => exact absurd ((List.mem_singleton.1 h1).trans (List.mem_singleton.1 h2).symm) hab
  | _ :: _ :: _, _, _ => simp

theorem count_three {α : Type} {l : List α} (hn : l.Nodup) {q : α → Bool} {a b c : α} (ha : a ∈ l) (hb : b ∈ l) (hc : c ∈ l) (qa : q a = true) (qb : q b = true) (qc : q c = true)
    (hab : a ≠ b) (hac : a ≠ c) (hbc : b ≠ c) : 3 ≤ l.countP q := by
  rw [List.countP_eq_length_filter]
  have h1 : a ∈ l.filter q := List.mem_filter.2 ⟨ha, qa⟩
  have h2 : b ∈ l.filter q := List.mem_filter.2 ⟨hb, qb⟩
  have h3 : c ∈ l.filter q := List.mem_filter.2 ⟨hc, qc⟩
  generalize l.filter q = m at *
  match m, h1, h2, h3 with
  | [x], h1, h2, _ => exact absurd ((List.mem_singleton.1 h1).trans (List.mem_singleton.1 h2).symm) hab
  | [x, y], h1, h2, h3 =>
    simp only [List.mem_cons, List.not_mem_nil, or_false] at h1 h2 h3
    exfalso
    rcases h1 with rfl | rfl <;> rcases h2 with rfl | rfl <;> rcases h3 with rfl | rfl <;> simp at hab hac hbc
  | _ :: _ :: _ :: _, _, _, _ => simp

/-- Number of sides with result 2 -/
def touches (p1 p2 : P) (pol : List P) : Nat := (List.range pol.length).countP (fun i => decide (code p1 p2 (vtx pol i, vtx pol (nx pol.length i)) = 2))

theorem touches_eq (p1 p2 : P) (pol : List P) : (sides pol).countP (fun e => decide (code p1 p2 e = 2)) = touches p1 p2 pol := by
  unfold sides touches
  rw [List.countP_map]
  rfl

end Verif.Geom
