import Verif.Goap.Complete

/-!
# GOAP planner: properties
-/

namespace Verif.Goap

open Spec

variable {S : Type} [DecidableEq S] {P : Problem S} {N : Nat}

theorem loop_mono {pathLen : Int} : ∀ {f k : Nat} {st : St S} {r : Result}, loop N P pathLen f st = .ok r → loop N P pathLen (f + k) st = .ok r
  | 0, k, st, r, h => by unfold loop at h; cases h
  | f + 1, k, st, r, h => by
    rw [show f + 1 + k = (f + k) + 1 by omega]
    unfold loop at h ⊢
    split at h
    · cases h
    · exact h
    · exact loop_mono h

/-- C35, termination, for every pool size: a call ends after at most one iteration per node of the pool and two more, with a result or an `int` overflow, or
because all priorities are `INT_MAX`. In particular no loop over a list or over the parents runs for ever, and no other null pointer is followed. -/
theorem plan_terminates (hN : 0 < N) (pathLen : Int) (pool : Heap S) (s : S) :
    (∃ r, plan N P pathLen (N + 2) pool s = .ok r ∧ (r.code = -1 ∨ r.code = -2 ∨ 0 ≤ r.code)) ∨ plan N P pathLen (N + 2) pool s = .error .overflow ∨
      plan N P pathLen (N + 2) pool s = .error .null := by
  obtain ⟨st, fl, h1, h2, _⟩ := start_spec (P := P) hN pool s
  unfold plan
  rw [h1]
  rcases loop_inv (pathLen := pathLen) (fuel := N + 2) (.inl ⟨fl, [0], h2⟩) (by simp) with h | h | ⟨r, h, hc⟩
  · exact .inr (.inl h)
  · exact .inr (.inr h)
  · refine .inl ⟨r, h, ?_⟩
    rcases hc with ⟨_, hc | hc⟩ | ⟨hc, _⟩
    · exact .inl hc
    · exact .inr (.inl hc)
    · exact .inr (.inr (by omega))

/-- C34: a plan that is returned can be executed from the start state, reaches the goal, is as long as the planner says and not longer than
allowed; for every pool size and content, also after nodes have been garbage collected. -/
theorem plan_sound {pathLen : Int} {fuel : Nat} {pool : Heap S} {s : S} {r : Result} (h : plan N P pathLen fuel pool s = .ok r) (hr : 0 ≤ r.code) :
    r.code = r.path.length ∧ r.code ≤ pathLen ∧ ∃ s', Executes P.acts s r.path s' ∧ P.reached s' = true := by
  have hN : 0 < N := by
    refine Nat.pos_of_ne_zero fun e => ?_
    subst e
    unfold plan start at h
    rw [if_pos rfl] at h
    cases h
  obtain ⟨st, fl, h1, h2, _⟩ := start_spec (P := P) hN pool s
  unfold plan at h
  rw [h1] at h
  have h3 := loop_mono (k := N + 2) h
  rcases loop_inv (pathLen := pathLen) (fuel := fuel + (N + 2)) (.inl ⟨fl, [0], h2⟩) (by simp) with h | h | ⟨r', h, hc⟩
  · rw [h] at h3; cases h3
  · rw [h] at h3; cases h3
  · rw [h] at h3
    cases h3
    rcases hc with ⟨hc, _⟩ | hc
    · omega
    · exact hc

/-- C35: if the pool has one node more than there are reachable states, no sequence of different states is longer than the plans allowed and the distances are not
too large, a plan is found exactly if one exists. -/
theorem plan_complete_trail_partial {R : List S} {s : S} (hR : ∀ s', Reachable P.acts s s' → s' ∈ R) (hN : R.length < N) {D : Int} (hD : ∀ s, 0 ≤ P.dist s ∧ P.dist s ≤ D)
    (hsize : N * (D + 1) < 2147483647) {pathLen : Int} (hpl : ∀ vs, Trail P.acts s vs → (vs.length : Int) ≤ pathLen + 1) (pool : Heap S) :
    ∃ r, plan N P pathLen (N + 2) pool s = .ok r ∧ (0 ≤ r.code ↔ ∃ s', Reachable P.acts s s' ∧ P.reached s' = true) := by
  obtain ⟨st, fl, h1, h2, h3⟩ := start_spec (P := P) (N := N) (by omega) pool s
  unfold plan
  rw [h1]
  refine loop_full hR hN hD hsize hpl h2 ?_ ?_ ?_ (by simp)
  · intro p hp
    simp only [List.append_nil, List.mem_singleton] at hp
    subst hp
    rw [h3]
    simp
  · exact ⟨0, by simp, by rw [h3]⟩
  · simp

/-- C35: if the pool has one node more than there are reachable states, plans of that many actions are allowed and the distances are not too large, a plan is
found exactly if one exists. -/
theorem plan_complete_partial {R : List S} {s : S} (hR : ∀ s', Reachable P.acts s s' → s' ∈ R) (hN : R.length < N) {D : Int} (hD : ∀ s, 0 ≤ P.dist s ∧ P.dist s ≤ D)
    (hsize : N * (D + 1) < 2147483647) {pathLen : Int} (hpl : (R.length : Int) ≤ pathLen + 1) (pool : Heap S) :
    ∃ r, plan N P pathLen (N + 2) pool s = .ok r ∧ (0 ≤ r.code ↔ ∃ s', Reachable P.acts s s' ∧ P.reached s' = true) := by
  refine plan_complete_trail_partial hR hN hD hsize (fun vs hvs => ?_) pool
  obtain ⟨g1, g2⟩ := trail_reachable hvs
  have := (List.subperm_of_subset g1 (fun s hs => hR s (g2 s hs))).length_le
  omega

/-- `priority_list_pop` returns a node of the list with minimal priority and removes only this one. -/
theorem pop_min {h : Heap S} {head : Option Nat} {l : List Nat} (hc : Chain h head l) (hnd : l.Nodup) (hl : l.length ≤ N) {m : Nat} {h' head'}
    (hp : priorityPop N h head = .ok (m, h', head')) :
    (∀ p ∈ l, (h m).priority ≤ (h p).priority) ∧ ∃ l', l.Perm (m :: l') ∧ Chain h' head' l' := by
  rcases priorityPop_spec hc hnd hl with ⟨m', l', h1, head1, g1, g2, g3, _, _, g6⟩ | ⟨g1, _⟩
  · rw [g1] at hp
    cases hp
    exact ⟨g6, l', g2, g3⟩
  · rw [g1] at hp; cases hp

/-! ## Examples, and what is false -/

/-- 0 → 1 → 4 is short, but 1 is far from the goal; 0 → 2 → 3 → 4 is longer. -/
def detour : Problem Nat where
  acts := [⟨fun s => s == 0 || s == 1, fun s => if s = 0 then 1 else 4⟩, ⟨fun s => s == 0 || s == 2 || s == 3, fun s => if s = 0 then 2 else s + 1⟩]
  reached := fun s => s == 4
  dist := fun s => if s = 4 then 0 else if s = 1 then 10 else 1

def okIs (x : Except Err Result) (r : Result) : Bool :=
  match x with
  | .ok r' => r' == r
  | .error _ => false

theorem okIs_eq {x : Except Err Result} {r : Result} (h : okIs x r = true) : x = .ok r := by
  unfold okIs at h
  split at h
  · rw [beq_iff_eq] at h; rw [h]
  · cases h

/-- Plans are not shortest: three actions where two suffice. -/
theorem not_shortest : ∃ r, plan 7 detour 10 9 (fun _ => ⟨0, 0, 0, none, none, none⟩) 0 = .ok r ∧ r.path = [some 1, some 1, some 1] ∧
    Executes detour.acts 0 [some 0, some 0] 4 :=
  ⟨⟨3, [some 1, some 1, some 1]⟩, okIs_eq (by decide +kernel), rfl, .cons rfl rfl (.cons rfl rfl .nil)⟩

/-- … so no plan is found when only two actions are allowed, although there is one. -/
theorem too_long : plan 7 detour 2 9 (fun _ => ⟨0, 0, 0, none, none, none⟩) 0 = .ok ⟨-1, []⟩ := okIs_eq (by decide +kernel)

/-- A pool that is too small: the planner collects the only open node, which is the goal, and reports that there is no plan. -/
theorem collected_goal : ∃ P : Problem Nat, plan 2 P 10 4 (fun _ => ⟨0, 0, 0, none, none, none⟩) 0 = .ok ⟨-1, []⟩ ∧
    ∃ s', Executes P.acts 0 [some 0] s' ∧ P.reached s' = true :=
  ⟨⟨[⟨fun s => s == 0, fun _ => 1⟩, ⟨fun s => s == 0, fun _ => 0⟩], fun s => s == 1, fun s => if s = 1 then 0 else 1⟩, okIs_eq (by decide +kernel),
    1, .cons rfl rfl .nil, rfl⟩

/-- The hypotheses of `plan_complete_partial` are met by `detour` with a pool of seven nodes. -/
example : (∀ s', Reachable detour.acts 0 s' → s' ∈ [0, 1, 2, 3, 4]) ∧ (∀ s, 0 ≤ detour.dist s ∧ detour.dist s ≤ 10) := by
  constructor
  · intro s' h
    induction h with
    | refl => simp
    | step _ ha hr ih =>
      simp only [detour, List.mem_cons, List.not_mem_nil, or_false] at ha ih
      rcases ha with rfl | rfl <;> simp at hr <;> grind
  · intro s
    simp only [detour]
    split
    · omega
    · split <;> omega

end Verif.Goap
