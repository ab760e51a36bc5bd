import Verif.Calib.Model
import Verif.Drive.Props
import Mathlib.Tactic.Linarith
import Mathlib.Tactic.Ring
import Mathlib.Tactic.FieldSimp
import Mathlib.Tactic.NormNum
import Mathlib.Tactic.Positivity
import Mathlib.Data.Rat.Floor
import Mathlib.Algebra.Order.Field.Rat

/-! Lemmas for `Verif.Calib.Props`. -/

namespace Verif.Calib

open Base
open Quadramp (toI32)

theorem i32_eq {x y : Int} (h : i32 x = some y) : y = x := by
  unfold i32 at h
  split at h
  · exact (Option.some.inj h).symm
  · cases h

theorem toI32_near {q : ℚ} {n : Int} (h : toI32 q = some n) : |(n : ℚ) - q| < 1 := by
  unfold toI32 at h
  dsimp only at h
  by_cases hq : 0 ≤ q
  · rw [if_pos hq] at h
    split at h
    · obtain rfl := Option.some.inj h
      rw [abs_lt]
      have h1 := Int.floor_le q
      have h2 := Int.lt_floor_add_one q
      constructor <;> linarith
    · cases h
  · rw [if_neg hq] at h
    split at h
    · obtain rfl := Option.some.inj h
      rw [abs_lt]
      have h1 := Int.le_ceil q
      have h2 := Int.ceil_lt_add_one q
      constructor <;> linarith
    · cases h

theorem tdiv_near (x : Int) : |((x.tdiv 2 : Int) : ℚ) - (x : ℚ) / 2| ≤ 1 / 2 := by
  have h : 2 * x.tdiv 2 - x ≤ 1 ∧ -1 ≤ 2 * x.tdiv 2 - x := by
    have a := Int.mul_tdiv_add_tmod x 2
    have b := Int.tmod_lt_of_pos x (b := 2) (by decide)
    have c := Int.lt_tmod_of_pos x (b := 2) (by decide)
    omega
  obtain ⟨h1, h2⟩ := h
  have h1' : 2 * ((x.tdiv 2 : Int) : ℚ) - (x : ℚ) ≤ 1 := by exact_mod_cast h1
  have h2' : -1 ≤ 2 * ((x.tdiv 2 : Int) : ℚ) - (x : ℚ) := by exact_mod_cast h2
  rw [abs_le]
  constructor <;> linarith

/-- What the encoders say, in exact arithmetic: distance and angle -/
def exactDistance (g : ℚ × ℚ) (e : Wheels) : ℚ := (e.right * g.2 + e.left * g.1) / 2
def exactAngle (g : ℚ × ℚ) (e : Wheels) : ℚ := (e.right * g.2 - e.left * g.1) / 2

theorem update_spec {rs r : Rs} {e : Wheels} (hg : rs.ignoreGain = false) (h : rs.update e = some r) :
    r.ignoreGain = false ∧ r.gain = rs.gain ∧
    r.virtualEncoders.angle - r.pextPrev.angle = rs.virtualEncoders.angle - rs.pextPrev.angle ∧
    r.virtualEncoders.distance - r.pextPrev.distance = rs.virtualEncoders.distance - rs.pextPrev.distance ∧
    |(r.pextPrev.angle : ℚ) - exactAngle rs.gain e| < 3 / 2 ∧ |(r.pextPrev.distance : ℚ) - exactDistance rs.gain e| < 3 / 2 := by
  unfold Rs.update at h
  cases hw : rs.gains e with
  | none => rw [hw] at h; cases h
  | some w =>
    rw [hw] at h
    dsimp only at h
    cases hp : polarOfWheels w with
    | none => rw [hp] at h; cases h
    | some p =>
      rw [hp] at h
      dsimp only at h
      cases h1 : i32 (p.angle - rs.pextPrev.angle) with
      | none => rw [h1] at h; cases h
      | some da =>
        cases h2 : i32 (p.distance - rs.pextPrev.distance) with
        | none => rw [h1, h2] at h; cases h
        | some dd =>
          rw [h1, h2] at h
          dsimp only at h
          cases h3 : i32 (rs.virtualEncoders.angle + da) with
          | none => rw [h3] at h; cases h
          | some a =>
            cases h4 : i32 (rs.virtualEncoders.distance + dd) with
            | none => rw [h3, h4] at h; cases h
            | some d =>
              rw [h3, h4] at h
              obtain rfl := Option.some.inj h
              have e1 := i32_eq h1
              have e2 := i32_eq h2
              have e3 := i32_eq h3
              have e4 := i32_eq h4
              refine ⟨hg, rfl, ?_, ?_, ?_⟩
              · dsimp only; omega
              · dsimp only; omega
              unfold Rs.gains at hw
              rw [hg] at hw
              simp only [Bool.false_eq_true, if_false] at hw
              cases hl : toI32 (e.left * rs.gain.1) with
              | none => rw [hl] at hw; cases hw
              | some l =>
                cases hr : toI32 (e.right * rs.gain.2) with
                | none => rw [hl, hr] at hw; cases hw
                | some r =>
                  rw [hl, hr] at hw
                  obtain rfl := Option.some.inj hw
                  unfold polarOfWheels at hp
                  dsimp only at hp
                  cases hs : i32 (r + l) with
                  | none => rw [hs] at hp; cases hp
                  | some s =>
                    cases ht : i32 (r - l) with
                    | none => rw [hs, ht] at hp; cases hp
                    | some t =>
                      rw [hs, ht] at hp
                      obtain rfl := Option.some.inj hp
                      obtain rfl := i32_eq hs
                      obtain rfl := i32_eq ht
                      have nl := toI32_near hl
                      have nr := toI32_near hr
                      have n1 := tdiv_near (r - l)
                      have n2 := tdiv_near (r + l)
                      unfold exactAngle exactDistance
                      push_cast at n1 n2
                      rw [abs_lt] at nl nr
                      rw [abs_le] at n1 n2
                      dsimp only
                      constructor
                      · rw [abs_lt]; constructor <;> linarith
                      · rw [abs_lt]; constructor <;> linarith

/-- Several rounds of the control loop -/
def run (rs : Rs) : List Wheels → Option Rs
  | [] => some rs
  | e :: es => match rs.update e with
    | none => none
    | some r => run r es

theorem run_spec (es : List Wheels) (e : Wheels) {rs r : Rs} (hg : rs.ignoreGain = false) (h : run rs (es ++ [e]) = some r) :
    r.ignoreGain = false ∧ r.gain = rs.gain ∧
    r.virtualEncoders.angle - r.pextPrev.angle = rs.virtualEncoders.angle - rs.pextPrev.angle ∧
    r.virtualEncoders.distance - r.pextPrev.distance = rs.virtualEncoders.distance - rs.pextPrev.distance ∧
    |(r.pextPrev.angle : ℚ) - exactAngle rs.gain e| < 3 / 2 ∧ |(r.pextPrev.distance : ℚ) - exactDistance rs.gain e| < 3 / 2 := by
  induction es generalizing rs with
  | nil =>
    simp only [List.nil_append, run] at h
    cases hu : rs.update e with
    | none => rw [hu] at h; cases h
    | some r' =>
      rw [hu] at h
      obtain rfl := Option.some.inj h
      exact update_spec hg hu
  | cons a es ih =>
    simp only [List.cons_append, run] at h
    cases hu : rs.update a with
    | none => rw [hu] at h; cases h
    | some r' =>
      rw [hu] at h
      obtain ⟨u1, u2, u3, u4, -, -⟩ := update_spec hg hu
      obtain ⟨v1, v2, v3, v4, v5, v6⟩ := ih u1 h
      rw [u2] at v2 v5 v6
      exact ⟨v1, v2, v3.trans u3, v4.trans u4, v5, v6⟩

/-! ## Parameters -/

variable {F : Type}

theorem upd_same {β : Type} (f : Par → β) (a : Par) (b : β) : upd f a b a = b := by simp [upd]

theorem upd_other {β : Type} (f : Par → β) {a x : Par} (b : β) (h : x ≠ a) : upd f a b x = f x := by simp [upd, h]

theorem act_val (s : State F) (i : Ins) : (i.act s).val = s.val := by cases i <;> rfl

theorem act_setting (s : State F) (i : Ins) : (i.act s).setting = s.setting := by cases i <;> rfl

/-- Whether the value in use for `x` after the accesses `l` is that of the parameter: `0` the value in use before, `1` the local variable, `2` the parameter -/
def src (x : Par) : List Ins → Fin 3 × Fin 3 → Fin 3 × Fin 3
  | [], c => c
  | .clear _ :: l, c => src x l c
  | .read y :: l, c => src x l (if y = x then (2, c.2) else c)
  | .apply xs :: l, c => src x l (if x ∈ xs then (c.1, c.1) else c)

/-- The value that is meant -/
def value (x : Par) (s : State F) : Fin 3 → F
  | 0 => s.use x
  | 1 => s.loc x
  | 2 => s.val x

theorem src_run (x : Par) (s0 : State F) (l : List Ins) (s : State F) (c : Fin 3 × Fin 3) (h1 : s.loc x = value x s0 c.1)
    (h2 : s.use x = value x s0 c.2) (h3 : s.val x = s0.val x) :
    (runBody l s).loc x = value x s0 (src x l c).1 ∧ (runBody l s).use x = value x s0 (src x l c).2 := by
  induction l generalizing s c with
  | nil => exact ⟨h1, h2⟩
  | cons i l ih =>
    cases i with
    | clear y => exact ih _ c h1 h2 h3
    | read y =>
      refine ih _ _ ?_ ?_ h3
      · by_cases hy : y = x
        · rw [if_pos hy, hy]; simp only [Ins.act, upd_same]; exact h3
        · rw [if_neg hy]; simp only [Ins.act]; rw [upd_other _ _ (Ne.symm hy)]; exact h1
      · by_cases hy : y = x
        · rw [if_pos hy]; exact h2
        · rw [if_neg hy]; exact h2
    | apply xs =>
      refine ih _ _ ?_ ?_ h3
      · by_cases hx : x ∈ xs
        · rw [if_pos hx]; exact h1
        · rw [if_neg hx]; exact h1
      · by_cases hx : x ∈ xs
        · rw [if_pos hx]; simp only [Ins.act, if_pos hx]; exact h1
        · rw [if_neg hx]; simp only [Ins.act, if_neg hx]; exact h2

theorem use_run (x : Par) (l : List Ins) (s : State F) : (runBody l s).use x = value x s (src x l (1, 0)).2 :=
  (src_run x s l s (1, 0) rfl rfl rfl).2

/-- After every clearing of the mark, the value is read and applied. -/
def Ok (x : Par) : List Ins → Bool
  | [] => true
  | .clear y :: l => (decide (y = x → (src x l (1, 0)).2 = 2)) && Ok x l
  | _ :: l => Ok x l

/-- Nothing is lost: the change is marked, is about to be marked, or what is in use at the end of the body is the value. -/
def Kept (x : Par) (pc : Pc) (s : State F) : Prop :=
  Ok x pc.body = true ∧ (∀ t ∈ pc.tests, Ok x t.2 = true ∧ (src x t.2 (1, 0)).2 ≠ 1) ∧
    (s.changed x = true ∨ 0 < s.setting x ∨ (runBody pc.body s).use x = s.val x)

theorem pass_ok (x : Par) : ∀ t ∈ pass, Ok x t.2 = true ∧ (src x t.2 (1, 0)).2 ≠ 1 := by
  cases x <;> decide

theorem kept_env {x : Par} {pc : Pc} {s s' : State F} (h : Kept x pc s) (he : Env s s') : Kept x pc s' := by
  obtain ⟨h1, h2, h3⟩ := h
  refine ⟨h1, h2, ?_⟩
  cases he with
  | store y v =>
    by_cases hy : x = y
    · subst hy
      right; left
      simp only [upd_same]; omega
    · rcases h3 with h | h | h
      · exact Or.inl h
      · right; left; dsimp only; rw [upd_other _ _ hy]; exact h
      · right; right
        dsimp only
        rw [use_run] at h ⊢
        rw [upd_other _ _ hy, ← h]
        generalize (src x pc.body (1, 0)).2 = c
        match c with
        | 0 => rfl
        | 1 => rfl
        | 2 => exact upd_other _ _ hy
  | mark y hm =>
    by_cases hy : x = y
    · subst hy
      left
      simp only [upd_same]
    · rcases h3 with h | h | h
      · left; dsimp only; rw [upd_other _ _ hy]; exact h
      · right; left; dsimp only; rw [upd_other _ _ hy]; exact h
      · right; right
        dsimp only
        rw [use_run] at h ⊢
        exact h

theorem kept_step {x : Par} {c d : Pc × State F} (h : Kept x c.1 c.2) (hs : Step c d) : Kept x d.1 d.2 := by
  cases hs with
  | env he => exact kept_env h he
  | act i l ts s =>
    obtain ⟨h1, h2, h3⟩ := h
    dsimp only at h1 h2 h3 ⊢
    have h1' : Ok x l = true := by
      cases i with
      | clear y => simp only [Ok, Bool.and_eq_true] at h1; exact h1.2
      | read y => exact h1
      | apply y => exact h1
    refine ⟨h1', h2, ?_⟩
    rw [act_val, act_setting]
    rcases h3 with h | h | h
    · cases i with
      | clear y =>
        by_cases hy : y = x
        · right; right
          simp only [Ok, Bool.and_eq_true, decide_eq_true_eq] at h1
          rw [use_run, h1.1 hy]
          rfl
        · left; simp only [Ins.act]; rw [upd_other _ _ (Ne.symm hy)]; exact h
      | read y => exact Or.inl h
      | apply y => exact Or.inl h
    · exact Or.inr (Or.inl h)
    · exact Or.inr (Or.inr h)
  | enter t ts s =>
    obtain ⟨h1, h2, h3⟩ := h
    dsimp only at h1 h2 h3 ⊢
    obtain ⟨o1, o2⟩ := h2 t List.mem_cons_self
    refine ⟨o1, fun u hu => h2 u (List.mem_cons_of_mem _ hu), ?_⟩
    rcases h3 with h | h | h
    · exact Or.inl h
    · exact Or.inr (Or.inl h)
    · right; right
      dsimp only [runBody, List.foldl] at h
      rw [use_run]
      revert o2
      generalize (src x t.2 (1, 0)).2 = c
      match c with
      | 0 => exact fun _ => h
      | 1 => exact fun o => absurd rfl o
      | 2 => exact fun _ => rfl
  | skip t ts s =>
    obtain ⟨h1, h2, h3⟩ := h
    exact ⟨h1, fun u hu => h2 u (List.mem_cons_of_mem _ hu), h3⟩
  | again s =>
    obtain ⟨h1, h2, h3⟩ := h
    exact ⟨h1, pass_ok x, h3⟩

end Verif.Calib
