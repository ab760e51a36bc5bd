import Mathlib.Algebra.Order.Field.Rat
import Mathlib.Algebra.Order.Ring.Abs
import Mathlib.Tactic.Linarith

/-!
# Floating point

The controllers of the project compute with `float` and `double`. Their models take the arithmetic as a parameter, so that one definition serves two kinds of
theorems. Theorems about limits assume only what IEEE 754 says about comparisons (`Arith.Cmp`) and therefore hold for the rounded arithmetic of the
microcontrollers, with infinities and NaN. Theorems about sums and products are stated for exact arithmetic (`exact`), that is without rounding.
-/

namespace Verif.Num

/-- An arithmetic: operations, the comparison `<`, and which values are NaN. -/
structure Arith (F : Type) where
  zero : F
  add : F → F → F
  sub : F → F → F
  mul : F → F → F
  div : F → F → F
  neg : F → F
  lt : F → F → Bool
  nan : F → Bool

variable {F : Type}

/-- `x ≤ y` for numbers -/
def Arith.Le (A : Arith F) (x y : F) : Prop := A.nan x = false ∧ A.nan y = false ∧ A.lt y x = false

/-- Comparisons as in IEEE 754: false on NaN, otherwise a total preorder (the two zeros are equal), reversed by negation. -/
structure Arith.Cmp (A : Arith F) : Prop where
  num : ∀ x y, A.lt x y = true → A.nan x = false ∧ A.nan y = false
  irrefl : ∀ x, A.lt x x = false
  trans : ∀ x y z, A.lt x y = true → A.lt y z = true → A.lt x z = true
  weak : ∀ x y z, A.nan y = false → A.lt x z = true → A.lt x y = true ∨ A.lt y z = true
  neg_lt : ∀ x y, A.lt (A.neg x) (A.neg y) = A.lt y x
  neg_nan : ∀ x, A.nan (A.neg x) = A.nan x
  zero_num : A.nan A.zero = false
  neg_zero : A.lt A.zero (A.neg A.zero) = false ∧ A.lt (A.neg A.zero) A.zero = false

namespace Arith

variable {A : Arith F}

theorem Le.refl (C : A.Cmp) {x : F} (h : A.nan x = false) : A.Le x x := ⟨h, h, C.irrefl x⟩

theorem Le.trans (C : A.Cmp) {x y z : F} (h : A.Le x y) (h' : A.Le y z) : A.Le x z := by
  refine ⟨h.1, h'.2.1, ?_⟩
  cases hzx : A.lt z x with
  | false => rfl
  | true =>
    rcases C.weak z y x h.2.1 hzx with h1 | h1
    · rw [h'.2.2] at h1; cases h1
    · rw [h.2.2] at h1; cases h1

theorem le_of_lt (C : A.Cmp) {x y : F} (h : A.lt x y = true) : A.Le x y := by
  refine ⟨(C.num _ _ h).1, (C.num _ _ h).2, ?_⟩
  cases hyx : A.lt y x with
  | false => rfl
  | true =>
    have := C.trans _ _ _ h hyx
    rw [C.irrefl] at this
    cases this

/-- A bound that is not negative lies above its negation. -/
theorem Le.neg_self (C : A.Cmp) {x : F} (h : A.Le A.zero x) : A.Le (A.neg x) x := by
  have h1 : A.Le (A.neg x) (A.neg A.zero) := ⟨by rw [C.neg_nan]; exact h.2.1, by rw [C.neg_nan]; exact C.zero_num, by rw [C.neg_lt]; exact h.2.2⟩
  have h2 : A.Le (A.neg A.zero) A.zero := ⟨by rw [C.neg_nan]; exact C.zero_num, C.zero_num, C.neg_zero.1⟩
  exact (h1.trans C h2).trans C h

end Arith

/-- Exact arithmetic -/
def exact : Arith ℚ where
  zero := 0
  add := (· + ·)
  sub := (· - ·)
  mul := (· * ·)
  div := (· / ·)
  neg := (- ·)
  lt x y := decide (x < y)
  nan _ := false

theorem exact_le {x y : ℚ} : exact.Le x y ↔ x ≤ y := by
  unfold Arith.Le exact
  simp

theorem exact_cmp : exact.Cmp where
  num := fun _ _ _ => ⟨rfl, rfl⟩
  irrefl := fun x => by simp [exact]
  trans := fun x y z h h' => by simp only [exact, decide_eq_true_eq] at *; linarith
  weak := fun x y z _ h => by
    simp only [exact, decide_eq_true_eq] at *
    by_cases hxy : x < y
    · exact .inl hxy
    · right; linarith
  neg_lt := fun x y => by simp [exact]
  neg_nan := fun _ => rfl
  zero_num := rfl
  neg_zero := by simp [exact]

/-! ## Infinities and NaN -/

/-- Numbers with infinities and NaN; the finite ones are not rounded and there is one zero. -/
inductive Ext where
  | nan
  | ninf
  | fin (q : ℚ)
  | pinf
deriving DecidableEq

namespace Ext

def isNan : Ext → Bool
  | nan => true
  | _ => false

def lt : Ext → Ext → Bool
  | nan, _ => false
  | _, nan => false
  | ninf, ninf => false
  | ninf, _ => true
  | fin _, ninf => false
  | fin a, fin b => decide (a < b)
  | fin _, pinf => true
  | pinf, _ => false

def neg : Ext → Ext
  | nan => nan
  | ninf => pinf
  | fin q => fin (-q)
  | pinf => ninf

def add : Ext → Ext → Ext
  | fin a, fin b => fin (a + b)
  | nan, _ => nan
  | _, nan => nan
  | fin _, b => b
  | a, fin _ => a
  | pinf, pinf => pinf
  | ninf, ninf => ninf
  | _, _ => nan

def sgnInf (q : ℚ) : Ext := if q = 0 then nan else if q < 0 then ninf else pinf

def mul : Ext → Ext → Ext
  | fin a, fin b => fin (a * b)
  | nan, _ => nan
  | _, nan => nan
  | fin a, pinf => sgnInf a
  | pinf, fin a => sgnInf a
  | fin a, ninf => sgnInf (-a)
  | ninf, fin a => sgnInf (-a)
  | pinf, pinf => pinf
  | ninf, ninf => pinf
  | _, _ => ninf

def div : Ext → Ext → Ext
  | fin a, fin b => if b = 0 then sgnInf a else fin (a / b)
  | nan, _ => nan
  | _, nan => nan
  | fin _, _ => fin 0
  | pinf, fin b => if b < 0 then ninf else pinf
  | ninf, fin b => if b < 0 then pinf else ninf
  | _, _ => nan

end Ext

def ext : Arith Ext where
  zero := .fin 0
  add := Ext.add
  sub x y := Ext.add x y.neg
  mul := Ext.mul
  div := Ext.div
  neg := Ext.neg
  lt := Ext.lt
  nan := Ext.isNan

theorem ext_cmp : ext.Cmp where
  num := fun x y h => by
    cases x <;> cases y <;> first | exact ⟨rfl, rfl⟩ | cases h
  irrefl := fun x => by cases x <;> simp [ext, Ext.lt]
  trans := fun x y z h h' => by
    cases x <;> cases y <;> cases z <;> simp only [ext, Ext.lt, decide_eq_true_eq, Bool.false_eq_true] at * <;> linarith
  weak := fun x y z hy h => by
    cases x <;> cases y <;> cases z <;> simp only [ext, Ext.lt, Ext.isNan, decide_eq_true_eq, Bool.false_eq_true, Bool.true_eq_false, or_true, true_or, or_false] at * <;> try trivial
    rename_i a b c
    by_cases hab : a < b
    · exact .inl hab
    · right; linarith
  neg_lt := fun x y => by cases x <;> cases y <;> simp [ext, Ext.lt, Ext.neg]
  neg_nan := fun x => by cases x <;> rfl
  zero_num := rfl
  neg_zero := by simp [ext, Ext.lt, Ext.neg]

end Verif.Num
