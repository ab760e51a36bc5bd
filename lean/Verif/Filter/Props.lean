import Mathlib.Tactic.Ring
import Verif.Filter.Model

/-!
# Filters: properties
-/

namespace Verif.Filter

open Num

variable {F : Type}

/-! ## C43: saturation -/

/-- C43: with bounds in the right order, a number is brought into the bounds and not changed if it is in them already. -/
theorem limit_spec {A : Arith F} (C : A.Cmp) {v lo hi : F} (hb : A.Le lo hi) (hv : A.nan v = false) :
    A.Le lo (limit A v lo hi) ∧ A.Le (limit A v lo hi) hi ∧ (A.Le lo v → A.Le v hi → limit A v lo hi = v) := by
  unfold limit
  by_cases h1 : A.lt hi v = true
  · rw [if_pos h1]
    refine ⟨hb, Arith.Le.refl C hb.2.1, fun _ h => ?_⟩
    rw [h.2.2] at h1
    cases h1
  · rw [if_neg h1]
    have h1' : A.lt hi v = false := Bool.eq_false_iff.mpr h1
    by_cases h2 : A.lt v lo = true
    · rw [if_pos h2]
      refine ⟨Arith.Le.refl C hb.1, hb, fun h _ => ?_⟩
      rw [h.2.2] at h2
      cases h2
    · rw [if_neg h2]
      exact ⟨⟨hb.1, hv, Bool.eq_false_iff.mpr h2⟩, ⟨hv, hb.2.1, h1'⟩, fun _ _ => rfl⟩

/-- C43: limiting is monotone. -/
theorem limit_mono {A : Arith F} (C : A.Cmp) {v w lo hi : F} (hb : A.Le lo hi) (h : A.Le v w) : A.Le (limit A v lo hi) (limit A w lo hi) := by
  have sv := limit_spec C hb h.1
  have sw := limit_spec C hb h.2.1
  by_cases h1 : A.lt hi w = true
  · have e : limit A w lo hi = hi := by unfold limit; rw [if_pos h1]
    rw [e]
    exact sv.2.1
  · have h1' : A.lt hi w = false := Bool.eq_false_iff.mpr h1
    have hvhi : A.Le v hi := h.trans C ⟨h.2.1, hb.2.1, h1'⟩
    by_cases h2 : A.lt v lo = true
    · have e : limit A v lo hi = lo := by
        unfold limit
        rw [if_neg (by rw [hvhi.2.2]; exact Bool.false_ne_true), if_pos h2]
      rw [e]
      exact sw.1
    · have hlov : A.Le lo v := ⟨hb.1, h.1, Bool.eq_false_iff.mpr h2⟩
      rw [sv.2.2 hlov hvhi, sw.2.2 (hlov.trans C h) ⟨h.2.1, hb.2.1, h1'⟩]
      exact h

/-- C43: limiting twice is limiting once. -/
theorem limit_idem {A : Arith F} (C : A.Cmp) {v lo hi : F} (hb : A.Le lo hi) (hv : A.nan v = false) :
    limit A (limit A v lo hi) lo hi = limit A v lo hi := by
  have s := limit_spec C hb hv
  have hn : A.nan (limit A v lo hi) = false := s.1.2.1
  exact (limit_spec C hb hn).2.2 s.1 s.2.1

/-- C43 for symmetric bounds that are not negative -/
theorem limitSym_spec {A : Arith F} (C : A.Cmp) {v l : F} (hl : A.Le A.zero l) (hv : A.nan v = false) :
    A.Le (A.neg l) (limitSym A v l) ∧ A.Le (limitSym A v l) l ∧ (A.Le (A.neg l) v → A.Le v l → limitSym A v l = v) :=
  limit_spec C (hl.neg_self C) hv

/-- NaN passes the limits. -/
theorem limit_nan {A : Arith F} (C : A.Cmp) {v lo hi : F} (hv : A.nan v = true) : limit A v lo hi = v := by
  unfold limit
  rw [if_neg, if_neg]
  · intro h
    rw [(C.num _ _ h).1] at hv
    cases hv
  · intro h
    rw [(C.num _ _ h).2] at hv
    cases hv

/-- Whatever the value, with proper bounds the result is within the bounds or NaN. -/
theorem limit_any {A : Arith F} (C : A.Cmp) (v : F) {lo hi : F} (hb : A.Le lo hi) :
    A.nan (limit A v lo hi) = true ∨ A.Le lo (limit A v lo hi) ∧ A.Le (limit A v lo hi) hi := by
  cases hv : A.nan v with
  | true => left; rw [limit_nan C hv]; exact hv
  | false => exact .inr ⟨(limit_spec C hb hv).1, (limit_spec C hb hv).2.1⟩

/-- Bounds in the wrong order: the result can be outside of both. -/
theorem limit_wrong_order : limit exact 5 10 0 = 0 ∧ limit exact (-5) 10 0 = 10 := by decide +kernel

/-- C43 for `math_clamp_value` -/
theorem clamp_spec {v lo hi : Int} (hb : lo ≤ hi) :
    lo ≤ clamp v lo hi ∧ clamp v lo hi ≤ hi ∧ (lo ≤ v → v ≤ hi → clamp v lo hi = v) ∧ clamp (clamp v lo hi) lo hi = clamp v lo hi ∧
      ∀ w, v ≤ w → clamp v lo hi ≤ clamp w lo hi := by
  unfold clamp
  refine ⟨?_, ?_, ?_, ?_, fun w hw => ?_⟩ <;> split <;> (try split) <;> (try split) <;> (try split) <;> omega

example : limit exact (7 : ℚ) (-3) 3 = 3 ∧ limit exact (2 : ℚ) (-3) 3 = 2 ∧ limitSym exact (-9 : ℚ) 3 = -3 := by decide +kernel
example : limitSym ext .nan (.fin 3) = .nan := limit_nan ext_cmp rfl
example : ext.Le (.fin 0) .pinf := ⟨rfl, rfl, rfl⟩

/-! ## Smallest value -/

theorem argminLoop_spec {A : Arith F} (C : A.Cmp) (rest : List F) : ∀ (pre : List F) (m : Nat) (mv : F),
    (A.nan mv = false) → (∀ x ∈ pre, A.lt x mv = false) →
    let r := argminLoop A rest pre.length m mv
    (r = m ∧ ∀ x ∈ pre ++ rest, A.lt x mv = false) ∨
      ∃ v, rest[r - pre.length]? = some v ∧ pre.length ≤ r ∧ A.lt v mv = true ∧ (∀ x ∈ pre ++ rest, A.lt x v = false) := by
  induction rest with
  | nil =>
    intro pre m mv _ hpre
    exact .inl ⟨rfl, by simpa using hpre⟩
  | cons v vs ih =>
    intro pre m mv hmv hpre
    show (argminLoop A (v :: vs) pre.length m mv = m ∧ _) ∨ _
    by_cases h : A.lt v mv = true
    · have hv := (C.num _ _ h).1
      have e : argminLoop A (v :: vs) pre.length m mv = argminLoop A vs (pre ++ [v]).length pre.length v := by
        rw [argminLoop, if_pos h]; simp
      rw [e]
      right
      have hpre' : ∀ x ∈ pre ++ [v], A.lt x v = false := by
        intro x hx
        rcases List.mem_append.mp hx with hx | hx
        · cases hxv : A.lt x v with
          | false => rfl
          | true => have := C.trans _ _ _ hxv h; rw [hpre x hx] at this; cases this
        · rw [List.mem_singleton.mp hx]; exact C.irrefl v
      rcases ih (pre ++ [v]) pre.length v hv hpre' with ⟨h1, h2⟩ | ⟨w, h1, h2, h3, h4⟩
      · refine ⟨v, ?_, ?_, h, ?_⟩
        · rw [h1]; simp
        · rw [h1]
        · intro x hx; exact h2 x (by simpa using hx)
      · simp only [List.length_append, List.length_singleton] at h1 h2 ⊢
        refine ⟨w, ?_, by omega, C.trans _ _ _ h3 h, ?_⟩
        · rw [show argminLoop A vs (pre.length + 1) pre.length v - pre.length = (argminLoop A vs (pre.length + 1) pre.length v - (pre.length + 1)) + 1 by omega]
          rw [List.getElem?_cons_succ]
          exact h1
        · intro x hx; exact h4 x (by simpa using hx)
    · have e : argminLoop A (v :: vs) pre.length m mv = argminLoop A vs (pre ++ [v]).length m mv := by
        rw [argminLoop, if_neg h]; simp
      rw [e]
      have hpre' : ∀ x ∈ pre ++ [v], A.lt x mv = false := by
        intro x hx
        rcases List.mem_append.mp hx with hx | hx
        · exact hpre x hx
        · rw [List.mem_singleton.mp hx]; exact Bool.eq_false_iff.mpr h
      rcases ih (pre ++ [v]) m mv hmv hpre' with ⟨h1, h2⟩ | ⟨w, h1, h2, h3, h4⟩
      · left
        refine ⟨h1, fun x hx => h2 x (by simpa using hx)⟩
      · right
        simp only [List.length_append, List.length_singleton] at h1 h2 ⊢
        refine ⟨w, ?_, by omega, h3, ?_⟩
        · rw [show argminLoop A vs (pre.length + 1) m mv - pre.length = (argminLoop A vs (pre.length + 1) m mv - (pre.length + 1)) + 1 by omega]
          rw [List.getElem?_cons_succ]
          exact h1
        · intro x hx; exact h4 x (by simpa using hx)

/-- `argmin` gives the index of a smallest value, ignoring NaN, if there is a value below infinity, and 0 otherwise. -/
theorem argmin_spec {A : Arith F} (C : A.Cmp) {inf : F} (hi : A.nan inf = false) (vs : List F) :
    ((∃ x ∈ vs, A.lt x inf = true) → ∃ v, vs[argmin A inf vs]? = some v ∧ A.lt v inf = true ∧ ∀ x ∈ vs, A.lt x v = false) ∧
    ((∀ x ∈ vs, A.lt x inf = false) → argmin A inf vs = 0) := by
  have := argminLoop_spec C vs [] 0 inf hi (by simp)
  simp only [List.length_nil, List.nil_append, Nat.sub_zero, Nat.zero_le, true_and] at this
  change (argmin A inf vs = 0 ∧ _) ∨ (∃ v, vs[argmin A inf vs]? = some v ∧ _) at this
  constructor
  · rintro ⟨x, hx, hlt⟩
    rcases this with ⟨_, h⟩ | ⟨v, h1, h2, h3⟩
    · rw [h x hx] at hlt; cases hlt
    · exact ⟨v, h1, h2, h3⟩
  · intro hall
    rcases this with ⟨h, _⟩ | ⟨v, h1, h2, h3⟩
    · exact h
    · have hm : v ∈ vs := List.mem_of_getElem? h1
      rw [hall v hm] at h2
      cases h2

example : argmin ext .pinf [.fin 3, .nan, .fin 1, .fin 2] = 2 := by decide +kernel

/-! ## C44: the difference equation -/

theorem sum_zero (l : List Nat) : (l.map fun _ => (0 : ℚ)).sum = 0 := by
  induction l with
  | nil => rfl
  | cons a l ih => rw [List.map_cons, List.sum_cons, ih, add_zero]

/-- `Σ_{j ≤ n, j ≤ k} c_j x_{k-j}` -/
def conv (n : Nat) (c x : Nat → ℚ) (k : Nat) : ℚ := ((List.range (n + 1)).map fun j => if j ≤ k then c j * x (k - j) else 0).sum

theorem rd_ok {l : List F} {i : Nat} (h : i < l.length) : rd l i = .ok l[i] := by
  unfold rd
  rw [List.getElem?_eq_getElem h]

/-- Value of an array at a place, 0 outside -/
abbrev val (l : List ℚ) (i : Nat) : ℚ := l.getD i 0

theorem rd_val {l : List ℚ} {i : Nat} (h : i < l.length) : rd l i = .ok (val l i) := by
  rw [rd_ok h, val, List.getD_eq_getElem?_getD, List.getElem?_eq_getElem h]
  rfl

/-- The coefficient `a_{j}` for `j ≥ 1`; 0 for a FIR filter -/
def Iir.ca (f : Iir ℚ) (j : Nat) : ℚ :=
  match f.a with
  | none => 0
  | some as => val as (j - 1)

/-- The coefficient and delay arrays are as large as documented. -/
structure Iir.Ok (f : Iir ℚ) : Prop where
  pos : 0 < f.n
  b : f.n + 1 ≤ f.b.length
  a : ∀ as, f.a = some as → f.n ≤ as.length
  d : f.n ≤ f.d.length

theorem tap_eq {f : Iir ℚ} (h : f.Ok) (x y : ℚ) {i : Nat} (hi : i < f.n) : tap exact f x y i = .ok (val f.b (i + 1) * x - f.ca (i + 1) * y) := by
  unfold tap
  have hb := h.b
  rw [rd_val (l := f.b) (i := i + 1) (by omega)]
  simp only
  unfold Iir.ca
  cases ha : f.a with
  | none =>
    simp [exact]
  | some as =>
    have := h.a as ha
    simp only
    rw [rd_val (l := as) (i := i) (by omega)]
    simp [exact]

theorem val_set (d : List ℚ) (i j : Nat) (x : ℚ) (hi : i < d.length) : val (d.set i x) j = if i = j then x else val d j := by
  unfold val
  rw [List.getD_eq_getElem?_getD, List.getElem?_set, List.getD_eq_getElem?_getD]
  by_cases h : i = j
  · subst h
    simp [hi]
  · simp [h]

theorem loop_eq {f : Iir ℚ} (h : f.Ok) (x y : ℚ) : ∀ (k i : Nat) (d : List ℚ), i + k < f.n → f.n ≤ d.length →
    ∃ d', loop exact f x y k i d = .ok d' ∧ d'.length = d.length ∧
      ∀ j, val d' j = if i ≤ j ∧ j < i + k then val f.b (j + 1) * x - f.ca (j + 1) * y + val d (j + 1) else val d j := by
  intro k
  induction k with
  | zero =>
    intro i d hi hd
    refine ⟨d, rfl, rfl, fun j => ?_⟩
    rw [if_neg (by omega)]
  | succ k ih =>
    intro i d hi hd
    obtain ⟨d', h1, h2, h3⟩ := ih (i + 1) (d.set i (val f.b (i + 1) * x - f.ca (i + 1) * y + val d (i + 1))) (by omega) (by simpa using hd)
    refine ⟨d', ?_, by simpa using h2, fun j => ?_⟩
    · rw [loop, tap_eq h x y (by omega), rd_val (l := d) (i := i + 1) (by omega)]
      simp only
      have : wr d i (exact.add (val f.b (i + 1) * x - f.ca (i + 1) * y) (val d (i + 1))) =
          .ok (d.set i (val f.b (i + 1) * x - f.ca (i + 1) * y + val d (i + 1))) := by
        unfold wr
        rw [if_pos (by omega)]
        rfl
      rw [this]
      exact h1
    · rw [h3 j, val_set _ _ _ _ (by omega), val_set _ _ _ _ (by omega)]
      by_cases hj : i = j
      · subst hj
        rw [if_neg (by omega), if_pos rfl, if_pos (by omega)]
      · by_cases hj2 : i + 1 ≤ j ∧ j < i + 1 + k
        · rw [if_pos hj2, if_neg (by omega), if_pos (by omega)]
        · rw [if_neg hj2, if_neg hj, if_neg (by omega)]

/-- One step of the filter -/
theorem apply_eq {f : Iir ℚ} (h : f.Ok) (x : ℚ) :
    ∃ g y, f.apply exact x = .ok (y, g) ∧ g.Ok ∧ g.n = f.n ∧ g.b = f.b ∧ g.a = f.a ∧ y = val f.b 0 * x + val f.d 0 ∧
      ∀ i < f.n, val g.d i = val f.b (i + 1) * x - f.ca (i + 1) * y + (if i + 1 < f.n then val f.d (i + 1) else 0) := by
  have hp := h.pos
  have hb := h.b
  have hd := h.d
  obtain ⟨d', h1, h2, h3⟩ := loop_eq h x (val f.b 0 * x + val f.d 0) (f.n - 1) 0 f.d (by omega) hd
  refine ⟨{ f with d := d'.set (f.n - 1) (val f.b (f.n - 1 + 1) * x - f.ca (f.n - 1 + 1) * (val f.b 0 * x + val f.d 0)) }, val f.b 0 * x + val f.d 0, ?_, ?_, rfl, rfl, rfl, rfl, ?_⟩
  · unfold Iir.apply
    rw [rd_val (l := f.b) (i := 0) (by omega), rd_val (l := f.d) (i := 0) (by omega)]
    simp only
    have e : exact.add (exact.mul (val f.b 0) x) (val f.d 0) = val f.b 0 * x + val f.d 0 := rfl
    rw [e, h1]
    simp only
    rw [if_neg (by omega), tap_eq h x _ (by omega)]
    simp only
    unfold wr
    rw [if_pos (by omega)]
  · exact ⟨hp, hb, h.a, by simpa using (by omega : f.n ≤ d'.length)⟩
  · intro i hi
    show val (d'.set _ _) i = _
    rw [val_set _ _ _ _ (by omega)]
    by_cases hi2 : f.n - 1 = i
    · subst hi2
      rw [if_pos rfl, if_neg (by omega)]
      ring
    · rw [if_neg hi2, h3 i, if_pos (by omega), if_pos (by omega)]

/-- What the delays hold after the inputs `xs` gave the outputs `ys`, most recent first: the share of the past in the next outputs. -/
def past (f : Iir ℚ) (xs ys : List ℚ) (i : Nat) : ℚ :=
  ((List.range (f.n - i)).map fun m => if m < xs.length then val f.b (i + 1 + m) * val xs m - f.ca (i + 1 + m) * val ys m else 0).sum

theorem past_cons (f : Iir ℚ) (xs ys : List ℚ) (x y : ℚ) {i : Nat} (hi : i < f.n) :
    past f (x :: xs) (y :: ys) i = val f.b (i + 1) * x - f.ca (i + 1) * y + (if i + 1 < f.n then past f xs ys (i + 1) else 0) := by
  unfold past
  obtain ⟨k, hk⟩ : ∃ k, f.n - i = k + 1 := ⟨f.n - i - 1, by omega⟩
  rw [hk, List.range_succ_eq_map, List.map_cons, List.sum_cons, List.map_map]
  have e0 : (if 0 < (x :: xs).length then val f.b (i + 1 + 0) * val (x :: xs) 0 - f.ca (i + 1 + 0) * val (y :: ys) 0 else 0) =
      val f.b (i + 1) * x - f.ca (i + 1) * y := by
    rw [if_pos (by simp)]
    rfl
  rw [e0]
  congr 1
  have e1 : (fun m => if m < (x :: xs).length then val f.b (i + 1 + m) * val (x :: xs) m - f.ca (i + 1 + m) * val (y :: ys) m else 0) ∘ Nat.succ =
      fun m => if m < xs.length then val f.b (i + 1 + 1 + m) * val xs m - f.ca (i + 1 + 1 + m) * val ys m else 0 := by
    funext m
    simp only [Function.comp, List.length_cons, Nat.succ_eq_add_one, Nat.add_lt_add_iff_right]
    rw [show i + 1 + (m + 1) = i + 1 + 1 + m by omega]
    rfl
  rw [e1]
  by_cases h : i + 1 < f.n
  · rw [if_pos h, show f.n - (i + 1) = k by omega]
  · rw [if_neg h, show k = 0 by omega]
    rfl

theorem past_same {f g : Iir ℚ} (h1 : g.n = f.n) (h2 : g.b = f.b) (h3 : g.a = f.a) (xs ys : List ℚ) (i : Nat) : past g xs ys i = past f xs ys i := by
  have hc : ∀ j, g.ca j = f.ca j := by intro j; unfold Iir.ca; rw [h3]
  unfold past
  rw [h1, h2]
  simp only [hc]

/-- The outputs from a filter whose delays hold the past `xs`, `ys` -/
theorem run_from (ins : List ℚ) : ∀ {f : Iir ℚ}, f.Ok → ∀ (xs ys : List ℚ), (∀ i < f.n, val f.d i = past f xs ys i) →
    ∃ outs, f.run exact ins = .ok outs ∧ outs.length = ins.length ∧
      ∀ k < ins.length, val outs k = val f.b 0 * val ins k + past f ((ins.take k).reverse ++ xs) ((outs.take k).reverse ++ ys) 0 := by
  induction ins with
  | nil =>
    intro f _ xs ys _
    exact ⟨[], rfl, rfl, fun k hk => absurd hk (Nat.not_lt_zero k)⟩
  | cons x ins ih =>
    intro f h xs ys hp
    obtain ⟨g, y, h1, h2, h3, h4, h5, h6, h7⟩ := apply_eq h x
    have hg : ∀ i < g.n, val g.d i = past g (x :: xs) (y :: ys) i := by
      intro i hi
      rw [h3] at hi
      rw [h7 i hi, past_same h3 h4 h5, past_cons f xs ys x y hi]
      by_cases hi2 : i + 1 < f.n
      · rw [if_pos hi2, if_pos hi2, hp (i + 1) hi2]
      · rw [if_neg hi2, if_neg hi2]
    obtain ⟨outs, g1, g2, g3⟩ := ih h2 (x :: xs) (y :: ys) hg
    refine ⟨y :: outs, ?_, by simp [g2], ?_⟩
    · rw [Iir.run, h1]
      simp only
      rw [g1]
    · intro k hk
      cases k with
      | zero =>
        show y = val f.b 0 * x + past f xs ys 0
        rw [h6, hp 0 h.pos]
      | succ k =>
        have hk' : k < ins.length := by simpa using hk
        have := g3 k hk'
        rw [past_same h3 h4 h5, h4] at this
        simp only [List.take_succ_cons, List.reverse_cons, List.append_assoc, List.singleton_append]
        exact this

theorem past_conv (f : Iir ℚ) (ins outs : List ℚ) (k : Nat) (hk : k < ins.length) (hl : outs.length = ins.length) :
    val f.b 0 * val ins k + past f (ins.take k).reverse (outs.take k).reverse 0 =
      conv f.n (val f.b) (val ins) k - (conv f.n f.ca (val outs) k - f.ca 0 * val outs k) := by
  unfold conv past
  rw [List.range_succ_eq_map, List.map_cons, List.map_cons, List.sum_cons, List.sum_cons, List.map_map, List.map_map, if_pos (Nat.zero_le _), if_pos (Nat.zero_le _)]
  simp only [Nat.sub_zero]
  have hv : ∀ (l : List ℚ) m, m < k → k < l.length → val (l.take k).reverse m = val l (k - (m + 1)) := by
    intro l m hm hkl
    unfold val
    rw [List.getD_eq_getElem?_getD, List.getD_eq_getElem?_getD, List.getElem?_reverse (by rw [List.length_take]; omega), List.length_take, List.getElem?_take_of_lt (by omega)]
    congr 2
    omega
  have hlen : (ins.take k).reverse.length = k := by rw [List.length_reverse, List.length_take]; omega
  have key : ∀ l : List Nat, (l.map fun m => if m < (ins.take k).reverse.length then val f.b (0 + 1 + m) * val (ins.take k).reverse m - f.ca (0 + 1 + m) * val (outs.take k).reverse m else 0).sum =
      (l.map ((fun j => if j ≤ k then val f.b j * val ins (k - j) else 0) ∘ Nat.succ)).sum - (l.map ((fun j => if j ≤ k then f.ca j * val outs (k - j) else 0) ∘ Nat.succ)).sum := by
    intro l
    induction l with
    | nil => simp
    | cons m l ih =>
      rw [List.map_cons, List.sum_cons, ih, List.map_cons, List.sum_cons, List.map_cons, List.sum_cons, hlen]
      simp only [Function.comp, Nat.succ_eq_add_one]
      by_cases hm : m < k
      · rw [if_pos hm, if_pos (by omega), if_pos (by omega), hv ins m hm hk, hv outs m hm (by omega), show 0 + 1 + m = m + 1 by omega]
        ring
      · rw [if_neg hm, if_neg (by omega), if_neg (by omega)]
        ring
  rw [key]
  ring

/-- C44: for any coefficients `b_0 … b_n`, `a_1 … a_n`, any delay buffer and any inputs, the outputs of a filter after `filter_iir_init` satisfy
`y_k = Σ_{j=0…n} b_j x_{k-j} - Σ_{j=1…n} a_j y_{k-j}`, where `x` and `y` are 0 before the start. The sums are exact, without rounding. -/
theorem difference_equation (b a d : List ℚ) (n : Nat) (hn : 0 < n) (hb : b.length = n + 1) (ha : a.length = n) (hd : n ≤ d.length) (xs : List ℚ) :
    ∃ f ys, Iir.init exact b (some a) n d = .ok f ∧ f.run exact xs = .ok ys ∧ ys.length = xs.length ∧
      ∀ k < xs.length, val ys k = conv n (val b) (val xs) k - conv n (fun j => if j = 0 then 0 else val a (j - 1)) (val ys) k := by
  have hok : (⟨b, some a, n, List.replicate n 0 ++ d.drop n⟩ : Iir ℚ).Ok :=
    ⟨hn, Nat.le_of_eq hb.symm, (fun as h => by cases h; exact Nat.le_of_eq ha.symm), by simp⟩
  obtain ⟨ys, h1, h2, h3⟩ := run_from xs hok [] [] (by
    intro i hi
    have hi' : i < n := hi
    unfold past
    simp only [List.length_nil, Nat.not_lt_zero, if_false]
    rw [sum_zero]
    show val (List.replicate n 0 ++ d.drop n) i = 0
    unfold val
    rw [List.getD_eq_getElem?_getD, List.getElem?_append_left (by simpa using hi'), List.getElem?_replicate, if_pos hi']
    rfl)
  refine ⟨_, ys, ?_, h1, h2, ?_⟩
  · unfold Iir.init
    rw [if_pos hd]
    rfl
  · intro k hk
    rw [h3 k hk, List.append_nil, List.append_nil, past_conv _ xs ys k hk h2]
    congr 1
    unfold conv
    rw [List.range_succ_eq_map, List.map_cons, List.map_cons, List.sum_cons, List.sum_cons, List.map_map, List.map_map]
    rw [if_pos (Nat.zero_le _), if_pos (Nat.zero_le _)]
    simp only [Nat.sub_zero, if_true, zero_mul, zero_add]
    rw [add_sub_cancel_left]
    rfl

/-- C44 for a filter without `a`: `y_k = Σ_{j=0…n} b_j x_{k-j}` -/
theorem difference_equation_fir (b d : List ℚ) (n : Nat) (hn : 0 < n) (hb : b.length = n + 1) (hd : n ≤ d.length) (xs : List ℚ) :
    ∃ f ys, Iir.init exact b none n d = .ok f ∧ f.run exact xs = .ok ys ∧ ys.length = xs.length ∧
      ∀ k < xs.length, val ys k = conv n (val b) (val xs) k := by
  have hok : (⟨b, none, n, List.replicate n 0 ++ d.drop n⟩ : Iir ℚ).Ok :=
    ⟨hn, Nat.le_of_eq hb.symm, (fun as h => by cases h), by simp⟩
  obtain ⟨ys, h1, h2, h3⟩ := run_from xs hok [] [] (by
    intro i hi
    have hi' : i < n := hi
    unfold past
    simp only [List.length_nil, Nat.not_lt_zero, if_false]
    rw [sum_zero]
    show val (List.replicate n 0 ++ d.drop n) i = 0
    unfold val
    rw [List.getD_eq_getElem?_getD, List.getElem?_append_left (by simpa using hi'), List.getElem?_replicate, if_pos hi']
    rfl)
  refine ⟨_, ys, ?_, h1, h2, ?_⟩
  · unfold Iir.init
    rw [if_pos hd]
    rfl
  · intro k hk
    rw [h3 k hk, List.append_nil, List.append_nil, past_conv _ xs ys k hk h2]
    have hz : ∀ j, (⟨b, none, n, List.replicate n 0 ++ d.drop n⟩ : Iir ℚ).ca j = 0 := fun _ => rfl
    have : conv n (⟨b, none, n, List.replicate n 0 ++ d.drop n⟩ : Iir ℚ).ca (val ys) k = 0 := by
      unfold conv
      simp only [hz, zero_mul, ite_self]
      rw [sum_zero]
    rw [hz, this]
    ring

example : ∃ f ys, Iir.init exact [1, 2] (some [1 / 2]) 1 [9] = .ok f ∧ f.run exact [1, 0, 0, 4] = .ok ys ∧ ys = [1, 3 / 2, -3 / 4, 35 / 8] :=
  ⟨⟨[1, 2], some [1 / 2], 1, [0]⟩, [1, 3 / 2, -3 / 4, 35 / 8], by decide +kernel, by decide +kernel, rfl⟩

/-- A filter of degree 0 writes before its delay buffer. -/
example : (⟨[1], some [], 0, [0]⟩ : Iir ℚ).run exact [1] = .error .bounds := by decide +kernel

/-! ## Mean of integers -/

theorem sumInt_eq (l : List Int) : ∀ {s r : Int}, sumInt l s = .ok r → r = s + l.sum := by
  induction l with
  | nil => intro s r h; cases h; simp
  | cons x l ih =>
    intro s r h
    unfold sumInt at h
    split at h
    · cases h
    · rw [ih h, List.sum_cons]; omega

theorem sumInt_ok (l : List Int) : ∀ (s : Int), (∀ x ∈ l, -32768 ≤ x ∧ x ≤ 32767) → -2147483648 + 32768 * (l.length : Int) ≤ s → s ≤ 2147483647 - 32767 * (l.length : Int) →
    sumInt l s = .ok (s + l.sum) := by
  induction l with
  | nil => intro s _ _ _; simp [sumInt]
  | cons x l ih =>
    intro s hx h1 h2
    have hx0 := hx x (List.mem_cons_self ..)
    simp only [List.length_cons, Nat.cast_add, Nat.cast_one] at h1 h2
    unfold sumInt
    rw [if_neg (by omega), ih (s + x) (fun y hy => hx y (List.mem_cons_of_mem _ hy)) (by omega) (by omega), List.sum_cons]
    congr 1
    omega

/-- The mean of up to 65536 numbers of 16 bits whose sum is not negative is exact, rounded down. For negative sums it is wrong (`meanInt16_negative`). -/
theorem meanInt16_partial {l : List Int} (hl : 0 < l.length) (hn : l.length ≤ 65536) (hx : ∀ x ∈ l, -32768 ≤ x ∧ x ≤ 32767) (hs : 0 ≤ l.sum) :
    meanInt16 l = .ok (l.sum / l.length) := by
  have hb : ∀ l : List Int, (∀ x ∈ l, -32768 ≤ x ∧ x ≤ 32767) → l.sum ≤ 32767 * l.length := by
    intro l
    induction l with
    | nil => simp
    | cons x l ih =>
      intro h
      have := h x (List.mem_cons_self ..)
      have := ih (fun y hy => h y (List.mem_cons_of_mem _ hy))
      rw [List.sum_cons, List.length_cons]
      push_cast
      omega
  have hb' := hb l hx
  unfold meanInt16
  rw [sumInt_ok l 0 hx (by omega) (by omega)]
  simp only [zero_add]
  rw [if_neg (by omega)]
  have e1 : l.sum % 4294967296 = l.sum := by omega
  have e2 : l.length % 4294967296 = l.length := by omega
  rw [e1, e2]
  have hq : l.sum / (l.length : Int) ≤ l.sum := Int.ediv_le_self _ hs
  rw [if_neg (by omega)]

/-- The mean of two numbers -1 is computed as 2147483647. -/
theorem meanInt16_negative : meanInt16 [-1, -1] = .ok 2147483647 := by decide +kernel

end Verif.Filter
