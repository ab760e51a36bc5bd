import Verif.Tap.Limiter

/-!
# Properties of the rate limiter (C131)

The statements speak about the calls only: how many were allowed in which time.
-/

namespace Verif.Tap

/-- How many calls were allowed. -/
def passed (h : List (ℚ × Bool)) : Nat := (h.filter (·.2)).length

/-- The time of the first of some calls, or `t` if there was none. -/
def firstTime (h : List (ℚ × Bool)) (t : ℚ) : ℚ := match h with
  | [] => t
  | c :: _ => c.1

/-- There is room for a call at time `t` after the calls `h` of a limiter made at time `t0`: with it, fewer than
`rate * (1 + duration)` calls are allowed since any earlier call and since the beginning. -/
def Room (rate t0 : ℚ) (h : List (ℚ × Bool)) (t : ℚ) : Prop :=
  (1 + passed h : ℚ) < rate * (1 + (t - t0)) ∧
  ∀ a b, h = a ++ b → (1 + passed b : ℚ) < rate * (1 + (t - firstTime b t))

theorem passed_append (a b : List (ℚ × Bool)) : passed (a ++ b) = passed a + passed b := by simp [passed]

theorem passed_single (t : ℚ) (ok : Bool) : passed [(t, ok)] = if ok then 1 else 0 := by cases ok <;> rfl

theorem firstTime_append (b : List (ℚ × Bool)) (c : ℚ × Bool) (t : ℚ) (hb : b ≠ []) :
    firstTime (b ++ [c]) t = firstTime b t := by
  cases b with
  | nil => exact absurd rfl hb
  | cons _ _ => rfl

theorem calls_append (l : Limiter) (a b : List ℚ) :
    l.calls (a ++ b) = ((l.calls a).1 ++ ((l.calls a).2.calls b).1, ((l.calls a).2.calls b).2) := by
  induction a generalizing l with
  | nil => rfl
  | cons t ts ih => simp only [List.cons_append, Limiter.calls, ih]

theorem check_rate (l : Limiter) (t : ℚ) : (l.check t).2.maxRate = l.maxRate ∧ (l.check t).2.lastTime = t := by
  unfold Limiter.check; simp only; split <;> exact ⟨rfl, rfl⟩

theorem calls_rate (l : Limiter) (ts : List ℚ) : (l.calls ts).2.maxRate = l.maxRate := by
  induction ts generalizing l with
  | nil => rfl
  | cons t ts ih => simp only [Limiter.calls]; rw [ih, (check_rate l t).1]

theorem check_allowed (l : Limiter) (t : ℚ) :
    (l.check t).1 = true ↔ 1 < l.quota + l.maxRate * (t - l.lastTime) ∧ 1 < l.maxRate := by
  unfold Limiter.check
  simp only
  by_cases h : min (l.quota + l.maxRate * (t - l.lastTime)) l.maxRate ≤ 1
  · rw [if_pos h]
    simp only [Bool.false_eq_true, false_iff]
    rintro ⟨h1, h2⟩
    exact absurd h (not_le.mpr (lt_min h1 h2))
  · rw [if_neg h]
    simp only [true_iff]
    exact lt_min_iff.mp (not_le.mp h)

theorem check_quota (l : Limiter) (t : ℚ) :
    (l.check t).2.quota = min (l.quota + l.maxRate * (t - l.lastTime)) l.maxRate - (if (l.check t).1 then 1 else 0) := by
  unfold Limiter.check
  simp only
  split <;> simp

/-- What the quota stands for: at any later time `t`, the quota that a call would find. -/
theorem quota_meaning (rate t0 : ℚ) (ts : List ℚ) (c t : ℚ) :
    let r := (Limiter.init rate t0).calls ts
    c < r.2.quota + rate * (t - r.2.lastTime) ↔
      c + passed r.1 < rate * (1 + (t - t0)) ∧
      ∀ a b, r.1 = a ++ b → b ≠ [] → c + passed b < rate * (1 + (t - firstTime b t)) := by
  induction ts using List.reverseRecOn generalizing c t with
  | nil =>
    simp only [Limiter.calls, Limiter.init, passed, List.filter_nil, List.length_nil, Nat.cast_zero, add_zero]
    constructor
    · intro h
      refine ⟨by linarith, ?_⟩
      intro a b hab hb
      exact absurd (List.append_eq_nil_iff.mp hab.symm).2 hb
    · rintro ⟨h, _⟩; linarith
  | append_singleton ts s ih =>
    simp only [calls_append, Limiter.calls]
    generalize hr : (Limiter.init rate t0).calls ts = r at ih ⊢
    have hrate : r.2.maxRate = rate := by rw [← hr]; exact calls_rate _ _
    obtain ⟨h, l⟩ := r
    simp only at ih hrate ⊢
    have hq := check_quota l s
    have hl := (check_rate l s).2
    rw [hrate] at hq
    set ok := (l.check s).1 with hok
    set l' := (l.check s).2 with hl'
    rw [hq, hl]
    have hone : (if ok = true then (1 : ℚ) else 0) = (passed [(s, ok)] : ℚ) := by rw [passed_single]; cases ok <;> simp
    rw [hone]
    have key : c < min (l.quota + rate * (s - l.lastTime)) rate - (passed [(s, ok)] : ℚ) + rate * (t - s) ↔
        (c + passed [(s, ok)] - rate * (t - s) < l.quota + rate * (s - l.lastTime)) ∧
        (c + passed [(s, ok)] < rate * (1 + (t - s))) := by
      rw [← sub_lt_iff_lt_add, lt_sub_iff_add_lt, lt_min_iff]
      constructor
      · rintro ⟨h1, h2⟩; exact ⟨by linarith, by linarith⟩
      · rintro ⟨h1, h2⟩; exact ⟨by linarith, by linarith⟩
    rw [key, ih]
    constructor
    · rintro ⟨⟨h1, h2⟩, h3⟩
      refine ⟨by rw [passed_append]; push_cast; linarith, ?_⟩
      intro a b hab hb
      rcases List.eq_nil_or_concat b with rfl | ⟨b', x, rfl⟩
      · exact absurd rfl hb
      · rw [List.concat_eq_append, ← List.append_assoc] at hab
        obtain ⟨e1, e2⟩ := List.append_inj' hab rfl
        obtain rfl : (s, ok) = x := by simpa using e2
        rw [List.concat_eq_append, passed_append]
        push_cast
        by_cases hb' : b' = []
        · subst hb'
          simp only [List.nil_append, firstTime]
          have : passed ([] : List (ℚ × Bool)) = 0 := rfl
          rw [this]; push_cast; linarith
        · have := h2 a b' e1 hb'
          rw [firstTime_append _ _ _ hb']
          have e : firstTime b' s = firstTime b' t := by cases b' with
            | nil => exact absurd rfl hb'
            | cons _ _ => rfl
          rw [e] at this
          linarith
    · rintro ⟨h1, h2⟩
      rw [passed_append] at h1
      push_cast at h1
      refine ⟨⟨by linarith, ?_⟩, ?_⟩
      · intro a b hab hb
        have := h2 a (b ++ [(s, ok)]) (by rw [hab, List.append_assoc]) (by simp)
        rw [passed_append, firstTime_append _ _ _ hb] at this
        push_cast at this
        have e : firstTime b s = firstTime b t := by cases b with
          | nil => exact absurd rfl hb
          | cons _ _ => rfl
        rw [e]
        linarith
      · exact h2 h [(s, ok)] rfl (by simp)

/-- C131: a call is allowed exactly if there is room for it, whatever the clock does. -/
theorem allowed_iff (rate t0 : ℚ) (ts : List ℚ) (t : ℚ) :
    (((Limiter.init rate t0).calls ts).2.check t).1 = true ↔ Room rate t0 ((Limiter.init rate t0).calls ts).1 t := by
  have hq := quota_meaning rate t0 ts 1 t
  rw [check_allowed, calls_rate]
  simp only [Limiter.init] at hq ⊢
  rw [hq]
  unfold Room
  constructor
  · rintro ⟨⟨h1, h2⟩, h3⟩
    refine ⟨h1, fun a b hab => ?_⟩
    by_cases hb : b = []
    · subst hb; simp only [firstTime]; have : passed ([] : List (ℚ × Bool)) = 0 := rfl
      rw [this]; push_cast; linarith
    · exact h2 a b hab hb
  · rintro ⟨h1, h2⟩
    refine ⟨⟨h1, fun a b hab _ => h2 a b hab⟩, ?_⟩
    have := h2 _ [] (List.append_nil _).symm
    simp only [firstTime] at this
    have e : passed ([] : List (ℚ × Bool)) = 0 := rfl
    rw [e] at this; push_cast at this; linarith

theorem calls_times (l : Limiter) (ts : List ℚ) : (l.calls ts).1.map Prod.fst = ts := by
  induction ts generalizing l with
  | nil => rfl
  | cons t ts ih => simp only [Limiter.calls, List.map_cons, ih]

/-- Every entry of the protocol of calls is the answer to the call after the entries before. -/
theorem calls_split (l : Limiter) (ts : List ℚ) {a b : List (ℚ × Bool)} {t : ℚ} {ok : Bool}
    (h : (l.calls ts).1 = a ++ (t, ok) :: b) :
    a = (l.calls (a.map Prod.fst)).1 ∧ ok = ((l.calls (a.map Prod.fst)).2.check t).1 := by
  have ht := calls_times l ts
  rw [h, List.map_append, List.map_cons] at ht
  rw [← ht, calls_append] at h
  simp only [Limiter.calls] at h
  have hlen : (l.calls (a.map Prod.fst)).1.length = a.length := by
    have := congrArg List.length (calls_times l (a.map Prod.fst)); simpa using this
  obtain ⟨e1, e2⟩ := List.append_inj h hlen
  refine ⟨e1.symm, ?_⟩
  simp only [List.cons.injEq, Prod.mk.injEq, true_and] at e2
  exact e2.1.symm

/-- C131: with a clock that is not set back, fewer than `rate * (1 + duration)` calls are allowed in any stretch of
calls. -/
theorem rate_bounded (rate t0 : ℚ) (hr : 0 < rate) (ts : List ℚ) (hs : ts.Pairwise (· ≤ ·)) {a b c : List (ℚ × Bool)} {s e : ℚ × Bool}
    (h : ((Limiter.init rate t0).calls ts).1 = a ++ b ++ c) (hfirst : b.head? = some s) (hlast : b.getLast? = some e) :
    (passed b : ℚ) < rate * (1 + (e.1 - s.1)) := by
  have hsorted : (a ++ b ++ c).Pairwise (fun x y => x.1 ≤ y.1) := by
    rw [← h, ← List.pairwise_map (f := Prod.fst) (R := (· ≤ ·)), calls_times]; exact hs
  obtain ⟨hab, -, -⟩ := List.pairwise_append.mp hsorted
  obtain ⟨-, hb, -⟩ := List.pairwise_append.mp hab
  clear hsorted hab
  induction b using List.reverseRecOn generalizing c e with
  | nil => cases hfirst
  | append_singleton b x ih =>
    have he : x = e := by simpa using hlast
    subst he
    obtain ⟨t, ok⟩ := x
    obtain ⟨hb1, -, hb2⟩ := List.pairwise_append.mp hb
    have hle : ∀ y ∈ b, y.1 ≤ t := fun y hy => hb2 y hy (t, ok) (by simp)
    rw [← List.append_assoc, List.append_assoc, List.singleton_append] at h
    obtain ⟨e1, e2⟩ := calls_split _ _ h
    rw [passed_append, passed_single]
    have hfs : firstTime b t = s.1 := by
      cases b with
      | nil => simp only [List.nil_append, List.head?_cons, Option.some.injEq] at hfirst; rw [← hfirst]; rfl
      | cons y b => simp only [List.cons_append, List.head?_cons, Option.some.injEq] at hfirst; rw [← hfirst]; rfl
    cases ok with
    | true =>
      have := (allowed_iff rate t0 _ t).mp e2.symm
      rw [← e1] at this
      have := this.2 a b rfl
      rw [hfs] at this
      push_cast
      simp only [if_true]
      linarith
    | false =>
      simp only [Bool.false_eq_true, if_false, add_zero]
      cases hbl : b.getLast? with
      | none =>
        have : b = [] := List.getLast?_eq_none_iff.mp hbl
        subst this
        simp only [List.nil_append, List.head?_cons, Option.some.injEq] at hfirst
        rw [← hfirst]
        have : passed ([] : List (ℚ × Bool)) = 0 := rfl
        rw [this]; simp only [sub_self]; push_cast; linarith
      | some z =>
        have hbn : b ≠ [] := by rintro rfl; cases hbl
        have hh : b.head? = some s := by
          cases b with
          | nil => exact absurd rfl hbn
          | cons y b => simpa using hfirst
        have := ih (c := (t, false) :: c) (e := z) (by rw [h]) hh hbl hb1
        have hz := hle z (List.mem_of_getLast? hbl)
        have : rate * (1 + (z.1 - s.1)) ≤ rate * (1 + (t - s.1)) := by
          apply mul_le_mul_of_nonneg_left _ hr.le; linarith
        linarith

/-- C131: nothing is refused as long as the calls themselves keep to the limit, counted from any call on and from the
beginning. -/
theorem slow_calls_pass (rate t0 : ℚ) (ts : List ℚ)
    (hb : ∀ a b t c, ts = a ++ b ++ t :: c → ((b.length : ℚ) + 1) < rate * (1 + (t - b.headD t)))
    (h0 : ∀ a t c, ts = a ++ t :: c → ((a.length : ℚ) + 1) < rate * (1 + (t - t0))) :
    ∀ x ∈ ((Limiter.init rate t0).calls ts).1, x.2 = true := by
  have hple : ∀ l : List (ℚ × Bool), passed l ≤ l.length := fun l => List.length_filter_le _ _
  rintro ⟨t, ok⟩ hx
  obtain ⟨a, c, hac⟩ := List.append_of_mem hx
  obtain ⟨e1, e2⟩ := calls_split _ _ hac
  have ht := calls_times (Limiter.init rate t0) ts
  rw [hac, List.map_append, List.map_cons] at ht
  show ok = true
  rw [e2, allowed_iff]
  rw [← e1]
  constructor
  · have := h0 (a.map Prod.fst) t (c.map Prod.fst) ht.symm
    rw [List.length_map] at this
    have h1 : (passed a : ℚ) ≤ a.length := by exact_mod_cast hple a
    linarith
  · rintro a' b rfl
    have := hb (a'.map Prod.fst) (b.map Prod.fst) t (c.map Prod.fst) (by rw [← List.map_append]; exact ht.symm)
    rw [List.length_map] at this
    have h1 : (passed b : ℚ) ≤ b.length := by exact_mod_cast hple b
    have h2 : (b.map Prod.fst).headD t = firstTime b t := by cases b <;> rfl
    rw [h2] at this
    linarith

/-- With at most one packet per second nothing is ever allowed. -/
theorem one_per_second_passes_nothing (rate t0 : ℚ) (hr : rate ≤ 1) (ts : List ℚ) :
    ∀ x ∈ ((Limiter.init rate t0).calls ts).1, x.2 = false := by
  rintro ⟨t, ok⟩ hx
  obtain ⟨a, c, hac⟩ := List.append_of_mem hx
  obtain ⟨e1, e2⟩ := calls_split _ _ hac
  cases ok with
  | false => rfl
  | true =>
    have := ((allowed_iff rate t0 _ t).mp e2.symm).2 _ [] (List.append_nil _).symm
    have e : passed ([] : List (ℚ × Bool)) = 0 := rfl
    rw [e] at this
    simp only [firstTime, sub_self] at this
    push_cast at this
    linarith

/-- When the clock is set back by a second or more, everything is refused until it is less than a second before the
latest time seen. -/
theorem clock_set_back (rate t0 : ℚ) (hr : 0 < rate) (ts : List ℚ) (s t : ℚ) (hs : s ∈ ts) (ht : t ≤ s - 1) :
    (((Limiter.init rate t0).calls ts).2.check t).1 = false := by
  cases h : (((Limiter.init rate t0).calls ts).2.check t).1 with
  | false => rfl
  | true =>
    have := ((allowed_iff rate t0 _ t).mp h).2
    rw [← calls_times (Limiter.init rate t0) ts] at hs
    obtain ⟨x, hx, rfl⟩ := List.mem_map.mp hs
    obtain ⟨a, c, hac⟩ := List.append_of_mem hx
    have := this a (x :: c) hac
    simp only [firstTime] at this
    have h1 : (0 : ℚ) ≤ (passed (x :: c) : ℚ) := by positivity
    have h2 : rate * (1 + (t - x.1)) ≤ 0 := mul_nonpos_of_nonneg_of_nonpos hr.le (by linarith)
    linarith

/-- Two packets per second: of five packets in half a second two pass, the next one only after the quota has grown again. -/
example : ((Limiter.init 2 0).calls [0, 1/8, 1/4, 3/8, 1/2, 1]).1 =
    [(0, true), (1/8, true), (1/4, false), (3/8, false), (1/2, false), (1, true)] := by decide +kernel

/-- Times as `rate_bounded` wants them. -/
example : [(0 : ℚ), 1/8, 1/4, 3/8, 1/2, 1].Pairwise (· ≤ ·) := by decide +kernel

/-- Calls that `slow_calls_pass` speaks about: two, half a second apart, at four per second. -/
example : ∀ x ∈ ((Limiter.init 4 0).calls [1/2, 1]).1, x.2 = true := by
  refine slow_calls_pass 4 0 _ ?_ ?_
  · intro a b t c h
    rcases a with _ | ⟨a1, _ | ⟨a2, a⟩⟩ <;> rcases b with _ | ⟨b1, _ | ⟨b2, b⟩⟩ <;> simp at h ⊢
    obtain ⟨rfl, rfl, -⟩ := h; norm_num
  · intro a t c h
    rcases a with _ | ⟨a1, _ | ⟨a2, a⟩⟩ <;> simp at h ⊢
    · obtain ⟨rfl, -⟩ := h; norm_num
    · obtain ⟨-, rfl, -⟩ := h; norm_num

end Verif.Tap
