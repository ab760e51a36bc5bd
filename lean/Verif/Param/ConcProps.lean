import Verif.Param.Conc
import Mathlib.Algebra.BigOperators.Group.Finset.Basic
import Mathlib.Algebra.Order.BigOperators.Group.Finset
import Mathlib.Algebra.BigOperators.Ring.Finset
import Mathlib.Data.Fintype.BigOperators

/-!
# C81: change flags of parameters, with several threads
-/

namespace Verif.Param.Conc

open Classical

/-- `n` is the namespace `o` or one above it -/
inductive Above (c : Tree m) : Option Nat → Nat → Prop where
  | here (n : Nat) : Above c (some n) n
  | up {a n : Nat} : Above c (c.parent a) n → Above c (some a) n

/-- Parameter `p` is in namespace `n` or in one below -/
def Below (c : Tree m) (p : Fin m) (n : Nat) : Prop := Above c (some (c.ns p)) n

/-- A tree: parents are declared before their children -/
def Tree.Wf (c : Tree m) : Prop := ∀ a b, c.parent a = some b → b < a

/-- Nobody is in the middle of a call -/
def St.Quiet (s : St m k V) : Prop := ∀ t, s.pc t = .idle

/-- The number of changed parameters in a namespace and below it -/
noncomputable def changedBelow (s : St m k V) (c : Tree m) (n : Nat) : Int := (Finset.univ.filter fun p => s.changed p = true ∧ Below c p n).card

/-! ## Lemmas -/

theorem above_le {c : Tree m} (h : c.Wf) {o : Option Nat} {x : Nat} (ha : Above c o x) : ∀ n, o = some n → x ≤ n := by
  induction ha with
  | here n => intro n' h'; cases h'; exact Nat.le_refl _
  | @up a n hu ih =>
    intro n' h'
    cases h'
    cases hp : c.parent a with
    | none => rw [hp] at hu; cases hu
    | some b => exact Nat.le_of_lt (Nat.lt_of_le_of_lt (ih b hp) (h a b hp))

theorem above_some {c : Tree m} {a x : Nat} : Above c (some a) x ↔ x = a ∨ Above c (c.parent a) x := by
  constructor
  · intro h
    cases h with
    | here => exact .inl rfl
    | up h => exact .inr h
  · rintro (rfl | h)
    · exact .here _
    · exact .up h

theorem above_none {c : Tree m} {x : Nat} : ¬Above c none x := by intro h; cases h

theorem not_above_parent {c : Tree m} (h : c.Wf) {a : Nat} : ¬Above c (c.parent a) a := by
  intro ha
  cases hp : c.parent a with
  | none => rw [hp] at ha; cases ha
  | some b => exact absurd (above_le h ha b hp) (Nat.not_le.mpr (h a b hp))

/-- What a thread still has to add to the counter of a namespace -/
noncomputable def due (c : Tree m) (n : Nat) : Pc m V → Int
  | .inc _ o => if Above c o n then 1 else 0
  | .dec _ o => if Above c o n then -1 else 0
  | _ => 0

theorem due_bounds (c : Tree m) (n : Nat) (x : Pc m V) : -1 ≤ due c n x ∧ due c n x ≤ 1 := by
  unfold due
  repeat' split
  all_goals omega

theorem sum_upd {k : Nat} (f : Fin k → α) (g : α → Int) (a : Fin k) (b : α) :
    (∑ x, g (upd f a b x)) = (∑ x, g (f x)) + g b - g (f a) := by
  rw [← Finset.add_sum_erase Finset.univ (fun x => g (upd f a b x)) (Finset.mem_univ a),
    ← Finset.add_sum_erase Finset.univ (fun x => g (f x)) (Finset.mem_univ a)]
  have h1 : (∑ x ∈ Finset.univ.erase a, g (upd f a b x)) = ∑ x ∈ Finset.univ.erase a, g (f x) := by
    apply Finset.sum_congr rfl
    intro x hx
    have : x ≠ a := Finset.ne_of_mem_erase hx
    simp only [upd, if_neg this]
  rw [h1]
  simp only [upd, if_true]
  omega

theorem changedBelow_eq (s : St m k V) (c : Tree m) (n : Nat) :
    changedBelow s c n = ∑ p, if s.changed p = true ∧ Below c p n then (1 : Int) else 0 := by
  unfold changedBelow
  rw [Finset.sum_boole]

theorem changed_upd (ch : Fin m → Bool) (c : Tree m) (n : Nat) (p : Fin m) (b : Bool) :
    (∑ q, if upd ch p b q = true ∧ Below c q n then (1 : Int) else 0) =
      (∑ q, if ch q = true ∧ Below c q n then (1 : Int) else 0) + (if b = true ∧ Below c p n then 1 else 0) - (if ch p = true ∧ Below c p n then 1 else 0) := by
  rw [← Finset.add_sum_erase Finset.univ (fun q => if upd ch p b q = true ∧ Below c q n then (1 : Int) else 0) (Finset.mem_univ p),
    ← Finset.add_sum_erase Finset.univ (fun q => if ch q = true ∧ Below c q n then (1 : Int) else 0) (Finset.mem_univ p)]
  have h1 : (∑ x ∈ Finset.univ.erase p, if upd ch p b x = true ∧ Below c x n then (1 : Int) else 0) = ∑ x ∈ Finset.univ.erase p, if ch x = true ∧ Below c x n then (1 : Int) else 0 := by
    apply Finset.sum_congr rfl
    intro x hx
    have : x ≠ p := Finset.ne_of_mem_erase hx
    simp only [upd, if_neg this]
  rw [h1]
  simp only [upd, if_true]
  omega

/-- The counters are right up to what the threads still have to add -/
def Counts (s : St m k V) (c : Tree m) : Prop := ∀ n, s.cnt n + ∑ t, due c n (s.pc t) = changedBelow s c n

theorem i32_ok {x y : Int} (h : i32 x = .ok y) : y = x := by
  unfold i32 at h
  split at h
  · cases h; rfl
  · cases h

/-- Any property that calls and steps keep holds for all executions -/
theorem run_inv (c : Tree m) (I : St m k V → Prop) (hc : ∀ s t x, I s → I (s.call t x)) (hs : ∀ s s' t, I s → s.step c t = .ok s' → I s')
    (s s' : St m k V) (l : List (Move m k V)) (h : s.run c l = .ok s') (hi : I s) : I s' := by
  induction l generalizing s with
  | nil => cases h; exact hi
  | cons e l ih =>
    cases e with
    | call t x => exact ih _ h (hc s t x hi)
    | step t =>
      unfold St.run at h
      split at h
      · cases h
      · rename_i s1 h1
        exact ih _ h (hs s s1 t hi h1)

theorem counts_call (c : Tree m) (s : St m k V) (t : Fin k) (x : Call m V) (h : Counts s c) : Counts (s.call t x) c := by
  intro n
  have hn := h n
  unfold St.call
  split
  · rename_i hp
    cases x <;> (simp only [changedBelow]; simp only [changedBelow] at hn; rw [sum_upd]; generalize (∑ x, due c n (s.pc x)) = S at hn ⊢; simp only [hp, due]; omega)
  · exact hn

theorem counts_step (c : Tree m) (hw : c.Wf) (s s' : St m k V) (t : Fin k) (h : Counts s c) (hs : s.step c t = .ok s') : Counts s' c := by
  intro n
  have hn := h n
  unfold St.step at hs
  rw [changedBelow_eq] at hn ⊢
  split at hs
  · cases hs; exact hn
  · rename_i p v hp
    cases hs
    simp only; rw [sum_upd]; generalize (∑ x, due c n (s.pc x)) = S at hn ⊢; simp only [hp, due]; omega
  · rename_i p hp
    split at hs
    · cases hs; simp only; rw [sum_upd]; generalize (∑ x, due c n (s.pc x)) = S at hn ⊢; simp only [hp, due]; omega
    · rename_i hch
      cases hs
      simp only
      rw [sum_upd, changed_upd]
      generalize (∑ x, due c n (s.pc x)) = S at hn ⊢
      simp only [hp, due]
      have e1 : (if s.changed p = true ∧ Below c p n then (1 : Int) else 0) = 0 := if_neg (fun h => hch h.1)
      have e2 : (if True ∧ Below c p n then (1 : Int) else 0) = if Above c (some (c.ns p)) n then 1 else 0 := by simp only [true_and, Below]
      rw [e1, e2]; omega
  · rename_i p a hp
    split at hs
    · cases hs
    · rename_i x hx
      cases hs
      simp only
      rw [sum_upd]
      generalize (∑ x, due c n (s.pc x)) = S at hn ⊢
      simp only [hp, due, above_some (c := c) (a := a)]
      rw [i32_ok hx]
      by_cases ha : n = a
      · subst ha
        have e1 := not_above_parent hw (a := n)
        simp only [upd, if_true, true_or, if_neg e1]; omega
      · simp only [upd, ha, if_false, false_or]; omega
  · rename_i p hp
    cases hs
    simp only; rw [sum_upd]; generalize (∑ x, due c n (s.pc x)) = S at hn ⊢; simp only [hp, due, if_neg above_none]; omega
  · rename_i p hp
    split at hs
    · rename_i hch
      cases hs
      simp only
      rw [sum_upd, changed_upd]
      generalize (∑ x, due c n (s.pc x)) = S at hn ⊢
      simp only [hp, due]
      have e1 : (if s.changed p = true ∧ Below c p n then (1 : Int) else 0) = if Above c (some (c.ns p)) n then 1 else 0 := by simp only [hch, true_and, Below]
      have e2 : (if false = true ∧ Below c p n then (1 : Int) else 0) = 0 := if_neg (fun h => by cases h.1)
      rw [e1, e2]
      split <;> omega
    · cases hs; simp only; rw [sum_upd]; generalize (∑ x, due c n (s.pc x)) = S at hn ⊢; simp only [hp, due]; omega
  · rename_i p a hp
    split at hs
    · cases hs
    · rename_i x hx
      cases hs
      simp only
      rw [sum_upd]
      generalize (∑ x, due c n (s.pc x)) = S at hn ⊢
      simp only [hp, due, above_some (c := c) (a := a)]
      rw [i32_ok hx]
      by_cases ha : n = a
      · subst ha
        have e1 := not_above_parent hw (a := n)
        simp only [upd, if_true, true_or, if_neg e1]; omega
      · simp only [upd, ha, if_false, false_or]; omega
  · rename_i p hp
    cases hs
    simp only; rw [sum_upd]; generalize (∑ x, due c n (s.pc x)) = S at hn ⊢; simp only [hp, due, if_neg above_none]; omega
  · rename_i p g hp
    split at hs
    · cases hs; simp only; rw [sum_upd]; generalize (∑ x, due c n (s.pc x)) = S at hn ⊢; simp only [hp, due]; omega
    · cases hs

theorem counts_init (c : Tree m) (v : Fin m → V) (d : Fin m → Bool) : Counts (St.init (k := k) v d) c := by
  intro n
  rw [changedBelow_eq]
  simp [St.init, due]

theorem counts_run (c : Tree m) (hw : c.Wf) (v : Fin m → V) (d : Fin m → Bool) (s : St m k V) (l : List (Move m k V)) (h : (St.init v d).run c l = .ok s) : Counts s c :=
  run_inv c (fun s => Counts s c) (fun s t x => counts_call c s t x) (fun s s' t hi h => counts_step c hw s s' t hi h) _ _ l h (counts_init c v d)

theorem changedBelow_range (s : St m k V) (c : Tree m) (n : Nat) : 0 ≤ changedBelow s c n ∧ changedBelow s c n ≤ m := by
  unfold changedBelow
  refine ⟨by omega, ?_⟩
  have := Finset.card_le_univ (Finset.univ.filter fun p => s.changed p = true ∧ Below c p n)
  rw [Fintype.card_fin] at this
  exact_mod_cast this

theorem changedBelow_pos (s : St m k V) (c : Tree m) (n : Nat) : 0 < changedBelow s c n ↔ ∃ p, s.changed p = true ∧ Below c p n := by
  unfold changedBelow
  constructor
  · intro h
    have : 0 < (Finset.univ.filter fun p => s.changed p = true ∧ Below c p n).card := by omega
    obtain ⟨p, hp⟩ := Finset.card_pos.mp this
    exact ⟨p, (Finset.mem_filter.mp hp).2⟩
  · rintro ⟨p, hp⟩
    have : 0 < (Finset.univ.filter fun p => s.changed p = true ∧ Below c p n).card := Finset.card_pos.mpr ⟨p, Finset.mem_filter.mpr ⟨Finset.mem_univ _, hp⟩⟩
    omega

theorem sum_due_range (c : Tree m) (n : Nat) (pc : Fin k → Pc m V) : -(k : Int) ≤ ∑ t, due c n (pc t) ∧ (∑ t, due c n (pc t)) ≤ k := by
  have h1 := Finset.sum_le_sum (s := (Finset.univ : Finset (Fin k))) (f := fun t => due c n (pc t)) (g := fun _ => 1) (fun t _ => (due_bounds c n (pc t)).2)
  have h2 := Finset.sum_le_sum (s := (Finset.univ : Finset (Fin k))) (f := fun _ => -1) (g := fun t => due c n (pc t)) (fun t _ => (due_bounds c n (pc t)).1)
  simp only [Finset.sum_const, Finset.card_univ, Fintype.card_fin, nsmul_eq_mul] at h1 h2
  constructor <;> omega

/-! ## Properties -/

/-- C81: when no call is in progress, the counter of every namespace is the number of changed parameters in it and below. -/
theorem counter_exact (c : Tree m) (hw : c.Wf) (v : Fin m → V) (d : Fin m → Bool) (s : St m k V) (l : List (Move m k V)) (h : (St.init v d).run c l = .ok s)
    (hq : s.Quiet) (n : Nat) : s.cnt n = changedBelow s c n := by
  have := counts_run c hw v d s l h n
  have e : (∑ t, due c n (s.pc t)) = 0 := Finset.sum_eq_zero (fun t _ => by rw [hq t]; rfl)
  omega

/-- C81: at any time the counter is between minus the number of threads and the number of parameters plus the number of threads … -/
theorem counter_range (c : Tree m) (hw : c.Wf) (v : Fin m → V) (d : Fin m → Bool) (s : St m k V) (l : List (Move m k V)) (h : (St.init v d).run c l = .ok s) (n : Nat) :
    -(k : Int) ≤ s.cnt n ∧ s.cnt n ≤ m + k := by
  have h1 := counts_run c hw v d s l h n
  have h2 := changedBelow_range s c n
  have h3 := sum_due_range c n s.pc
  constructor <;> omega

/-- C81: … so it never overflows. -/
theorem no_overflow (c : Tree m) (hw : c.Wf) (v : Fin m → V) (d : Fin m → Bool) (l : List (Move m k V)) (hk : m + k < 2147483647) :
    (St.init v d).run c l ≠ .error .overflow := by
  have key : ∀ (l : List (Move m k V)) (s : St m k V), Counts s c → s.run c l ≠ .error .overflow := by
    intro l
    induction l with
    | nil => intro s _ h; cases h
    | cons e l ih =>
      intro s hs
      cases e with
      | call t x => exact ih _ (counts_call c s t x hs)
      | step t =>
        unfold St.run
        split
        · rename_i e he
          intro h'
          have e' : e = .overflow := by cases h'; rfl
          subst e'
          have range : ∀ n, -(k : Int) ≤ s.cnt n ∧ s.cnt n ≤ m + k := fun n => by
            have h1 := hs n
            have h2 := changedBelow_range s c n
            have h3 := sum_due_range c n s.pc
            constructor <;> omega
          unfold St.step at he
          split at he
          · cases he
          · cases he
          · split at he <;> cases he
          · rename_i p a hp
            split at he
            · rename_i hx
              unfold i32 at hx
              rw [if_pos (by have := range a; omega)] at hx
              cases hx
            · cases he
          · cases he
          · split at he <;> cases he
          · rename_i p a hp
            split at he
            · rename_i hx
              unfold i32 at hx
              rw [if_pos (by have := range a; omega)] at hx
              cases hx
            · cases he
          · cases he
          · split at he <;> cases he
        · rename_i s1 h1
          exact ih _ (counts_step c hw s s1 t hs h1)
  exact key l _ (counts_init c v d)

theorem contains_iff (s : St m k V) (n : Nat) (h : -4294967296 < s.cnt n ∧ s.cnt n < 4294967296) : s.containsChanged n = true ↔ s.cnt n ≠ 0 := by
  unfold St.containsChanged
  rw [decide_eq_true_iff]
  omega

/-- C81: when no call is in progress, `parameter_namespace_contains_changed` tells whether a parameter in the namespace or below is changed. -/
theorem contains_exact (c : Tree m) (hw : c.Wf) (v : Fin m → V) (d : Fin m → Bool) (hk : m + k < 2147483647) (s : St m k V) (l : List (Move m k V)) (h : (St.init v d).run c l = .ok s)
    (hq : s.Quiet) (n : Nat) : s.containsChanged n = true ↔ ∃ p, s.changed p = true ∧ Below c p n := by
  have hr := counter_range c hw v d s l h n
  rw [contains_iff s n (by omega), counter_exact c hw v d s l h hq n, ← changedBelow_pos]
  have := (changedBelow_range s c n).1
  omega

/-- C81: if calls are in progress, but no call to set a parameter below the namespace, then a changed parameter is still always announced. -/
theorem contains_of_changed (c : Tree m) (hw : c.Wf) (v : Fin m → V) (d : Fin m → Bool) (hk : m + k < 2147483647) (s : St m k V) (l : List (Move m k V)) (h : (St.init v d).run c l = .ok s)
    (n : Nat) (hq : ∀ t p o, s.pc t = .inc p o → ¬Below c p n) (p : Fin m) (hp : s.changed p = true) (hb : Below c p n) : s.containsChanged n = true := by
  have hr := counter_range c hw v d s l h n
  rw [contains_iff s n (by omega)]
  have h1 := counts_run c hw v d s l h n
  have h2 := (changedBelow_pos s c n).mpr ⟨p, hp, hb⟩
  -- the loop of a call only meets namespaces above the parameter
  have hin : ∀ t q o, s.pc t = .inc q o → ∀ x, Above c o x → Below c q x := by
    refine run_inv c (fun s => ∀ t q o, s.pc t = .inc q o → ∀ x, Above c o x → Below c q x) ?_ ?_ _ _ l h ?_
    · intro s t x hi t' q o ht
      unfold St.call at ht
      split at ht
      · cases x <;> (
          simp only [upd] at ht
          split at ht
          · cases ht
          · exact hi t' q o ht)
      · exact hi t' q o ht
    · intro s s' t hi hs t' q o ht
      unfold St.step at hs
      have other : ∀ x, (∀ q o, x ≠ Pc.inc q o) → upd s.pc t x t' = .inc q o → ∀ y, Above c o y → Below c q y := by
        intro x hx he
        unfold upd at he
        split at he
        · exact absurd he (hx q o)
        · exact hi t' q o he
      split at hs
      · cases hs; exact hi t' q o ht
      · cases hs; exact other _ (fun _ _ h => by cases h) ht
      · split at hs
        · cases hs; exact other _ (fun _ _ h => by cases h) ht
        · cases hs
          simp only [upd] at ht
          split at ht
          · cases ht; intro x hx; exact hx
          · exact hi t' q o ht
      · rename_i r a hp'
        split at hs
        · cases hs
        · cases hs
          simp only [upd] at ht
          split at ht
          · cases ht
            intro x hx
            exact hi t q (some a) hp' x (.up hx)
          · exact hi t' q o ht
      · cases hs; exact other _ (fun _ _ h => by cases h) ht
      · split at hs <;> (cases hs; exact other _ (fun _ _ h => by cases h) ht)
      · split at hs
        · cases hs
        · cases hs; exact other _ (fun _ _ h => by cases h) ht
      · cases hs; exact other _ (fun _ _ h => by cases h) ht
      · split at hs
        · cases hs; exact other _ (fun _ _ h => by cases h) ht
        · cases hs
    · intro t q o ht
      cases ht
  have h3 : (∑ t, due c n (s.pc t)) ≤ 0 := by
    apply Finset.sum_nonpos
    intro t _
    cases hpc : s.pc t with
    | inc q o =>
      have : ¬Above c o n := fun ha => hq t q o hpc (hin t q o hpc n ha)
      simp only [due, if_neg this]; exact Int.le_refl 0
    | dec q o => simp only [due]; split <;> omega
    | _ => simp only [due]; exact Int.le_refl 0
  omega

/-! ### No change is lost -/

/-- A call that has stored a value of `p` and not yet set the flag -/
def Storing (s : St m k V) (p : Fin m) : Prop := ∃ t, s.pc t = .flagSet p

/-- A `get` that has cleared the flag of `p` (or found it clear) and not yet read the value -/
def Getting (s : St m k V) (p : Fin m) : Prop := ∃ t, (∃ o, s.pc t = .dec p o) ∨ s.pc t = .read p true

/-- The last value stored in `p`, if any, has been read by a `get` since (newest first) -/
def Seen (p : Fin m) : List (Ev m V) → Prop
  | [] => True
  | .wrote q _ :: l => if q = p then False else Seen p l
  | .got q _ g :: l => if q = p ∧ g = true then True else Seen p l

theorem seen_step (c : Tree m) (p : Fin m) (s s' : St m k V) (t : Fin k) (h : Seen p s.log ∨ s.changed p = true ∨ Storing s p ∨ Getting s p) (hs : s.step c t = .ok s') :
    Seen p s'.log ∨ s'.changed p = true ∨ Storing s' p ∨ Getting s' p := by
  have here : ∀ x, upd s.pc t x t = x := fun x => if_pos rfl
  have there : ∀ x t', t' ≠ t → upd s.pc t x t' = s.pc t' := fun x t' h => if_neg h
  unfold St.step at hs
  split at hs
  · cases hs; exact h
  · rename_i q v hp
    cases hs
    by_cases hq : q = p
    · subst hq; exact .inr (.inr (.inl ⟨t, here _⟩))
    · rcases h with h | h | ⟨t', h⟩ | ⟨t', h⟩
      · left; simp only [Seen, if_neg hq]; exact h
      · exact .inr (.inl h)
      · exact .inr (.inr (.inl ⟨t', by dsimp only; rw [there _ _ (fun e => by rw [e, hp] at h; cases h)]; exact h⟩))
      · exact .inr (.inr (.inr ⟨t', by dsimp only; rw [there _ _ (fun e => by rw [e, hp] at h; rcases h with ⟨_, h⟩ | h <;> cases h)]; exact h⟩))
  · rename_i q hp
    split at hs
    · rename_i hch
      cases hs
      rcases h with h | h | ⟨t', h⟩ | ⟨t', h⟩
      · exact .inl h
      · exact .inr (.inl h)
      · by_cases ht : t' = t
        · subst ht; rw [hp] at h; cases h; exact .inr (.inl hch)
        · exact .inr (.inr (.inl ⟨t', by dsimp only; rw [there _ _ ht]; exact h⟩))
      · exact .inr (.inr (.inr ⟨t', by dsimp only; rw [there _ _ (fun e => by rw [e, hp] at h; rcases h with ⟨_, h⟩ | h <;> cases h)]; exact h⟩))
    · cases hs
      by_cases hq : q = p
      · subst hq; exact .inr (.inl (if_pos rfl))
      · rcases h with h | h | ⟨t', h⟩ | ⟨t', h⟩
        · exact .inl h
        · exact .inr (.inl (by simp only [upd, if_neg (Ne.symm hq)]; exact h))
        · exact .inr (.inr (.inl ⟨t', by dsimp only; rw [there _ _ (fun e => by rw [e, hp] at h; cases h; exact hq rfl)]; exact h⟩))
        · exact .inr (.inr (.inr ⟨t', by dsimp only; rw [there _ _ (fun e => by rw [e, hp] at h; rcases h with ⟨_, h⟩ | h <;> cases h)]; exact h⟩))
  · rename_i q a hp
    split at hs
    · cases hs
    · cases hs
      rcases h with h | h | ⟨t', h⟩ | ⟨t', h⟩
      · exact .inl h
      · exact .inr (.inl h)
      · exact .inr (.inr (.inl ⟨t', by dsimp only; rw [there _ _ (fun e => by rw [e, hp] at h; cases h)]; exact h⟩))
      · exact .inr (.inr (.inr ⟨t', by dsimp only; rw [there _ _ (fun e => by rw [e, hp] at h; rcases h with ⟨_, h⟩ | h <;> cases h)]; exact h⟩))
  · rename_i q hp
    cases hs
    rcases h with h | h | ⟨t', h⟩ | ⟨t', h⟩
    · exact .inl h
    · exact .inr (.inl h)
    · exact .inr (.inr (.inl ⟨t', by dsimp only; rw [there _ _ (fun e => by rw [e, hp] at h; cases h)]; exact h⟩))
    · exact .inr (.inr (.inr ⟨t', by dsimp only; rw [there _ _ (fun e => by rw [e, hp] at h; rcases h with ⟨_, h⟩ | h <;> cases h)]; exact h⟩))
  · rename_i q hp
    split at hs
    · cases hs
      by_cases hq : q = p
      · subst hq; exact .inr (.inr (.inr ⟨t, .inl ⟨_, here _⟩⟩))
      · rcases h with h | h | ⟨t', h⟩ | ⟨t', h⟩
        · exact .inl h
        · exact .inr (.inl (by simp only [upd, if_neg (Ne.symm hq)]; exact h))
        · exact .inr (.inr (.inl ⟨t', by dsimp only; rw [there _ _ (fun e => by rw [e, hp] at h; cases h)]; exact h⟩))
        · exact .inr (.inr (.inr ⟨t', by dsimp only; rw [there _ _ (fun e => by rw [e, hp] at h; rcases h with ⟨_, h⟩ | h <;> cases h)]; exact h⟩))
    · cases hs
      rcases h with h | h | ⟨t', h⟩ | ⟨t', h⟩
      · exact .inl h
      · exact .inr (.inl h)
      · exact .inr (.inr (.inl ⟨t', by dsimp only; rw [there _ _ (fun e => by rw [e, hp] at h; cases h)]; exact h⟩))
      · exact .inr (.inr (.inr ⟨t', by dsimp only; rw [there _ _ (fun e => by rw [e, hp] at h; rcases h with ⟨_, h⟩ | h <;> cases h)]; exact h⟩))
  · rename_i q a hp
    split at hs
    · cases hs
    · cases hs
      rcases h with h | h | ⟨t', h⟩ | ⟨t', h⟩
      · exact .inl h
      · exact .inr (.inl h)
      · exact .inr (.inr (.inl ⟨t', by dsimp only; rw [there _ _ (fun e => by rw [e, hp] at h; cases h)]; exact h⟩))
      · by_cases ht : t' = t
        · subst ht
          rw [hp] at h
          rcases h with ⟨_, h⟩ | h
          · cases h; exact .inr (.inr (.inr ⟨t', .inl ⟨_, here _⟩⟩))
          · cases h
        · exact .inr (.inr (.inr ⟨t', by dsimp only; rw [there _ _ ht]; exact h⟩))
  · rename_i q hp
    cases hs
    rcases h with h | h | ⟨t', h⟩ | ⟨t', h⟩
    · exact .inl h
    · exact .inr (.inl h)
    · exact .inr (.inr (.inl ⟨t', by dsimp only; rw [there _ _ (fun e => by rw [e, hp] at h; cases h)]; exact h⟩))
    · by_cases ht : t' = t
      · subst ht
        rw [hp] at h
        rcases h with ⟨_, h⟩ | h
        · cases h; exact .inr (.inr (.inr ⟨t', .inr (here _)⟩))
        · cases h
      · exact .inr (.inr (.inr ⟨t', by dsimp only; rw [there _ _ ht]; exact h⟩))
  · rename_i q g hp
    split at hs
    · cases hs
      by_cases hq : q = p ∧ g = true
      · left; simp only [Seen]; rw [if_pos hq]; trivial
      · rcases h with h | h | ⟨t', h⟩ | ⟨t', h⟩
        · left; simp only [Seen]; rw [if_neg hq]; exact h
        · exact .inr (.inl h)
        · exact .inr (.inr (.inl ⟨t', by dsimp only; rw [there _ _ (fun e => by rw [e, hp] at h; cases h)]; exact h⟩))
        · refine .inr (.inr (.inr ⟨t', ?_⟩))
          dsimp only
          rw [there _ _ (fun e => by
            rw [e, hp] at h
            rcases h with ⟨_, h⟩ | h
            · cases h
            · cases h; exact hq ⟨rfl, rfl⟩)]
          exact h
    · cases hs

theorem seen_call (p : Fin m) (s : St m k V) (t : Fin k) (x : Call m V) (h : Seen p s.log ∨ s.changed p = true ∨ Storing s p ∨ Getting s p) :
    Seen p (s.call t x).log ∨ (s.call t x).changed p = true ∨ Storing (s.call t x) p ∨ Getting (s.call t x) p := by
  unfold St.call
  split
  · rename_i hp
    have there : ∀ y t', t' ≠ t → upd s.pc t y t' = s.pc t' := fun x t' h => if_neg h
    cases x <;> (
      rcases h with h | h | ⟨t', h⟩ | ⟨t', h⟩
      · exact .inl h
      · exact .inr (.inl h)
      · exact .inr (.inr (.inl ⟨t', by simp only; rw [there _ _ (fun e => by rw [e, hp] at h; cases h)]; exact h⟩))
      · exact .inr (.inr (.inr ⟨t', by simp only; rw [there _ _ (fun e => by rw [e, hp] at h; rcases h with ⟨_, h⟩ | h <;> cases h)]; exact h⟩)))
  · exact h

/-- C81: no change is lost. At any time, the last value stored in a parameter has been read by a `get`, or the parameter is marked as changed, or a `set` is about to mark it, or a `get` is about to read it. -/
theorem no_lost_change (c : Tree m) (v : Fin m → V) (d : Fin m → Bool) (s : St m k V) (l : List (Move m k V)) (h : (St.init v d).run c l = .ok s) (p : Fin m) :
    Seen p s.log ∨ s.changed p = true ∨ Storing s p ∨ Getting s p :=
  run_inv c (fun s => Seen p s.log ∨ s.changed p = true ∨ Storing s p ∨ Getting s p) (fun s t x => seen_call p s t x) (fun s s' t hi h => seen_step c p s s' t hi h) _ _ l h (.inl trivial)

/-- The value a reader must get after these events -/
def latest (v : Fin m → V) (p : Fin m) : List (Ev m V) → V
  | [] => v p
  | .wrote q x :: l => if q = p then x else latest v p l
  | .got _ _ _ :: l => latest v p l

/-- Every value read is the latest one stored before (newest first) -/
def Faithful (v : Fin m → V) : List (Ev m V) → Prop
  | [] => True
  | .wrote _ _ :: l => Faithful v l
  | .got p x _ :: l => x = latest v p l ∧ Faithful v l

/-- C81: every `get` and every `read` returns the value stored last. -/
theorem read_latest (c : Tree m) (v : Fin m → V) (d : Fin m → Bool) (s : St m k V) (l : List (Move m k V)) (h : (St.init v d).run c l = .ok s) : Faithful v s.log := by
  have key : Faithful v s.log ∧ ∀ p, s.value p = latest v p s.log := by
    refine run_inv c (fun s => Faithful v s.log ∧ ∀ p, s.value p = latest v p s.log) ?_ ?_ _ _ l h ⟨trivial, fun _ => rfl⟩
    · intro s t x hi
      unfold St.call
      split
      · cases x <;> exact hi
      · exact hi
    · intro s s' t hi hs
      unfold St.step at hs
      split at hs
      · cases hs; exact hi
      · rename_i q x hp
        cases hs
        refine ⟨hi.1, fun p => ?_⟩
        simp only [upd, latest]
        by_cases hq : p = q
        · rw [if_pos hq, if_pos hq.symm]
        · rw [if_neg hq, if_neg (Ne.symm hq)]; exact hi.2 p
      · split at hs <;> (cases hs; exact hi)
      · split at hs <;> cases hs; exact hi
      · cases hs; exact hi
      · split at hs <;> (cases hs; exact hi)
      · split at hs <;> cases hs; exact hi
      · cases hs; exact hi
      · split at hs
        · cases hs; exact ⟨⟨hi.2 _, hi.1⟩, hi.2⟩
        · cases hs
  exact key.1

/-- C81: if all parameters have a default value, no assertion fails. -/
theorem no_assertion (c : Tree m) (v : Fin m → V) (l : List (Move m k V)) : (St.init v (fun _ => true)).run c l ≠ .error .undefined := by
  have key : ∀ (l : List (Move m k V)) (s : St m k V), (∀ p, s.defined p = true) → s.run c l ≠ .error .undefined := by
    intro l
    induction l with
    | nil => intro s _ h; cases h
    | cons e l ih =>
      intro s hs
      cases e with
      | call t x =>
        refine ih _ ?_
        unfold St.call
        split
        · cases x <;> exact hs
        · exact hs
      | step t =>
        unfold St.run
        split
        · rename_i e he
          intro h'
          have e' : e = .undefined := by cases h'; rfl
          subst e'
          unfold St.step at he
          split at he
          · cases he
          · cases he
          · split at he <;> cases he
          · split at he
            · rename_i hx
              unfold i32 at hx
              split at hx <;> cases hx
              cases he
            · cases he
          · cases he
          · split at he <;> cases he
          · split at he
            · rename_i hx
              unfold i32 at hx
              split at hx <;> cases hx
              cases he
            · cases he
          · cases he
          · rw [if_pos (hs _)] at he; cases he
        · rename_i s1 h1
          refine ih _ ?_
          unfold St.step at h1
          split at h1
          · cases h1; exact hs
          · cases h1; exact hs
          · split at h1 <;> (cases h1; exact hs)
          · split at h1 <;> cases h1; exact hs
          · cases h1
            intro p
            simp only [upd]
            split
            · rfl
            · exact hs p
          · split at h1 <;> (cases h1; exact hs)
          · split at h1 <;> cases h1; exact hs
          · cases h1; exact hs
          · split at h1 <;> cases h1; exact hs
  exact key l _ (fun _ => rfl)

/-! ### Findings -/

/-- One namespace with two parameters -/
def two : Tree 2 := ⟨fun _ => 0, fun _ => none⟩

theorem two_wf : two.Wf := by intro a b h; cases h

/-- A parameter without default value: the first `set` marks it as changed before it becomes defined. A thread that sees the mark (`parameter_changed`) and gets the value runs into the assertion. -/
theorem first_set_race : ∃ l1 l2 : List (Move 2 2 Nat), ∃ s, (St.init (fun _ => 0) (fun _ => false)).run two l1 = .ok s ∧ s.changed 0 = true ∧ (l2 = [.call 1 (.get 0), .step 1, .step 1, .step 1, .step 1])
    ∧ s.run two l2 = .error .undefined := by
  exact ⟨[.call 0 (.set 0 7), .step 0, .step 0], [.call 1 (.get 0), .step 1, .step 1, .step 1, .step 1], _, rfl, rfl, rfl, rfl⟩

/-- A complete change can be hidden for a while: thread 0 is setting parameter 0, thread 1 gets it before thread 0 has counted it, thread 2 sets parameter 1. Now `contains_changed` is false
although the call that set parameter 1 has returned and nobody got it. -/
theorem hidden_change : ∃ l : List (Move 2 3 Nat), ∃ s, (St.init (fun _ => 0) (fun _ => true)).run two l = .ok s ∧ s.pc 2 = .idle ∧ s.changed 1 = true ∧ Below two 1 0 ∧ s.containsChanged 0 = false := by
  refine ⟨[.call 0 (.set 0 7), .step 0, .step 0, .call 1 (.get 0), .step 1, .step 1, .call 2 (.set 1 8), .step 2, .step 2, .step 2, .step 2], _, rfl, rfl, rfl, .here 0, by decide⟩

/-- The counter can be negative, which `contains_changed` takes for a change. -/
theorem negative_count : ∃ l : List (Move 2 3 Nat), ∃ s, (St.init (fun _ => 0) (fun _ => true)).run two l = .ok s ∧ (∀ p, s.changed p = false) ∧ s.cnt 0 = -1 ∧ s.containsChanged 0 = true := by
  refine ⟨[.call 0 (.set 0 7), .step 0, .step 0, .call 1 (.get 0), .step 1, .step 1], _, rfl, ?_, rfl, by decide⟩
  intro p
  match p with
  | 0 => rfl
  | 1 => rfl

/-- An execution of three threads that ends quietly with one change left in a nested namespace -/
example : ∃ (c : Tree 2) (l : List (Move 2 3 Nat)) (s : St 2 3 Nat), c.Wf ∧ c.parent 1 = some 0 ∧ (St.init (fun _ => 0) (fun _ => true)).run c l = .ok s ∧ s.Quiet ∧ s.cnt 0 = 1 ∧ s.cnt 1 = 1 ∧ s.log = [.wrote 1 8, .got 0 7 true, .wrote 0 7] := by
  refine ⟨⟨fun p => p.val, fun n => if n = 1 then some 0 else none⟩, [.call 0 (.set 0 7), .step 0, .call 1 (.get 0), .step 0, .step 1, .step 1, .step 1, .step 1, .call 2 (.set 1 8), .step 2, .step 0, .step 2, .step 2, .step 2, .step 2, .step 0], _, ?_, rfl, rfl, ?_, rfl, rfl, rfl⟩
  · intro a b h
    simp only at h
    split at h
    · cases h; omega
    · cases h
  · intro t
    match t with
    | 0 => rfl
    | 1 => rfl
    | 2 => rfl

end Verif.Param.Conc
