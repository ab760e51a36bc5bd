import Verif.MotorParams.Model

/-! # Taking over parameters: lemmas -/

namespace Verif.MotorParams

variable {F : Type}

@[simp] theorem upd_same {α β : Type} [DecidableEq α] (f : α → β) (a : α) (b : β) : upd f a b a = b := by simp [upd]

theorem upd_other {α β : Type} [DecidableEq α] (f : α → β) {a x : α} (b : β) (h : x ≠ a) : upd f a b x = f x := by
  simp [upd, h]

/-! ## Copies under interference

`Safe x d p`: while `p` is executed, the variable `d` is a copy of `x` or `x` is marked. `Hole`: the mark of `x` has
been cleared, and `x` is still to be read and copied. `Held v`: `v` has been read since. -/

mutual

def Safe (x : Par) (d : Der) : Prog F → Prop
  | .done => True
  | .changed _ k => ∀ b, Safe x d (k b)
  | .contains _ k => ∀ b, Safe x d (k b)
  | .clear y k => if y = x then Hole x d k else Safe x d k
  | .read _ k => ∀ v, Safe x d (k v)
  | .assign e _ k => e ≠ d ∧ Safe x d k
  | .load _ k => ∀ v, Safe x d (k v)

def Hole (x : Par) (d : Der) : Prog F → Prop
  | .done => False
  | .changed _ k => ∀ b, Hole x d (k b)
  | .contains _ k => ∀ b, Hole x d (k b)
  | .clear _ k => Hole x d k
  | .read y k => ∀ v, if y = x then Held x d v (k v) else Hole x d (k v)
  | .assign e _ k => e ≠ d ∧ Hole x d k
  | .load _ k => ∀ v, Hole x d (k v)

def Held (x : Par) (d : Der) (v : F) : Prog F → Prop
  | .done => False
  | .changed _ k => ∀ b, Held x d v (k b)
  | .contains _ k => ∀ b, Held x d v (k b)
  | .clear y k => y ≠ x ∧ Held x d v k
  | .read _ k => ∀ w, Held x d v (k w)
  | .assign e w k => if e = d then w = v ∧ Safe x d k else Held x d v k
  | .load _ k => ∀ w, Held x d v (k w)

end

theorem safe_seq (x : Par) (d : Der) (p q : Prog F) (hq : Safe x d q) :
    (Safe x d p → Safe x d (p.seq q)) ∧ (Hole x d p → Hole x d (p.seq q)) ∧
      (∀ v, Held x d v p → Held x d v (p.seq q)) := by
  induction p with
  | done => exact ⟨fun _ => hq, fun h => h.elim, fun _ h => h.elim⟩
  | changed y k ih =>
    exact ⟨fun h b => (ih b).1 (h b), fun h b => (ih b).2.1 (h b), fun v h b => (ih b).2.2 v (h b)⟩
  | contains n k ih =>
    exact ⟨fun h b => (ih b).1 (h b), fun h b => (ih b).2.1 (h b), fun v h b => (ih b).2.2 v (h b)⟩
  | clear y k ih =>
    refine ⟨fun h => ?_, fun h => ih.2.1 h, fun v h => ⟨h.1, ih.2.2 v h.2⟩⟩
    unfold Safe at h
    unfold Prog.seq Safe
    split
    · next e => rw [if_pos e] at h; exact ih.2.1 h
    · next e => rw [if_neg e] at h; exact ih.1 h
  | read y k ih =>
    refine ⟨fun h v => (ih v).1 (h v), fun h v => ?_, fun v h w => (ih w).2.2 v (h w)⟩
    unfold Hole at h
    have hv := h v
    split
    · next e => rw [if_pos e] at hv; exact (ih v).2.2 v hv
    · next e => rw [if_neg e] at hv; exact (ih v).2.1 hv
  | assign e w k ih =>
    refine ⟨fun h => ⟨h.1, ih.1 h.2⟩, fun h => ⟨h.1, ih.2.1 h.2⟩, fun v h => ?_⟩
    unfold Held at h
    unfold Prog.seq Held
    split
    · next e => rw [if_pos e] at h; exact ⟨h.1, ih.1 h.2⟩
    · next e => rw [if_neg e] at h; exact ih.2.2 v h
  | load e k ih =>
    exact ⟨fun h w => (ih w).1 (h w), fun h w => (ih w).2.1 (h w), fun v h w => (ih w).2.2 v (h w)⟩

theorem Safe.seq {x : Par} {d : Der} {p q : Prog F} (hp : Safe x d p) (hq : Safe x d q) : Safe x d (p.seq q) :=
  (safe_seq x d p q hq).1 hp

/-- The value held is the value of the parameter, unless it is marked or being set. -/
def Fresh (x : Par) (v : F) (s : State F) : Prop := s.val x = v ∨ s.changed x = true ∨ 0 < s.setting x

theorem fresh_env {x : Par} {v : F} {s s' : State F} (h : Fresh x v s) (he : Env s s') : Fresh x v s' := by
  cases he with
  | store y w =>
    by_cases hy : x = y
    · exact Or.inr (Or.inr (by simp [hy]))
    · rcases h with h | h | h
      · exact Or.inl (by simpa [upd_other _ _ hy] using h)
      · exact Or.inr (Or.inl h)
      · exact Or.inr (Or.inr (by simpa [upd_other _ _ hy] using h))
  | mark y hs =>
    by_cases hy : x = y
    · exact Or.inr (Or.inl (by simp [hy]))
    · rcases h with h | h | h
      · exact Or.inl h
      · exact Or.inr (Or.inl (by simpa [upd_other _ _ hy] using h))
      · exact Or.inr (Or.inr (by simpa [upd_other _ _ hy] using h))

theorem env_der {s s' : State F} (he : Env s s') : s'.der = s.der := by cases he <;> rfl

/-- What holds of program and state for a copy. -/
def CopyInv (x : Par) (d : Der) (p : Prog F) (s : State F) : Prop :=
  (Safe x d p ∧ Fresh x (s.der d) s) ∨ Hole x d p ∨ ∃ v, Held x d v p ∧ Fresh x v s

theorem fresh_congr {x : Par} {v : F} {s s' : State F} (h : Fresh x v s) (h1 : s'.val x = s.val x)
    (h2 : s'.changed x = s.changed x) (h3 : s'.setting x = s.setting x) : Fresh x v s' := by
  unfold Fresh; rw [h1, h2, h3]; exact h

theorem copyInv_env {x : Par} {d : Der} {p : Prog F} {s s' : State F} (h : CopyInv x d p s) (he : Env s s') :
    CopyInv x d p s' := by
  rcases h with ⟨h1, h2⟩ | h | ⟨v, h1, h2⟩
  · exact Or.inl ⟨h1, by rw [env_der he]; exact fresh_env h2 he⟩
  · exact Or.inr (Or.inl h)
  · exact Or.inr (Or.inr ⟨v, h1, fresh_env h2 he⟩)

theorem copyInv_act {x : Par} {d : Der} {p p' : Prog F} {s s' : State F} (h : CopyInv x d p s) (ha : Act p s p' s') :
    CopyInv x d p' s' := by
  rcases h with ⟨h1, h2⟩ | h | ⟨v, h1, h2⟩
  · cases ha with
    | changed _ y k => exact Or.inl ⟨h1 _, h2⟩
    | contains _ n k b => exact Or.inl ⟨h1 _, h2⟩
    | clear _ y k =>
      unfold Safe at h1
      split at h1
      · exact Or.inr (Or.inl h1)
      · next e => exact Or.inl ⟨h1, fresh_congr h2 rfl (by simp [upd_other _ _ (Ne.symm e)]) rfl⟩
    | read _ y k => exact Or.inl ⟨h1 _, h2⟩
    | assign _ e v k =>
      refine Or.inl ⟨h1.2, ?_⟩
      have : upd s.der e v d = s.der d := upd_other _ _ (Ne.symm h1.1)
      simp only [this]; exact h2
    | load _ e k => exact Or.inl ⟨h1 _, h2⟩
  · cases ha with
    | changed _ y k => exact Or.inr (Or.inl (h _))
    | contains _ n k b => exact Or.inr (Or.inl (h _))
    | clear _ y k => exact Or.inr (Or.inl h)
    | read _ y k =>
      unfold Hole at h
      have hv := h (s.val y)
      split at hv
      · next e => exact Or.inr (Or.inr ⟨_, hv, Or.inl (by rw [e])⟩)
      · exact Or.inr (Or.inl hv)
    | assign _ e v k => exact Or.inr (Or.inl h.2)
    | load _ e k => exact Or.inr (Or.inl (h _))
  · cases ha with
    | changed _ y k => exact Or.inr (Or.inr ⟨v, h1 _, h2⟩)
    | contains _ n k b => exact Or.inr (Or.inr ⟨v, h1 _, h2⟩)
    | clear _ y k =>
      exact Or.inr (Or.inr ⟨v, h1.2, fresh_congr h2 rfl (by simp [upd_other _ _ (Ne.symm h1.1)]) rfl⟩)
    | read _ y k => exact Or.inr (Or.inr ⟨v, h1 _, h2⟩)
    | assign _ e w k =>
      unfold Held at h1
      split at h1
      · next ed =>
        refine Or.inl ⟨h1.2, ?_⟩
        have : upd s.der e w d = v := by rw [ed, upd_same]; exact h1.1
        simp only [this]; exact h2
      · exact Or.inr (Or.inr ⟨v, h1, h2⟩)
    | load _ e k => exact Or.inr (Or.inr ⟨v, h1 _, h2⟩)

theorem copyInv_steps {x : Par} {d : Der} {p q : Prog F} {s r : State F} (h : CopyInv x d p s) (hs : Steps p s q r) :
    CopyInv x d q r := by
  induction hs with
  | refl => exact h
  | env he _ ih => exact ih (copyInv_env h he)
  | act ha _ ih => exact ih (copyInv_act h ha)

theorem safe_ifChanged {x : Par} {d : Der} (y : Par) {p : Prog F} (h : Safe x d p) : Safe x d (Prog.ifChanged y p) := by
  intro b; cases b
  · exact True.intro
  · exact h

theorem safe_ifContains {x : Par} {d : Der} (n : Ns) {p : Prog F} (h : Safe x d p) : Safe x d (Prog.ifContains n p) := by
  intro b; cases b
  · exact True.intro
  · exact h

/-! ## Uninterrupted passes -/

theorem exec_seq (p q : Prog F) (s : State F) : exec (p.seq q) s = exec q (exec p s) := by
  induction p generalizing s with
  | done => rfl
  | changed x k ih => exact ih _ _
  | contains n k ih => exact ih _ _
  | clear x k ih => exact ih _
  | read x k ih => exact ih _ _
  | assign d v k ih => exact ih _
  | load d k ih => exact ih _ _

theorem exec_val (p : Prog F) (s : State F) : (exec p s).val = s.val := by
  induction p generalizing s with
  | done => rfl
  | changed x k ih => exact ih _ _
  | contains n k ih => exact ih _ _
  | clear x k ih => exact ih _
  | read x k ih => exact ih _ _
  | assign d v k ih => exact ih _
  | load d k ih => exact ih _ _

theorem exec_setting (p : Prog F) (s : State F) : (exec p s).setting = s.setting := by
  induction p generalizing s with
  | done => rfl
  | changed x k ih => exact ih _ _
  | contains n k ih => exact ih _ _
  | clear x k ih => exact ih _
  | read x k ih => exact ih _ _
  | assign d v k ih => exact ih _
  | load d k ih => exact ih _ _

/-- Marks are only cleared. -/
theorem exec_changed (p : Prog F) (s : State F) (x : Par) (h : s.changed x = false) : (exec p s).changed x = false := by
  induction p generalizing s with
  | done => exact h
  | changed y k ih => exact ih _ _ h
  | contains n k ih => exact ih _ _ h
  | clear y k ih =>
    refine ih _ ?_
    by_cases e : x = y
    · rw [e]; exact upd_same ..
    · exact (upd_other _ _ e).trans h
  | read y k ih => exact ih _ _ h
  | assign d v k ih => exact ih _ h
  | load d k ih => exact ih _ _ h

/-- `p` never clears the mark of `x`. -/
def NoClear (x : Par) : Prog F → Prop
  | .done => True
  | .changed _ k => ∀ b, NoClear x (k b)
  | .contains _ k => ∀ b, NoClear x (k b)
  | .clear y k => y ≠ x ∧ NoClear x k
  | .read _ k => ∀ v, NoClear x (k v)
  | .assign _ _ k => NoClear x k
  | .load _ k => ∀ v, NoClear x (k v)

theorem noClear_exec {x : Par} {p : Prog F} (h : NoClear x p) (s : State F) :
    (exec p s).changed x = s.changed x := by
  induction p generalizing s with
  | done => rfl
  | changed y k ih => exact ih _ (h _) _
  | contains n k ih => exact ih _ (h _) _
  | clear y k ih => exact (ih h.2 _).trans (upd_other _ _ (Ne.symm h.1))
  | read y k ih => exact ih _ (h _) _
  | assign d v k ih => exact ih h _
  | load d k ih => exact ih _ (h _) _

theorem NoClear.seq {x : Par} {p q : Prog F} (hp : NoClear x p) (hq : NoClear x q) : NoClear x (p.seq q) := by
  induction p with
  | done => exact hq
  | changed y k ih => exact fun b => ih b (hp b)
  | contains n k ih => exact fun b => ih b (hp b)
  | clear y k ih => exact ⟨hp.1, ih hp.2⟩
  | read y k ih => exact fun v => ih v (hp v)
  | assign d v k ih => exact ih hp
  | load d k ih => exact fun v => ih v (hp v)

/-- `p` leaves the variable `d` alone. -/
def NoAssign (d : Der) : Prog F → Prop
  | .done => True
  | .changed _ k => ∀ b, NoAssign d (k b)
  | .contains _ k => ∀ b, NoAssign d (k b)
  | .clear _ k => NoAssign d k
  | .read _ k => ∀ v, NoAssign d (k v)
  | .assign e _ k => e ≠ d ∧ NoAssign d k
  | .load _ k => ∀ v, NoAssign d (k v)

theorem noAssign_exec {d : Der} {p : Prog F} (h : NoAssign d p) (s : State F) : (exec p s).der d = s.der d := by
  induction p generalizing s with
  | done => rfl
  | changed y k ih => exact ih _ (h _) _
  | contains n k ih => exact ih _ (h _) _
  | clear y k ih => exact ih h _
  | read y k ih => exact ih _ (h _) _
  | assign e v k ih => exact (ih h.2 _).trans (upd_other _ _ (Ne.symm h.1))
  | load e k ih => exact ih _ (h _) _

theorem NoAssign.seq {d : Der} {p q : Prog F} (hp : NoAssign d p) (hq : NoAssign d q) : NoAssign d (p.seq q) := by
  induction p with
  | done => exact hq
  | changed y k ih => exact fun b => ih b (hp b)
  | contains n k ih => exact fun b => ih b (hp b)
  | clear y k ih => exact ih hp
  | read y k ih => exact fun v => ih v (hp v)
  | assign e v k ih => exact ⟨hp.1, ih hp.2⟩
  | load e k ih => exact fun v => ih v (hp v)

/-- `p`, started with `x` marked and not interrupted, clears the mark. -/
def Clears (x : Par) (p : Prog F) : Prop := ∀ s : State F, (exec p s).changed x = false

theorem Clears.before {x : Par} {p q : Prog F} (h : Clears x p) : Clears x (p.seq q) := by
  intro s; rw [exec_seq]; exact exec_changed q _ x (h s)

theorem Clears.after {x : Par} {p q : Prog F} (h : Clears x q) : Clears x (p.seq q) := by
  intro s; rw [exec_seq]; exact h _

theorem mem_allPars (x : Par) : x ∈ allPars := by
  cases x with
  | kp l => cases l <;> decide
  | ki l => cases l <;> decide
  | kd l => cases l <;> decide
  | iLimit l => cases l <;> decide
  | _ => decide

theorem contains_of {s : State F} {x : Par} {n : Ns} (h : s.changed x = true) (hn : x.inNs n = true) :
    s.contains n = true := by
  unfold State.contains
  rw [List.any_eq_true]
  exact ⟨x, mem_allPars x, by simp [h, hn]⟩

theorem clears_ifContains {x : Par} {n : Ns} {p : Prog F} (hn : x.inNs n = true) (h : Clears x p) :
    Clears x (Prog.ifContains n p) := by
  intro s
  show (exec (if s.contains n then p else Prog.done) s).changed x = false
  by_cases hx : s.changed x = true
  · rw [contains_of hx hn, if_pos rfl]; exact h s
  · have hx : s.changed x = false := by simpa using hx
    exact exec_changed _ s x hx

theorem clears_ifChanged {x : Par} {p : Prog F} (h : Clears x p) : Clears x (Prog.ifChanged x p) := by
  intro s
  show (exec (if s.changed x then p else Prog.done) s).changed x = false
  by_cases hx : s.changed x = true
  · rw [hx, if_pos rfl]; exact h s
  · have hx : s.changed x = false := by simpa using hx
    exact exec_changed _ s x hx

theorem clears_clear (x : Par) (k : Prog F) : Clears x (Prog.clear x k) :=
  fun s => exec_changed k _ x (upd_same ..)

theorem clears_skip {x : Par} (y : Par) {k : F → Prog F} (h : ∀ v, Clears x (k v)) : Clears x (Prog.get y k) :=
  fun s => h _ _

theorem clears_get (x : Par) (k : F → Prog F) : Clears x (Prog.get x k) := clears_clear x _

theorem clears_load {x : Par} (d : Der) {k : F → Prog F} (h : ∀ v, Clears x (k v)) : Clears x (Prog.load d k) :=
  fun s => h _ s

theorem clears_assign {x : Par} (d : Der) (v : F) {k : Prog F} (h : Clears x k) : Clears x (Prog.assign d v k) :=
  fun s => h _

end Verif.MotorParams
