import Verif.Locks.Lemmas

/-! Lemmas on exclusion, on the end of runs and on the management of lines. -/

namespace Verif.Locks

section
variable {L : Type} [DecidableEq L]

/-- A lock held for writing is held by nobody else. -/
def Exclusive (s : State L) : Prop :=
  ∀ (i j : Nat) (t u : Th L) (l : L) (m : Mode), s[i]? = some t → s[j]? = some u → i ≠ j → (l, Mode.write) ∈ t.held → (l, m) ∉ u.held

theorem exclusive_step {s s' : State L} {b} (h : Step b s s') (he : Exclusive s) : Exclusive s' := by
  cases h with
  | @acq _ i l m p h w hi hf =>
    intro a c t u l' m' ha hc hac ht hu
    have hil : i < s.length := by
      rcases Nat.lt_or_ge i s.length with h | h
      · exact h
      · rw [List.getElem?_eq_none h] at hi; cases hi
    rw [List.getElem?_set] at ha hc
    by_cases h1 : i = a
    · subst h1
      rw [if_pos rfl, if_pos hil] at ha
      rw [if_neg hac] at hc
      cases ha
      simp only [List.mem_cons, Prod.mk.injEq] at ht
      rcases ht with ⟨rfl, hm⟩ | ht
      · subst hm; exact hf u (List.mem_of_getElem? hc) _ hu
      · exact he _ _ _ _ _ _ hi hc hac ht hu
    · rw [if_neg h1] at ha
      by_cases h2 : i = c
      · subst h2
        rw [if_pos rfl, if_pos hil] at hc
        cases hc
        simp only [List.mem_cons, Prod.mk.injEq] at hu
        rcases hu with ⟨rfl, rfl⟩ | hu
        · cases m' with
          | write => exact hf t (List.mem_of_getElem? ha) _ ht
          | read => exact hf.1 t (List.mem_of_getElem? ha) ht
        · exact he _ _ _ _ _ _ ha hi hac ht hu
      · rw [if_neg h2] at hc
        exact he _ _ _ _ _ _ ha hc hac ht hu
  | @rel _ i l p h w hi hf =>
    intro a c t u l' m' ha hc hac ht hu
    have hil : i < s.length := by
      rcases Nat.lt_or_ge i s.length with h | h
      · exact h
      · rw [List.getElem?_eq_none h] at hi; cases hi
    rw [List.getElem?_set] at ha hc
    by_cases h1 : i = a
    · subst h1
      rw [if_pos rfl, if_pos hil] at ha
      rw [if_neg hac] at hc
      cases ha
      exact he _ _ _ _ _ _ hi hc hac (List.mem_of_mem_eraseP ht) hu
    · rw [if_neg h1] at ha
      by_cases h2 : i = c
      · subst h2
        rw [if_pos rfl, if_pos hil] at hc
        cases hc
        exact he _ _ _ _ _ _ ha hi hac ht (List.mem_of_mem_eraseP hu)
      · rw [if_neg h2] at hc
        exact he _ _ _ _ _ _ ha hc hac ht hu
  | @queue _ i l m p h hi hf =>
    intro a c t u l' m' ha hc hac ht hu
    have hil : i < s.length := by
      rcases Nat.lt_or_ge i s.length with h | h
      · exact h
      · rw [List.getElem?_eq_none h] at hi; cases hi
    rw [List.getElem?_set] at ha hc
    by_cases h1 : i = a
    · subst h1
      rw [if_pos rfl, if_pos hil] at ha
      rw [if_neg hac] at hc
      cases ha
      exact he _ _ _ _ _ _ hi hc hac ht hu
    · rw [if_neg h1] at ha
      by_cases h2 : i = c
      · subst h2
        rw [if_pos rfl, if_pos hil] at hc
        cases hc
        exact he _ _ _ _ _ _ ha hi hac ht hu
      · rw [if_neg h2] at hc
        exact he _ _ _ _ _ _ ha hc hac ht hu

/-- Steps still possible: two for an operation, one if its thread is queued. -/
def Th.left (t : Th L) : Nat := 2 * t.prog.length - (if t.waiting then 1 else 0)

def left (s : State L) : Nat := (s.map Th.left).sum

omit [DecidableEq L] in
theorem left_set : ∀ {s : State L} {i : Nat} {t u : Th L}, s[i]? = some t → u.left < t.left → left (s.set i u) < left s := by
  intro s
  induction s with
  | nil => intro i t u h; simp at h
  | cons a s ih =>
    intro i t u h hl
    cases i with
    | zero =>
      simp only [List.getElem?_cons_zero, Option.some.injEq] at h
      subst h
      simp only [left, List.set_cons_zero, List.map_cons, List.sum_cons]
      omega
    | succ i =>
      simp only [List.getElem?_cons_succ] at h
      have := ih h hl
      simp only [left, List.set_cons_succ, List.map_cons, List.sum_cons] at this ⊢
      omega

theorem left_step {s s' : State L} {b} (h : Step b s s') : left s' < left s := by
  cases h with
  | @acq _ i l m p h w hi hf =>
    refine left_set hi ?_
    cases w <;> simp only [Th.left, List.length_cons, if_true, if_false, Bool.false_eq_true] <;> omega
  | @rel _ i l p h w hi hf =>
    refine left_set hi ?_
    cases w <;> simp only [Th.left, List.length_cons, if_true, if_false, Bool.false_eq_true] <;> omega
  | @queue _ i l m p h hi hf =>
    refine left_set hi ?_
    simp only [Th.left, List.length_cons, if_true, if_false, Bool.false_eq_true]; omega

theorem Reach.trans {a b c : State L} (h1 : Reach a b) (h2 : Reach b c) : Reach a c := by
  induction h2 with
  | init => exact h1
  | step _ hs ih => exact .step ih hs

/-- If no reachable state is a deadlock, every reachable state can be finished. -/
theorem can_finish {s : State L} (h : ∀ s', Reach s s' → ¬Deadlock s') : ∃ s', Reach s s' ∧ Done s' := by
  generalize hn : left s = n
  induction n using Nat.strongRecOn generalizing s with
  | _ n ih =>
    by_cases hd : Done s
    · exact ⟨s, .init, hd⟩
    · have : ∃ s', Step true s s' := by
        refine Classical.byContradiction fun hc => h s .init ⟨hd, fun s' hs => hc ⟨s', hs⟩⟩
      obtain ⟨s1, hs1⟩ := this
      have hl := left_step hs1
      obtain ⟨s', hr, hd'⟩ := ih (left s1) (by omega) (fun s' hr => h s' (Reach.trans (.step .init hs1) hr)) rfl
      exact ⟨s', Reach.trans (.step .init hs1) hr, hd'⟩

end

/-- The discipline that is enough for lines: the order, except for a second reading of the position while the robot and the trajectory are held; the position is
written only with the robot or the trajectory. -/
def Guarded : List (Lock × Mode) → Prog → Prop
  | h, [] => h = []
  | h, .acq l m :: p =>
    ((∀ e ∈ h, rank e.1 < rank l) ∨
      (l = .pos ∧ m = .read ∧ (Lock.pos, Mode.write) ∉ h ∧ (Lock.pos, Mode.read) ∈ h ∧ (Lock.robot, Mode.write) ∈ h ∧ (Lock.traj, Mode.write) ∈ h)) ∧
    (l = .pos → m = .write → (Lock.robot, Mode.write) ∈ h ∨ (Lock.traj, Mode.write) ∈ h) ∧ Guarded ((l, m) :: h) p
  | h, .rel l :: p => l ∈ h.map Prod.fst ∧ Guarded (h.eraseP (fun e => e.1 = l)) p

theorem guarded_step {s s' : State Lock} {b} (h : Step b s s') (ho : ∀ t ∈ s, Guarded t.held t.prog) : ∀ t ∈ s', Guarded t.held t.prog := by
  cases h with
  | acq hi hf =>
    intro t ht
    rcases List.mem_or_eq_of_mem_set ht with h1 | h1
    · exact ho t h1
    · subst h1; exact (ho _ (List.mem_of_getElem? hi)).2.2
  | rel hi hf =>
    intro t ht
    rcases List.mem_or_eq_of_mem_set ht with h1 | h1
    · exact ho t h1
    · subst h1; exact (ho _ (List.mem_of_getElem? hi)).2
  | queue hi hf =>
    intro t ht
    rcases List.mem_or_eq_of_mem_set ht with h1 | h1
    · exact ho t h1
    · subst h1; have := ho _ (List.mem_of_getElem? hi); exact this

theorem guarded_no_deadlock {s : State Lock} (he : Exclusive s) (ho : ∀ t ∈ s, Guarded t.held t.prog) : ¬Deadlock s := by
  refine no_cycle rank_lt ?_ ?_ ?_
  · intro t ht h0
    have := ho t ht
    rw [h0] at this
    exact this
  · intro t ht l p hp
    have := ho t ht
    rw [hp] at this
    exact this.1
  · intro t ht l m p hp hnf
    have h := ho t ht
    rw [hp] at h
    rcases h.1 with h1 | ⟨rfl, rfl, hnw, hr, hrob, htraj⟩
    · exact h1
    · exfalso
      obtain ⟨i, hi⟩ := List.getElem?_of_mem ht
      refine hnf ⟨?_, ?_⟩
      · intro u hu hw
        obtain ⟨j, hj⟩ := List.getElem?_of_mem hu
        by_cases hij : i = j
        · subst hij; rw [hi] at hj; cases hj; exact hnw hw
        · exact he _ _ _ _ _ _ hj hi (Ne.symm hij) hw hr
      · intro u hu ⟨_, hhd⟩
        obtain ⟨j, hj⟩ := List.getElem?_of_mem hu
        have hij : i ≠ j := by
          rintro rfl
          rw [hi] at hj
          cases hj
          rw [hp] at hhd
          simp at hhd
        have hgu := ho u hu
        cases hup : u.prog with
        | nil => rw [hup] at hhd; cases hhd
        | cons o q =>
          rw [hup] at hhd hgu
          simp only [List.head?_cons, Option.some.injEq] at hhd
          subst hhd
          rcases hgu.2.1 rfl rfl with h | h
          · exact he _ _ _ _ _ _ hi hj hij hrob h
          · exact he _ _ _ _ _ _ hi hj hij htraj h

/-- A program that respects the order can be run with the map or the robot held, if it writes the position only with the robot. -/
theorem guarded_under {c : List (Lock × Mode)} (hc : ∀ e ∈ c, rank e.1 < 2) {h : List (Lock × Mode)} {p q : Prog}
    (hh : ∀ e ∈ h, 2 ≤ rank e.1) (hp : Ordered rank h p) (ha : Above rank 2 p)
    (hw : (Lock.robot, Mode.write) ∈ c ∨ Op.acq Lock.pos Mode.write ∉ p) (hq : Guarded c q) : Guarded (h ++ c) (p ++ q) := by
  induction p generalizing h with
  | nil => simp only [Ordered] at hp; subst hp; exact hq
  | cons o p ih =>
    have hw' : (Lock.robot, Mode.write) ∈ c ∨ Op.acq Lock.pos Mode.write ∉ p := by
      rcases hw with hw | hw
      · exact .inl hw
      · exact .inr fun hm => hw (by simp [hm])
    cases o with
    | acq l m =>
      have hl := ha l m (by simp)
      refine ⟨.inl ?_, ?_, ih (h := (l, m) :: h) ?_ hp.2 (fun l' m' hm => ha l' m' (by simp [hm])) hw'⟩
      · intro e he
        rcases List.mem_append.1 he with he | he
        · exact hp.1 e he
        · have := hc e he; omega
      · rintro rfl rfl
        rcases hw with hw | hw
        · exact .inl (List.mem_append.2 (.inr hw))
        · exact absurd (by simp) hw
      · intro e he
        rcases List.mem_cons.1 he with he | he
        · subst he; exact hl
        · exact hh e he
    | rel l =>
      obtain ⟨hl, hp⟩ := hp
      refine ⟨by simp only [List.map_append, List.mem_append]; exact .inl hl, ?_⟩
      have hfil : (h ++ c).eraseP (fun e => e.1 = l) = h.eraseP (fun e => e.1 = l) ++ c := by
        obtain ⟨e, he, hel⟩ := List.mem_map.1 hl
        exact List.eraseP_append_left (by simpa using hel) _ he
      rw [hfil]
      refine ih ?_ hp (fun l' m' hm => ha l' m' (by simp [hm])) hw'
      intro e he
      exact hh e (List.mem_of_mem_eraseP he)

/-- With the robot held every part is fine. -/
theorem part_robot {c : List (Lock × Mode)} (hc : ∀ e ∈ c, rank e.1 < 2) (hr : (Lock.robot, Mode.write) ∈ c) (p : Part) {q : Prog} (hq : Guarded c q) :
    Guarded c (p.ops ++ q) := by
  by_cases h : p = .manage true
  · subst h
    have hpos : (Lock.pos, Mode.write) ∉ c := fun hm => by have := hc _ hm; exact absurd this (by decide)
    have htr : ∀ e ∈ c, rank e.1 < rank Lock.traj := hc
    have hps : ∀ e ∈ (Lock.traj, Mode.write) :: c, rank e.1 < rank Lock.pos := by
      intro e he
      rcases List.mem_cons.1 he with he | he
      · subst he; decide
      · have := hc e he; have h3 : rank Lock.pos = 3 := rfl; omega
    have hnest : (Lock.pos, Mode.write) ∉ (Lock.pos, Mode.read) :: (Lock.traj, Mode.write) :: c := by simp [hpos]
    refine ⟨.inl htr, by simp, .inl hps, by simp, ?_⟩
    refine ⟨.inr ⟨rfl, rfl, hnest, by simp, by simp [hr], by simp⟩, by simp, by simp, ?_⟩
    simp only [decide_true, List.eraseP_cons_of_pos]
    refine ⟨.inr ⟨rfl, rfl, hnest, by simp, by simp [hr], by simp⟩, by simp, by simp, ?_⟩
    simp only [decide_true, List.eraseP_cons_of_pos]
    refine ⟨by simp, ?_⟩
    simp only [decide_true, List.eraseP_cons_of_pos]
    refine ⟨by simp, ?_⟩
    simp only [decide_true, List.eraseP_cons_of_pos]
    exact hq
  · exact guarded_under hc (h := []) (by simp) (part_ok p h).1 (part_ok p h).2 (.inl hr) hq

/-- Without it, every part but the two that write the position or nest. -/
theorem part_bare {c : List (Lock × Mode)} (hc : ∀ e ∈ c, rank e.1 < 2) {p : Part} (h1 : p ≠ .manage true) (h2 : p ≠ .posSet) {q : Prog} (hq : Guarded c q) :
    Guarded c (p.ops ++ q) := by
  have hrep : ∀ n (l : Lock) (m : Mode), (l, m) ≠ (Lock.pos, Mode.write) → Op.acq Lock.pos Mode.write ∉ (List.replicate n (scope l m [])).flatten := by
    intro n l m hne hm
    obtain ⟨x, hx, hm⟩ := List.mem_flatten.1 hm
    rw [List.eq_of_mem_replicate hx] at hm
    simp only [scope, List.cons_append, List.nil_append, List.mem_cons, Op.acq.injEq, reduceCtorEq, List.not_mem_nil, or_false] at hm
    exact hne (by rw [← hm.1, ← hm.2])
  have hsc : ∀ (l : Lock) (m : Mode) (b : Prog), (l, m) ≠ (Lock.pos, Mode.write) → Op.acq Lock.pos Mode.write ∉ b → Op.acq Lock.pos Mode.write ∉ scope l m b := by
    intro l m b hne hb hm
    simp only [scope, List.cons_append, List.mem_cons, Op.acq.injEq, List.mem_append, List.not_mem_nil, or_false, reduceCtorEq] at hm
    rcases hm with hm | hm
    · exact hne (by rw [← hm.1, ← hm.2])
    · exact hb hm
  by_cases hcmd : p = .command
  · subst hcmd
    have hps : ∀ e ∈ (Lock.traj, Mode.write) :: c, rank e.1 < rank Lock.pos := by
      intro e he
      rcases List.mem_cons.1 he with he | he
      · subst he; decide
      · have := hc e he; have h3 : rank Lock.pos = 3 := rfl; omega
    refine ⟨.inl hc, by simp, .inl hps, by simp, by simp, ?_⟩
    simp only [decide_true, List.eraseP_cons_of_pos]
    refine ⟨by simp, ?_⟩
    simp only [decide_true, List.eraseP_cons_of_pos]
    exact hq
  · refine guarded_under hc (h := []) (by simp) (part_ok p h1).1 (part_ok p h1).2 (.inr ?_) hq
    have hnil : Op.acq Lock.pos Mode.write ∉ ([] : Prog) := by simp
    cases p with
    | posGet => exact hsc _ _ _ (by decide) hnil
    | posSet => exact absurd rfl h2
    | command => exact absurd rfl hcmd
    | trajOnly => exact hsc _ _ _ (by decide) hnil
    | gotoRel n => exact hsc _ _ _ (by decide) (hrep _ _ _ (by decide))
    | circleRel => exact hsc _ _ _ (by decide) (hsc _ _ _ (by decide) hnil)
    | manage b =>
      cases b with
      | false => exact hsc _ _ _ (by decide) (hsc _ _ _ (by decide) hnil)
      | true => exact absurd rfl h1
    | bdGet b => cases b <;> exact hsc _ _ _ (by decide) hnil
    | bdSet b => cases b <;> exact hsc _ _ _ (by decide) hnil
    | crosses =>
      intro hm
      rcases List.mem_append.1 hm with hm | hm
      · exact hrep _ _ _ (by decide) hm
      · exact hsc _ _ _ (by decide) (hrep _ _ _ (by decide)) hm
    | game => exact hsc _ _ _ (by decide) hnil
    | param => exact hsc _ _ _ (by decide) hnil
    | find => exact hsc _ _ _ (by decide) hnil
    | topicRead => exact hsc _ _ _ (by decide) hnil
    | publish n => exact hsc _ _ _ (by decide) (hrep _ _ _ (by decide))
    | watch => exact hsc _ _ _ (by decide) (hsc _ _ _ (by decide) hnil)
    | mapSet => exact hsc _ _ _ (by decide) hnil

theorem parts_robot {c : List (Lock × Mode)} (hc : ∀ e ∈ c, rank e.1 < 2) (hr : (Lock.robot, Mode.write) ∈ c) (ps : List Part) {q : Prog} (hq : Guarded c q) :
    Guarded c ((ps.map Part.ops).flatten ++ q) := by
  induction ps with
  | nil => exact hq
  | cons p ps ih =>
    rw [List.map_cons, List.flatten_cons, List.append_assoc]
    exact part_robot hc hr p ih

end Verif.Locks
