import Verif.Locks.LineLemmas

/-! Properties of the locks of the base. -/

namespace Verif.Locks

/-! ## Any program -/

/-- **Exclusion.** Whatever the programs, a lock held for writing is held by no other thread, for reading or for writing. -/
theorem exclusion {L : Type} [DecidableEq L] (ps : List (List (Op L))) {s : State L} (h : Reach (start ps) s) {i j : Nat} {t u : Th L} {l : L} {m : Mode}
    (hi : s[i]? = some t) (hj : s[j]? = some u) (hij : i ≠ j) (ht : (l, Mode.write) ∈ t.held) : (l, m) ∉ u.held := by
  have : Exclusive s := by
    clear hi hj hij ht
    induction h with
    | init =>
      intro i j t u l m hi _ _ ht
      simp only [start, List.getElem?_map, Option.map_eq_some_iff] at hi
      obtain ⟨p, _, rfl⟩ := hi
      cases ht
    | step _ hs ih => exact exclusive_step hs ih
  exact this i j t u l m hi hj hij ht

/-- Several threads can hold a lock for reading. -/
theorem readers_share : ∃ (s : State Lock) (t u : Th Lock), Reach (start [Part.posGet.ops, Part.posGet.ops]) s ∧ s[0]? = some t ∧ s[1]? = some u ∧
    (Lock.pos, Mode.read) ∈ t.held ∧ (Lock.pos, Mode.read) ∈ u.held := by
  refine ⟨[⟨[.rel .pos], [(.pos, .read)], false⟩, ⟨[.rel .pos], [(.pos, .read)], false⟩], _, _, ?_, rfl, rfl, by simp, by simp⟩
  refine .step (.step .init (Step.acq (i := 0) rfl ?_)) (Step.acq (i := 1) rfl ?_)
  · constructor <;> intro t ht <;> simp only [start, List.map_cons, List.map_nil, List.mem_cons, List.not_mem_nil, or_false, or_self] at ht <;> subst ht <;> simp [Th.waits]
  · constructor <;> intro t ht <;>
      simp only [start, List.map_cons, List.map_nil, List.set_cons_zero, List.mem_cons, List.not_mem_nil, or_false] at ht <;>
      rcases ht with rfl | rfl <;> simp [Th.waits]

/-- **Runs end.** From any state, at most twice as many steps as there are operations left can be made: a thread neither spins nor starves for ever. -/
theorem runs_end {L : Type} [DecidableEq L] (f : Nat → State L) (n : Nat) (h : ∀ k, k < n → ∃ b, Step b (f k) (f (k + 1))) :
    n ≤ ((f 0).map (fun t => 2 * t.prog.length)).sum := by
  have h1 : ∀ k, k ≤ n → left (f k) + k ≤ left (f 0) := by
    intro k hk
    induction k with
    | zero => exact Nat.le_refl _
    | succ k ih =>
      obtain ⟨b, hs⟩ := h k (by omega)
      have := left_step hs
      have := ih (by omega)
      omega
  have h2 : ∀ s : State L, left s ≤ (s.map (fun t => 2 * t.prog.length)).sum := by
    intro s
    induction s with
    | nil => exact Nat.le_refl _
    | cons t s ih =>
      simp only [left, List.map_cons, List.sum_cons] at ih ⊢
      have : t.left ≤ 2 * t.prog.length := by simp only [Th.left]; omega
      omega
  have := h1 n (Nat.le_refl _)
  have := h2 (f 0)
  omega

/-! ## The code -/

/-- Calls that do not manage a line (nor a clothoid before its curve). -/
def Round.NoLine : Round → Prop
  | .part p => p ≠ .manage true
  | .robot ps => ∀ p ∈ ps, p ≠ .manage true

def Call.NoLine : Call → Prop
  | .round r => r.NoLine
  | .map rs => ∀ r ∈ rs, r.NoLine

theorem round_ok {r : Round} (h : r.NoLine) : Ordered rank [] r.ops ∧ Above rank 1 r.ops := by
  cases r with
  | part p => exact ⟨(part_ok p h).1, fun l m hm => Nat.le_trans (by decide) ((part_ok p h).2 l m hm)⟩
  | robot ps =>
    have h1 : Ordered rank [] (ps.map Part.ops).flatten := flatten_ordered fun q hq => by
      obtain ⟨p, hp, rfl⟩ := List.mem_map.1 hq
      exact (part_ok p (h p hp)).1
    have h2 : Above rank 2 (ps.map Part.ops).flatten := flatten_above fun q hq => by
      obtain ⟨p, hp, rfl⟩ := List.mem_map.1 hq
      exact (part_ok p (h p hp)).2
    exact ⟨scope_ordered h1 h2, scope_above (by decide) fun l m hm => Nat.le_trans (by decide) (h2 l m hm)⟩

theorem call_ok {c : Call} (h : c.NoLine) : Ordered rank [] c.ops := by
  cases c with
  | round r => exact (round_ok h).1
  | map rs =>
    refine scope_ordered (flatten_ordered fun q hq => ?_) (flatten_above fun q hq => ?_)
    · obtain ⟨r, hr, rfl⟩ := List.mem_map.1 hq
      exact (round_ok (h r hr)).1
    · obtain ⟨r, hr, rfl⟩ := List.mem_map.1 hq
      exact (round_ok (h r hr)).2

/-- **No deadlock.** Any number of threads, each making any sequence of the calls above without lines: whatever happens, some thread can get on until all have finished. -/
theorem no_deadlock_without_lines (css : List (List Call)) (hcs : ∀ cs ∈ css, ∀ c ∈ cs, c.NoLine) {s : State Lock} (h : Reach (start (css.map thread)) s) :
    ¬Deadlock s := by
  refine no_deadlock rank_lt ?_
  induction h with
  | init =>
    intro t ht
    simp only [start, List.mem_map] at ht
    obtain ⟨_, ⟨cs, hm, rfl⟩, rfl⟩ := ht
    refine flatten_ordered fun q hq => ?_
    obtain ⟨c, hc, rfl⟩ := List.mem_map.1 hq
    exact call_ok (hcs cs hm c hc)
  | step _ hs ih => exact ordered_step hs ih

/-- Calls that may manage lines, with the robot held, and in which the position is set only with the robot held. -/
def Round.SetUnderRobot : Round → Prop
  | .part p => p ≠ .manage true ∧ p ≠ .posSet
  | .robot _ => True

def Call.SetUnderRobot : Call → Prop
  | .round r => r.SetUnderRobot
  | .map rs => ∀ r ∈ rs, r.SetUnderRobot

theorem round_guarded {c : List (Lock × Mode)} (hc : ∀ e ∈ c, rank e.1 < 1) {r : Round} (h : r.SetUnderRobot) {q : Prog} (hq : Guarded c q) :
    Guarded c (r.ops ++ q) := by
  cases r with
  | part p => exact part_bare (fun e he => Nat.lt_succ_of_lt (hc e he)) h.1 h.2 hq
  | robot ps =>
    have e : (Round.robot ps).ops ++ q = Op.acq Lock.robot Mode.write :: ((ps.map Part.ops).flatten ++ ([Op.rel Lock.robot] ++ q)) := by
      simp [Round.ops, scope]
    rw [e]
    refine ⟨.inl hc, by simp, ?_⟩
    refine parts_robot ?_ (by simp) ps ?_
    · intro e he
      rcases List.mem_cons.1 he with he | he
      · subst he; decide
      · have := hc e he; omega
    · refine ⟨by simp, ?_⟩
      simp only [decide_true, List.eraseP_cons_of_pos]
      exact hq

theorem call_guarded {c : Call} (h : c.SetUnderRobot) {q : Prog} (hq : Guarded [] q) : Guarded [] (c.ops ++ q) := by
  cases c with
  | round r => exact round_guarded (by simp) h hq
  | map rs =>
    have e : (Call.map rs).ops ++ q = Op.acq Lock.map Mode.write :: ((rs.map Round.ops).flatten ++ ([Op.rel Lock.map] ++ q)) := by
      simp [Call.ops, scope]
    rw [e]
    refine ⟨.inl (by simp), by simp, ?_⟩
    have hrel : Guarded [(Lock.map, Mode.write)] ([Op.rel Lock.map] ++ q) := by
      refine ⟨by simp, ?_⟩
      simp only [decide_true, List.eraseP_cons_of_pos]
      exact hq
    have hc : ∀ e ∈ [(Lock.map, Mode.write)], rank e.1 < 1 := by simp [rank]
    clear hq e
    induction rs with
    | nil => exact hrel
    | cons r rs ih =>
      rw [List.map_cons, List.flatten_cons, List.append_assoc]
      exact round_guarded hc (h r (by simp)) (ih fun r' hr' => h r' (by simp [hr']))

/-- **No deadlock with lines**, if the position is set only by those who hold the robot (as the loops of control do): the second reading of the position, by the
conversion of units, is then always granted. -/
theorem no_deadlock_lines_partial (css : List (List Call)) (hcs : ∀ cs ∈ css, ∀ c ∈ cs, c.SetUnderRobot) {s : State Lock}
    (h : Reach (start (css.map thread)) s) : ¬Deadlock s := by
  have hex : Exclusive s := fun i j t u l m hi hj hij ht => exclusion _ h hi hj hij ht
  refine guarded_no_deadlock hex ?_
  clear hex
  induction h with
  | init =>
    intro t ht
    simp only [start, List.mem_map] at ht
    obtain ⟨_, ⟨cs, hm, rfl⟩, rfl⟩ := ht
    have : ∀ cs : List Call, (∀ c ∈ cs, c.SetUnderRobot) → Guarded [] (thread cs) := by
      intro cs
      induction cs with
      | nil => intro _; rfl
      | cons c cs ih =>
        intro h
        rw [thread, List.map_cons, List.flatten_cons]
        exact call_guarded (h c (by simp)) (ih fun c' hc' => h c' (by simp [hc']))
    exact this cs (hcs cs hm)
  | step _ hs ih => exact guarded_step hs ih

/-- Hence every state that can be reached can be brought to the end of all threads. -/
theorem all_finish (css : List (List Call)) (hcs : (∀ cs ∈ css, ∀ c ∈ cs, c.NoLine) ∨ (∀ cs ∈ css, ∀ c ∈ cs, c.SetUnderRobot)) {s : State Lock}
    (h : Reach (start (css.map thread)) s) : ∃ s', Reach s s' ∧ Done s' := by
  refine can_finish fun s' hr => ?_
  rcases hcs with hcs | hcs
  · exact no_deadlock_without_lines css hcs (h.trans hr)
  · exact no_deadlock_lines_partial css hcs (h.trans hr)

/-- The loops of control, the servers and the strategy are covered. -/
example (n : Nat) : ∀ c ∈ [positionRound, trajectoryRound true, controlRound true true, controlRound false false, .round hasEnded, .round hasCollided, mapRound, gotoAvoid n] ++ beaconCall n,
    c.SetUnderRobot := by
  intro c hc
  simp only [beaconCall, List.cons_append, List.nil_append, List.mem_cons, List.not_mem_nil, or_false] at hc
  rcases hc with rfl | rfl | rfl | rfl | rfl | rfl | rfl | rfl | rfl | rfl | rfl | rfl | rfl | rfl | rfl <;>
    simp [positionRound, trajectoryRound, controlRound, hasEnded, hasCollided, mapRound, gotoAvoid, Call.SetUnderRobot, Round.SetUnderRobot]
  rintro r (⟨_, rfl⟩ | rfl | rfl) <;> simp

/-- The four threads of the deadlock below, as they remain. -/
abbrev stuckRest : Prog := [.rel .pos, .acq .pos .read, .rel .pos, .rel .pos, .rel .traj, .rel .robot]
abbrev stuckLine : Th Lock := ⟨.acq .pos .read :: stuckRest, [(.pos, .read), (.traj, .write), (.robot, .write)], false⟩
abbrev stuckSet : Th Lock := ⟨Part.posSet.ops, [], true⟩
abbrev stuckPosition : Th Lock := ⟨positionRound.ops, [], false⟩
abbrev stuckControl : Th Lock := ⟨(controlRound false false).ops, [], false⟩

/-- **A line can stop the robot for ever.** While a line is managed, somebody sets the position (`position_set`, autoposition.cpp:40, or the shell, none of which hold the
robot): they queue behind the reader, and the reader, that wants to read again, queues behind them. The robot stays locked, so the other loops stop as well. -/
theorem line_deadlock : ∃ s : State Lock,
    Reach (start ([[trajectoryRound true], [.round (.part .posSet)], [positionRound], [controlRound false false]].map thread)) s ∧ Deadlock s := by
  have hc : thread [positionRound] = positionRound.ops := by simp [thread]
  have hd : thread [controlRound false false] = (controlRound false false).ops := by simp [thread]
  have hb : thread [.round (.part .posSet)] = Part.posSet.ops := by simp [thread, Call.ops, Round.ops]
  have ha : thread [trajectoryRound true] = .acq .robot .write :: .acq .traj .write :: .acq .pos .read :: .acq .pos .read :: stuckRest := rfl
  refine ⟨[stuckLine, stuckSet, stuckPosition, stuckControl], ?_, ?_, ?_⟩
  · simp only [List.map_cons, List.map_nil, ha, hb, hc, hd, start]
    refine .step (.step (.step (.step .init (Step.acq (i := 0) rfl ?_)) (Step.acq (i := 0) rfl ?_)) (Step.acq (i := 0) rfl ?_)) (Step.queue (i := 1) rfl ?_)
    · intro t ht m; simp only [List.mem_cons, List.not_mem_nil, or_false] at ht; rcases ht with rfl | rfl | rfl | rfl <;> simp
    · intro t ht m; simp only [List.set_cons_zero, List.mem_cons, List.not_mem_nil, or_false] at ht; rcases ht with rfl | rfl | rfl | rfl <;> simp
    · constructor
      · intro t ht; simp only [List.set_cons_zero, List.mem_cons, List.not_mem_nil, or_false] at ht; rcases ht with rfl | rfl | rfl | rfl <;> simp
      · intro t ht hw
        simp only [List.set_cons_zero, List.mem_cons, List.not_mem_nil, or_false] at ht
        have := hw.1
        rcases ht with rfl | rfl | rfl | rfl <;> cases this
    · intro hf
      exact hf stuckLine (by simp) .read (by simp)
  · intro h
    have := h stuckLine (by simp)
    cases this
  · intro s' hs
    generalize hss : [stuckLine, stuckSet, stuckPosition, stuckControl] = s at hs
    cases hs with
    | @acq _ i l m p h w hi hf =>
      subst hss
      match i with
      | 0 =>
        cases hi
        exact hf.2 stuckSet (by simp) ⟨rfl, rfl⟩
      | 1 =>
        cases hi
        exact hf stuckLine (by simp) .read (by simp)
      | 2 =>
        cases hi
        exact hf stuckLine (by simp) .write (by simp)
      | 3 =>
        cases hi
        exact hf stuckLine (by simp) .write (by simp)
      | n + 4 => cases hi
    | @rel _ i l p h w hi hf =>
      subst hss
      match i with
      | 0 => cases hi
      | 1 => cases hi
      | 2 => cases hi
      | 3 => cases hi
      | n + 4 => cases hi

abbrev stuckA : Th Lock := ⟨[.acq .robot .write, .rel .robot, .rel .traj], [(.traj, .write)], false⟩
abbrev stuckB : Th Lock := ⟨[.acq .traj .write, .rel .traj, .rel .robot], [(.robot, .write)], false⟩

/-- Taking two locks in opposite orders is what the order excludes. -/
theorem order_matters : ∃ s : State Lock, Reach (start [scope .traj .write (scope .robot .write []), scope .robot .write (scope .traj .write [])]) s ∧ Deadlock s := by
  refine ⟨[stuckA, stuckB], ?_, ?_, ?_⟩
  · simp only [start, List.map_cons, List.map_nil]
    refine .step (.step .init (Step.acq (i := 0) rfl ?_)) (Step.acq (i := 1) rfl ?_)
    · intro t ht m; simp only [List.mem_cons, List.not_mem_nil, or_false] at ht; rcases ht with rfl | rfl <;> simp
    · intro t ht m; simp only [List.set_cons_zero, List.mem_cons, List.not_mem_nil, or_false] at ht; rcases ht with rfl | rfl <;> simp
  · intro h
    have := h stuckA (by simp)
    cases this
  · intro s' hs
    generalize hss : [stuckA, stuckB] = s at hs
    cases hs with
    | @acq _ i l m p h w hi hf =>
      subst hss
      match i with
      | 0 => cases hi; exact hf stuckB (by simp) .write (by simp)
      | 1 => cases hi; exact hf stuckA (by simp) .write (by simp)
      | n + 2 => cases hi
    | @rel _ i l p h w hi hf =>
      subst hss
      match i with
      | 0 => cases hi
      | 1 => cases hi
      | n + 2 => cases hi

end Verif.Locks
