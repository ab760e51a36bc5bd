import Verif.Radio.Model

/-!
# Lemmas on the modes of the radio of the beacon
-/

namespace Verif.Radio

/-- No assumption on the steps -/
def any (_ : State) (_ : Ev) : Prop := True

/-- No reception ends between the reading of the status and the end of `dwt_isr` while the line is high, and the loop is never too late to send. -/
def quiet (s : State) : Ev → Prop
  | .good => s.status.line = false ∨ s.todo = [] ∨ s.todo = isr ∨ s.todo = send
  | .err => s.status.line = false ∨ s.todo = [] ∨ s.todo = isr ∨ s.todo = send
  | .act .late => s.todo ≠ [.start]
  | _ => True

/-- Frames received, neither processed nor thrown away -/
def State.waiting (s : State) : Nat :=
  (if s.status.good then 1 else 0) + (if s.todo.head? = some .process ∧ s.copy.good then 1 else 0)

/-- Where the thread can be -/
def Place (l : List Ins) : Prop :=
  l = [] ∨ l = isr ∨ l = isr.drop 1 ∨ l = isr.drop 2 ∨ l = isr.drop 3 ∨ l = isr.drop 4 ∨ l = isr.drop 5 ∨ l = isr.drop 6 ∨ l = isr.drop 7 ∨ l = send ∨ l = [.start]

/-- What always holds -/
structure Always (s : State) : Prop where
  place : Place s.todo
  start : s.todo = [.start] → s.mode = .off ∧ s.status = ⟨false, false, false⟩
  clear : s.todo = isr.drop 1 → s.copy.good = true → s.status.good = true
  count : s.processed + s.dropped + s.waiting ≤ s.received

theorem init_always : Always init :=
  ⟨.inl rfl, fun h => (List.cons_ne_nil _ _ h.symm).elim, fun h => (List.cons_ne_nil _ _ h.symm).elim, by decide⟩

theorem step_always {s t : State} {e : Ev} (h : Always s) (hs : step s e = some t) : Always t := by
  obtain ⟨hp, h1, h2, h3⟩ := h
  obtain ⟨m, ⟨g, se, er⟩, ev, todo, ⟨cg, cs, ce⟩, r, p, d⟩ := s
  dsimp only at hp h1 h2
  cases e <;> rcases hp with rfl | rfl | rfl | rfl | rfl | rfl | rfl | rfl | rfl | rfl | rfl <;>
      simp only [step, isr, send, List.drop, reduceCtorEq, false_and, if_false, Option.some.injEq, true_and, State.raise, Option.ite_none_left_eq_some,
        Option.ite_none_right_eq_some] at hs h1 h2 h3 ⊢
  all_goals
    (first | subst hs | (obtain ⟨hc, hs⟩ := hs; subst hs))
    constructor <;> simp_all [Place, isr, send, Ins.act, State.waiting, State.forceOff] <;> grind

/-- The transceiver is off if and only if something has been received; there is at most one thing. -/
def Base (s : State) : Prop :=
  (s.mode = .off ↔ s.status.good = true ∨ s.status.err = true) ∧ ¬ (s.status.good = true ∧ s.status.err = true)

/-- Moreover a set bit of the status is announced by an event. -/
def Fresh (s : State) : Prop := (s.status.line = true → s.event = true) ∧ Base s

/-- After the status has been read, nothing has changed or there was nothing to see -/
def Seen (s : State) : Prop := Base s ∧ (s.status = s.copy ∨ s.copy = ⟨false, false, false⟩ ∧ Fresh s)

/-- What holds before each step if all steps were quiet -/
def At (s : State) : List Ins → Prop
  | [] => Fresh s
  | .readStatus :: _ => Base s
  | .clearGood :: _ => Seen s
  | .process :: _ => if s.copy.good then s.mode = .off ∧ s.copy.err = false ∧ s.status = ⟨false, s.copy.sent, false⟩ else Seen s
  | .enableGood :: _ => if s.copy.good then s.copy.err = false ∧ s.status.good = false ∧ s.status.err = false ∧
    (s.copy.sent = true → s.status.sent = true) ∧ (s.status.sent = true → s.copy.sent = true ∨ s.event = true) ∧ (s.mode = .rx → s.status.sent = true) else Seen s
  | .clearSent :: _ => if s.copy.good then s.copy.err = false ∧ Base s ∧ (if s.copy.sent then s.status = ⟨false, true, false⟩ else Fresh s) else Seen s
  | .clearErr :: _ => if s.copy.err then s.mode = .off ∧ s.status = ⟨false, false, true⟩ else Fresh s
  | .offErr :: _ => if s.copy.err then s.mode = .off ∧ s.status = ⟨false, false, false⟩ else Fresh s
  | .enableErr :: _ => if s.copy.err then s.mode = .off ∧ s.status = ⟨false, false, false⟩ else Fresh s
  | .off :: _ => Base s
  | .start :: _ => s.mode = .off ∧ s.status = ⟨false, false, false⟩

/-- `k` frames were lost before. -/
structure Good (k : Nat) (s : State) : Prop where
  place : Place s.todo
  count : s.processed + s.dropped + s.waiting + k = s.received
  at_ : At s s.todo

theorem init_good : Good 0 init := by
  constructor <;> simp [init, Place, At, Fresh, Base, Status.line, State.waiting]

private theorem good_act {s t : State} {a : Answer} (h : Good k s) (hq : quiet s (.act a)) (hs : step s (.act a) = some t) : Good k t := by
  obtain ⟨hp, hc, i⟩ := h
  obtain ⟨m, ⟨g, se, er⟩, ev, todo, ⟨cg, cs, ce⟩, r, p, d⟩ := s
  dsimp only at hp i
  rcases hp with rfl | rfl | rfl | rfl | rfl | rfl | rfl | rfl | rfl | rfl | rfl <;>
      simp only [step, isr, send, List.drop, reduceCtorEq, false_and, if_false, Option.some.injEq, true_and, Option.ite_none_left_eq_some, At] at hs i ⊢
  all_goals (first | subst hs | (obtain ⟨hd, hs⟩ := hs; subst hs))
  all_goals refine ⟨by simp [Place, isr, send], ?_, ?_⟩
  all_goals simp only [isr, send, List.drop, List.head?, Option.some.injEq, reduceCtorEq, false_and, if_false, true_and, Ins.act, State.waiting, State.forceOff,
    Fresh, Base, Seen, Status.line, quiet, At, Status.mk.injEq] at hc hq i ⊢
  all_goals cases a <;> cases m <;> grind [Mode.enable, Mode.start]

private theorem good_wake {s t : State} (h : Good k s) (hq : quiet s .wake) (hs : step s .wake = some t) : Good k t := by
  obtain ⟨hp, hc, i⟩ := h
  obtain ⟨m, ⟨g, se, er⟩, ev, todo, ⟨cg, cs, ce⟩, r, p, d⟩ := s
  dsimp only at hp i
  rcases hp with rfl | rfl | rfl | rfl | rfl | rfl | rfl | rfl | rfl | rfl | rfl <;>
      simp only [step, isr, send, List.drop, reduceCtorEq, false_and, if_false, Option.some.injEq, true_and, Option.ite_none_right_eq_some, At, State.raise] at hs i ⊢
  all_goals (first | subst hs | (obtain ⟨hd, hs⟩ := hs; subst hs))
  all_goals refine ⟨by simp [Place, isr, send], ?_, ?_⟩
  all_goals simp only [isr, send, List.drop, List.head?, Option.some.injEq, reduceCtorEq, false_and, if_false, true_and, State.waiting,
    Fresh, Base, Seen, Status.line, quiet, At, Status.mk.injEq] at hc hq i ⊢
  all_goals cases m <;> grind

private theorem good_timer {s t : State} (h : Good k s) (hq : quiet s .timer) (hs : step s .timer = some t) : Good k t := by
  obtain ⟨hp, hc, i⟩ := h
  obtain ⟨m, ⟨g, se, er⟩, ev, todo, ⟨cg, cs, ce⟩, r, p, d⟩ := s
  dsimp only at hp i
  rcases hp with rfl | rfl | rfl | rfl | rfl | rfl | rfl | rfl | rfl | rfl | rfl <;>
      simp only [step, isr, send, List.drop, reduceCtorEq, false_and, if_false, Option.some.injEq, true_and, Option.ite_none_right_eq_some, At, State.raise] at hs i ⊢
  all_goals (first | subst hs | (obtain ⟨hd, hs⟩ := hs; subst hs))
  all_goals refine ⟨by simp [Place, isr, send], ?_, ?_⟩
  all_goals simp only [isr, send, List.drop, List.head?, Option.some.injEq, reduceCtorEq, false_and, if_false, true_and, State.waiting,
    Fresh, Base, Seen, Status.line, quiet, At, Status.mk.injEq] at hc hq i ⊢
  all_goals cases m <;> grind

private theorem good_sent {s t : State} (h : Good k s) (hq : quiet s .sent) (hs : step s .sent = some t) : Good k t := by
  obtain ⟨hp, hc, i⟩ := h
  obtain ⟨m, ⟨g, se, er⟩, ev, todo, ⟨cg, cs, ce⟩, r, p, d⟩ := s
  dsimp only at hp i
  rcases hp with rfl | rfl | rfl | rfl | rfl | rfl | rfl | rfl | rfl | rfl | rfl <;>
      simp only [step, isr, send, List.drop, reduceCtorEq, false_and, if_false, Option.some.injEq, true_and, Option.ite_none_right_eq_some, At, State.raise] at hs i ⊢
  all_goals (first | subst hs | (obtain ⟨hd, hs⟩ := hs; subst hs))
  all_goals refine ⟨by simp [Place, isr, send], ?_, ?_⟩
  all_goals simp only [isr, send, List.drop, List.head?, Option.some.injEq, reduceCtorEq, false_and, if_false, true_and, State.waiting,
    Fresh, Base, Seen, Status.line, quiet, At, Status.mk.injEq] at hc hq i ⊢
  all_goals cases m <;> grind

private theorem good_good {s t : State} (h : Good k s) (hq : quiet s .good) (hs : step s .good = some t) : Good k t := by
  obtain ⟨hp, hc, i⟩ := h
  obtain ⟨m, ⟨g, se, er⟩, ev, todo, ⟨cg, cs, ce⟩, r, p, d⟩ := s
  dsimp only at hp i
  rcases hp with rfl | rfl | rfl | rfl | rfl | rfl | rfl | rfl | rfl | rfl | rfl <;>
      simp only [step, isr, send, List.drop, reduceCtorEq, false_and, if_false, Option.some.injEq, true_and, Option.ite_none_right_eq_some, At, State.raise] at hs i ⊢
  all_goals (first | subst hs | (obtain ⟨hd, hs⟩ := hs; subst hs))
  all_goals refine ⟨by simp [Place, isr, send], ?_, ?_⟩
  all_goals simp only [isr, send, List.drop, List.head?, Option.some.injEq, reduceCtorEq, false_and, if_false, true_and, State.waiting,
    Fresh, Base, Seen, Status.line, quiet, At, Status.mk.injEq] at hc hq i ⊢
  all_goals cases m <;> grind

private theorem good_err {s t : State} (h : Good k s) (hq : quiet s .err) (hs : step s .err = some t) : Good k t := by
  obtain ⟨hp, hc, i⟩ := h
  obtain ⟨m, ⟨g, se, er⟩, ev, todo, ⟨cg, cs, ce⟩, r, p, d⟩ := s
  dsimp only at hp i
  rcases hp with rfl | rfl | rfl | rfl | rfl | rfl | rfl | rfl | rfl | rfl | rfl <;>
      simp only [step, isr, send, List.drop, reduceCtorEq, false_and, if_false, Option.some.injEq, true_and, Option.ite_none_right_eq_some, At, State.raise] at hs i ⊢
  all_goals (first | subst hs | (obtain ⟨hd, hs⟩ := hs; subst hs))
  all_goals refine ⟨by simp [Place, isr, send], ?_, ?_⟩
  all_goals simp only [isr, send, List.drop, List.head?, Option.some.injEq, reduceCtorEq, false_and, if_false, true_and, State.waiting,
    Fresh, Base, Seen, Status.line, quiet, At, Status.mk.injEq] at hc hq i ⊢
  all_goals cases m <;> grind

theorem step_good {s t : State} {e : Ev} (h : Good k s) (hq : quiet s e) (hs : step s e = some t) : Good k t := by
  cases e with
  | act a => exact good_act h hq hs
  | wake => exact good_wake h hq hs
  | timer => exact good_timer h hq hs
  | sent => exact good_sent h hq hs
  | good => exact good_good h hq hs
  | err => exact good_err h hq hs

theorem run_good {s t : State} (h : Good k s) (r : Run quiet s t) : Good k t := by
  induction r with
  | refl => exact h
  | step _ hq hs ih => exact step_good ih hq hs

theorem run_always {s t : State} (h : Always s) (r : Run any s t) : Always t := by
  induction r with
  | refl => exact h
  | step _ _ hs ih => exact step_always ih hs

/-- After a successful timed transmission everything is in order again, up to frames lost before. -/
theorem start_good {s t : State} (h : Always s) (ht : s.todo = [.start]) (hs : step s (.act .later) = some t) :
    Good (s.received - (s.processed + s.dropped)) t ∧ t.received = s.received ∧ t.processed = s.processed ∧ t.dropped = s.dropped := by
  obtain ⟨h1, h2⟩ := h.start ht
  have h3 := h.count
  simp only [step, ht, reduceCtorEq, and_false, if_false, Option.some.injEq] at hs
  subst hs
  refine ⟨⟨.inl rfl, ?_, ?_⟩, rfl, rfl, rfl⟩
  · simp [Ins.act, State.waiting, h2] at h3 ⊢
    omega
  · simp [Ins.act, At, Fresh, Base, h2, Status.line, Mode.start]

end Verif.Radio
