import Verif.Safety.Model

/-!
# Safety timer properties (C06)
-/

namespace Verif.Safety

/-- Motion, or power, is justified: the handler is inside `safety_timer_restart`, or the last
completed restart is less than 500 ms old. -/
def Justified (mid : Bool) (done : Option Nat) (t : Nat) : Prop :=
  mid = true ∨ ∃ c, done = some c ∧ t < c + 500

structure Inv (s : State) : Prop where
  prog : ∃ c pre, handlerProgram c = pre ++ s.handler
  power : s.power = true → s.handler = [.flagSet, .vtSet] ∨ s.handler = [.vtSet] ∨ s.timer ≠ none
  allowed : s.allowed = true → s.handler = [.vtSet] ∨ s.timer ≠ none
  timer : ∀ d, s.timer = some d → s.now < d ∧ ∃ c, s.done = some c ∧ d = c + 500
  spc : ∀ i w t m d, s.spc = .checked i w t m d → w ≠ 0 → Justified m d t
  writes : ∀ w ∈ s.writes, w.value ≠ 0 → Justified w.mid w.done w.checkedAt

theorem inv_init (self : Nat) : Inv (init self) where
  prog := ⟨⟨0,0,0,0,0⟩, handlerProgram ⟨0,0,0,0,0⟩, by simp [init]⟩
  power := by simp [init]
  allowed := by simp [init]
  timer := by simp [init]
  spc := by simp [init]
  writes := by simp [init]

theorem inv_justified {s : State} (h : Inv s) (hp : s.power = true ∨ s.allowed = true) :
    Justified (midRestart s) s.done s.now := by
  have : (s.handler = [.flagSet, .vtSet] ∨ s.handler = [.vtSet]) ∨ s.timer ≠ none := by
    rcases hp with hp | hp
    · rcases h.power hp with h | h | h <;> simp [h]
    · rcases h.allowed hp with h | h <;> simp [h]
  rcases this with h' | h'
  · left; simpa [midRestart] using h'
  · right
    obtain ⟨d, hd⟩ := Option.ne_none_iff_exists'.mp h'
    obtain ⟨h1, c, h2, h3⟩ := h.timer d hd
    exact ⟨c, h2, by omega⟩

theorem prog_cases {l : List Micro} (h : ∃ c pre, handlerProgram c = pre ++ l) :
    (∃ a b c d, l = [.servoSet 0 a, .servoSet 1 b, .pumpSet 0 c, .pumpSet 1 d, .powerEnable, .flagSet, .vtSet]) ∨
    (∃ b c d, l = [.servoSet 1 b, .pumpSet 0 c, .pumpSet 1 d, .powerEnable, .flagSet, .vtSet]) ∨
    (∃ c d, l = [.pumpSet 0 c, .pumpSet 1 d, .powerEnable, .flagSet, .vtSet]) ∨
    (∃ d, l = [.pumpSet 1 d, .powerEnable, .flagSet, .vtSet]) ∨
    l = [.powerEnable, .flagSet, .vtSet] ∨ l = [.flagSet, .vtSet] ∨ l = [.vtSet] ∨ l = [] := by
  obtain ⟨c, pre, h⟩ := h
  unfold handlerProgram at h
  match pre with
  | [] => left; exact ⟨_, _, _, _, by simpa using h.symm⟩
  | [_] => right; left; simp at h; exact ⟨_, _, _, h.2.symm⟩
  | [_, _] => simp at h; grind
  | [_, _, _] => simp at h; grind
  | [_, _, _, _] => simp at h; grind
  | [_, _, _, _, _] => simp at h; grind
  | [_, _, _, _, _, _] => simp at h; grind
  | _ :: _ :: _ :: _ :: _ :: _ :: _ :: pre => simp at h; grind

theorem inv_step {s s' : State} {e : Ev} (h : Inv s) (hs : step s e = some s') : Inv s' := by
  cases e with
  | tick =>
    simp only [step] at hs
    split at hs
    · injection hs with hs; subst hs
      exact ⟨h.prog, by simp [timerCb], by simp [timerCb], by simp [timerCb], h.spc, h.writes⟩
    · next hn =>
      injection hs with hs; subst hs
      refine ⟨h.prog, h.power, h.allowed, ?_, h.spc, h.writes⟩
      intro d hd
      obtain ⟨a, c, b, e⟩ := h.timer d hd
      refine ⟨?_, c, b, e⟩
      have : d ≠ s.now + 1 := fun hh => hn (hh ▸ hd)
      simp only; omega
  | recv c =>
    simp only [step] at hs
    split at hs
    · simp at hs
    · split at hs
      · injection hs with hs; subst hs; exact h
      · next hh _ =>
        injection hs with hs; subst hs
        simp only [ne_eq, Decidable.not_not] at hh
        refine ⟨⟨c, [], rfl⟩, ?_, ?_, h.timer, h.spc, h.writes⟩
        · intro hp; right; right; have := h.power hp; simpa [hh] using this
        · intro hp; right; have := h.allowed hp; simpa [hh] using this
  | handler =>
    simp only [step] at hs
    split at hs
    · simp at hs
    · next m ms hm =>
      injection hs with hs; subst hs
      have hprog : ∃ c pre, handlerProgram c = pre ++ ms := by
        obtain ⟨c, pre, hp⟩ := h.prog
        exact ⟨c, pre ++ [m], by rw [hp, hm]; simp⟩
      have hc := prog_cases h.prog
      rw [hm] at hc
      have hpow := h.power
      have hall := h.allowed
      rw [hm] at hpow hall
      cases m with
      | servoSet i v =>
        refine ⟨hprog, ?_, ?_, h.timer, h.spc, h.writes⟩
        · intro hp; right; right; simpa [microStep] using hpow hp
        · intro hp; right; simpa [microStep] using hall hp
      | pumpSet i v =>
        refine ⟨hprog, ?_, ?_, h.timer, h.spc, h.writes⟩
        · intro hp; right; right; simpa [microStep] using hpow hp
        · intro hp; right; simpa [microStep] using hall hp
      | powerEnable =>
        have hms : ms = [.flagSet, .vtSet] := by grind
        refine ⟨hprog, ?_, ?_, h.timer, h.spc, h.writes⟩
        · intro _; left; exact hms
        · intro hp; right; simpa [microStep] using hall hp
      | flagSet =>
        have hms : ms = [.vtSet] := by grind
        refine ⟨hprog, ?_, ?_, h.timer, h.spc, h.writes⟩
        · intro _; right; left; exact hms
        · intro _; left; exact hms
      | vtSet =>
        refine ⟨hprog, by simp [microStep], by simp [microStep], ?_, h.spc, h.writes⟩
        intro d hd
        simp only [microStep, Option.some.injEq, safetyTimeout] at hd ⊢
        exact ⟨by omega, s.now, rfl, hd.symm⟩
  | servo w =>
    simp only [step, Option.some.injEq] at hs
    subst hs
    unfold servoStep
    split
    · exact ⟨h.prog, h.power, h.allowed, h.timer, by simp, h.writes⟩
    · next i w _ =>
      refine ⟨h.prog, h.power, h.allowed, h.timer, ?_, h.writes⟩
      intro i' w' t m d he hw
      simp only [SPc.checked.injEq] at he
      obtain ⟨-, h2, h3, h4, h5⟩ := he
      rw [← h3, ← h4, ← h5]
      apply inv_justified h
      right
      by_contra hf
      simp only [Bool.not_eq_true] at hf
      rw [hf] at h2
      exact hw (by simpa using h2.symm)
    · next i w t m d he =>
      refine ⟨h.prog, h.power, h.allowed, h.timer, by simp, ?_⟩
      intro w' hw' hne
      simp only [List.mem_cons] at hw'
      rcases hw' with rfl | hw'
      · exact h.spc _ _ _ _ _ he hne
      · exact h.writes w' hw' hne

theorem inv_run {s s' : State} {es : List Ev} (h : Inv s) (hr : run s es = some s') : Inv s' := by
  induction es generalizing s with
  | nil => simp [run] at hr; exact hr ▸ h
  | cons e es ih =>
    simp only [run, List.foldlM_cons] at hr
    cases hst : step s e with
    | none => simp [hst] at hr
    | some s1 => rw [hst] at hr; exact ih (inv_step h hst) hr

/-- C06: for every interleaving of message reception, handler accesses, servo accesses and time:
the board's power output is on, or motion is reported as allowed, only while the handler is inside
`safety_timer_restart` or less than 500 ms after the last completed one. -/
theorem motion_only_after_command (self : Nat) (es : List Ev) (s : State)
    (h : run (init self) es = some s) (hp : s.power = true ∨ s.allowed = true) :
    midRestart s = true ∨ ∃ c, s.done = some c ∧ s.now < c + 500 :=
  inv_justified (inv_run (inv_init self) h) hp

/-- C06: every servo pulse ever written is 0 unless the flag was checked while the handler was inside
`safety_timer_restart` or less than 500 ms after the last completed one. -/
theorem servo_writes_zero_after_timeout (self : Nat) (es : List Ev) (s : State)
    (h : run (init self) es = some s) (w : Write) (hw : w ∈ s.writes) (hne : w.value ≠ 0) :
    w.mid = true ∨ ∃ c, w.done = some c ∧ w.checkedAt < c + 500 :=
  (inv_run (inv_init self) h).writes w hw hne

/-- A run with an accepted command, a non-zero servo write and a later expiry. -/
def sampleRun : List Ev :=
  [.recv ⟨7, 3, 4, 5, 6⟩] ++ List.replicate 7 .handler ++ [.servo 9, .servo 0, .servo 0] ++
    List.replicate 3 .tick

example : (run (init 7) sampleRun).map (fun s => (s.power, s.allowed, s.now, s.done, s.writes.map Write.value)) =
    some (true, true, 3, some 0, [9]) := by decide

/-! ### Commands for other boards -/

/-- C06: a command addressed to another board changes nothing at all. -/
theorem other_command_ignored (s s' : State) (c : Cmd) (hc : c.node ≠ s.self)
    (h : step s (.recv c) = some s') : s' = s := by
  simp only [step] at h
  split at h
  · simp at h
  · exact (Option.some.inj h).symm

/-- No message of the history is addressed to this board. -/
def NoOwnCommand (self : Nat) (es : List Ev) : Prop := ∀ c, Ev.recv c ∈ es → c.node ≠ self

/-- C06: from power-up, as long as no command addressed to the board arrives, power stays off,
motion disallowed, and all servo and pump registers stay 0. -/
theorem idle_until_own_command (self : Nat) (es : List Ev) (s : State)
    (hno : NoOwnCommand self es) (h : run (init self) es = some s) :
    s.power = false ∧ s.allowed = false ∧ (∀ i, s.ccr i = 0) ∧ (∀ i, s.pump i = 0) := by
  have key : ∀ (es : List Ev) (s s' : State), s.self = self → NoOwnCommand self es →
      s.handler = [] → s.timer = none → s.power = false → s.allowed = false → (∀ i, s.ccr i = 0) →
      (∀ i, s.pump i = 0) → (∀ i w t m d, s.spc = .checked i w t m d → w = 0) →
      run s es = some s' →
      s'.power = false ∧ s'.allowed = false ∧ (∀ i, s'.ccr i = 0) ∧ (∀ i, s'.pump i = 0) := by
    intro es
    induction es with
    | nil =>
      intro s s' _ _ _ _ h1 h2 h3 h4 _ hr
      simp [run] at hr; subst hr; exact ⟨h1, h2, h3, h4⟩
    | cons e es ih =>
      intro s s' a1 a2 a3 a4 a5 a6 a7 a8 a9 hr
      have a2' : NoOwnCommand self es := fun c hc => a2 c (by simp [hc])
      simp only [run, List.foldlM_cons] at hr
      cases e with
      | tick =>
        simp only [step, a4, reduceCtorEq, if_false] at hr
        exact ih { s with now := s.now + 1 } s' a1 a2' a3 a4 a5 a6 a7 a8 a9 (by rw [← hr, a4]; rfl)
      | recv c =>
        have : step s (.recv c) = some s := by
          simp [step, a3, a1, a2 c (by simp)]
        rw [this] at hr
        exact ih _ s' a1 a2' a3 a4 a5 a6 a7 a8 a9 hr
      | handler => simp [step, a3] at hr
      | servo w =>
        have : step s (.servo w) = some (servoStep s w) := rfl
        rw [this] at hr
        refine ih (servoStep s w) s' ?_ a2' ?_ ?_ ?_ ?_ ?_ ?_ ?_ hr <;> unfold servoStep <;> split <;>
          try assumption
        · next i w t m d he =>
          intro j; simp only [update]; split
          · exact a9 _ _ _ _ _ he
          · exact a7 j
        · simp
        · intro i' w' t m d he
          simp only [a6, SPc.checked.injEq] at he
          simpa using he.2.1.symm
        · simp
  exact key es (init self) s rfl hno rfl rfl rfl rfl (fun _ => rfl) (fun _ => rfl) (by simp [init]) h

example : NoOwnCommand 7 [.recv ⟨8, 1, 2, 3, 4⟩, .servo 5, .servo 5, .servo 5, .tick] ∧
    (run (init 7) [.recv ⟨8, 1, 2, 3, 4⟩, .servo 5, .servo 5, .servo 5, .tick]).isSome := by
  constructor
  · intro c hc; simp at hc; simp [hc]
  · decide

/-! ### The servo registers go to zero -/

/-- Events that are not accesses of the command handler. -/
def Quiet (es : List Ev) : Prop := ∀ e ∈ es, e = .tick ∨ ∃ w, e = .servo w

/-- Number of servo thread accesses. -/
def servoCount (es : List Ev) : Nat := (es.filter (fun e => match e with | .servo _ => true | _ => false)).length

/-- Position of the servo thread in its six-access cycle and what is known to be 0 after `k` accesses
with motion disallowed. -/
def Phase (s : State) (k : Nat) : Prop :=
  (∀ i, s.spc = .top i → (k ≥ 3 → s.ccr (i + 1) = 0) ∧ (k ≥ 6 → s.ccr i = 0)) ∧
  (∀ i w, s.spc = .computed i w → (k ≥ 4 → s.ccr (i + 1) = 0) ∧ (k ≥ 7 → s.ccr i = 0)) ∧
  (∀ i w t m d, s.spc = .checked i w t m d →
    (k ≥ 1 → w = 0) ∧ (k ≥ 5 → s.ccr (i + 1) = 0) ∧ (k ≥ 8 → s.ccr i = 0))

theorem fin2_succ_succ (i : Fin 2) : i + 1 + 1 = i := by revert i; decide
theorem fin2_succ_ne (i : Fin 2) : i + 1 ≠ i := by revert i; decide

theorem phase_step (s : State) (w k : Nat) (ha : s.allowed = false) (hp : Phase s k) :
    Phase (servoStep s w) (k + 1) := by
  unfold servoStep
  split
  · next i he =>
    have := hp.1 i he
    refine ⟨by simp, ?_, by simp⟩
    intro i' w' he'
    simp only [SPc.computed.injEq] at he'
    obtain ⟨rfl, -⟩ := he'
    exact ⟨fun h => this.1 (by omega), fun h => this.2 (by omega)⟩
  · next i w he =>
    have := hp.2.1 i w he
    refine ⟨by simp, by simp, ?_⟩
    intro i' w' t m d he'
    simp only [SPc.checked.injEq, ha] at he'
    obtain ⟨rfl, h2, -⟩ := he'
    exact ⟨fun _ => by simpa using h2.symm, fun h => this.1 (by omega), fun h => this.2 (by omega)⟩
  · next i w t m d he =>
    have := hp.2.2 i w t m d he
    refine ⟨?_, by simp, by simp⟩
    intro i' he'
    simp only [SPc.top.injEq] at he'
    subst he'
    simp only [fin2_succ_succ, update]
    refine ⟨fun h => ?_, fun h => ?_⟩
    · rw [if_pos trivial]; exact this.1 (by omega)
    · rw [if_neg (fin2_succ_ne i)]; exact this.2.1 (by omega)

/-- C06: once motion is disallowed and no command is being handled, both servo registers are 0 after
at most nine accesses of the servo thread (one and a half passes of its loop), and stay 0. -/
theorem servo_registers_cleared (s s' : State) (es : List Ev) (hq : Quiet es)
    (ha : s.allowed = false) (hn : 9 ≤ servoCount es) (h : run s es = some s') :
    ∀ i, s'.ccr i = 0 := by
  have key : ∀ (es : List Ev) (s : State) (k : Nat), Quiet es → s.allowed = false → Phase s k →
      9 ≤ k + servoCount es → run s es = some s' → ∀ i, s'.ccr i = 0 := by
    intro es
    induction es with
    | nil =>
      intro s k _ _ hp hk hr
      simp [run] at hr; subst hr
      simp [servoCount] at hk
      intro i
      have two : ∀ a : Fin 2, i = a ∨ i = a + 1 := by revert i; decide
      cases hs : s.spc with
      | top a =>
        have := hp.1 a hs
        rcases two a with rfl | rfl
        · exact this.2 (by omega)
        · exact this.1 (by omega)
      | computed a w =>
        have := hp.2.1 a w hs
        rcases two a with rfl | rfl
        · exact this.2 (by omega)
        · exact this.1 (by omega)
      | checked a w t m d =>
        have := hp.2.2 a w t m d hs
        rcases two a with rfl | rfl
        · exact this.2.2 (by omega)
        · exact this.2.1 (by omega)
    | cons e es ih =>
      intro s k hq ha hp hk hr
      have hq' : Quiet es := fun e he => hq e (by simp [he])
      simp only [run, List.foldlM_cons] at hr
      rcases hq e (by simp) with rfl | ⟨w, rfl⟩
      · have hk' : 9 ≤ k + servoCount es := by simpa [servoCount] using hk
        simp only [step] at hr
        split at hr
        · exact ih (timerCb { s with now := s.now + 1 }) k hq' rfl hp hk' hr
        · exact ih { s with now := s.now + 1 } k hq' ha hp hk' hr
      · have hk' : 9 ≤ (k + 1) + servoCount es := by
          have : servoCount (.servo w :: es) = servoCount es + 1 := by simp [servoCount]
          omega
        have hal : (servoStep s w).allowed = false := by unfold servoStep; split <;> exact ha
        exact ih (servoStep s w) (k + 1) hq' hal (phase_step s w k ha hp) hk' hr
  refine key es s 0 hq ha ?_ (by omega) h
  refine ⟨fun _ _ => ⟨by omega, by omega⟩, fun _ _ _ => ⟨by omega, by omega⟩, fun _ _ _ _ _ _ => ⟨by omega, by omega, by omega⟩⟩

example : Quiet (List.replicate 9 (.servo 5)) ∧ 9 ≤ servoCount (List.replicate 9 (.servo 5)) := by
  constructor
  · intro e he; simp at he; exact Or.inr ⟨5, he⟩
  · decide

/-! ### Motion really is allowed after a command -/

/-- C06 (converse): when a restart completes with motion allowed and power on, both stay so for the
next 500 ms whatever happens (including further commands for any board). -/
theorem motion_allowed_for_500ms (s s' : State) (es : List Ev) (h1 : s.power = true)
    (h2 : s.allowed = true) (h3 : s.timer = some (s.now + 500)) (ht : es.count .tick < 500)
    (h : run s es = some s') : s'.power = true ∧ s'.allowed = true := by
  have key : ∀ (es : List Ev) (s : State) (d : Nat), s.power = true → s.allowed = true →
      s.timer = some d → s.now + es.count .tick < d → es.count .tick < 500 → run s es = some s' →
      s'.power = true ∧ s'.allowed = true := by
    intro es
    induction es with
    | nil => intro s d a b _ _ _ hr; simp [run] at hr; subst hr; exact ⟨a, b⟩
    | cons e es ih =>
      intro s d a b c hd h5 hr
      simp only [run, List.foldlM_cons] at hr
      cases e with
      | tick =>
        simp only [List.count_cons_self] at hd h5
        simp only [step] at hr
        rw [if_neg (by rw [c]; simp; omega)] at hr
        exact ih { s with now := s.now + 1 } d a b c (by simp only; omega) (by omega) hr
      | recv c' =>
        rw [List.count_cons_of_ne (by simp)] at hd h5
        simp only [step] at hr
        split at hr
        · simp at hr
        · split at hr
          · exact ih _ d a b c hd h5 hr
          · exact ih { s with handler := handlerProgram c' } d a b c hd h5 hr
      | handler =>
        rw [List.count_cons_of_ne (by simp)] at hd h5
        simp only [step] at hr
        split at hr
        · simp at hr
        · next m ms hm =>
          cases m with
          | vtSet =>
            exact ih (microStep { s with handler := ms } .vtSet) (s.now + 500) a b rfl
              (by simp only [microStep]; omega) h5 hr
          | _ => refine ih _ d ?_ ?_ ?_ ?_ h5 hr <;> simp_all [microStep]
      | servo w =>
        rw [List.count_cons_of_ne (by simp)] at hd h5
        refine ih (servoStep s w) d ?_ ?_ ?_ ?_ h5 hr <;> unfold servoStep <;> split <;> assumption
  exact key es s (s.now + 500) h1 h2 h3 (by omega) ht h

example : ∃ s, run (init 7) sampleRun = some s ∧ s.power = true ∧ s.allowed = true ∧
    s.timer = some 500 := by
  refine ⟨_, rfl, ?_, ?_, ?_⟩ <;> decide

/-! ### Findings -/

/-- Finding: the pump registers are not zeroed by the time-out (only the board's power output is
switched off): 500 ms after the only command the pump compare register still holds its value. -/
theorem pump_register_not_zeroed : ∃ es s, run (init 7) es = some s ∧ s.done = some 0 ∧
    s.now = 500 ∧ s.power = false ∧ s.allowed = false ∧ s.pump 0 = 5 := by
  have h : (run (init 7) ([.recv ⟨7, 3, 4, 5, 6⟩] ++ List.replicate 7 .handler ++ List.replicate 500 .tick)).map
      (fun s => (s.done, s.now, s.power, s.allowed, s.pump 0)) = some (some 0, 500, false, false, 5) := by decide +kernel
  obtain ⟨s, hs, he⟩ := Option.map_eq_some_iff.mp h
  exact ⟨_, s, hs, by grind⟩

/-- Finding: if the timer of the previous command expires between the statements of
`safety_timer_restart`, the board ends up refusing motion although it has just accepted a command:
no time has passed since the restart completed, yet motion is disallowed and power is off. -/
theorem restart_race : ∃ es s, run (init 7) es = some s ∧ s.done = some s.now ∧ s.handler = [] ∧
    s.allowed = false ∧ s.power = false := by
  have h : (run (init 7) ([.recv ⟨7, 3, 4, 5, 6⟩] ++ List.replicate 7 .handler ++ List.replicate 499 .tick ++
    [.recv ⟨7, 3, 4, 5, 6⟩] ++ List.replicate 6 .handler ++ [.tick, .handler])).map
      (fun s => (s.done, s.now, s.handler, s.allowed, s.power)) = some (some 500, 500, [], false, false) := by decide +kernel
  obtain ⟨s, hs, he⟩ := Option.map_eq_some_iff.mp h
  exact ⟨_, s, hs, by grind⟩

/-- Finding (check-then-write): a non-zero pulse can be written after the time-out if the timer
expires between the servo thread's check and its write; the next pass clears it
(`servo_registers_cleared`). -/
theorem late_servo_write : ∃ es s, run (init 7) es = some s ∧ s.allowed = false ∧ s.ccr 0 = 9 := by
  have h : (run (init 7) ([.recv ⟨7, 3, 4, 5, 6⟩] ++ List.replicate 7 .handler ++ List.replicate 499 .tick ++
    [.servo 9, .servo 0, .tick, .servo 0])).map
      (fun s => (s.allowed, s.ccr 0)) = some (false, 9) := by decide +kernel
  obtain ⟨s, hs, he⟩ := Option.map_eq_some_iff.mp h
  exact ⟨_, s, hs, by grind⟩

/-! ### What a command does -/

/-- C06: when the handler has worked through a command addressed to the board, whatever the other threads and the timer did
meanwhile, the setpoints of the servos and the widths of the pumps are those of the command. -/
theorem command_applied {s s' : State} {c : Cmd} {es : List Ev} (hc : c.node = s.self) (hno : ∀ d, Ev.recv d ∉ es)
    (h : run s (.recv c :: es) = some s') (hd : s'.handler = []) :
    s'.setpoint 0 = c.servo0 ∧ s'.setpoint 1 = c.servo1 ∧ s'.pump 0 = c.pump0 ∧ s'.pump 1 = c.pump1 := by
  have key : ∀ (es : List Ev) (s : State), (∀ d, Ev.recv d ∉ es) → run s es = some s' →
      s'.setpoint = (s.handler.foldl microStep s).setpoint ∧ s'.pump = (s.handler.foldl microStep s).pump := by
    have hfold : ∀ (l : List Micro) (a b : State), a.setpoint = b.setpoint → a.pump = b.pump →
        (l.foldl microStep a).setpoint = (l.foldl microStep b).setpoint ∧ (l.foldl microStep a).pump = (l.foldl microStep b).pump := by
      intro l
      induction l with
      | nil => intro a b h1 h2; exact ⟨h1, h2⟩
      | cons m l ih =>
        intro a b h1 h2
        refine ih _ _ ?_ ?_ <;> cases m <;> simp [microStep, h1, h2]
    intro es
    induction es with
    | nil =>
      intro s _ h
      simp only [run, List.foldlM_nil, pure, Option.some.injEq] at h
      subst h
      rw [hd]
      exact ⟨rfl, rfl⟩
    | cons e es ih =>
      intro s hno h
      simp only [run, List.foldlM_cons, bind, Option.bind_eq_some_iff] at h
      obtain ⟨s1, h1, h2⟩ := h
      obtain ⟨i1, i2⟩ := ih s1 (fun d hd => hno d (List.mem_cons_of_mem _ hd)) h2
      rw [i1, i2]
      cases e with
      | tick =>
        simp only [step] at h1
        split at h1 <;> (simp only [Option.some.injEq] at h1; subst h1; exact hfold _ _ _ rfl rfl)
      | recv d => exact absurd List.mem_cons_self (hno d)
      | handler =>
        simp only [step] at h1
        split at h1
        · cases h1
        · next m ms hm =>
          simp only [Option.some.injEq] at h1
          subst h1
          rw [hm]
          have : (microStep { s with handler := ms } m).handler = ms := by cases m <;> rfl
          rw [this, List.foldl_cons]
          refine hfold ms _ _ ?_ ?_ <;> cases m <;> rfl
      | servo w =>
        simp only [step, Option.some.injEq] at h1
        subst h1
        have : (servoStep s w).handler = s.handler ∧ (servoStep s w).setpoint = s.setpoint ∧ (servoStep s w).pump = s.pump := by
          unfold servoStep; split <;> exact ⟨rfl, rfl, rfl⟩
        rw [this.1]
        exact hfold _ _ _ this.2.1 this.2.2
  simp only [run, List.foldlM_cons, bind, Option.bind_eq_some_iff] at h
  obtain ⟨s1, h1, h2⟩ := h
  obtain ⟨k1, k2⟩ := key es s1 hno h2
  simp only [step] at h1
  split at h1
  · cases h1
  · rw [if_neg (by simp [hc])] at h1
    simp only [Option.some.injEq] at h1
    subst h1
    rw [k1, k2]
    simp [handlerProgram, microStep, update]

example : ∃ s', run (init 7) (.recv ⟨7, 3, 4, 5, 6⟩ :: [.handler, .tick, .handler, .servo 1, .handler, .handler, .handler, .handler, .handler]) = some s' ∧
    s'.handler = [] := ⟨_, rfl, rfl⟩

end Verif.Safety
