import Verif.MotorParams.Lemmas

/-! # Taking over parameters: properties -/

namespace Verif.MotorParams

open Prog

variable {F : Type} [Ops F]

/-- Which variable is to be a copy of which parameter. -/
inductive Copy : Par → Der → Prop where
  | kp (l) : Copy (.kp l) (.kp l)
  | ki (l) : Copy (.ki l) (.ki l)
  | kd (l) : Copy (.kd l) (.kd l)
  | iLimit (l) : Copy (.iLimit l) (.iLimit l)
  | lowBatt : Copy .lowBatt .lowBatt
  | velLimit : Copy .velLimit .velLimit
  | spVelLimit : Copy .velLimit .spVelLimit
  | spAccLimit : Copy .accLimit .spAccLimit
  | torqueLimit : Copy .torqueLimit .torqueLimit
  | offset : Copy .offset .offset
  | maxTemp : Copy .maxTemp .maxTemp
  | rTh : Copy .rTh .rTh
  | cTh : Copy .cTh .cTh
  | currentGain : Copy .currentGain .currentGain
  | transP : Copy .transP .transP
  | transQ : Copy .transQ .transQ

/-- The copy is up to date, or the parameter is marked as changed or being set. -/
def Follows (x : Par) (d : Der) (s : State F) : Prop :=
  s.der d = s.val x ∨ s.changed x = true ∨ 0 < s.setting x

theorem follows_iff {x : Par} {d : Der} {s : State F} : Follows x d s ↔ Fresh x (s.der d) s := by
  unfold Follows Fresh
  constructor
  · rintro (h | h)
    · exact Or.inl h.symm
    · exact Or.inr h
  · rintro (h | h)
    · exact Or.inl h.symm
    · exact Or.inr h

theorem safe_setGains {x : Par} {d : Der} (h : Copy x d) (l : Loop) : Safe (F := F) x d (setGains l) := by
  cases h with
  | kp m => cases m <;> cases l <;> simp [setGains, Prog.get, Safe, Hole, Held]
  | ki m => cases m <;> cases l <;> simp [setGains, Prog.get, Safe, Hole, Held]
  | kd m => cases m <;> cases l <;> simp [setGains, Prog.get, Safe, Hole, Held]
  | _ => simp [setGains, Prog.get, Safe, Hole, Held]

theorem safe_copy {x y : Par} {d e : Der} (h : Copy x d) (hc : y = x ↔ e = d) : Safe (F := F) x d (copy y e) := by
  by_cases hy : y = x
  · have := hc.mp hy; simp [copy, Prog.get, Safe, Hole, Held, hy, this]
  · have : ¬ e = d := fun he => hy (hc.mpr he); simp [copy, Prog.get, Safe, Hole, Held, hy, this]

theorem safe_pidUpdate {x : Par} {d : Der} (h : Copy x d) (l : Loop) : Safe (F := F) x d (pidUpdate l) := by
  refine Safe.seq ?_ (safe_ifChanged _ (safe_copy h ?_))
  · intro a; cases a
    · intro b; cases b
      · intro c; cases c
        · exact True.intro
        · exact safe_setGains h l
      · exact safe_setGains h l
    · exact safe_setGains h l
  · cases h <;> simp

theorem safe_torqueAssign {x : Par} {d : Der} (h : Copy x d) : Safe (F := F) x d torqueAssign := by
  cases h <;> simp [torqueAssign, Prog.get, Safe, Hole, Held]

theorem safe_controlBlock {x : Par} {d : Der} (h : Copy x d) : Safe (F := F) x d controlBlock := by
  refine Safe.seq (safe_ifContains _ (safe_pidUpdate h _)) <| Safe.seq (safe_ifContains _ (safe_pidUpdate h _)) <|
    Safe.seq (safe_ifContains _ (safe_pidUpdate h _)) <| Safe.seq (safe_ifChanged _ (safe_copy h ?_)) <|
    Safe.seq (safe_ifChanged _ ?_) <| Safe.seq (safe_ifChanged _ (safe_torqueAssign h)) <|
    safe_ifChanged _ (safe_copy h ?_)
  · cases h <;> simp
  · cases h <;> simp [Prog.get, Safe, Hole, Held]
  · cases h <;> simp

theorem safe_motorBlock {x : Par} {d : Der} (h : Copy x d) : Safe (F := F) x d motorBlock := by
  refine Safe.seq (safe_ifChanged _ ?_) (safe_ifChanged _ (safe_copy h ?_))
  · cases h <;> simp [constantUpdate, Prog.get, Safe, Hole, Held]
  · cases h <;> simp

theorem safe_thermalBlock {x : Par} {d : Der} (h : Copy x d) : Safe (F := F) x d thermalBlock := by
  cases h <;> simp [thermalBlock, Prog.get, Safe, Hole, Held]

theorem safe_update {x : Par} {d : Der} (h : Copy x d) : Safe (F := F) x d update := by
  refine Safe.seq (safe_copy h ?_) <| Safe.seq (safe_copy h ?_) <|
    Safe.seq (safe_ifContains _ (safe_controlBlock h)) <| Safe.seq (safe_ifContains _ (safe_motorBlock h)) <|
    safe_ifContains _ (safe_thermalBlock h)
  · cases h <;> simp
  · cases h <;> simp

theorem safe_initProg {x : Par} {d : Der} (h : Copy x d) (hd : d ≠ .spVelLimit) : Safe (F := F) x d initProg := by
  refine Safe.seq (safe_copy h ?_) <| Safe.seq (safe_copy h ?_) <| Safe.seq (safe_torqueAssign h) <|
    Safe.seq (safe_copy h ?_) <| Safe.seq ?_ (safe_update h)
  · cases h <;> simp
  · cases h <;> simp
  · cases h <;> simp at hd ⊢
  · cases h <;> simp [constantUpdate, Prog.get, Safe, Hole, Held]

/-- One pass of the loop, whatever other threads do meanwhile. -/
theorem pass_follows {x : Par} {d : Der} (h : Copy x d) {s r : State F} (hs : Steps update s .done r)
    (h0 : Follows x d s) : Follows x d r := by
  rw [follows_iff] at *
  rcases copyInv_steps (Or.inl ⟨safe_update h, h0⟩) hs with ⟨_, h1⟩ | h1 | ⟨v, h1, _⟩
  · exact h1
  · exact h1.elim
  · exact h1.elim

/-- `control_init` and then any number of passes, with other threads setting parameters at any time. -/
inductive Reach (val : Par → F) (der : Der → F) : State F → Prop where
  | init {s} : Steps initProg (declared val der) .done s → Reach val der s
  | pass {s r} : Reach val der s → Steps update s .done r → Reach val der r

/-- No change is lost: at the end of every pass every variable that is a copy of a parameter equals it, or the parameter
is marked as changed or being set. (All but the velocity limit of the interpolator, see `interpolator_limit_missing`.) -/
theorem changes_kept_partial {val : Par → F} {der : Der → F} {s : State F} (hr : Reach val der s) {x : Par} {d : Der}
    (h : Copy x d) (hd : d ≠ .spVelLimit) : Follows x d s := by
  induction hr with
  | init hs =>
    rw [follows_iff]
    rcases copyInv_steps (Or.inl ⟨safe_initProg h hd, Or.inr (Or.inl rfl)⟩) hs with ⟨_, h1⟩ | h1 | ⟨v, h1, _⟩
    · exact h1
    · exact h1.elim
    · exact h1.elim
  | pass _ hp ih => exact pass_follows h hp ih

/-- An uninterrupted execution is one of the executions. -/
theorem steps_exec (p : Prog F) (s : State F) : Steps p s .done (exec p s) := by
  induction p generalizing s with
  | done => exact .refl ..
  | changed x k ih => exact .act (.changed ..) (ih _ _)
  | contains n k ih => exact .act (.contains _ _ _ (s.contains n)) (ih _ _)
  | clear x k ih => exact .act (.clear ..) (ih _)
  | read x k ih => exact .act (.read ..) (ih _ _)
  | assign d v k ih => exact .act (.assign ..) (ih _)
  | load d k ih => exact .act (.load ..) (ih _ _)

theorem clears_pidUpdate_gain (l : Loop) (x : Par) (hx : x = .kp l ∨ x = .ki l ∨ x = .kd l) :
    Clears (F := F) x (pidUpdate l) := by
  have hg : Clears (F := F) x (setGains l) := by
    rcases hx with rfl | rfl | rfl
    · exact clears_get _ _
    · exact clears_skip _ fun _ => clears_get _ _
    · exact clears_skip _ fun _ => clears_skip _ fun _ => clears_get _ _
  refine Clears.before fun s => ?_
  by_cases hm : s.changed x = false
  · exact exec_changed _ s x hm
  have hm : s.changed x = true := by simpa using hm
  show (exec (if s.changed (.kp l) = true then setGains l else
    changed (.ki l) fun b => if b then setGains l else
    changed (.kd l) fun c => if c then setGains l else done) s).changed x = false
  by_cases h1 : s.changed (.kp l) = true
  · rw [if_pos h1]; exact hg s
  rw [if_neg h1]
  show (exec (if s.changed (.ki l) = true then setGains l else
    changed (.kd l) fun c => if c then setGains l else done) s).changed x = false
  by_cases h2 : s.changed (.ki l) = true
  · rw [if_pos h2]; exact hg s
  rw [if_neg h2]
  show (exec (if s.changed (.kd l) = true then setGains l else done) s).changed x = false
  by_cases h3 : s.changed (.kd l) = true
  · rw [if_pos h3]; exact hg s
  · rcases hx with rfl | rfl | rfl
    · exact absurd hm h1
    · exact absurd hm h2
    · exact absurd hm h3

theorem clears_pidUpdate_limit (l : Loop) : Clears (F := F) (.iLimit l) (pidUpdate l) :=
  Clears.after (clears_ifChanged (clears_get _ _))

theorem clears_controlBlock_loop (l : Loop) {x : Par} (hn : x.inNs (.loop l) = true)
    (h : Clears (F := F) x (pidUpdate l)) : Clears (F := F) x controlBlock := by
  cases l
  · exact Clears.before (clears_ifContains hn h)
  · exact Clears.after (Clears.before (clears_ifContains hn h))
  · exact Clears.after (Clears.after (Clears.before (clears_ifContains hn h)))

/-- An uninterrupted pass clears every mark. -/
theorem pass_clears (x : Par) : Clears (F := F) x update := by
  have c1 : ∀ {x : Par} (_ : x.inNs .control = true) (_ : Clears (F := F) x controlBlock), Clears (F := F) x update :=
    fun hn h => Clears.after (Clears.after (Clears.before (clears_ifContains hn h)))
  have c2 : ∀ {x : Par} (_ : x.inNs .motor = true) (_ : Clears (F := F) x motorBlock), Clears (F := F) x update :=
    fun hn h => Clears.after (Clears.after (Clears.after (Clears.before (clears_ifContains hn h))))
  have c3 : ∀ {x : Par} (_ : x.inNs .thermal = true) (_ : Clears (F := F) x thermalBlock), Clears (F := F) x update :=
    fun hn h => Clears.after (Clears.after (Clears.after (Clears.after (clears_ifContains hn h))))
  cases x with
  | kp l => exact c1 rfl (clears_controlBlock_loop l (by simp [Par.inNs]) (clears_pidUpdate_gain l _ (.inl rfl)))
  | ki l => exact c1 rfl (clears_controlBlock_loop l (by simp [Par.inNs]) (clears_pidUpdate_gain l _ (.inr (.inl rfl))))
  | kd l => exact c1 rfl (clears_controlBlock_loop l (by simp [Par.inNs]) (clears_pidUpdate_gain l _ (.inr (.inr rfl))))
  | iLimit l => exact c1 rfl (clears_controlBlock_loop l (by simp [Par.inNs]) (clears_pidUpdate_limit l))
  | lowBatt => exact c1 rfl (.after (.after (.after (.before (clears_ifChanged (clears_get _ _))))))
  | velLimit => exact c1 rfl (.after (.after (.after (.after (.before (clears_ifChanged (clears_get _ _)))))))
  | torqueLimit => exact c1 rfl (.after (.after (.after (.after (.after (.before (clears_ifChanged (clears_get _ _))))))))
  | accLimit => exact c1 rfl (.after (.after (.after (.after (.after (.after (clears_ifChanged (clears_get _ _))))))))
  | torqueCst =>
    exact c2 rfl (.before (clears_ifChanged (clears_load _ fun _ => clears_load _ fun _ => clears_get _ _)))
  | offset => exact c2 rfl (.after (clears_ifChanged (clears_get _ _)))
  | maxTemp => exact c3 rfl (clears_get _ _)
  | rTh => exact c3 rfl (clears_skip _ fun _ => clears_get _ _)
  | cTh => exact c3 rfl (clears_skip _ fun _ => clears_skip _ fun _ => clears_get _ _)
  | currentGain => exact c3 rfl (clears_skip _ fun _ => clears_skip _ fun _ => clears_skip _ fun _ => clears_get _ _)
  | transP => exact .before (clears_get _ _)
  | transQ => exact .after (.before (clears_get _ _))

/-- After a pass that is not interrupted every copy is up to date, whatever was changed before. -/
theorem quiet_pass {x : Par} {d : Der} (h : Copy x d) {s : State F} (hq : s.setting x = 0) (h0 : Follows x d s) :
    (exec update s).der d = s.val x := by
  have h1 := pass_follows h (steps_exec update s) h0
  rcases h1 with h1 | h1 | h1
  · rw [h1, exec_val]
  · rw [pass_clears x s] at h1; cases h1
  · rw [exec_setting, hq] at h1; cases h1

/-- The full life: after `control_init`, any history, and one pass that is not interrupted while nobody is in the middle of
setting parameters, the copies are what the parameters say. -/
theorem takes_effect_partial {val : Par → F} {der : Der → F} {s : State F} (hr : Reach val der s) {x : Par} {d : Der}
    (h : Copy x d) (hd : d ≠ .spVelLimit) (hq : s.setting x = 0) : (exec update s).der d = s.val x :=
  quiet_pass h hq (changes_kept_partial hr h hd)

/-! ## The velocity limit of the interpolator -/

theorem noAssign_ifChanged {d : Der} (y : Par) {p : Prog F} (h : NoAssign d p) : NoAssign d (Prog.ifChanged y p) := by
  intro b; cases b
  · exact True.intro
  · exact h

theorem noAssign_ifContains {d : Der} (n : Ns) {p : Prog F} (h : NoAssign d p) : NoAssign d (Prog.ifContains n p) := by
  intro b; cases b
  · exact True.intro
  · exact h

theorem noAssign_pidUpdate {d : Der} (l : Loop) (h1 : ∀ l, d ≠ .kp l) (h2 : ∀ l, d ≠ .ki l) (h3 : ∀ l, d ≠ .kd l)
    (h4 : ∀ l, d ≠ .iLimit l) : NoAssign (F := F) d (pidUpdate l) := by
  have hg : NoAssign (F := F) d (setGains l) := by
    simp [setGains, Prog.get, NoAssign, Ne.symm (h1 l), Ne.symm (h2 l), Ne.symm (h3 l)]
  refine NoAssign.seq ?_ (noAssign_ifChanged _ ?_)
  · intro a; cases a
    · intro b; cases b
      · intro c; cases c
        · exact True.intro
        · exact hg
      · exact hg
    · exact hg
  · simp [copy, Prog.get, NoAssign, Ne.symm (h4 l)]

/-- A pass (uninterrupted) that finds the velocity limit unmarked does not touch the limit of the interpolator. -/
theorem interpolator_untouched (s : State F) (h : s.changed .velLimit = false) :
    (exec update s).der .spVelLimit = s.der .spVelLimit := by
  have step : ∀ (p : Prog F) (s : State F), NoAssign .spVelLimit p → (exec p s).der .spVelLimit = s.der .spVelLimit :=
    fun p s hp => noAssign_exec hp s
  have hp : ∀ l, NoAssign (F := F) .spVelLimit (pidUpdate l) := fun l =>
    noAssign_pidUpdate l (by simp) (by simp) (by simp) (by simp)
  have hctl : ∀ s : State F, s.changed .velLimit = false → (exec controlBlock s).der .spVelLimit = s.der .spVelLimit := by
    intro s h
    unfold controlBlock
    simp only [exec_seq]
    rw [step _ _ (noAssign_ifChanged _ (by simp [copy, Prog.get, NoAssign])),
      step _ _ (noAssign_ifChanged _ (by simp [torqueAssign, Prog.get, NoAssign]))]
    have hm : ∀ t : State F, t.changed .velLimit = false → (exec (ifChanged .velLimit
        (Prog.get .velLimit fun v => assign .velLimit v <| assign .spVelLimit v done)) t) = t := by
      intro t ht
      show exec (if t.changed .velLimit = true then _ else _) t = t
      rw [ht]; rfl
    rw [hm _ (exec_changed _ _ _ (exec_changed _ _ _ (exec_changed _ _ _ (exec_changed _ _ _ h)))),
      step _ _ (noAssign_ifChanged _ (by simp [copy, Prog.get, NoAssign])),
      step _ _ (noAssign_ifContains _ (hp _)), step _ _ (noAssign_ifContains _ (hp _)),
      step _ _ (noAssign_ifContains _ (hp _))]
  unfold update
  simp only [exec_seq]
  rw [step _ _ (noAssign_ifContains _ (by simp [thermalBlock, Prog.get, NoAssign])),
    step _ _ (noAssign_ifContains _ (p := motorBlock) (NoAssign.seq (noAssign_ifChanged _ (by simp [constantUpdate, Prog.get, NoAssign]))
      (noAssign_ifChanged _ (by simp [copy, Prog.get, NoAssign]))))]
  have hg : ∀ t : State F, t.changed .velLimit = false →
      (exec (ifContains .control controlBlock) t).der .spVelLimit = t.der .spVelLimit := by
    intro t ht
    show (exec (if t.contains .control = true then _ else _) t).der .spVelLimit = _
    split
    · exact hctl t ht
    · rfl
  rw [hg _ (exec_changed _ _ _ (exec_changed _ _ _ h)), step _ _ (by simp [copy, Prog.get, NoAssign]),
    step _ _ (by simp [copy, Prog.get, NoAssign])]

/-- `n` passes without interruption. -/
def passes : Nat → State F → State F
  | 0, s => s
  | n + 1, s => passes n (exec update s)

/-- `control_init` reads the velocity limit and thereby clears its mark, so the pass at its end does not pass the limit on:
the interpolator keeps the limit it was initialised with (0), for any default, and so it remains as long as
nobody sets a parameter. -/
theorem interpolator_limit_missing (val : Par → F) (der : Der → F) (n : Nat) :
    (passes n (exec initProg (declared val der))).der .spVelLimit = der .spVelLimit ∧
    (passes n (exec initProg (declared val der))).changed .velLimit = false := by
  have hn : ∀ (n : Nat) (s : State F), s.changed .velLimit = false →
      (passes n s).der .spVelLimit = s.der .spVelLimit ∧ (passes n s).changed .velLimit = false := by
    intro n
    induction n with
    | zero => intro s h; exact ⟨rfl, h⟩
    | succ n ih =>
      intro s h
      have := ih (exec update s) (exec_changed _ _ _ h)
      exact ⟨this.1.trans (interpolator_untouched s h), this.2⟩
  have hi : (exec initProg (declared val der)).der .spVelLimit = der .spVelLimit ∧
      (exec initProg (declared val der)).changed .velLimit = false := by
    unfold initProg
    simp only [exec_seq]
    constructor
    · rw [interpolator_untouched _ (exec_changed constantUpdate _ _ (show (exec (copy .velLimit .velLimit) _).changed .velLimit = false from clears_get _ _ _)),
        noAssign_exec (by simp [constantUpdate, Prog.get, NoAssign]),
        noAssign_exec (by simp [copy, Prog.get, NoAssign]), noAssign_exec (by simp [torqueAssign, Prog.get, NoAssign]),
        noAssign_exec (by simp [copy, Prog.get, NoAssign]), noAssign_exec (by simp [copy, Prog.get, NoAssign])]
      rfl
    · exact exec_changed _ _ _ (exec_changed _ _ _ (clears_get _ _ _))
  have := hn n _ hi.2
  exact ⟨this.1.trans hi.1, this.2⟩

/-! ## Variables computed from several parameters -/

theorem noClear_ifChanged {x : Par} (y : Par) {p : Prog F} (h : NoClear x p) : NoClear x (Prog.ifChanged y p) := by
  intro b; cases b
  · exact True.intro
  · exact h

theorem noClear_ifContains {x : Par} (n : Ns) {p : Prog F} (h : NoClear x p) : NoClear x (Prog.ifContains n p) := by
  intro b; cases b
  · exact True.intro
  · exact h

theorem noClear_pidUpdate {x : Par} (l : Loop) (h1 : ∀ l, x ≠ .kp l) (h2 : ∀ l, x ≠ .ki l) (h3 : ∀ l, x ≠ .kd l)
    (h4 : ∀ l, x ≠ .iLimit l) : NoClear (F := F) x (pidUpdate l) := by
  have hg : NoClear (F := F) x (setGains l) := by
    simp [setGains, Prog.get, NoClear, Ne.symm (h1 l), Ne.symm (h2 l), Ne.symm (h3 l)]
  refine NoClear.seq ?_ (noClear_ifChanged _ ?_)
  · intro a; cases a
    · intro b; cases b
      · intro c; cases c
        · exact True.intro
        · exact hg
      · exact hg
    · exact hg
  · simp [copy, Prog.get, NoClear, Ne.symm (h4 l)]

/-- The part of the block before the torque limit. -/
def controlBefore : Prog F :=
  ifContains (.loop .pos) (pidUpdate .pos) ;;
  ifContains (.loop .vel) (pidUpdate .vel) ;;
  ifContains (.loop .cur) (pidUpdate .cur) ;;
  ifChanged .lowBatt (copy .lowBatt .lowBatt) ;;
  ifChanged .velLimit (Prog.get .velLimit fun v => assign .velLimit v <| assign .spVelLimit v done)

theorem exec_controlBlock (s : State F) : exec controlBlock s =
    exec (ifChanged .accLimit (copy .accLimit .spAccLimit)) (exec (ifChanged .torqueLimit torqueAssign)
      (exec controlBefore s)) := by
  unfold controlBlock controlBefore
  simp only [exec_seq]

theorem noClear_before {x : Par} (hx : x = .torqueLimit ∨ x = .torqueCst) : NoClear (F := F) x controlBefore := by
  have hp : ∀ l, NoClear (F := F) x (pidUpdate l) := fun l => by
    rcases hx with rfl | rfl <;> exact noClear_pidUpdate l (by simp) (by simp) (by simp) (by simp)
  refine .seq (noClear_ifContains _ (hp _)) <| .seq (noClear_ifContains _ (hp _)) <| .seq (noClear_ifContains _ (hp _)) <|
    .seq (noClear_ifChanged _ ?_) (noClear_ifChanged _ ?_)
  · rcases hx with rfl | rfl <;> simp [copy, Prog.get, NoClear]
  · rcases hx with rfl | rfl <;> simp [Prog.get, NoClear]

/-- The variables computed from several parameters, and the transmission. -/
def Computed (d : Der) : Prop := d = .currentLimit ∨ d = .currentConstant ∨ d = .transP ∨ d = .transQ

theorem noAssign_before {d : Der} (hd : Computed d) : NoAssign (F := F) d controlBefore := by
  have hp : ∀ l, NoAssign (F := F) d (pidUpdate l) := fun l => by
    rcases hd with rfl | rfl | rfl | rfl <;> exact noAssign_pidUpdate l (by simp) (by simp) (by simp) (by simp)
  refine .seq (noAssign_ifContains _ (hp _)) <| .seq (noAssign_ifContains _ (hp _)) <|
    .seq (noAssign_ifContains _ (hp _)) <| .seq (noAssign_ifChanged _ ?_) (noAssign_ifChanged _ ?_)
  · rcases hd with rfl | rfl | rfl | rfl <;> simp [copy, Prog.get, NoAssign]
  · rcases hd with rfl | rfl | rfl | rfl <;> simp [Prog.get, NoAssign]

/-- The state after the block of the controllers, as far as the computed variables are concerned. -/
theorem control_computed (s : State F) :
    let r := exec (ifContains .control controlBlock) s
    r.der .currentLimit = (if s.changed .torqueLimit then Ops.div (s.val .torqueLimit) (s.val .torqueCst)
      else s.der .currentLimit) ∧
    r.der .currentConstant = s.der .currentConstant ∧ r.der .transP = s.der .transP ∧ r.der .transQ = s.der .transQ ∧
    r.changed .torqueCst = (if s.changed .torqueLimit then false else s.changed .torqueCst) := by
  intro r
  have hr : r = exec (if s.contains .control = true then controlBlock else done) s := rfl
  by_cases hc : s.contains .control = true
  · rw [if_pos hc, exec_controlBlock] at hr
    have hl : ∀ d : Der, Computed d → r.der d = (exec (ifChanged .torqueLimit torqueAssign) (exec controlBefore s)).der d := by
      intro d hd
      rw [hr]
      refine noAssign_exec (noAssign_ifChanged _ ?_) _
      rcases hd with rfl | rfl | rfl | rfl <;> simp [copy, Prog.get, NoAssign]
    have hm : r.changed .torqueCst =
        (exec (ifChanged .torqueLimit torqueAssign) (exec controlBefore s)).changed .torqueCst := by
      rw [hr]
      exact noClear_exec (noClear_ifChanged _ (by simp [copy, Prog.get, NoClear])) _
    have hb : ∀ d : Der, Computed d → (exec controlBefore s).der d = s.der d := fun d hd => noAssign_exec (noAssign_before hd) s
    have hk1 : (exec controlBefore s).changed .torqueLimit = s.changed .torqueLimit := noClear_exec (noClear_before (.inl rfl)) s
    have hk2 : (exec controlBefore s).changed .torqueCst = s.changed .torqueCst := noClear_exec (noClear_before (.inr rfl)) s
    have hv : (exec controlBefore s).val = s.val := exec_val ..
    rw [hl _ (.inl rfl), hl _ (.inr (.inl rfl)), hl _ (.inr (.inr (.inl rfl))), hl _ (.inr (.inr (.inr rfl))), hm,
      ← hb _ (.inl rfl), ← hb _ (.inr (.inl rfl)), ← hb _ (.inr (.inr (.inl rfl))), ← hb _ (.inr (.inr (.inr rfl))),
      ← hk1, ← hk2, ← hv]
    generalize exec controlBefore s = t
    have ht : exec (ifChanged .torqueLimit torqueAssign) t =
        exec (if t.changed .torqueLimit = true then torqueAssign else done) t := rfl
    rw [ht]
    by_cases hx : t.changed .torqueLimit = true
    · rw [if_pos hx, if_pos hx, if_pos hx]
      simp [torqueAssign, Prog.get, exec, upd]
    · rw [if_neg hx, if_neg hx, if_neg hx]
      exact ⟨rfl, rfl, rfl, rfl, rfl⟩
  · rw [if_neg hc] at hr
    have hx : ¬ s.changed .torqueLimit = true := fun h => hc (contains_of h rfl)
    rw [if_neg hx, if_neg hx, hr]
    exact ⟨rfl, rfl, rfl, rfl, rfl⟩

/-- Everything an uninterrupted pass does to the computed variables. -/
theorem computed (s : State F) :
    (exec update s).der .currentLimit = (if s.changed .torqueLimit then Ops.div (s.val .torqueLimit) (s.val .torqueCst)
      else s.der .currentLimit) ∧
    (exec update s).der .currentConstant = (if s.changed .torqueCst && !s.changed .torqueLimit then
      Ops.div Ops.one (Ops.mul (s.val .torqueCst) (Ops.div (s.val .transP) (s.val .transQ)))
      else s.der .currentConstant) := by
  unfold update
  simp only [exec_seq]
  rw [noAssign_exec (d := .currentLimit) (noAssign_ifContains _ (p := thermalBlock) (by simp [thermalBlock, Prog.get, NoAssign])),
    noAssign_exec (d := .currentConstant) (noAssign_ifContains _ (p := thermalBlock) (by simp [thermalBlock, Prog.get, NoAssign]))]
  let t := exec (copy .transQ .transQ) (exec (copy .transP .transP) s)
  have ht : t.val = s.val ∧ t.changed .torqueLimit = s.changed .torqueLimit ∧ t.changed .torqueCst = s.changed .torqueCst ∧
      t.der .currentLimit = s.der .currentLimit ∧ t.der .currentConstant = s.der .currentConstant ∧
      t.der .transP = s.val .transP ∧ t.der .transQ = s.val .transQ := by
    simp [t, copy, Prog.get, exec, upd]
  show (exec (ifContains .motor motorBlock) (exec (ifContains .control controlBlock) t)).der .currentLimit = _ ∧
    (exec (ifContains .motor motorBlock) (exec (ifContains .control controlBlock) t)).der .currentConstant = _
  obtain ⟨c1, c2, c3, c4, c5⟩ := control_computed t
  have hv : (exec (ifContains .control controlBlock) t).val = t.val := exec_val ..
  generalize exec (ifContains .control controlBlock) t = r at *
  rw [noAssign_exec (noAssign_ifContains _ (p := motorBlock) (NoAssign.seq
    (noAssign_ifChanged _ (by simp [constantUpdate, Prog.get, NoAssign]))
    (noAssign_ifChanged _ (by simp [copy, Prog.get, NoAssign]))))]
  refine ⟨by rw [c1, ht.1, ht.2.1, ht.2.2.2.1], ?_⟩
  have hm : exec (ifContains .motor motorBlock) r = exec (if r.contains .motor = true then motorBlock else done) r := rfl
  rw [hm]
  have h2 : r.changed .torqueCst = (s.changed .torqueCst && !s.changed .torqueLimit) := by
    rw [c5, ht.2.1, ht.2.2.1]; cases s.changed .torqueLimit <;> cases s.changed .torqueCst <;> rfl
  rw [← h2]
  by_cases hx : r.changed .torqueCst = true
  · rw [if_pos (contains_of hx rfl), if_pos hx]
    unfold motorBlock
    rw [exec_seq, noAssign_exec (noAssign_ifChanged _ (by simp [copy, Prog.get, NoAssign]))]
    have : exec (ifChanged .torqueCst constantUpdate) r =
        exec (if r.changed .torqueCst = true then constantUpdate else done) r := rfl
    rw [this, if_pos hx]
    simp [constantUpdate, Prog.get, exec, c3, c4, hv, ht.1, ht.2.2.2.2.2.1, ht.2.2.2.2.2.2]
  · rw [if_neg hx]
    have : r.der .currentConstant = s.der .currentConstant := by rw [c2, ht.2.2.2.2.1]
    split
    · unfold motorBlock
      rw [exec_seq, noAssign_exec (noAssign_ifChanged _ (by simp [copy, Prog.get, NoAssign]))]
      have h3 : exec (ifChanged .torqueCst constantUpdate) r =
          exec (if r.changed .torqueCst = true then constantUpdate else done) r := rfl
      rw [h3, if_neg hx]; exact this
    · exact this

/-- What the computed variables are to be. -/
def LimitRight (s : State F) : Prop := s.der .currentLimit = Ops.div (s.val .torqueLimit) (s.val .torqueCst)

def ConstantRight (s : State F) : Prop :=
  s.der .currentConstant = Ops.div Ops.one (Ops.mul (s.val .torqueCst) (Ops.div (s.val .transP) (s.val .transQ)))

/-- After `control_init` the computed variables are right. -/
theorem init_computed (val : Par → F) (der : Der → F) :
    LimitRight (exec initProg (declared val der)) ∧ ConstantRight (exec initProg (declared val der)) := by
  unfold initProg
  simp only [exec_seq]
  generalize ht : exec constantUpdate (exec (copy Par.velLimit Der.velLimit) (exec torqueAssign
    (exec (copy Par.transQ Der.transQ) (exec (copy Par.transP Der.transP) (declared val der))))) = t
  have h1 : t.der .currentLimit = Ops.div (val .torqueLimit) (val .torqueCst) ∧
      t.der .currentConstant = Ops.div Ops.one (Ops.mul (val .torqueCst) (Ops.div (val .transP) (val .transQ))) ∧
      t.changed .torqueLimit = false ∧ t.changed .torqueCst = false ∧ t.val = val := by
    rw [← ht]
    simp [copy, torqueAssign, constantUpdate, Prog.get, exec, upd, declared]
  obtain ⟨a, b, c, d, e⟩ := h1
  obtain ⟨u, v⟩ := computed t
  unfold LimitRight ConstantRight
  rw [u, v, c, d, exec_val, e]
  exact ⟨a, b⟩

/-- The current limit stays right over a pass if the torque limit is the only one of its parameters that has changed. -/
theorem limit_partial (s : State F) (h : s.changed .torqueLimit = true ∨ LimitRight s) :
    LimitRight (exec update s) := by
  unfold LimitRight
  rw [(computed s).1, exec_val]
  split
  · rfl
  · next hn => exact h.resolve_left hn

/-- The torque constant alone has changed: the constant of the controller is updated ... -/
theorem constant_partial (s : State F) (h1 : s.changed .torqueLimit = false)
    (h : s.changed .torqueCst = true ∨ ConstantRight s) : ConstantRight (exec update s) := by
  unfold ConstantRight
  rw [(computed s).2, exec_val, h1]
  split
  · rfl
  · next hn => exact h.resolve_left (by simpa using hn)

/-- ... but not if the torque limit has changed too: then the constant is not updated, and the mark is gone. -/
theorem constant_lost (s : State F) (h : s.changed .torqueLimit = true) :
    (exec update s).der .currentConstant = s.der .currentConstant ∧ (exec update s).changed .torqueCst = false := by
  refine ⟨?_, pass_clears _ s⟩
  rw [(computed s).2, h]; simp

/-- A change of the torque constant without one of the torque limit leaves the current limit as it was. -/
theorem limit_not_updated (s : State F) (h : s.changed .torqueLimit = false) :
    (exec update s).der .currentLimit = s.der .currentLimit := by
  rw [(computed s).1, h]; simp

/-- A change of the transmission alone leaves the constant as it was. -/
theorem constant_not_updated (s : State F) (h : s.changed .torqueCst = false) :
    (exec update s).der .currentConstant = s.der .currentConstant := by
  rw [(computed s).2, h]; simp

instance : Ops Rat := ⟨(· / ·), (· * ·), 1⟩

/-- Defaults of the board with finite limits. -/
def exVal : Par → Rat
  | .torqueLimit => 6 | .torqueCst => 2 | .transP => 1 | .transQ => 4 | .velLimit => 30 | _ => 1

def exStart : State Rat := exec initProg (declared exVal fun _ => 0)

/-- `parameter_scalar_set`, both halves. -/
def State.set (s : State F) (x : Par) (v : F) : State F :=
  { s with val := upd s.val x v, changed := upd s.changed x true }

example : exStart.der .currentLimit = 3 ∧ exStart.der .currentConstant = 2 ∧ exStart.der (.kp .vel) = 1 ∧
    exStart.der .velLimit = 30 ∧ exStart.der .spVelLimit = 0 := by decide +kernel

/-- Setting torque limit and torque constant together leaves the controller with the old constant for good. -/
example : let s := passes 3 ((exStart.set .torqueLimit 8).set .torqueCst 4)
    s.der .currentLimit = 2 ∧ s.der .currentConstant = 2 ∧ ¬ ConstantRight s ∧ s.changed .torqueCst = false := by
  unfold ConstantRight; decide +kernel

/-- Setting the torque constant alone leaves the old current limit. -/
example : let s := passes 3 (exStart.set .torqueCst 4)
    s.der .currentLimit = 3 ∧ ¬ LimitRight s ∧ ConstantRight s := by
  unfold ConstantRight LimitRight; decide +kernel

/-- While a pass takes over the gain 5, another thread stores 7 after the mark has been cleared: the gain becomes 7 or the
parameter is being set. -/
example : ∃ r : State Rat, Steps update (exStart.set (.kp .vel) 5) .done r ∧ r.val (.kp .vel) = 7 ∧
    Follows (.kp .vel) (.kp .vel) r := by
  have h : ∃ r : State Rat, Steps update (exStart.set (.kp .vel) 5) .done r ∧ r.val (.kp .vel) = 7 :=
    ⟨_, .act (.clear ..) (.env (.store _ (.kp .vel) 7) (steps_exec _ _)), by rw [exec_val]; rfl⟩
  obtain ⟨r, h1, h2⟩ := h
  exact ⟨r, h1, h2, pass_follows (.kp _) h1 (Or.inr (Or.inl (by decide)))⟩

end Verif.MotorParams
