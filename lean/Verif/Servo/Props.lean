import Verif.Servo.Lemmas

/-!
# What the servo outputs do
-/

namespace Verif.Servo

open Verif.Num (Ext)
open Verif.Quadramp (Qr Quick DownRoot Between Stuck sqrtQ)

/-! ## IO board -/

namespace Io

/-- A setting which is a number and keeps the limits `f` and `a` of a servo, per round -/
def Keeps (f a : ℚ) (s : Setting) : Prop := s.pos ≠ .nan ∧ (s.vel ≤ 0 ∨ s.vel * 1000 = f) ∧ (s.acc ≤ 0 ∨ s.acc * 1000 = a)

/-- The servos of a board are within their limits and the registers are those of the outputs. -/
structure Well (f a : Fin 4 → ℚ) (b : Board) : Prop where
  good : ∀ i, Good timerFreq (f i) (a i) (b.servo i)
  reg : ∀ i, b.reg i = ccr (b.servo i).filter.out

/-- Messages for other boards are not regarded. -/
theorem other_node {b : Board} {n : Nat} (h : n ≠ b.node) (m : Fin 4 → Setting) : receive b n m = b := if_pos h

theorem coefficients_keep {q : Qr} {f a vel acc : ℚ} (h : Quick q f a) (hv : vel ≤ 0 ∨ vel * 1000 = f) (ha : acc ≤ 0 ∨ acc * 1000 = a) :
    coefficients q vel acc = q := by
  obtain ⟨s1, s2, f1, f2, v, o, i⟩ := q
  have e1 := h.pos
  have e2 := h.neg
  have e3 := h.fpos
  have e4 := h.fneg
  dsimp only at e1 e2 e3 e4
  rw [e1, e2, e3, e4]
  unfold coefficients rampScale
  dsimp only
  have h1 : (if vel > 0 then Qr.setFirst ⟨a, a, f, f, v, o, i⟩ (vel * 1000) (vel * 1000) else ⟨a, a, f, f, v, o, i⟩) = ⟨a, a, f, f, v, o, i⟩ := by
    split
    · rcases hv with hv | hv
      · linarith
      · rw [hv]
        rfl
    · rfl
  rw [h1]
  split
  · rcases ha with ha | ha
    · linarith
    · rw [ha]
      rfl
  · rfl

theorem well_receive {f a : Fin 4 → ℚ} {b : Board} (h : Well f a b) {n : Nat} {m : Fin 4 → Setting} (hm : n = b.node → ∀ i, Keeps (f i) (a i) (m i)) :
    Well f a (receive b n m) := by
  unfold receive
  by_cases hn : n ≠ b.node
  · rwa [if_pos hn]
  · rw [if_neg hn]
    have hm := hm (not_not.mp hn)
    refine ⟨fun i => ?_, fun i => ?_⟩
    · obtain ⟨k1, k2, k3⟩ := hm i
      have g := h.good i
      dsimp only
      rw [coefficients_keep g.quick k2 k3]
      exact ⟨k1, g.quick, g.var, g.low, g.high⟩
    · obtain ⟨k1, k2, k3⟩ := hm i
      dsimp only
      rw [coefficients_keep (h.good i).quick k2 k3]
      exact h.reg i

theorem well_tick {sqrt : ℚ → ℚ} (hs : DownRoot sqrt) {f a : Fin 4 → ℚ} {b : Board} (h : Well f a b) :
    ∃ b', tick sqrt b = some b' ∧ b'.node = b.node ∧ Well f a b' ∧ ∀ i, (b.servo i).tick sqrt timerFreq = some (b'.servo i) := by
  have hg := fun i => good_tick hs (scale := timerFreq) (by decide) (h.good i)
  let s : Fin 4 → Servo := fun i => (hg i).choose
  have hs' : ∀ i, (b.servo i).tick sqrt timerFreq = some (s i) := fun i => (hg i).choose_spec.1
  refine ⟨{ b with servo := s, reg := fun i => ccr (s i).filter.out }, ?_, rfl, ⟨fun i => (hg i).choose_spec.2.1, fun i => rfl⟩, hs'⟩
  unfold tick
  rw [seq_some hs']

/-- Every execution with settings that keep the limits is defined, and the outputs stay between 0 and a second. -/
theorem run_well {sqrt : ℚ → ℚ} (hs : DownRoot sqrt) {f a : Fin 4 → ℚ} :
    ∀ (es : List Event) {b : Board}, Well f a b → (∀ m, .msg b.node m ∈ es → ∀ i, Keeps (f i) (a i) (m i)) →
      ∃ b', run sqrt b es = some b' ∧ b'.node = b.node ∧ Well f a b'
  | [], b, h, _ => ⟨b, rfl, rfl, h⟩
  | e :: es, b, h, hm => by
    have hstep : ∃ b1, step sqrt b e = some b1 ∧ b1.node = b.node ∧ Well f a b1 := by
      cases e with
      | tick =>
        obtain ⟨b1, t1, t2, t3, -⟩ := well_tick hs h
        exact ⟨b1, t1, t2, t3⟩
      | msg n m =>
        refine ⟨receive b n m, rfl, ?_, well_receive h ?_⟩
        · unfold receive
          split <;> rfl
        · rintro rfl
          exact hm m (by simp)
    obtain ⟨b1, s1, s2, s3⟩ := hstep
    obtain ⟨b', r1, r2, r3⟩ := run_well hs es s3 (fun m hmem => hm m (by rw [← s2]; exact List.mem_cons_of_mem _ hmem))
    refine ⟨b', ?_, r2.trans s2, r3⟩
    show (match step sqrt b e with | none => none | some b => run sqrt b es) = _
    rw [s1]
    exact r1

/-- The board starts with limits of 1000 ticks per round, and as much per round squared. -/
theorem well_init (n : Nat) : Well (fun _ => 1000) (fun _ => 1000) (init n) := by
  have hc : coefficients .init 1 1 = ⟨1000, 1000, 1000, 1000, 0, 0, 0⟩ := by decide +kernel
  refine ⟨fun i => ?_, fun i => ?_⟩
  · show Good timerFreq 1000 1000 ⟨.fin 0, coefficients .init 1 1⟩
    rw [hc]
    exact ⟨by simp, ⟨rfl, rfl, rfl, rfl, by norm_num, by norm_num, le_refl _⟩, by simp, le_refl _, by decide⟩
  · show 0 = ccr (coefficients .init 1 1).out
    rw [hc]
    rfl

/-- Other limits can be set while the servos do not move, as long as the acceleration is not below the speed. -/
theorem set_limits {f a : Fin 4 → ℚ} {b : Board} (h : Well f a b) (hv : ∀ i, (b.servo i).filter.var = 0) {m : Fin 4 → Setting}
    (hm : ∀ i, (m i).pos ≠ .nan ∧ 1 ≤ (m i).vel * 1000 ∧ 2 ≤ (m i).acc * 1000 ∧ (m i).vel ≤ (m i).acc) :
    Well (fun i => (m i).vel * 1000) (fun i => (m i).acc * 1000) (receive b b.node m) := by
  unfold receive
  rw [if_neg (by simp)]
  have hc : ∀ i, coefficients (b.servo i).filter (m i).vel (m i).acc =
      { (b.servo i).filter with secondPos := (m i).acc * 1000, secondNeg := (m i).acc * 1000, firstPos := (m i).vel * 1000, firstNeg := (m i).vel * 1000 } := by
    intro i
    obtain ⟨-, m2, m3, -⟩ := hm i
    unfold coefficients rampScale
    dsimp only
    rw [if_pos (show (m i).vel > 0 by linarith), if_pos (show (m i).acc > 0 by linarith)]
    rfl
  refine ⟨fun i => ?_, fun i => ?_⟩
  · obtain ⟨m1, m2, m3, m4⟩ := hm i
    have g := h.good i
    dsimp only
    rw [hc]
    refine ⟨m1, ⟨rfl, rfl, rfl, rfl, m2, m3, by linarith⟩, ?_, g.low, g.high⟩
    show |(b.servo i).filter.var| ≤ _
    rw [hv i, abs_zero]
    linarith
  · dsimp only
    rw [hc]
    exact h.reg i

theorem run_append {sqrt : ℚ → ℚ} : ∀ (es fs : List Event) {b b' : Board}, run sqrt b es = some b' → run sqrt b (es ++ fs) = run sqrt b' fs
  | [], fs, b, b', h => by cases h; rfl
  | e :: es, fs, b, b', h => by
    have h' : (match step sqrt b e with | none => none | some b => run sqrt b es) = some b' := h
    show (match step sqrt b e with | none => none | some b => run sqrt b (es ++ fs)) = _
    cases hs : step sqrt b e with
    | none => rw [hs] at h'; cases h'
    | some b1 =>
      rw [hs] at h'
      exact run_append es fs h'

theorem ticks_run {sqrt : ℚ → ℚ} (hs : DownRoot sqrt) {f a : Fin 4 → ℚ} : ∀ (n : Nat) {b : Board}, Well f a b →
    ∃ b', run sqrt b (List.replicate n .tick) = some b' ∧ b'.node = b.node ∧ Well f a b' ∧ ∀ i, (b.servo i).ticks sqrt timerFreq n = some (b'.servo i)
  | 0, b, h => ⟨b, rfl, rfl, h, fun _ => rfl⟩
  | n + 1, b, h => by
    obtain ⟨b1, t1, t2, t3, t4⟩ := well_tick hs h
    obtain ⟨b2, r1, r2, r3, r4⟩ := ticks_run hs n t3
    refine ⟨b2, ?_, r2.trans t2, r3, fun i => ?_⟩
    · show (match tick sqrt b with | none => none | some b => run sqrt b (List.replicate n .tick)) = _
      rw [t1]
      exact r1
    · show (match (b.servo i).tick sqrt timerFreq with | none => none | some s => s.ticks sqrt timerFreq n) = _
      rw [t4 i]
      exact r4 i

theorem high_io (b : Board) (i : Fin 4) : b.high i = if i.val < 2 then min (b.reg i) 20000 else 0 := by
  unfold Board.high
  rw [high_eq]
  match i with
  | 0 => rfl
  | 1 => rfl
  | 2 => rfl
  | 3 => rfl

/-- Outputs 2 and 3 never carry a pulse: their channels are not enabled. -/
theorem dead_outputs (b : Board) : b.high 2 = 0 ∧ b.high 3 = 0 := ⟨high_io b 2, high_io b 3⟩

/-- Whatever was before, after a message and 1.000003 seconds of rounds outputs 0 and 1 carry the pulse of the position: a part of a second, in microseconds,
of which the register keeps 16 bits and the period is the most. -/
theorem settles_partial {sqrt : ℚ → ℚ} (hs : DownRoot sqrt) {f a : Fin 4 → ℚ} {b : Board} (h : Well f a b) (es : List Event)
    (hes : ∀ m, .msg b.node m ∈ es → ∀ i, Keeps (f i) (a i) (m i)) {m : Fin 4 → Setting} (hm : ∀ i, Keeps (f i) (a i) (m i)) {n : Nat} (hn : 1000003 ≤ n) :
    ∃ b', run sqrt b (es ++ .msg b.node m :: List.replicate n .tick) = some b' ∧ Well f a b' ∧
      ∀ i, b'.reg i = ⌊part (m i).pos * 1000000⌋.toNat % 65536 ∧ b'.high i = if i.val < 2 then min (b'.reg i) 20000 else 0 := by
  obtain ⟨b1, r1, r2, r3⟩ := run_well hs es h hes
  have h2 : Well f a (receive b1 b.node m) := well_receive r3 (fun _ => hm)
  obtain ⟨b2, t1, t2, t3, t4⟩ := ticks_run hs n h2
  refine ⟨b2, ?_, t3, fun i => ⟨?_, high_io b2 i⟩⟩
  · rw [run_append es _ r1]
    exact t1
  · obtain ⟨s', e1, -, -, e2⟩ := good_settles hs (scale := timerFreq) (by decide) (h2.good i) (n := n) hn
    rw [t4 i] at e1
    cases e1
    have hp : ((receive b1 b.node m).servo i).setpoint = (m i).pos := by
      unfold receive
      rw [if_neg (by simp [r2])]
    rw [t3.reg i, e2, hp]
    unfold ccr pulse timerFreq
    push_cast
    omega

/-- A position up to 0.02 is the length of the pulse in seconds. -/
theorem pulse_seconds {sqrt : ℚ → ℚ} (hs : DownRoot sqrt) (node : Nat) (es : List Event) (hes : ∀ m, .msg node m ∈ es → ∀ i, Keeps 1000 1000 (m i))
    {m : Fin 4 → Setting} (hm : ∀ i, Keeps 1000 1000 (m i)) {n : Nat} (hn : 1000003 ≤ n) :
    ∃ b', run sqrt (init node) (es ++ .msg node m :: List.replicate n .tick) = some b' ∧
      ∀ (i : Fin 4) (p : ℚ), i.val < 2 → (m i).pos = .fin p → 0 ≤ p → p ≤ 2 / 100 → b'.high i = ⌊p * 1000000⌋.toNat := by
  obtain ⟨b', h1, -, h3⟩ := settles_partial hs (well_init node) es hes hm hn
  refine ⟨b', h1, fun i p hi hp h0 hp1 => ?_⟩
  obtain ⟨h4, h5⟩ := h3 i
  rw [hp, part_fin h0 (by linarith)] at h4
  have hle : ⌊p * 1000000⌋ ≤ 20000 := by
    have := Int.floor_le (p * 1000000)
    have h6 : ((⌊p * 1000000⌋ : Int) : ℚ) ≤ ((20000 : Int) : ℚ) := by push_cast; linarith
    exact_mod_cast h6
  rw [h5, if_pos hi, h4]
  omega

/-- A NaN is undefined behaviour in the next round. -/
theorem nan_undefined (sqrt : ℚ → ℚ) (b : Board) (m : Fin 4 → Setting) (i : Fin 4) (h : (m i).pos = .nan) : run sqrt b [.msg b.node m, .tick] = none := by
  have : tick sqrt (receive b b.node m) = none := by
    unfold tick
    have hn : ((receive b b.node m).servo i).tick sqrt timerFreq = none := by
      unfold receive Servo.tick
      rw [if_neg (by simp)]
      dsimp only
      rw [h]
      rfl
    have hq : (seq fun i => ((receive b b.node m).servo i).tick sqrt timerFreq) = none := by
      unfold seq
      rw [dif_neg]
      intro hc
      have := hc i
      dsimp only at this
      rw [hn] at this
      cases this
    rw [hq]
  show (match tick sqrt (receive b b.node m) with | none => none | some b => some b) = none
  rw [this]

/-- The master sets one channel: the others go to zero. -/
theorem setPwm_others {b : Board} {c i : Fin 4} (h : i ≠ c) (p : Ext) : ((receive b b.node (setPwm c p)).servo i).setpoint = .fin 0 := by
  unfold receive setPwm
  rw [if_neg (by simp)]
  exact if_neg h

theorem setPwm_own (b : Board) (c : Fin 4) (p : Ext) :
    ((receive b b.node (setPwm c p)).servo c).setpoint = p ∧ ((receive b b.node (setPwm c p)).servo c).filter = (b.servo c).filter := by
  unfold receive setPwm
  rw [if_neg (by simp)]
  exact ⟨if_pos rfl, rfl⟩

/-- The master's messages keep any limits. -/
theorem setPwm_keeps (f a : ℚ) (c i : Fin 4) {p : Ext} (h : p ≠ .nan) : Keeps f a (setPwm c p i) := by
  refine ⟨?_, .inl (le_refl _), .inl (le_refl _)⟩
  unfold setPwm
  dsimp only
  split
  · exact h
  · simp

/-! The comment of `duty_cycle` says that a position is a part of the period. It is not: -/

/-- The length of the pulse on output 0 long after its position was set, in a period of 20000 -/
theorem set_and_wait {sqrt : ℚ → ℚ} (hs : DownRoot sqrt) (node : Nat) {p : ℚ} (h0 : 0 ≤ p) (h1 : p ≤ 1) {n : Nat} (hn : 1000003 ≤ n) :
    ∃ b', run sqrt (init node) (.msg node (setPwm 0 (.fin p)) :: List.replicate n .tick) = some b' ∧
      b'.high 0 = min (⌊p * 1000000⌋.toNat % 65536) 20000 := by
  obtain ⟨b', e1, -, e3⟩ := settles_partial hs (well_init node) [] (by simp) (fun i => setPwm_keeps 1000 1000 0 i (p := .fin p) (by simp)) hn
  refine ⟨b', e1, ?_⟩
  obtain ⟨e4, e5⟩ := e3 0
  rw [e5, if_pos (by decide), e4]
  show min (⌊part (.fin p) * 1000000⌋.toNat % 65536) 20000 = _
  rw [part_fin h0 h1]

/-- half of the range is constantly high, -/
theorem half_is_full {sqrt : ℚ → ℚ} (hs : DownRoot sqrt) (node : Nat) {n : Nat} (hn : 1000003 ≤ n) :
    ∃ b', run sqrt (init node) (.msg node (setPwm 0 (.fin (1 / 2))) :: List.replicate n .tick) = some b' ∧ b'.high 0 = 20000 := by
  obtain ⟨b', e1, e2⟩ := set_and_wait hs node (p := 1 / 2) (by norm_num) (by norm_num) hn
  exact ⟨b', e1, e2.trans (by decide +kernel)⟩

/-- all of it is less than that, -/
theorem one_is_not_full {sqrt : ℚ → ℚ} (hs : DownRoot sqrt) (node : Nat) {n : Nat} (hn : 1000003 ≤ n) :
    ∃ b', run sqrt (init node) (.msg node (setPwm 0 (.fin 1)) :: List.replicate n .tick) = some b' ∧ b'.high 0 = 16960 := by
  obtain ⟨b', e1, e2⟩ := set_and_wait hs node (p := 1) (by norm_num) (by norm_num) hn
  exact ⟨b', e1, e2.trans (by decide +kernel)⟩

/-- and a position between is no pulse at all. -/
theorem no_pulse {sqrt : ℚ → ℚ} (hs : DownRoot sqrt) (node : Nat) {n : Nat} (hn : 1000003 ≤ n) :
    ∃ b', run sqrt (init node) (.msg node (setPwm 0 (.fin (65536 / 1000000))) :: List.replicate n .tick) = some b' ∧ b'.high 0 = 0 := by
  obtain ⟨b', e1, e2⟩ := set_and_wait hs node (p := 65536 / 1000000) (by norm_num) (by norm_num) hn
  exact ⟨b', e1, e2.trans (by decide +kernel)⟩

/-! Limits with which a servo cannot stop within a round -/

/-- The outputs 0 during rounds, and how long they are high -/
def watch (b : Board) : Nat → List (Int × Nat)
  | 0 => []
  | n + 1 => match tick sqrtQ b with
    | none => []
    | some b => ((b.servo 0).filter.out, b.high 0) :: watch b n

/-- a message that sets the position of output 0 with limits -/
def move (p vel acc : ℚ) : Fin 4 → Setting := fun _ => ⟨.fin p, vel, acc⟩

def after (es : List Event) (n : Nat) : List (Int × Nat) :=
  match run sqrtQ (init 1) es with
  | none => []
  | some b => watch b n

/-- Towards zero with an acceleration below the speed: the output passes zero, and the register is high for all of the period. -/
theorem below_zero : after [.msg 1 (move (1/10000) 0 0), .tick, .tick, .msg 1 (move 0 (1/10) (1/100))] 10 =
    [(90, 90), (70, 70), (40, 40), (6, 6), (-17, 20000), (-30, 20000), (-33, 20000), (-26, 20000), (-9, 20000), (0, 0)] := by decide +kernel

/-- Lower limits while moving: the target of 3000 is passed by 20000 and more. -/
theorem limits_while_moving : (after [.msg 1 (move (1/100) 0 0), .tick, .tick, .msg 1 (move (3/1000) (1/10) (1/100))] 24)[23]? = some (23000, 20000) := by
  decide +kernel

/-- Position 1.5 ms of output 0 and 2 ms of output 1 -/
example : ∀ i, Keeps 1000 1000 ((fun i => ⟨.fin (if i = 0 then 15 / 10000 else 2 / 1000), 0, -1⟩ : Fin 4 → Setting) i) := by
  intro i
  exact ⟨by simp, .inl (le_refl _), .inl (by norm_num)⟩

example : (after [.msg 1 (setPwm 0 (.fin (15/10000)))] 4) = [(1000, 1000), (1500, 1500), (1500, 1500), (1500, 1500)] := by decide +kernel

end Io

/-! ## Actuator board -/

namespace Act

/-- Commands for other boards are not regarded. -/
theorem other_node {b : Board} {c : Cmd} (h : c.node ≠ b.node) : receive b c = some b := if_pos h

theorem receive_eq {b : Board} {c : Cmd} (hn : c.node = b.node) (hp : ∀ i, c.pump i ≠ .nan) :
    receive b c = some { b with
      servo := fun i => ⟨limit (c.servo i).pos, coefficients (b.servo i).filter (c.servo i).vel (c.servo i).acc⟩
      pump := fun i => ⌊part (c.pump i) * 500⌋.toNat
      solenoid := c.solenoid } := by
  unfold receive
  rw [if_neg (by simp [hn])]
  have : (seq fun i => pumpWidth (c.pump i)) = some fun i => ⌊part (c.pump i) * 500⌋.toNat := by
    refine seq_some fun i => ?_
    unfold pumpWidth
    rw [limit_eq (hp i)]
    rfl
  rw [this]

/-- A command sets the pumps to their part of the period, at most all of it, and the solenoids. -/
theorem pumps {b b' : Board} {c : Cmd} (hn : c.node = b.node) (h : receive b c = some b') :
    b'.solenoid = c.solenoid ∧ ∀ i, c.pump i ≠ .nan ∧ b'.pump i = ⌊part (c.pump i) * 500⌋.toNat ∧ b'.pump i ≤ 500 := by
  have hp : ∀ i, c.pump i ≠ .nan := by
    intro i hc
    unfold receive at h
    rw [if_neg (by simp [hn])] at h
    cases hq : (seq fun i => pumpWidth (c.pump i)) with
    | none => rw [hq] at h; cases h
    | some w =>
      have := seq_eq hq i
      rw [hc] at this
      cases this
  rw [receive_eq hn hp] at h
  cases h
  exact ⟨rfl, fun i => ⟨hp i, rfl, pulse_le 500 (c.pump i)⟩⟩

theorem pulse_limit (p : Ext) (scale : Nat) (h : p ≠ .nan) : pulse scale (limit p) = pulse scale p ∧ limit p ≠ .nan := by
  rw [limit_eq h]
  refine ⟨?_, by simp⟩
  unfold pulse
  rw [part_fin (part_nonneg p) (part_le p)]

theorem high_act (b : Board) (i : Fin 2) : b.high i = min (b.reg i) 20000 := by
  unfold Board.high
  rw [high_eq]
  match i with
  | 0 => rfl
  | 1 => rfl

/-- A command which is a number and has the limits `f` and `a`, per round -/
def Keeps (f a : Fin 2 → ℚ) (c : Cmd) : Prop :=
  ∀ i, c.pump i ≠ .nan ∧ (c.servo i).pos ≠ .nan ∧ (c.servo i).vel * 10000 = f i ∧ (c.servo i).acc * 10000 = a i

def Well (f a : Fin 2 → ℚ) (b : Board) : Prop := ∀ i, Good period (f i) (a i) (b.servo i)

theorem coefficients_keep {q : Qr} {f a vel acc : ℚ} (h : Quick q f a) (hv : vel * 10000 = f) (ha : acc * 10000 = a) : coefficients q vel acc = q := by
  obtain ⟨s1, s2, f1, f2, v, o, i⟩ := q
  have e1 := h.pos
  have e2 := h.neg
  have e3 := h.fpos
  have e4 := h.fneg
  dsimp only at e1 e2 e3 e4
  unfold coefficients rampScale Qr.setFirst Qr.setSecond
  dsimp only
  rw [hv, ha, e1, e2, e3, e4]

theorem well_receive {f a : Fin 2 → ℚ} {b : Board} (h : Well f a b) {c : Cmd} (hc : c.node = b.node → Keeps f a c) :
    ∃ b', receive b c = some b' ∧ b'.node = b.node ∧ Well f a b' ∧ (c.node = b.node → ∀ i, (b'.servo i).setpoint = limit (c.servo i).pos) := by
  by_cases hn : c.node = b.node
  · have hk := hc hn
    refine ⟨_, receive_eq hn fun i => (hk i).1, rfl, fun i => ?_, fun _ i => rfl⟩
    obtain ⟨-, k1, k2, k3⟩ := hk i
    have g := h i
    dsimp only
    rw [coefficients_keep g.quick k2 k3]
    exact ⟨(pulse_limit _ 0 k1).2, g.quick, g.var, g.low, g.high⟩
  · exact ⟨b, other_node hn, rfl, h, fun hc => absurd hc hn⟩

theorem well_tick {sqrt : ℚ → ℚ} (hs : DownRoot sqrt) {f a : Fin 2 → ℚ} {b : Board} (h : Well f a b) (al : Fin 2 → Bool) :
    ∃ b', tick sqrt b al = some b' ∧ b'.node = b.node ∧ Well f a b' ∧ (∀ i, (b.servo i).tick sqrt period = some (b'.servo i)) ∧
      ∀ i, b'.reg i = if al i then ccr (b'.servo i).filter.out else 0 := by
  have hg := fun i => good_tick hs (scale := period) (by decide) (h i)
  let s : Fin 2 → Servo := fun i => (hg i).choose
  have hs' : ∀ i, (b.servo i).tick sqrt period = some (s i) := fun i => (hg i).choose_spec.1
  refine ⟨{ b with servo := s, reg := fun i => if al i then ccr (s i).filter.out else 0 }, ?_, rfl, fun i => (hg i).choose_spec.2.1, hs', fun i => rfl⟩
  unfold tick
  rw [seq_some hs']

/-- Every execution with such commands is defined. -/
theorem run_well {sqrt : ℚ → ℚ} (hs : DownRoot sqrt) {f a : Fin 2 → ℚ} :
    ∀ (es : List Event) {b : Board}, Well f a b → (∀ c, .cmd c ∈ es → c.node = b.node → Keeps f a c) →
      ∃ b', run sqrt b es = some b' ∧ b'.node = b.node ∧ Well f a b'
  | [], b, h, _ => ⟨b, rfl, rfl, h⟩
  | e :: es, b, h, hm => by
    have hstep : ∃ b1, step sqrt b e = some b1 ∧ b1.node = b.node ∧ Well f a b1 := by
      cases e with
      | tick al =>
        obtain ⟨b1, t1, t2, t3, -, -⟩ := well_tick hs h al
        exact ⟨b1, t1, t2, t3⟩
      | cmd c =>
        obtain ⟨b1, t1, t2, t3, -⟩ := well_receive h (hm c (by simp))
        exact ⟨b1, t1, t2, t3⟩
    obtain ⟨b1, s1, s2, s3⟩ := hstep
    obtain ⟨b', r1, r2, r3⟩ := run_well hs es s3 (fun c hmem hn => hm c (List.mem_cons_of_mem _ hmem) (hn.trans s2))
    refine ⟨b', ?_, r2.trans s2, r3⟩
    show (match step sqrt b e with | none => none | some b => run sqrt b es) = _
    rw [s1]
    exact r1

theorem run_append {sqrt : ℚ → ℚ} : ∀ (es fs : List Event) {b b' : Board}, run sqrt b es = some b' → run sqrt b (es ++ fs) = run sqrt b' fs
  | [], fs, b, b', h => by cases h; rfl
  | e :: es, fs, b, b', h => by
    have h' : (match step sqrt b e with | none => none | some b => run sqrt b es) = some b' := h
    show (match step sqrt b e with | none => none | some b => run sqrt b (es ++ fs)) = _
    cases hs : step sqrt b e with
    | none => rw [hs] at h'; cases h'
    | some b1 =>
      rw [hs] at h'
      exact run_append es fs h'

theorem ticks_run {sqrt : ℚ → ℚ} (hs : DownRoot sqrt) {f a : Fin 2 → ℚ} : ∀ (als : List (Fin 2 → Bool)) {b : Board}, Well f a b →
    ∃ b', run sqrt b (als.map .tick) = some b' ∧ Well f a b' ∧ ∀ i, (b.servo i).ticks sqrt period als.length = some (b'.servo i) ∧
      ∀ al ∈ als.getLast?, b'.reg i = if al i then ccr (b'.servo i).filter.out else 0
  | [], b, h => ⟨b, rfl, h, fun _ => ⟨rfl, by simp⟩⟩
  | al :: als, b, h => by
    obtain ⟨b1, t1, t2, t3, t4, t5⟩ := well_tick hs h al
    obtain ⟨b2, r1, r3, r4⟩ := ticks_run hs als t3
    refine ⟨b2, ?_, r3, fun i => ⟨?_, ?_⟩⟩
    · show (match tick sqrt b al with | none => none | some b => run sqrt b (als.map .tick)) = _
      rw [t1]
      exact r1
    · show (match (b.servo i).tick sqrt period with | none => none | some s => s.ticks sqrt period als.length) = _
      rw [t4 i]
      exact (r4 i).1
    · cases als with
      | nil =>
        cases r1
        intro al' hal
        cases hal
        exact t5 i
      | cons x xs =>
        rw [List.getLast?_cons_cons]
        exact (r4 i).2

/-- With limits above zero, after a command and enough rounds an output is high for its position's part of the period, or not at all if motion is not allowed. -/
theorem settles_partial {sqrt : ℚ → ℚ} (hs : DownRoot sqrt) {f a : Fin 2 → ℚ} {b : Board} (h : Well f a b) (es : List Event)
    (hes : ∀ c, .cmd c ∈ es → c.node = b.node → Keeps f a c) {c : Cmd} (hn : c.node = b.node) (hc : Keeps f a c) {als : List (Fin 2 → Bool)} {al : Fin 2 → Bool}
    (hl : 20003 ≤ als.length) (hal : al ∈ als.getLast?) :
    ∃ b', run sqrt b (es ++ .cmd c :: als.map .tick) = some b' ∧ ∀ i, b'.high i = if al i then ⌊part (c.servo i).pos * 20000⌋.toNat else 0 := by
  obtain ⟨b1, r1, r2, r3⟩ := run_well hs es h hes
  obtain ⟨b2, u1, u2, u3, u4⟩ := well_receive r3 (c := c) (fun _ => hc)
  obtain ⟨b3, t1, t2, t3⟩ := ticks_run hs als u3
  refine ⟨b3, ?_, fun i => ?_⟩
  · rw [run_append es _ r1]
    show (match receive b1 c with | none => none | some b => run sqrt b (als.map .tick)) = _
    rw [u1]
    exact t1
  · obtain ⟨s', e1, -, -, e2⟩ := good_settles hs (scale := period) (by decide) (u3 i) (n := als.length) hl
    rw [(t3 i).1] at e1
    cases e1
    rw [high_act, (t3 i).2 al hal, e2, u4 (hn.trans r2.symm) i, (pulse_limit _ _ (hc i).2.1).1]
    have hp := pulse_le period (c.servo i).pos
    have hp' : pulse period (c.servo i).pos ≤ 20000 := hp
    rw [ccr_nat (by omega)]
    split
    · exact Nat.min_eq_left hp'
    · rfl

/-- The board starts with limits of 10000 ticks per round, and as much per round squared. -/
theorem well_init (n : Nat) : Well (fun _ => 10000) (fun _ => 10000) (init n) := by
  have hc : coefficients .init 1 1 = ⟨10000, 10000, 10000, 10000, 0, 0, 0⟩ := by decide +kernel
  intro i
  show Good period 10000 10000 ⟨.fin 0, coefficients .init 1 1⟩
  rw [hc]
  exact ⟨by simp, ⟨rfl, rfl, rfl, rfl, by norm_num, by norm_num, le_refl _⟩, by simp, le_refl _, by decide⟩

/-! ## The master's commands do not move the servos -/

/-- A servo that has never moved: its position is the first one, or it has a speed of zero and a position that is not next to it. -/
def Rest (s : Servo) : Prop :=
  s.filter.out = 0 ∧ s.filter.var = 0 ∧ (s.setpoint = .fin 0 ∨ Stuck s.filter ∧ s.setpoint ≠ .nan ∧ 2 ≤ pulse period s.setpoint)

theorem rest_tick {sqrt : ℚ → ℚ} {s : Servo} (h : Rest s) : ∃ s', s.tick sqrt period = some s' ∧ Rest s' := by
  obtain ⟨h1, h2, h3 | ⟨h3, h4, h5⟩⟩ := h
  · have ht : ticks period (.fin 0) = some 0 := by decide +kernel
    have hf : s.filter.filter sqrt ((0 : Nat) : Int) = some { s.filter with var := 0, out := 0, inp := 0 } := by
      unfold Qr.filter
      rw [h1]
      rw [if_pos (by simp)]
      rfl
    refine ⟨{ s with filter := { s.filter with var := 0, out := 0, inp := 0 } }, ?_, rfl, rfl, .inl h3⟩
    unfold Servo.tick
    rw [h3, ht]
    dsimp only
    rw [hf]
  · obtain ⟨s', e1, e2, e3, e4⟩ := stuck_tick (sqrt := sqrt) (scale := period) (by decide) h3 h4 (by rw [h1]; decide)
    rw [if_neg (by rw [h1]; omega), h1] at e4
    exact ⟨s', e1, e4, e2.var, .inr ⟨e2, by rwa [e3], by rwa [e3]⟩⟩

/-- A command without speeds: numbers, and positions of at least two ticks -/
def NoSpeed (c : Cmd) : Prop :=
  ∀ i, c.pump i ≠ .nan ∧ (c.servo i).pos ≠ .nan ∧ (c.servo i).vel = 0 ∧ (c.servo i).acc = 0 ∧ 2 ≤ ⌊part (c.servo i).pos * 20000⌋.toNat

/-- A board that gets only commands without speeds keeps its servos at zero, without a pulse, forever. -/
theorem frozen (sqrt : ℚ → ℚ) : ∀ (es : List Event) {b : Board}, (∀ i, Rest (b.servo i)) → (∀ i, b.reg i = 0) →
    (∀ c, .cmd c ∈ es → c.node = b.node → NoSpeed c) → ∃ b', run sqrt b es = some b' ∧ ∀ i, (b'.servo i).filter.out = 0 ∧ b'.reg i = 0 ∧ b'.high i = 0
  | [], b, h, hr, _ => ⟨b, rfl, fun i => ⟨(h i).1, hr i, by rw [high_act, hr i]; rfl⟩⟩
  | e :: es, b, h, hr, hm => by
    have hstep : ∃ b1, step sqrt b e = some b1 ∧ b1.node = b.node ∧ (∀ i, Rest (b1.servo i)) ∧ ∀ i, b1.reg i = 0 := by
      cases e with
      | tick al =>
        have hg := fun i => rest_tick (sqrt := sqrt) (h i)
        let s : Fin 2 → Servo := fun i => (hg i).choose
        have hs' : ∀ i, (b.servo i).tick sqrt period = some (s i) := fun i => (hg i).choose_spec.1
        have hr' : ∀ i, Rest (s i) := fun i => (hg i).choose_spec.2
        refine ⟨{ b with servo := s, reg := fun i => if al i then ccr (s i).filter.out else 0 }, ?_, rfl, hr', fun i => ?_⟩
        · show tick sqrt b al = _
          unfold tick
          rw [seq_some hs']
        · show (if al i then ccr (s i).filter.out else 0) = 0
          rw [(hr' i).1]
          split <;> rfl
      | cmd c =>
        by_cases hn : c.node = b.node
        · have hk := hm c (by simp) hn
          refine ⟨_, receive_eq hn fun i => (hk i).1, rfl, fun i => ?_, hr⟩
          obtain ⟨-, k1, k2, k3, k4⟩ := hk i
          have hl := pulse_limit (c.servo i).pos period k1
          refine ⟨(h i).1, (h i).2.1, .inr ⟨⟨?_, ?_, ?_, ?_, (h i).2.1⟩, hl.2, ?_⟩⟩
          · show (c.servo i).vel * rampScale = 0
            rw [k2, zero_mul]
          · show (c.servo i).vel * rampScale = 0
            rw [k2, zero_mul]
          · show (c.servo i).acc * rampScale = 0
            rw [k3, zero_mul]
          · show (c.servo i).acc * rampScale = 0
            rw [k3, zero_mul]
          · show 2 ≤ pulse period (limit (c.servo i).pos)
            rw [hl.1]
            exact k4
        · exact ⟨b, other_node hn, rfl, h, hr⟩
    obtain ⟨b1, s1, s2, s3, s4⟩ := hstep
    obtain ⟨b', r1, r2⟩ := frozen sqrt es s3 s4 (fun c hmem hn => hm c (List.mem_cons_of_mem _ hmem) (hn.trans s2))
    refine ⟨b', ?_, r2⟩
    show (match step sqrt b e with | none => none | some b => run sqrt b es) = _
    rw [s1]
    exact r1

/-- A conversion to half precision: numbers stay numbers and one in a thousand does not become less than one in ten thousand. -/
def Half (half : ℚ → Ext) : Prop := ∀ q, half q ≠ .nan ∧ (1 / 1000 ≤ q → 1 / 10000 ≤ part (half q))

/-- The positions of the arm on the master are at least the smallest of the defaults. -/
def Usual (a : Motors.Actuator) : Prop := 1 / 1000 ≤ a.table ∧ 1 / 1000 ≤ a.reef ∧ 1 / 1000 ≤ a.high

theorem master_noSpeed {half : ℚ → Ext} (hh : Half half) {a : Motors.Actuator} (ha : Usual a) {en : BusEnum.En} {c : Motors.Command}
    (h : a.prepare en = .ok (some c)) : NoSpeed (ofMaster half c) := by
  have hs : 1 / 1000 ≤ c.servo := by
    unfold Motors.Actuator.prepare at h
    cases hid : Motors.lift (BusEnum.getCanId en a.name) with
    | error e => rw [hid] at h; cases h
    | ok id =>
      rw [hid] at h
      change (if id.toNat > 127 then pure none else _) = _ at h
      split at h
      · cases h
      · cases h
        obtain ⟨h1, h2, h3⟩ := ha
        dsimp only
        split
        · exact h3
        · exact h2
        · exact h1
  intro i
  refine ⟨(hh _).1, (hh _).1, rfl, rfl, ?_⟩
  show 2 ≤ ⌊part (half c.servo) * 20000⌋.toNat
  have h1 := (hh c.servo).2 hs
  have h2 : 2 ≤ ⌊part (half c.servo) * 20000⌋ := Int.le_floor.mpr (by push_cast; linarith)
  omega

/-- Whatever positions the master's actuator drivers are set to: the servos of a board that gets its commands from them never get a pulse. -/
theorem master_never_moves (sqrt : ℚ → ℚ) {half : ℚ → Ext} (hh : Half half) (node : Nat) (es : List Event)
    (hes : ∀ c, .cmd c ∈ es → c.node = node → ∃ a en c', Usual a ∧ Motors.Actuator.prepare a en = .ok (some c') ∧ c = ofMaster half c') :
    ∃ b', run sqrt (init node) es = some b' ∧ ∀ i, (b'.servo i).filter.out = 0 ∧ b'.reg i = 0 ∧ b'.high i = 0 := by
  refine frozen sqrt es (b := init node) (fun i => ⟨rfl, rfl, .inl rfl⟩) (fun i => rfl) fun c hc hn => ?_
  obtain ⟨a, en, c', h1, h2, rfl⟩ := hes c hc hn
  exact master_noSpeed hh h1 h2

/-- Exact numbers -/
example : Half .fin := by
  intro q
  refine ⟨by simp, fun h => ?_⟩
  show 1 / 10000 ≤ max 0 (min 1 q)
  exact le_max_of_le_right (le_min (by norm_num) (by linarith))

example : Usual (Motors.Actuator.init [3]) := ⟨by decide +kernel, by decide +kernel, by decide +kernel⟩

/-- With the defaults of the master's parameters the positions stand for pulses of 60, 40 and 20 microseconds. -/
theorem default_pulses : [3 / 1000, 2 / 1000, 1 / 1000].map (fun p : ℚ => pulse period (.fin p)) = [60, 40, 20] := by decide +kernel

/-- A command with speeds moves them: position 0.075, 1.5 ms -/
def moving : Cmd := ⟨7, fun _ => ⟨.fin (75 / 1000), 1, 1⟩, fun _ => .fin (3 / 10), fun _ => true⟩

example : Keeps (fun _ => 10000) (fun _ => 10000) moving := fun i => ⟨by simp [moving], by simp [moving], by norm_num [moving], by norm_num [moving]⟩

def observe (es : List Event) : Option (Nat × Nat × Nat × Nat) :=
  match run sqrtQ (init 7) es with
  | none => none
  | some b => some (b.high 0, b.high 1, b.pump 0, b.pump 1)

example : observe [.cmd moving, .tick fun _ => true] = some (1500, 1500, 150, 150) := by decide +kernel
example : observe [.cmd moving, .tick fun i => i = 1] = some (0, 1500, 150, 150) := by decide +kernel
example : observe [.cmd { moving with servo := fun _ => ⟨.fin (75 / 1000), 0, 0⟩ }, .tick fun _ => true, .tick fun _ => true] = some (0, 0, 150, 150) := by
  decide +kernel

end Act

end Verif.Servo
