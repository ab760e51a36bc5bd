import Verif.Ranging.Lemmas
import Mathlib.Algebra.BigOperators.Group.Finset.Basic
import Mathlib.Data.Nat.Basic

/-! # The ranging thread: properties -/

namespace Verif.Ranging

/-! ## Every packet exactly once -/

/-- For every interleaving: no packet is read outside of a valid buffer; the packets transmitted are those
of the calls that obtained the lock, in that order, each once and complete; calls return in the same order,
only after their packet was transmitted, and at most one call is in the locked part. -/
theorem sent_once {es : List Ev} {s : State} (h : Run init es s) :
    s.bad = false ∧ s.sent <+: s.entered.map Prod.snd ∧ s.returned <+: s.entered ∧
      s.returned.length ≤ s.sent.length ∧ s.entered.length ≤ s.returned.length + 1 := by
  have hi := inv_run h inv_init
  refine ⟨hi.good, ?_⟩
  rcases hi.main with ⟨_, _, h3, h4⟩ | ⟨t, p, pc, h1, h2, h3, h4⟩
  · rw [h3, h4]
    exact ⟨List.prefix_refl _, List.prefix_refl _, by simp, by simp⟩
  · have hsent : s.sent = s.returned.map Prod.snd ∨ s.sent = s.returned.map Prod.snd ++ [p] := by
      cases pc with
      | lock => exact h4.elim
      | storePtr => exact Or.inl h4.2
      | storeSize => exact Or.inl h4.2.1
      | storeDst => exact Or.inl h4.2.1
      | broadcast => exact Or.inl h4.2.1
      | unlock => exact Or.inr h4.2
      | wait =>
        rcases h4.1 with h | h | h | h
        · exact Or.inl h.2.2
        · exact Or.inl h.2.2.2
        · rcases h.2.2 with h | h | h | h | h
          · exact Or.inl h.2
          · exact Or.inl h.2.1
          · exact Or.inl h.2.1
          · exact Or.inl h.2.1
          · exact Or.inr h.2
        · exact Or.inr h.2.2.2
    rw [h3]
    rcases hsent with h | h <;> rw [h]
    · exact ⟨by simp, by simp, by simp, by simp⟩
    · exact ⟨by simp, by simp, by simp, by simp⟩

/-- The packets thread `t` has passed to `ranging_send_data_packet`, in order. -/
def callsOf (t : Nat) : List Ev → List Packet
  | [] => []
  | .call u p :: es => if u = t then p :: callsOf t es else callsOf t es
  | _ :: es => callsOf t es

/-- The packets of thread `t` in a list of calls. -/
def of (t : Nat) (l : List (Nat × Packet)) : List Packet := (l.filter fun x => decide (x.1 = t)).map Prod.snd

/-- The call of `t` that has not obtained the lock, resp. has obtained it. -/
def waiting (s : State) (t : Nat) : List Packet :=
  match s.sender t with
  | some (p, .lock) => [p]
  | _ => []

def inside (s : State) (t : Nat) : List Packet :=
  match s.sender t with
  | none => []
  | some (_, .lock) => []
  | some (p, _) => [p]

theorem of_append (t : Nat) (l m : List (Nat × Packet)) : of t (l ++ m) = of t l ++ of t m := by
  simp [of]

theorem of_single (t u : Nat) (p : Packet) : of t [(u, p)] = if u = t then [p] else [] := by
  by_cases h : u = t <;> simp [of, h]

/-- The account of the calls of thread `t` in a state, relative to those made so far. -/
def Account (t : Nat) (s : State) (calls : List Packet) : Prop :=
  calls = of t s.entered ++ waiting s t ∧ of t s.entered = of t s.returned ++ inside s t

theorem account_same {t : Nat} {s s' : State} {c : List Packet} (h : Account t s c)
    (h1 : s'.sender t = s.sender t) (h2 : s'.entered = s.entered) (h3 : s'.returned = s.returned) :
    Account t s' c := by
  unfold Account waiting inside at h ⊢
  rw [h1, h2, h3]; exact h

theorem account_pc {t : Nat} {s s' : State} {c : List Packet} {p : Packet} {pc pc' : Pc}
    (h : Account t s c) (hp : s.sender t = some (p, pc)) (hpc : pc ≠ .lock)
    (hp' : s'.sender t = some (p, pc')) (hpc' : pc' ≠ .lock)
    (h2 : s'.entered = s.entered) (h3 : s'.returned = s.returned) :
    Account t s' c := by
  unfold Account waiting inside at h ⊢
  rw [h2, h3, hp']
  rw [hp] at h
  cases pc <;> cases pc' <;> first | exact absurd rfl hpc | exact absurd rfl hpc' | exact h

theorem signalEvent_sender (s : State) (b : Bit) : (s.signalEvent b).sender = s.sender ∧
    (s.signalEvent b).entered = s.entered ∧ (s.signalEvent b).returned = s.returned ∧
    (s.signalEvent b).toRegister = s.toRegister ∧ (s.signalEvent b).todo = s.todo ∧
    (s.signalEvent b).measured = s.measured ∧ (s.signalEvent b).index = s.index ∧
    (s.signalEvent b).sem = s.sem ∧ (s.signalEvent b).owner = s.owner := by
  unfold State.signalEvent; split <;> exact ⟨rfl, rfl, rfl, rfl, rfl, rfl, rfl, rfl, rfl⟩

theorem actStep_eq {s s' : State} (h : actStep s = some s') :
    ∃ a l, s.todo = a :: l ∧ s'.todo = l ∧ s'.sender = s.sender ∧ s'.entered = s.entered ∧
      s'.returned = s.returned ∧ s'.toRegister = s.toRegister ∧ s'.pending = s.pending ∧
      s'.index = s.index ∧ s'.registered = s.registered ∧
      s'.measured = s.measured ++ (match a with | .measure m => [m] | _ => []) := by
  unfold actStep at h
  split at h
  · cases h
  next a l hl =>
  refine ⟨a, l, hl, ?_⟩
  cases h
  cases a with
  | measure m => exact ⟨rfl, rfl, rfl, rfl, rfl, rfl, rfl, rfl, rfl⟩
  | transmit =>
    dsimp only
    split <;> simp
  | _ => simp

theorem account_send {t u : Nat} {s s' : State} {c : List Packet} (h : Account t s c)
    (hs : sendStep s u = some s') : Account t s' c := by
  by_cases hut : u = t
  · subst hut
    unfold sendStep at hs
    split at hs
    · cases hs
    · next p hp =>
      split at hs
      · cases hs
        unfold Account waiting inside at h ⊢
        rw [hp] at h
        simp [State.goto, of_append, of_single] at h ⊢
        exact ⟨h.1, h.2⟩
      · cases hs
    · next p hp => cases hs; exact account_pc h hp (by decide) (by simp [State.goto]; rfl) (by decide) rfl rfl
    · next p hp => cases hs; exact account_pc h hp (by decide) (by simp [State.goto]; rfl) (by decide) rfl rfl
    · next p hp => cases hs; exact account_pc h hp (by decide) (by simp [State.goto]; rfl) (by decide) rfl rfl
    · next p hp =>
      cases hs
      have hq := signalEvent_sender (s.goto u p .wait) .dataReady
      exact account_pc h hp (by decide) (by rw [hq.1]; simp [State.goto]; rfl) (by decide) hq.2.1 hq.2.2.1
    · next p hp =>
      split at hs
      · cases hs; exact account_pc h hp (by decide) (by simp [State.goto]; rfl) (by decide) rfl rfl
      · cases hs
    · next p hp =>
      cases hs
      unfold Account waiting inside at h ⊢
      rw [hp] at h
      simp [of_append, of_single] at h ⊢
      exact h
  · have hne : t ≠ u := fun e => hut e.symm
    unfold sendStep at hs
    split at hs
    · cases hs
    · split at hs
      · next p hp _ =>
        cases hs
        unfold Account waiting inside at h ⊢
        simp [State.goto, of_append, of_single, hut, hne] at h ⊢
        exact h
      · cases hs
    · cases hs; exact account_same h (by simp [State.goto, hne]) rfl rfl
    · cases hs; exact account_same h (by simp [State.goto, hne]) rfl rfl
    · cases hs; exact account_same h (by simp [State.goto, hne]) rfl rfl
    · next p hp =>
      cases hs
      have hq := signalEvent_sender (s.goto u p .wait) .dataReady
      exact account_same h (by rw [hq.1]; simp [State.goto, hne]) hq.2.1 hq.2.2.1
    · split at hs
      · cases hs; exact account_same h (by simp [State.goto, hne]) rfl rfl
      · cases hs
    · cases hs
      unfold Account waiting inside at h ⊢
      simp [of_append, of_single, hut, hne] at h ⊢
      exact h

theorem account_step {t : Nat} {s s' : State} {c : List Packet} {e : Ev} (h : Account t s c)
    (hs : step s e = some s') : Account t s' (c ++ callsOf t [e]) := by
  cases e with
  | call u p =>
    simp only [step] at hs
    split at hs
    · next hu =>
      cases hs
      by_cases hut : u = t
      · subst hut
        unfold Account waiting inside at h ⊢
        rw [hu] at h
        simp [State.goto, callsOf] at h ⊢
        rw [h.1]
        exact ⟨rfl, h.2⟩
      · simp only [callsOf, if_neg hut, List.append_nil]
        exact account_same h (by simp [State.goto, Ne.symm hut]) rfl rfl
    · cases hs
  | send u => simp only [callsOf, List.append_nil]; exact account_send h hs
  | raise b =>
    simp only [callsOf, List.append_nil]
    simp only [step] at hs
    split at hs
    · cases hs
    · cases hs
      have hq := signalEvent_sender s b
      exact account_same h (by rw [hq.1]) hq.2.1 hq.2.2.1
  | register =>
    simp only [callsOf, List.append_nil]
    simp only [step] at hs
    split at hs
    · cases hs
    · cases hs; exact account_same h rfl rfl rfl
  | wake a =>
    simp only [callsOf, List.append_nil]
    obtain ⟨_, _, b, _, _, rfl⟩ := step_wake hs
    exact account_same h rfl rfl rfl
  | act =>
    simp only [callsOf, List.append_nil]
    obtain ⟨a, l, _, _, h1, h2, h3, _⟩ := actStep_eq hs
    exact account_same h (by rw [h1]) h2 h3

theorem account_run {t : Nat} {s s' : State} {es : List Ev} (hr : Run s es s') :
    ∀ {c : List Packet}, Account t s c → Account t s' (c ++ callsOf t es) := by
  induction hr with
  | nil => intro c h; simpa [callsOf] using h
  | @cons s s' s'' e es hs _ ih =>
    intro c h
    have := ih (account_step h hs)
    have he : callsOf t (e :: es) = callsOf t [e] ++ callsOf t es := by
      cases e with
      | call u p => simp only [callsOf]; split <;> rfl
      | _ => rfl
    rw [he, ← List.append_assoc]
    exact this

/-- Every call of a thread obtains the lock once, in order, unless it is still waiting for it, and
those that did have returned, unless one of them is in the locked part. -/
theorem calls_entered {es : List Ev} {s : State} (h : Run init es s) (t : Nat) :
    callsOf t es = of t s.entered ++ waiting s t ∧ of t s.entered = of t s.returned ++ inside s t := by
  have := account_run h (t := t) (c := []) ⟨rfl, rfl⟩
  simpa [Account] using this

/-! ## Events -/

/-- A pass of the loop takes the pending event with the lowest number, does what belongs to it and leaves
all other pending events for later, although the branch for the position of an anchor is left by `continue`. -/
theorem wake_one {s s' : State} {a : Bool} (h : step s (.wake a) = some s') :
    ∃ b, s.pending b = true ∧ (∀ c, c.num < b.num → s.pending c = false) ∧
      (∀ c, c ≠ b → s'.pending c = s.pending c) ∧ s'.pending b = false ∧
      s'.todo = (respond b a s.index).1 := by
  obtain ⟨_, _, b, hb, hlow, rfl⟩ := step_wake h
  exact ⟨b, hb, hlow, fun c hc => by simp [afterWake, Mask.clear, hc], by simp [afterWake, Mask.clear], rfl⟩

/-- An event stays pending until a pass of the loop takes it. -/
theorem pending_kept {s s' : State} {e : Ev} (h : step s e = some s') {b : Bit} (hb : s.pending b = true)
    (he : ∀ a, e ≠ .wake a) : s'.pending b = true := by
  have hsig : ∀ (s : State) (c : Bit), s.pending b = true → (s.signalEvent c).pending b = true := by
    intro s c h
    unfold State.signalEvent
    split
    · simp only [Mask.set]; split
      · rfl
      · exact h
    · exact h
  cases e with
  | call u p =>
    simp only [step] at h
    split at h
    · cases h; exact hb
    · cases h
  | send u =>
    simp only [step, sendStep] at h
    split at h
    · cases h
    · split at h
      · cases h; exact hb
      · cases h
    · cases h; exact hb
    · cases h; exact hb
    · cases h; exact hb
    · cases h; exact hsig _ _ hb
    · split at h
      · cases h; exact hb
      · cases h
    · cases h; exact hb
  | raise c =>
    simp only [step] at h
    split at h
    · cases h
    · cases h; exact hsig _ _ hb
  | register =>
    simp only [step] at h
    split at h
    · cases h
    · cases h; exact hb
  | wake a => exact absurd rfl (he a)
  | act =>
    obtain ⟨_, _, _, _, _, _, _, _, hp, _⟩ := actStep_eq h
    rw [hp]; exact hb

/-- The first `n` anchors when asking 7, 10, 11 and 14 in turns. -/
def turns (n : Nat) : List Addr := (List.range n).map fun i => ([7, 10, 11, 14] : List Addr).getD (i % 4) 0

def Act.macs : Act → List Addr
  | .measure m => [m]
  | _ => []

def RoundRobin (s : State) : Prop :=
  ∃ n, s.measured ++ s.todo.flatMap Act.macs = turns n ∧ s.index = n % 4

theorem turns_succ (n : Nat) : turns (n + 1) = turns n ++ [anchorMacs.getD (n % 4) 0] := by
  simp [turns, List.range_succ, anchorMacs]

theorem roundRobin_step {s s' : State} {e : Ev} (h : RoundRobin s) (hs : step s e = some s') :
    RoundRobin s' := by
  obtain ⟨n, h1, h2⟩ := h
  have same : s'.measured = s.measured → s'.todo = s.todo → s'.index = s.index → RoundRobin s' :=
    fun e1 e2 e3 => ⟨n, by rw [e1, e2]; exact h1, by rw [e3]; exact h2⟩
  cases e with
  | call u p =>
    simp only [step] at hs
    split at hs
    · cases hs; exact same rfl rfl rfl
    · cases hs
  | send u =>
    simp only [step, sendStep] at hs
    split at hs
    · cases hs
    · split at hs
      · cases hs; exact same rfl rfl rfl
      · cases hs
    · cases hs; exact same rfl rfl rfl
    · cases hs; exact same rfl rfl rfl
    · cases hs; exact same rfl rfl rfl
    · next p hp =>
      cases hs
      have hq := signalEvent_sender (s.goto u p .wait) .dataReady
      exact same hq.2.2.2.2.2.1 hq.2.2.2.2.1 hq.2.2.2.2.2.2.1
    · split at hs
      · cases hs; exact same rfl rfl rfl
      · cases hs
    · cases hs; exact same rfl rfl rfl
  | raise c =>
    simp only [step] at hs
    split at hs
    · cases hs
    · cases hs
      have hq := signalEvent_sender s c
      exact same hq.2.2.2.2.2.1 hq.2.2.2.2.1 hq.2.2.2.2.2.2.1
  | register =>
    simp only [step] at hs
    split at hs
    · cases hs
    · cases hs; exact same rfl rfl rfl
  | wake a =>
    obtain ⟨_, ht, b, _, _, rfl⟩ := step_wake hs
    rw [ht] at h1
    simp only [List.flatMap_nil, List.append_nil] at h1
    by_cases hb : b = .advertise ∧ a = false
    · obtain ⟨rfl, rfl⟩ := hb
      refine ⟨n + 1, ?_, ?_⟩
      · rw [turns_succ]
        show s.measured ++ List.flatMap Act.macs [Act.measure (anchorMacs.getD s.index 0)] = _
        rw [h1, h2]; rfl
      · show nextIndex s.index = _
        rw [h2]
        unfold nextIndex
        show (if n % 4 + 1 = 4 then 0 else n % 4 + 1) = _
        split <;> omega
    · refine ⟨n, ?_, ?_⟩
      · show s.measured ++ List.flatMap Act.macs (respond b a s.index).1 = _
        rw [h1]
        cases b <;> cases a <;> first | (exact absurd ⟨rfl, rfl⟩ hb) | simp [respond, Act.macs]
      · show (respond b a s.index).2 = _
        rw [← h2]
        cases b <;> cases a <;> first | (exact absurd ⟨rfl, rfl⟩ hb) | rfl
  | act =>
    obtain ⟨a, l, ht, ht', _, _, _, _, _, hi, _, hm⟩ := actStep_eq hs
    refine ⟨n, ?_, by rw [hi]; exact h2⟩
    rw [ht', hm, ← h1, ht]
    cases a <;> simp [Act.macs]

/-- The anchors are asked for measurements in turns, whatever else happens. -/
theorem measured_in_turns {es : List Ev} {s : State} (h : Run init es s) :
    ∃ n, s.measured = turns n := by
  have hr : ∀ {s s' : State} {es : List Ev}, Run s es s' → RoundRobin s → RoundRobin s' := by
    intro s s' es hr
    induction hr with
    | nil => exact id
    | cons hs _ ih => exact fun h => ih (roundRobin_step h hs)
  obtain ⟨n, h1, _⟩ := hr h ⟨0, rfl, rfl⟩
  have hp : s.measured <+: turns n := ⟨_, h1⟩
  refine ⟨s.measured.length, ?_⟩
  rw [List.prefix_iff_eq_take] at hp
  have hl : s.measured.length ≤ n := by
    have := congrArg List.length h1
    simp [turns] at this; omega
  rw [turns, ← List.map_take, List.take_range, Nat.min_eq_left hl] at hp
  exact hp

/-! ## Every call ends -/

/-- Steps that are calls, resp. events of timers and the radio; all others belong to calls and the
ranging thread. -/
def Ev.isCall : Ev → Bool
  | .call _ _ => true
  | _ => false

def Ev.isRaise : Ev → Bool
  | .raise _ => true
  | _ => false

/-- Weight of what a sender has left to do. -/
def weight : Option (Packet × Pc) → Nat
  | none => 0
  | some (_, .lock) => 13
  | some (_, .storePtr) => 12
  | some (_, .storeSize) => 11
  | some (_, .storeDst) => 10
  | some (_, .broadcast) => 9
  | some (_, .wait) => 2
  | some (_, .unlock) => 1

def Mask.count (m : Mask) : Nat := (bits.filter m).length

theorem count_set (m : Mask) (b : Bit) : (m.set b).count ≤ m.count + 1 := by
  cases b <;> cases h0 : m .uwbInt <;> cases h1 : m .advertise <;> cases h2 : m .anchorPosition <;>
    cases h3 : m .tagPosition <;> cases h4 : m .dataReady <;> cases h5 : m .temperature <;>
    simp [Mask.count, bits, Mask.set, h0, h1, h2, h3, h4, h5]

theorem count_clear (m : Mask) (b : Bit) (hb : m b = true) : (m.clear b).count + 1 = m.count := by
  cases b <;> cases h0 : m .uwbInt <;> cases h1 : m .advertise <;> cases h2 : m .anchorPosition <;>
    cases h3 : m .tagPosition <;> cases h4 : m .dataReady <;> cases h5 : m .temperature <;>
    first | (rw [hb] at *; contradiction) | simp_all [Mask.count, bits, Mask.clear]

/-- What is left to do, for the senders in `T`. -/
def left (T : Finset Nat) (s : State) : Nat :=
  (∑ t ∈ T, weight (s.sender t)) + s.toRegister.length + 6 * s.pending.count + s.todo.length

theorem sum_change (T : Finset Nat) {t : Nat} (ht : t ∈ T) (f : Nat → Option (Packet × Pc))
    (x : Option (Packet × Pc)) :
    (∑ u ∈ T, weight (if u = t then x else f u)) + weight (f t) = (∑ u ∈ T, weight (f u)) + weight x := by
  rw [← Finset.add_sum_erase T _ ht, ← Finset.add_sum_erase T (fun u => weight (f u)) ht]
  have : ∑ u ∈ T.erase t, weight (if u = t then x else f u) = ∑ u ∈ T.erase t, weight (f u) := by
    apply Finset.sum_congr rfl
    intro u hu
    rw [if_neg (Finset.ne_of_mem_erase hu)]
  rw [this]; simp only [if_pos]; omega

theorem left_signal (T : Finset Nat) (s : State) (b : Bit) : left T (s.signalEvent b) ≤ left T s + 6 := by
  unfold State.signalEvent
  split
  · have := count_set s.pending b
    simp only [left]; omega
  · omega

/-- The thread of a step belongs to the set. -/
def Ev.within (T : Finset Nat) : Ev → Prop
  | .call t _ => t ∈ T
  | .send t => t ∈ T
  | _ => True

theorem left_step {T : Finset Nat} {s s' : State} {e : Ev} (he : e.within T) (h : step s e = some s') :
    left T s' + (if e.isCall ∨ e.isRaise then 0 else 1) ≤
      left T s + (if e.isCall then 13 else 0) + (if e.isRaise then 6 else 0) := by
  cases e with
  | call t p =>
    simp only [step] at h
    split at h
    · next ht =>
      cases h
      have := sum_change T he s.sender (some (p, .lock))
      rw [ht] at this
      simp only [left, State.goto, Ev.isCall, Ev.isRaise]
      simp [weight] at this ⊢
      omega
    · cases h
  | send t =>
    simp only [Ev.isCall, Ev.isRaise]
    have key : ∀ (p : Packet) (pc : Pc) (x : Option (Packet × Pc)) (r : State), s.sender t = some (p, pc) →
        r.sender = (fun u => if u = t then x else s.sender u) → r.toRegister = s.toRegister →
        r.pending = s.pending → r.todo = s.todo →
        left T r + weight (some (p, pc)) = left T s + weight x := by
      intro p pc x r h1 h2 h3 h4 h5
      have := sum_change T he s.sender x
      rw [h1] at this
      simp only [left, h2, h3, h4, h5]; omega
    simp only [step, sendStep] at h
    split at h
    · cases h
    · next p hp =>
      split at h
      · cases h
        have := key p _ (some (p, .storePtr)) { s.goto t p .storePtr with owner := some t, entered := s.entered ++ [(t, p)] } hp rfl rfl rfl rfl
        simp only [weight] at this; simp; omega
      · cases h
    · next p hp =>
      cases h
      have := key p _ (some (p, .storeSize)) { s.goto t p .storeSize with ptr := some t } hp rfl rfl rfl rfl
      simp only [weight] at this; simp; omega
    · next p hp =>
      cases h
      have := key p _ (some (p, .storeDst)) { s.goto t p .storeDst with size := p.data.length } hp rfl rfl rfl rfl
      simp only [weight] at this; simp; omega
    · next p hp =>
      cases h
      have := key p _ (some (p, .broadcast)) { s.goto t p .broadcast with dst := p.dst } hp rfl rfl rfl rfl
      simp only [weight] at this; simp; omega
    · next p hp =>
      cases h
      have := key p _ (some (p, .wait)) (s.goto t p .wait) hp rfl rfl rfl rfl
      have h2 := left_signal T (s.goto t p .wait) .dataReady
      simp only [weight] at this; simp; omega
    · next p hp =>
      split at h
      · cases h
        have := key p _ (some (p, .unlock)) { s.goto t p .unlock with sem := false } hp rfl rfl rfl rfl
        simp only [weight] at this; simp; omega
      · cases h
    · next p hp =>
      cases h
      have := key p _ none { s with sender := fun u => if u = t then none else s.sender u, owner := none, returned := s.returned ++ [(t, p)] } hp rfl rfl rfl rfl
      simp only [weight] at this; simp; omega
  | raise b =>
    simp only [step] at h
    split at h
    · cases h
    · cases h
      have := left_signal T s b
      simp [Ev.isCall, Ev.isRaise]; omega
  | register =>
    simp only [step] at h
    split at h
    · cases h
    · next b l hl =>
      cases h
      simp [Ev.isCall, Ev.isRaise, left, hl]; omega
  | wake a =>
    obtain ⟨_, ht, b, hb, _, rfl⟩ := step_wake h
    have hc := count_clear s.pending b hb
    have hl : (respond b a s.index).1.length ≤ 5 := by cases b <;> cases a <;> simp [respond]
    simp [Ev.isCall, Ev.isRaise, left, afterWake, ht]; omega
  | act =>
    obtain ⟨a, l, ht, ht', h1, _, _, h4, h5, _⟩ := actStep_eq h
    simp [Ev.isCall, Ev.isRaise, left, h1, h4, h5, ht, ht']; omega

/-- Number of calls and of events of timers and radio in a sequence of steps. -/
def calls (es : List Ev) : Nat := (es.filter Ev.isCall).length
def raises (es : List Ev) : Nat := (es.filter Ev.isRaise).length

/-- The threads that occur. -/
def threads : List Ev → Finset Nat
  | [] => ∅
  | .call t _ :: es => insert t (threads es)
  | .send t :: es => insert t (threads es)
  | _ :: es => threads es

theorem threads_within (es : List Ev) : ∀ e ∈ es, e.within (threads es) := by
  have mono : ∀ {T T' : Finset Nat} {e : Ev}, T ⊆ T' → e.within T → e.within T' := by
    intro T T' e h h'
    cases e <;> first | exact h h' | trivial
  induction es with
  | nil => intro e h; cases h
  | cons x es ih =>
    intro e h
    rcases List.mem_cons.mp h with rfl | h
    · cases e <;> first | trivial | exact Finset.mem_insert_self ..
    · have := ih e h
      cases x <;> first | exact this | exact mono (Finset.subset_insert _ _) this

theorem left_run {T : Finset Nat} {s s' : State} {es : List Ev} (hr : Run s es s')
    (hT : ∀ e ∈ es, e.within T) :
    es.length + left T s' ≤ left T s + 14 * calls es + 7 * raises es := by
  induction hr with
  | nil => simp [calls, raises]
  | @cons s s' s'' e es hs _ ih =>
    have h1 := ih fun x hx => hT x (List.mem_cons_of_mem _ hx)
    have h2 := left_step (hT e (List.mem_cons_self ..)) hs
    cases e <;> simp [calls, raises, Ev.isCall, Ev.isRaise, List.filter_cons] at h1 h2 ⊢ <;> omega

/-- Threads and loop cannot go on forever: the number of steps is bounded by the numbers of calls
and of events of timers and radio. -/
theorem run_bound {es : List Ev} {s : State} (h : Run init es s) :
    es.length ≤ 14 * calls es + 7 * raises es + 6 := by
  have := left_run h (threads_within es)
  have h0 : left (threads es) init = 6 := by simp [left, init, weight, Mask.count, bits]
  omega

/-- No thread can make a step of its own. -/
def Stuck (s : State) : Prop :=
  (∀ t, step s (.send t) = none) ∧ step s .register = none ∧ (∀ a, step s (.wake a) = none) ∧
    step s .act = none

theorem Stuck.idle {s : State} (h : Stuck s) :
    s.toRegister = [] ∧ s.todo = [] ∧ ∀ b, s.pending b = false := by
  obtain ⟨_, h2, h3, h4⟩ := h
  have h5 : s.toRegister = [] := by
    simp only [step] at h2
    cases h : s.toRegister with
    | nil => rfl
    | cons b l => rw [h] at h2; cases h2
  have h6 : s.todo = [] := by
    simp only [step, actStep] at h4
    cases h : s.todo with
    | nil => rfl
    | cons b l => rw [h] at h4; cases h4
  refine ⟨h5, h6, ?_⟩
  have h7 := h3 false
  simp only [step] at h7
  rw [if_pos ⟨h5, h6⟩] at h7
  cases h : waitOne s.pending with
  | none => exact waitOne_none h
  | some x => rw [h] at h7; cases h7

/-- If nobody calls before the listeners are registered, then once nothing is left to do every call has returned
and every packet was transmitted, once and in order: there is no deadlock. -/
theorem all_sent_partial {es es' : List Ev} {s s' : State} (h : Run init es s) (hc : calls es = 0)
    (hreg : s.registered .dataReady = true) (h' : Run s es' s') (hstuck : Stuck s') :
    (∀ t, s'.sender t = none) ∧ s'.returned = s'.entered ∧ s'.sent = s'.entered.map Prod.snd := by
  have hi0 := inv_run h inv_init
  -- no call: no owner, so the strong invariant holds
  have hno : ∀ {s s' : State} {es : List Ev}, Run s es s' → calls es = 0 → (∀ t, s.sender t = none) →
      ∀ t, s'.sender t = none := by
    intro s s' es hr
    induction hr with
    | nil => exact fun _ h => h
    | @cons s s' s'' e es hs _ ih =>
      intro hc hn
      cases e with
      | call t p => simp [calls, Ev.isCall, List.filter_cons] at hc
      | send t => simp only [step, sendStep, hn t] at hs; cases hs
      | raise b =>
        refine ih (by simpa [calls, Ev.isCall, List.filter_cons] using hc) ?_
        simp only [step] at hs
        split at hs
        · cases hs
        · cases hs; rw [(signalEvent_sender s b).1]; exact hn
      | register =>
        refine ih (by simpa [calls, Ev.isCall, List.filter_cons] using hc) ?_
        simp only [step] at hs
        split at hs
        · cases hs
        · cases hs; exact hn
      | wake a =>
        refine ih (by simpa [calls, Ev.isCall, List.filter_cons] using hc) ?_
        obtain ⟨_, _, b, _, _, rfl⟩ := step_wake hs
        exact hn
      | act =>
        refine ih (by simpa [calls, Ev.isCall, List.filter_cons] using hc) ?_
        obtain ⟨a, l, _, _, h1, _⟩ := actStep_eq hs
        rw [h1]; exact hn
  have hn := hno h hc (fun _ => rfl)
  have hi1 : Inv true s := by
    refine ⟨hi0.own, hi0.reg, hi0.nodup, fun _ => hreg, hi0.good, ?_⟩
    rcases hi0.main with h1 | ⟨t, p, pc, _, h2, _⟩
    · exact Or.inl h1
    · rw [hn t] at h2; cases h2
  have hi := inv_run h' hi1
  obtain ⟨_, hidle, hpend⟩ := hstuck.idle
  have hout : s'.owner = none → ∀ t, s'.sender t = none := by
    intro ho t
    cases hs : s'.sender t with
    | none => rfl
    | some x =>
      obtain ⟨p, pc⟩ := x
      have := hstuck.1 t
      cases pc with
      | lock => simp only [step, sendStep, hs, ho] at this; cases this
      | _ => have := hi.own t p _ hs (by decide); rw [ho] at this; cases this
  rcases hi.main with ⟨h1, _, h3, h4⟩ | ⟨t, p, pc, h1, h2, h3, h4⟩
  · exact ⟨hout h1, h3.symm, by rw [h4, h3]⟩
  · exfalso
    have hst := hstuck.1 t
    cases pc with
    | lock => exact h4
    | storePtr => simp only [step, sendStep, h2] at hst; cases hst
    | storeSize => simp only [step, sendStep, h2] at hst; cases hst
    | storeDst => simp only [step, sendStep, h2] at hst; cases hst
    | broadcast => simp only [step, sendStep, h2] at hst; cases hst
    | unlock => simp only [step, sendStep, h2] at hst; cases hst
    | wait =>
      rcases h4.1 with h | h | h | h
      · cases h.1
      · rw [hpend] at h; cases h.1
      · rw [hidle] at h; simp at h
      · simp only [step, sendStep, h2, h.2.2.1] at hst; cases hst

/-! ## What goes wrong -/

/-- A call whose event is broadcast before the listener is registered never returns, and neither does any
other call: the full claim, that every call ends, is false. -/
theorem lost_forever {es : List Ev} {s s' : State} {t : Nat} {p : Packet} (hi : Inv false s)
    (hs : s.sender t = some (p, .wait)) (hq : Quiet s) (h : Run s es s') :
    s'.sender t = some (p, .wait) ∧ s'.returned = s.returned ∧ s'.sent = s.sent := by
  have key : ∀ {s s' : State} {es : List Ev}, Run s es s' → Inv false s → s.sender t = some (p, .wait) →
      Quiet s → s'.sender t = some (p, .wait) ∧ s'.returned = s.returned ∧ s'.sent = s.sent := by
    intro s s' es hr
    induction hr with
    | nil => exact fun _ h _ => ⟨h, rfl, rfl⟩
    | @cons s s' s'' e es hs _ ih =>
      intro hi ht hq
      have hi' := inv_step hi hs
      have ho := hi.own t p _ ht (by decide)
      have next : s'.sender t = some (p, .wait) → Quiet s' → s'.returned = s.returned → s'.sent = s.sent →
          s''.sender t = some (p, .wait) ∧ s''.returned = s.returned ∧ s''.sent = s.sent := by
        intro h1 h2 h3 h4
        have := ih hi' h1 h2
        exact ⟨this.1, this.2.1.trans h3, this.2.2.trans h4⟩
      cases e with
      | call u q =>
        simp only [step] at hs
        split at hs
        · next hu =>
          cases hs
          have hne : t ≠ u := by rintro rfl; rw [ht] at hu; cases hu
          exact next (by simp [State.goto, hne, ht]) (hq.congr rfl rfl rfl) rfl rfl
        · cases hs
      | send u =>
        by_cases hut : u = t
        · rw [hut] at hs
          simp [step, sendStep, ht, hq.2.2] at hs
        · exfalso
          simp only [step, sendStep] at hs
          split at hs
          · cases hs
          · rw [if_neg (by rw [ho]; exact fun h => by cases h)] at hs; cases hs
          all_goals
            next q hu =>
            have := hi.own u q _ hu (by decide)
            rw [ho] at this; cases this; exact hut rfl
      | raise b =>
        simp only [step] at hs
        split at hs
        · cases hs
        · next hb =>
          cases hs
          have hq' := signalEvent_sender s b
          refine next (by rw [hq'.1]; exact ht) (hq.congr ?_ hq'.2.2.2.2.1 hq'.2.2.2.2.2.2.2.1) hq'.2.2.1 ?_
          · unfold State.signalEvent; split
            · show (s.pending.set b) .dataReady = _
              simp [Mask.set, Ne.symm hb]
            · rfl
          · unfold State.signalEvent; split <;> rfl
      | register =>
        simp only [step] at hs
        split at hs
        · cases hs
        · cases hs; exact next ht (hq.congr rfl rfl rfl) rfl rfl
      | wake a =>
        obtain ⟨_, _, b, hb, _, rfl⟩ := step_wake hs
        have hd : b ≠ .dataReady := by rintro rfl; rw [hq.1] at hb; cases hb
        refine next ht ⟨?_, noData_respond hd a s.index, hq.2.2⟩ rfl rfl
        show (s.pending.clear b) .dataReady = false
        simp [Mask.clear, Ne.symm hd, hq.1]
      | act =>
        simp only [step, actStep] at hs
        split at hs
        · cases hs
        next a l hl =>
        have hn : NoData (a :: l) := by rw [← hl]; exact hq.2.1
        have ha := hn a (List.mem_cons_self ..)
        have hql : NoData l := noData_tail hn
        cases a with
        | measure m => cases hs; exact next ht ⟨hq.1, hql, hq.2.2⟩ rfl rfl
        | anchorPosition => cases hs; exact next ht ⟨hq.1, hql, hq.2.2⟩ rfl rfl
        | temperature => cases hs; exact next ht ⟨hq.1, hql, hq.2.2⟩ rfl rfl
        | isr => cases hs; exact next ht ⟨hq.1, hql, hq.2.2⟩ rfl rfl
        | _ => cases ha
  exact key h hi hs hq

/-- The steps `es` from `s`, executed. -/
def exec (s : State) : List Ev → Option State
  | [] => some s
  | e :: es => (step s e).bind fun s => exec s es

theorem run_of_exec {s s' : State} {es : List Ev} (h : exec s es = some s') : Run s es s' := by
  induction es generalizing s with
  | nil => cases h; exact .nil _
  | cons e es ih =>
    simp only [exec] at h
    cases hs : step s e with
    | none => rw [hs] at h; cases h
    | some s1 => rw [hs] at h; exact .cons hs (ih h)

def hello : Packet := ⟨[0x68, 0x69, 0], 0xffff⟩

/-- A thread that sends a packet before the ranging thread has registered its listener waits forever, with the
lock held. -/
theorem early_call_hangs : ∃ es s, Run init es s ∧ s.sender 5 = some (hello, .wait) ∧
    ∀ es' s', Run s es' s' → s'.sender 5 = some (hello, .wait) ∧ s'.returned = [] ∧ s'.sent = [] := by
  have hex : (exec init [.call 5 hello, .send 5, .send 5, .send 5, .send 5, .send 5]).isSome = true := by
    decide +kernel
  obtain ⟨s, hs⟩ := Option.isSome_iff_exists.mp hex
  have hr := run_of_exec hs
  have h1 : s.sender 5 = some (hello, .wait) ∧ Quiet s ∧ s.returned = [] ∧ s.sent = [] := by
    have : some s = exec init [.call 5 hello, .send 5, .send 5, .send 5, .send 5, .send 5] := hs.symm
    simp [exec, step, sendStep, State.goto, State.signalEvent, init] at this
    subst this
    exact ⟨rfl, ⟨rfl, noData_nil, rfl⟩, rfl, rfl⟩
  refine ⟨_, s, hr, h1.1, ?_⟩
  intro es' s' h'
  have := lost_forever (inv_run hr inv_init) h1.1 h1.2.1 h'
  exact ⟨this.1, this.2.1.trans h1.2.2.1, this.2.2.trans h1.2.2.2⟩

/-- Interrupts of the radio go first: as long as the next one has come when a pass ends, a pending packet is
not transmitted, however long this lasts. -/
theorem starved {s : State} (hreg : s.toRegister = []) (hu : s.registered .uwbInt = true) (ht : s.todo = [])
    (hd : s.pending .dataReady = true) (n : Nat) :
    ∃ s', Run s (List.flatten (List.replicate n [.raise .uwbInt, .wake true, .act])) s' ∧
      s'.pending .dataReady = true ∧ s'.sent = s.sent ∧ s'.sender = s.sender := by
  induction n generalizing s with
  | zero => exact ⟨s, .nil s, hd, rfl, rfl⟩
  | succ n ih =>
    let s1 : State := { s with pending := s.pending.set .uwbInt }
    let s2 : State := { s1 with pending := s1.pending.clear .uwbInt, todo := [.isr] }
    let s3 : State := { s2 with todo := [] }
    have e1 : step s (.raise .uwbInt) = some s1 := by
      simp [step, State.signalEvent, hu, s1]
    have e2 : step s1 (.wake true) = some s2 := by
      have hw : waitOne s1.pending = some (Mask.only .uwbInt, s1.pending.clear .uwbInt) := by
        simp [waitOne, bits, s1, Mask.set]
      simp only [step]
      rw [if_pos ⟨hreg, ht⟩, hw]
      simp only [body_only]
      rfl
    have e3 : step s2 .act = some s3 := rfl
    obtain ⟨s', hr, h1, h2, h3⟩ := ih (s := s3) hreg hu rfl (by simp [s3, s2, s1, Mask.clear, Mask.set, hd])
    exact ⟨s', by
      simp only [List.replicate_succ, List.flatten_cons]
      exact .cons e1 (.cons e2 (.cons e3 hr)), h1, h2, h3⟩

/-! ## Example -/

def exRun : List Ev :=
  [.register, .register, .register, .register, .register, .register, .call 1 hello, .send 1, .call 2 ⟨[1], 7⟩,
   .send 1, .send 1, .raise .advertise, .send 1, .send 1, .wake false, .act, .wake false, .act, .act, .act, .act,
   .act, .send 1, .send 1, .send 2, .send 2, .send 2, .send 2, .send 2, .wake false, .act, .act, .act, .act, .act,
   .send 2, .send 2]

/-- Two threads send at the same time; a measurement comes in between. -/
example : (exec init exRun).map (fun s => (s.sent, s.returned.map Prod.fst, s.measured)) =
    some ([hello, ⟨[1], 7⟩], [1, 2], [7]) := by decide +kernel

example : calls (exRun.take 6) = 0 ∧ ((exec init (exRun.take 6)).map fun s => s.registered .dataReady) = some true := by
  decide +kernel

/-- The model does not hide reads beyond a buffer: what is read has the size asked for, and is the beginning of the packet of a call that has not returned. -/
theorem readBuf_inside {s : State} {ptr : Option Nat} {n : Nat} {d : List Byte} (h : readBuf s ptr n = some d) :
    d.length = n ∧ ∃ t p pc, ptr = some t ∧ s.sender t = some (p, pc) ∧ d <+: p.data := by
  unfold readBuf at h
  split at h
  · cases h
  · next t =>
    split at h
    · cases h
    · next p pc hp =>
      split at h
      · next hn =>
        cases h
        exact ⟨by rw [List.length_take]; omega, t, p, pc, rfl, hp, List.take_prefix _ _⟩
      · cases h

end Verif.Ranging
