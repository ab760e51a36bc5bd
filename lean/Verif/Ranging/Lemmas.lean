import Verif.Ranging.Model

/-! # The ranging thread: invariant -/

namespace Verif.Ranging

/-- Steps that belong to a data packet. -/
def Act.ofData : Act → Bool
  | .loadDst | .loadPtr | .loadSize | .transmit | .signal => true
  | _ => false

def NoData (l : List Act) : Prop := ∀ a ∈ l, a.ofData = false

/-- Nothing about a data packet is under way in the ranging thread. -/
def Quiet (s : State) : Prop := s.pending .dataReady = false ∧ NoData s.todo ∧ s.sem = false

/-- The packet of the owner `t` of the lock is on its way. -/
def Way (ok : Bool) (s : State) (t : Nat) (p : Packet) (before : List Packet) : Prop :=
  (ok = false ∧ Quiet s ∧ s.sent = before) ∨
  (s.pending .dataReady = true ∧ NoData s.todo ∧ s.sem = false ∧ s.sent = before) ∨
  (s.pending .dataReady = false ∧ s.sem = false ∧
    ((s.todo = [.loadDst, .loadPtr, .loadSize, .transmit, .signal] ∧ s.sent = before) ∨
     (s.todo = [.loadPtr, .loadSize, .transmit, .signal] ∧ s.sent = before ∧ s.argDst = p.dst) ∨
     (s.todo = [.loadSize, .transmit, .signal] ∧ s.sent = before ∧ s.argDst = p.dst ∧ s.argPtr = some t) ∨
     (s.todo = [.transmit, .signal] ∧ s.sent = before ∧ s.argDst = p.dst ∧ s.argPtr = some t ∧
        s.argSize = p.data.length) ∨
     (s.todo = [.signal] ∧ s.sent = before ++ [p]))) ∨
  (s.pending .dataReady = false ∧ NoData s.todo ∧ s.sem = true ∧ s.sent = before ++ [p])

/-- What holds at each step of the owner of the lock. -/
def AtPc (ok : Bool) (s : State) (t : Nat) (p : Packet) (before : List Packet) : Pc → Prop
  | .lock => False
  | .storePtr => Quiet s ∧ s.sent = before
  | .storeSize => Quiet s ∧ s.sent = before ∧ s.ptr = some t
  | .storeDst => Quiet s ∧ s.sent = before ∧ s.ptr = some t ∧ s.size = p.data.length
  | .broadcast => Quiet s ∧ s.sent = before ∧ s.ptr = some t ∧ s.size = p.data.length ∧ s.dst = p.dst
  | .wait => Way ok s t p before ∧ s.ptr = some t ∧ s.size = p.data.length ∧ s.dst = p.dst
  | .unlock => Quiet s ∧ s.sent = before ++ [p]

structure Inv (ok : Bool) (s : State) : Prop where
  own : ∀ t p pc, s.sender t = some (p, pc) → pc ≠ .lock → s.owner = some t
  reg : ∀ b, s.registered b = true ↔ b ∉ s.toRegister
  nodup : s.toRegister.Nodup
  ready : ok = true → s.registered .dataReady = true
  good : s.bad = false
  main : (s.owner = none ∧ Quiet s ∧ s.entered = s.returned ∧ s.sent = s.returned.map Prod.snd) ∨
    ∃ t p pc, s.owner = some t ∧ s.sender t = some (p, pc) ∧ s.entered = s.returned ++ [(t, p)] ∧
      AtPc ok s t p (s.returned.map Prod.snd) pc

theorem inv_init : Inv false init where
  own := by intro t p pc h; simp [init] at h
  reg := by intro b; cases b <;> simp [init]
  nodup := by decide
  ready := by simp
  good := rfl
  main := Or.inl ⟨rfl, ⟨rfl, fun a h => by simp [init] at h, rfl⟩, rfl, rfl⟩

theorem waitOne_eq {m f r : Mask} (h : waitOne m = some (f, r)) :
    ∃ b, m b = true ∧ f = Mask.only b ∧ r = m.clear b ∧ ∀ c, c.num < b.num → m c = false := by
  unfold waitOne at h
  rw [Option.map_eq_some_iff] at h
  obtain ⟨b, hb, he⟩ := h
  simp only [Prod.mk.injEq] at he
  refine ⟨b, List.find?_some hb, he.1.symm, he.2.symm, ?_⟩
  intro c hc
  simp only [bits, List.find?_cons] at hb
  cases h0 : m .uwbInt <;> cases h1 : m .advertise <;> cases h2 : m .anchorPosition <;>
    cases h3 : m .tagPosition <;> cases h4 : m .dataReady <;> cases h5 : m .temperature <;>
    simp [h0, h1, h2, h3, h4, h5] at hb <;> subst hb <;> cases c <;> simp_all [Bit.num]

theorem waitOne_none {m : Mask} (h : waitOne m = none) (b : Bit) : m b = false := by
  unfold waitOne at h
  rw [Option.map_eq_none_iff, List.find?_eq_none] at h
  have := h b (by cases b <;> decide)
  simpa using this

/-- One event at a time: what a pass of the loop does for it. -/
def respond (b : Bit) (isAnchor : Bool) (i : Nat) : List Act × Nat :=
  match b with
  | .uwbInt => ([.isr], i)
  | .advertise => if isAnchor then ([], i) else ([.measure (anchorMacs.getD i 0)], nextIndex i)
  | .anchorPosition => (if isAnchor then [.anchorPosition] else [], i)
  | .tagPosition => ([], i)
  | .dataReady => ([.loadDst, .loadPtr, .loadSize, .transmit, .signal], i)
  | .temperature => ([.temperature], i)

theorem body_only (b : Bit) (a : Bool) (i : Nat) : body (Mask.only b) a i = respond b a i := by
  cases b <;> cases a <;> rfl

theorem noData_respond {b : Bit} (hb : b ≠ .dataReady) (a : Bool) (i : Nat) :
    NoData (respond b a i).1 := by
  intro x hx
  cases b <;> cases a <;> simp_all [respond] <;> rfl

theorem noData_nil : NoData [] := fun _ h => by cases h

theorem noData_tail {a : Act} {l : List Act} (h : NoData (a :: l)) : NoData l :=
  fun x hx => h x (List.mem_cons_of_mem _ hx)

/-- `Quiet` only depends on three components. -/
theorem Quiet.congr {s s' : State} (h : Quiet s) (h1 : s'.pending .dataReady = s.pending .dataReady)
    (h2 : s'.todo = s.todo) (h3 : s'.sem = s.sem) : Quiet s' := by
  unfold Quiet; rw [h1, h2, h3]; exact h

/-- The parts of the state that the conditions on the owner depend on. -/
structure Same (s s' : State) : Prop where
  pending : s'.pending .dataReady = s.pending .dataReady
  todo : s'.todo = s.todo
  sem : s'.sem = s.sem
  sent : s'.sent = s.sent
  ptr : s'.ptr = s.ptr
  size : s'.size = s.size
  dst : s'.dst = s.dst
  argDst : s'.argDst = s.argDst
  argPtr : s'.argPtr = s.argPtr
  argSize : s'.argSize = s.argSize

theorem AtPc.congr {ok : Bool} {s s' : State} {t p before pc} (h : AtPc ok s t p before pc)
    (e : Same s s') : AtPc ok s' t p before pc := by
  cases pc <;> simp only [AtPc, Way, Quiet, e.pending, e.todo, e.sem, e.sent, e.ptr, e.size, e.dst,
    e.argDst, e.argPtr, e.argSize] at h ⊢ <;> exact h

/-- A step that leaves the owner and its packet alone. -/
theorem Inv.other {ok : Bool} {s s' : State} (h : Inv ok s) (e : Same s s')
    (hs : ∀ t, s.owner = some t → s'.sender t = s.sender t)
    (hown : ∀ t p pc, s'.sender t = some (p, pc) → pc ≠ .lock → s'.owner = some t)
    (ho : s'.owner = s.owner) (he : s'.entered = s.entered) (hr : s'.returned = s.returned)
    (hb : s'.bad = s.bad) (hreg : s'.registered = s.registered) (htr : s'.toRegister = s.toRegister) :
    Inv ok s' where
  own := hown
  reg := by intro b; rw [hreg, htr]; exact h.reg b
  nodup := by rw [htr]; exact h.nodup
  ready := by rw [hreg]; exact h.ready
  good := by rw [hb]; exact h.good
  main := by
    rcases h.main with ⟨h1, h2, h3, h4⟩ | ⟨t, p, pc, h1, h2, h3, h4⟩
    · exact Or.inl ⟨by rw [ho]; exact h1, h2.congr e.pending e.todo e.sem, by rw [he, hr]; exact h3,
        by rw [e.sent, hr]; exact h4⟩
    · exact Or.inr ⟨t, p, pc, by rw [ho]; exact h1, by rw [hs t h1]; exact h2,
        by rw [he, hr]; exact h3, by rw [hr]; exact h4.congr e⟩

theorem inv_call {ok : Bool} {s : State} (h : Inv ok s) {t : Nat} {p : Packet} (ht : s.sender t = none) :
    Inv ok (s.goto t p .lock) := by
  refine h.other ⟨rfl, rfl, rfl, rfl, rfl, rfl, rfl, rfl, rfl, rfl⟩ ?_ ?_ rfl rfl rfl rfl rfl rfl
  · intro u hu
    have hne : u ≠ t := by
      rintro rfl
      rcases h.main with ⟨h1, _⟩ | ⟨t', p', pc, h1, h2, _⟩
      · rw [h1] at hu; cases hu
      · rw [h1] at hu; cases hu; rw [ht] at h2; cases h2
    simp [State.goto, hne]
  · intro u q pc hu hpc
    simp only [State.goto] at hu
    by_cases hut : u = t
    · rw [if_pos hut] at hu; cases hu; exact absurd rfl hpc
    · rw [if_neg hut] at hu; exact h.own u q pc hu hpc

theorem inv_raise {ok : Bool} {s : State} (h : Inv ok s) {b : Bit} (hb : b ≠ .dataReady) :
    Inv ok (s.signalEvent b) := by
  unfold State.signalEvent
  split
  · refine h.other ⟨?_, rfl, rfl, rfl, rfl, rfl, rfl, rfl, rfl, rfl⟩ ?_ ?_ rfl rfl rfl rfl rfl rfl
    · simp [Mask.set, Ne.symm hb]
    · intro u _; rfl
    · exact h.own
  · exact h

theorem inv_register {ok : Bool} {s : State} (h : Inv ok s) {b : Bit} {l : List Bit}
    (hl : s.toRegister = b :: l) :
    Inv ok { s with registered := s.registered.set b, toRegister := l } := by
  have hn := h.nodup
  rw [hl, List.nodup_cons] at hn
  refine ⟨h.own, ?_, hn.2, ?_, h.good, ?_⟩
  · intro c
    have := h.reg c
    rw [hl] at this
    simp only [Mask.set]
    by_cases hc : c = b
    · subst hc; simp [hn.1]
    · simp [hc] at this ⊢; exact this
  · intro hok
    have := h.ready hok
    simp only [Mask.set]
    split
    · rfl
    · exact this
  · rcases h.main with h' | ⟨t, p, pc, h1, h2, h3, h4⟩
    · exact Or.inl h'
    · exact Or.inr ⟨t, p, pc, h1, h2, h3,
        h4.congr ⟨rfl, rfl, rfl, rfl, rfl, rfl, rfl, rfl, rfl, rfl⟩⟩

/-- The owner goes on to its next step. -/
theorem Inv.owner {ok : Bool} {s : State} (h : Inv ok s) {t : Nat} {p : Packet} {pc : Pc}
    (ht : s.sender t = some (p, pc)) (hpc : pc ≠ .lock) :
    s.owner = some t ∧ s.entered = s.returned ++ [(t, p)] ∧
      AtPc ok s t p (s.returned.map Prod.snd) pc := by
  have ho := h.own t p pc ht hpc
  rcases h.main with ⟨h1, _⟩ | ⟨t', p', pc', h1, h2, h3, h4⟩
  · rw [h1] at ho; cases ho
  · rw [h1] at ho; cases ho
    rw [ht] at h2; cases h2
    exact ⟨h1, h3, h4⟩

/-- A step of the owner inside the locked part. -/
theorem Inv.advance {ok : Bool} {s s' : State} (h : Inv ok s) {t : Nat} {p : Packet} {pc pc' : Pc}
    (ht : s.sender t = some (p, pc)) (hpc : pc ≠ .lock)
    (hs : s'.sender = (s.goto t p pc').sender) (hpc' : pc' ≠ .lock)
    (ho : s'.owner = s.owner) (he : s'.entered = s.entered) (hr : s'.returned = s.returned)
    (hb : s'.bad = s.bad) (hreg : s'.registered = s.registered) (htr : s'.toRegister = s.toRegister)
    (hat : AtPc ok s t p (s.returned.map Prod.snd) pc → AtPc ok s' t p (s.returned.map Prod.snd) pc') :
    Inv ok s' := by
  obtain ⟨h1, h2, h3⟩ := h.owner ht hpc
  refine ⟨?_, by intro b; rw [hreg, htr]; exact h.reg b, by rw [htr]; exact h.nodup,
    by rw [hreg]; exact h.ready, by rw [hb]; exact h.good, ?_⟩
  · intro u q qc hu hq
    rw [hs] at hu
    rw [ho]
    simp only [State.goto] at hu
    by_cases hut : u = t
    · rw [hut]; exact h1
    · rw [if_neg hut] at hu; exact h.own u q qc hu hq
  · refine Or.inr ⟨t, p, pc', by rw [ho]; exact h1, by rw [hs]; simp [State.goto], by rw [he, hr]; exact h2, ?_⟩
    rw [hr]; exact hat h3

theorem inv_send {ok : Bool} {s s' : State} (h : Inv ok s) {t : Nat} (hs : sendStep s t = some s') :
    Inv ok s' := by
  unfold sendStep at hs
  split at hs
  · cases hs
  · -- lock
    next p ht =>
    split at hs
    · next ho =>
      cases hs
      rcases h.main with ⟨h1, h2, h3, h4⟩ | ⟨t', p', pc', h1, _⟩
      · refine ⟨?_, h.reg, h.nodup, h.ready, h.good, ?_⟩
        · intro u q qc hu hq
          simp only [State.goto] at hu
          by_cases hut : u = t
          · rw [hut]
          · rw [if_neg hut] at hu
            have := h.own u q qc hu hq
            rw [ho] at this; cases this
        · refine Or.inr ⟨t, p, .storePtr, rfl, by simp [State.goto], ?_, ?_⟩
          · show s.entered ++ _ = _; rw [h3]; rfl
          · exact ⟨h2.congr rfl rfl rfl, h4⟩
      · rw [ho] at h1; cases h1
    · cases hs
  · next p ht =>
    cases hs
    exact h.advance ht (by decide) rfl (by decide) rfl rfl rfl rfl rfl rfl
      fun h => ⟨h.1.congr rfl rfl rfl, h.2, rfl⟩
  · next p ht =>
    cases hs
    exact h.advance ht (by decide) rfl (by decide) rfl rfl rfl rfl rfl rfl
      fun h => ⟨h.1.congr rfl rfl rfl, h.2.1, h.2.2, rfl⟩
  · next p ht =>
    cases hs
    exact h.advance ht (by decide) rfl (by decide) rfl rfl rfl rfl rfl rfl
      fun h => ⟨h.1.congr rfl rfl rfl, h.2.1, h.2.2.1, h.2.2.2, rfl⟩
  · -- broadcast
    next p ht =>
    cases hs
    unfold State.signalEvent
    by_cases hr : (s.goto t p .wait).registered .dataReady = true
    · rw [if_pos hr]
      refine h.advance ht (by decide) rfl (by decide) rfl rfl rfl rfl rfl rfl fun h => ?_
      exact ⟨Or.inr (Or.inl ⟨by simp [Mask.set], h.1.2.1, h.1.2.2, h.2.1⟩), h.2.2⟩
    · rw [if_neg hr]
      refine h.advance ht (by decide) rfl (by decide) rfl rfl rfl rfl rfl rfl fun h' => ?_
      refine ⟨Or.inl ⟨?_, h'.1.congr rfl rfl rfl, h'.2.1⟩, h'.2.2⟩
      cases ok
      · rfl
      · exact absurd (h.ready rfl) hr
  · -- wait
    next p ht =>
    split at hs
    · next hsem =>
      cases hs
      refine h.advance ht (by decide) rfl (by decide) rfl rfl rfl rfl rfl rfl fun h' => ?_
      rcases h'.1 with ⟨_, h1, _⟩ | ⟨_, _, h1, _⟩ | ⟨_, h1, _⟩ | ⟨h1, h2, h3, h4⟩
      · rw [h1.2.2] at hsem; cases hsem
      · rw [h1] at hsem; cases hsem
      · rw [h1] at hsem; cases hsem
      · exact ⟨⟨h1, h2, rfl⟩, h4⟩
    · cases hs
  · -- unlock
    next p ht =>
    cases hs
    obtain ⟨h1, h2, h3, h4⟩ := h.owner ht (by decide)
    refine ⟨?_, h.reg, h.nodup, h.ready, h.good, Or.inl ⟨rfl, h3.congr rfl rfl rfl, h2, ?_⟩⟩
    · intro u q qc hu hq
      simp only at hu
      by_cases hut : u = t
      · rw [if_pos hut] at hu; cases hu
      · rw [if_neg hut] at hu
        have := h.own u q qc hu hq
        rw [h1] at this; cases this; exact absurd rfl hut
    · show s.sent = _
      rw [h4]; simp

/-- The state when event `b` has been taken. -/
def afterWake (s : State) (b : Bit) (a : Bool) : State :=
  { s with pending := s.pending.clear b, todo := (respond b a s.index).1, index := (respond b a s.index).2 }

theorem inv_wake {ok : Bool} {s : State} (h : Inv ok s) (htodo : s.todo = []) {b : Bit}
    (hb : s.pending b = true) (a : Bool) :
    Inv ok (afterWake s b a) := by
  refine ⟨h.own, h.reg, h.nodup, h.ready, h.good, ?_⟩
  by_cases hd : b = .dataReady
  · subst hd
    rcases h.main with ⟨_, h2, _⟩ | ⟨t, p, pc, h1, h2, h3, h4⟩
    · rw [h2.1] at hb; cases hb
    · refine Or.inr ⟨t, p, pc, h1, h2, h3, ?_⟩
      cases pc with
      | lock => exact h4.elim
      | storePtr => have := h4.1.1; rw [hb] at this; cases this
      | storeSize => have := h4.1.1; rw [hb] at this; cases this
      | storeDst => have := h4.1.1; rw [hb] at this; cases this
      | broadcast => have := h4.1.1; rw [hb] at this; cases this
      | unlock => have := h4.1.1; rw [hb] at this; cases this
      | wait =>
        obtain ⟨hw, hp⟩ := h4
        refine ⟨?_, hp⟩
        rcases hw with ⟨_, h1, _⟩ | ⟨_, _, h1, h5⟩ | ⟨h1, _⟩ | ⟨h1, _⟩
        · have := h1.1; rw [hb] at this; cases this
        · exact Or.inr (Or.inr (Or.inl ⟨by simp [afterWake, Mask.clear], h1, Or.inl ⟨rfl, h5⟩⟩))
        · rw [hb] at h1; cases h1
        · rw [hb] at h1; cases h1
  · have hp : (s.pending.clear b) .dataReady = s.pending .dataReady := by
      simp [Mask.clear, Ne.symm hd]
    have hn := noData_respond hd a s.index
    have hq : Quiet s → Quiet (afterWake s b a) :=
      fun h => ⟨hp.trans h.1, hn, h.2.2⟩
    rcases h.main with ⟨h1, h2, h3⟩ | ⟨t, p, pc, h1, h2, h3, h4⟩
    · exact Or.inl ⟨h1, hq h2, h3⟩
    · refine Or.inr ⟨t, p, pc, h1, h2, h3, ?_⟩
      cases pc with
      | lock => exact h4.elim
      | storePtr => exact ⟨hq h4.1, h4.2⟩
      | storeSize => exact ⟨hq h4.1, h4.2⟩
      | storeDst => exact ⟨hq h4.1, h4.2⟩
      | broadcast => exact ⟨hq h4.1, h4.2⟩
      | unlock => exact ⟨hq h4.1, h4.2⟩
      | wait =>
        obtain ⟨hw, hr⟩ := h4
        refine ⟨?_, hr⟩
        rcases hw with ⟨h0, h1, h2⟩ | ⟨h1, _, h2⟩ | ⟨_, _, h3⟩ | ⟨h1, _, h2⟩
        · exact Or.inl ⟨h0, hq h1, h2⟩
        · exact Or.inr (Or.inl ⟨hp.trans h1, hn, h2⟩)
        · rw [htodo] at h3; simp at h3
        · exact Or.inr (Or.inr (Or.inr ⟨hp.trans h1, hn, h2⟩))

/-- A step of the ranging thread that does not concern data packets. -/
theorem inv_act_other {ok : Bool} {s s' : State} (h : Inv ok s) {a : Act} {l : List Act}
    (hl : s.todo = a :: l) (ha : a.ofData = false)
    (e : s' = { s with todo := l, measured := s'.measured }) : Inv ok s' := by
  rw [e]
  have hx : ∀ {b : Act} {m : List Act}, s.todo = b :: m → b.ofData = true → False := by
    intro b m hb hd; rw [hl] at hb; cases hb; rw [ha] at hd; cases hd
  have ht : NoData s.todo → NoData l := fun h' => by rw [hl] at h'; exact noData_tail h'
  refine ⟨h.own, h.reg, h.nodup, h.ready, h.good, ?_⟩
  rcases h.main with ⟨h1, h2, h3⟩ | ⟨t, p, pc, h1, h2, h3, h4⟩
  · exact Or.inl ⟨h1, ⟨h2.1, ht h2.2.1, h2.2.2⟩, h3⟩
  · refine Or.inr ⟨t, p, pc, h1, h2, h3, ?_⟩
    cases pc with
    | lock => exact h4.elim
    | storePtr => exact ⟨⟨h4.1.1, ht h4.1.2.1, h4.1.2.2⟩, h4.2⟩
    | storeSize => exact ⟨⟨h4.1.1, ht h4.1.2.1, h4.1.2.2⟩, h4.2⟩
    | storeDst => exact ⟨⟨h4.1.1, ht h4.1.2.1, h4.1.2.2⟩, h4.2⟩
    | broadcast => exact ⟨⟨h4.1.1, ht h4.1.2.1, h4.1.2.2⟩, h4.2⟩
    | unlock => exact ⟨⟨h4.1.1, ht h4.1.2.1, h4.1.2.2⟩, h4.2⟩
    | wait =>
      obtain ⟨hw, hr⟩ := h4
      refine ⟨?_, hr⟩
      rcases hw with ⟨h0, h1, h2⟩ | ⟨h1, hn, h2⟩ | ⟨_, _, h3⟩ | ⟨h1, hn, h2⟩
      · exact Or.inl ⟨h0, ⟨h1.1, ht h1.2.1, h1.2.2⟩, h2⟩
      · exact Or.inr (Or.inl ⟨h1, ht hn, h2⟩)
      · rcases h3 with h3 | h3 | h3 | h3 | h3 <;> exact (hx h3.1 rfl).elim
      · exact Or.inr (Or.inr (Or.inr ⟨h1, ht hn, h2⟩))

/-- While a step for a data packet is left, its sender waits. -/
theorem Inv.data {ok : Bool} {s : State} (h : Inv ok s) {a : Act} {l : List Act}
    (hl : s.todo = a :: l) (ha : a.ofData = true) :
    ∃ t p, s.owner = some t ∧ s.sender t = some (p, .wait) ∧ s.entered = s.returned ++ [(t, p)] ∧
      s.ptr = some t ∧ s.size = p.data.length ∧ s.dst = p.dst ∧
      s.pending .dataReady = false ∧ s.sem = false ∧
    ((s.todo = [.loadDst, .loadPtr, .loadSize, .transmit, .signal] ∧ s.sent = s.returned.map Prod.snd) ∨
     (s.todo = [.loadPtr, .loadSize, .transmit, .signal] ∧ s.sent = s.returned.map Prod.snd ∧ s.argDst = p.dst) ∨
     (s.todo = [.loadSize, .transmit, .signal] ∧ s.sent = s.returned.map Prod.snd ∧ s.argDst = p.dst ∧ s.argPtr = some t) ∨
     (s.todo = [.transmit, .signal] ∧ s.sent = s.returned.map Prod.snd ∧ s.argDst = p.dst ∧ s.argPtr = some t ∧
        s.argSize = p.data.length) ∨
     (s.todo = [.signal] ∧ s.sent = s.returned.map Prod.snd ++ [p])) := by
  have hno : NoData s.todo → False := fun h' => by
    have := h' a (by rw [hl]; exact List.mem_cons_self ..)
    rw [ha] at this; cases this
  rcases h.main with ⟨_, h2, _⟩ | ⟨t, p, pc, h1, h2, h3, h4⟩
  · exact (hno h2.2.1).elim
  · cases pc with
    | lock => exact h4.elim
    | storePtr => exact (hno h4.1.2.1).elim
    | storeSize => exact (hno h4.1.2.1).elim
    | storeDst => exact (hno h4.1.2.1).elim
    | broadcast => exact (hno h4.1.2.1).elim
    | unlock => exact (hno h4.1.2.1).elim
    | wait =>
      obtain ⟨hw, hp, hz, hd⟩ := h4
      rcases hw with ⟨_, h5, _⟩ | ⟨_, hn, _⟩ | ⟨h5, h6, h7⟩ | ⟨_, hn, _⟩
      · exact (hno h5.2.1).elim
      · exact (hno hn).elim
      · exact ⟨t, p, h1, h2, h3, hp, hz, hd, h5, h6, h7⟩
      · exact (hno hn).elim

/-- A step of the ranging thread for a data packet. -/
theorem Inv.data_step {ok : Bool} {s s' : State} (h : Inv ok s) {t : Nat} {p : Packet}
    (ho : s'.owner = some t) (hs : s'.sender t = some (p, .wait)) (hse : s'.sender = s.sender)
    (hoe : s'.owner = s.owner)
    (he : s'.entered = s'.returned ++ [(t, p)]) (hb : s'.bad = s.bad)
    (hreg : s'.registered = s.registered) (htr : s'.toRegister = s.toRegister)
    (hp : s'.ptr = some t) (hz : s'.size = p.data.length) (hd : s'.dst = p.dst)
    (hw : Way ok s' t p (s'.returned.map Prod.snd)) : Inv ok s' where
  own := by rw [hse, hoe]; exact h.own
  reg := by intro b; rw [hreg, htr]; exact h.reg b
  nodup := by rw [htr]; exact h.nodup
  ready := by rw [hreg]; exact h.ready
  good := by rw [hb]; exact h.good
  main := Or.inr ⟨t, p, .wait, ho, hs, he, hw, hp, hz, hd⟩

theorem inv_act {ok : Bool} {s s' : State} (h : Inv ok s) (hs : actStep s = some s') : Inv ok s' := by
  unfold actStep at hs
  split at hs
  · cases hs
  next a l hl =>
  cases a with
  | measure m => cases hs; exact inv_act_other h hl rfl rfl
  | anchorPosition => cases hs; exact inv_act_other h hl rfl rfl
  | temperature => cases hs; exact inv_act_other h hl rfl rfl
  | isr => cases hs; exact inv_act_other h hl rfl rfl
  | loadDst =>
    obtain ⟨t, p, h1, h2, h3, hp, hz, hd, h5, h6, h7⟩ := h.data hl rfl
    simp only [hl] at h7
    simp at h7
    obtain ⟨h7, h8⟩ := h7
    subst h7
    cases hs
    exact h.data_step h1 h2 rfl rfl h3 rfl rfl rfl hp hz hd
      (Or.inr (Or.inr (Or.inl ⟨h5, h6, Or.inr (Or.inl ⟨rfl, h8, hd⟩)⟩)))
  | loadPtr =>
    obtain ⟨t, p, h1, h2, h3, hp, hz, hd, h5, h6, h7⟩ := h.data hl rfl
    simp only [hl] at h7
    simp at h7
    obtain ⟨h7, h8, h9⟩ := h7
    subst h7
    cases hs
    exact h.data_step h1 h2 rfl rfl h3 rfl rfl rfl hp hz hd
      (Or.inr (Or.inr (Or.inl ⟨h5, h6, Or.inr (Or.inr (Or.inl ⟨rfl, h8, h9, hp⟩))⟩)))
  | loadSize =>
    obtain ⟨t, p, h1, h2, h3, hp, hz, hd, h5, h6, h7⟩ := h.data hl rfl
    simp only [hl] at h7
    simp at h7
    obtain ⟨h7, h8, h9, h10⟩ := h7
    subst h7
    cases hs
    exact h.data_step h1 h2 rfl rfl h3 rfl rfl rfl hp hz hd
      (Or.inr (Or.inr (Or.inl ⟨h5, h6, Or.inr (Or.inr (Or.inr (Or.inl ⟨rfl, h8, h9, h10, hz⟩)))⟩)))
  | transmit =>
    obtain ⟨t, p, h1, h2, h3, hp, hz, hd, h5, h6, h7⟩ := h.data hl rfl
    simp only [hl] at h7
    simp at h7
    obtain ⟨h7, h8, h9, h10, h11⟩ := h7
    subst h7
    have hrd : readBuf { s with todo := [.signal] } s.argPtr s.argSize = some p.data := by
      simp [readBuf, h10, h2, h11]
    simp only [hrd] at hs
    cases hs
    refine h.data_step h1 h2 rfl rfl h3 rfl rfl rfl hp hz hd
      (Or.inr (Or.inr (Or.inl ⟨h5, h6, Or.inr (Or.inr (Or.inr (Or.inr ⟨rfl, ?_⟩)))⟩)))
    show s.sent ++ _ = _
    rw [h8, h9]
  | signal =>
    obtain ⟨t, p, h1, h2, h3, hp, hz, hd, h5, h6, h7⟩ := h.data hl rfl
    simp only [hl] at h7
    simp at h7
    obtain ⟨h7, h8⟩ := h7
    subst h7
    cases hs
    exact h.data_step h1 h2 rfl rfl h3 rfl rfl rfl hp hz hd
      (Or.inr (Or.inr (Or.inr ⟨h5, noData_nil, rfl, h8⟩)))

theorem step_wake {s s' : State} {a : Bool} (hs : step s (.wake a) = some s') :
    s.toRegister = [] ∧ s.todo = [] ∧ ∃ b, s.pending b = true ∧ (∀ c, c.num < b.num → s.pending c = false) ∧
      s' = afterWake s b a := by
  simp only [step] at hs
  split at hs
  · next hc =>
    refine ⟨hc.1, hc.2, ?_⟩
    split at hs
    · cases hs
    · next f r hw =>
      obtain ⟨b, hb, hf, hr, hlow⟩ := waitOne_eq hw
      subst hf; subst hr
      simp only [body_only] at hs
      cases hs
      exact ⟨b, hb, hlow, rfl⟩
  · cases hs

theorem inv_step {ok : Bool} {s s' : State} (h : Inv ok s) {e : Ev} (hs : step s e = some s') :
    Inv ok s' := by
  cases e with
  | call t p =>
    simp only [step] at hs
    split at hs
    · next ht => cases hs; exact inv_call h ht
    · cases hs
  | send t => exact inv_send h hs
  | raise b =>
    simp only [step] at hs
    split at hs
    · cases hs
    · next hb => cases hs; exact inv_raise h hb
  | register =>
    simp only [step] at hs
    split at hs
    · cases hs
    · next b l hl => cases hs; exact inv_register h hl
  | wake a =>
    obtain ⟨_, ht, b, hb, _, rfl⟩ := step_wake hs
    exact inv_wake h ht hb a
  | act => exact inv_act h hs

theorem inv_run {ok : Bool} {s s' : State} {es : List Ev} (hr : Run s es s') (h : Inv ok s) : Inv ok s' := by
  induction hr with
  | nil => exact h
  | cons hs _ ih => exact ih (inv_step h hs)

end Verif.Ranging
