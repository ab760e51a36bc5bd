import Verif.Radio.Lemmas
import Verif.Radio.Time

/-!
# The radio of the beacon: modes (C112)

The statements on time are in `Time`.
-/

namespace Verif.Radio

/-- The transceiver is off, the thread waits, and no event is pending. -/
def Deaf (s : State) : Prop := s.mode = .off ∧ s.todo = [] ∧ s.event = false

instance (s : State) : Decidable (Deaf s) := inferInstanceAs (Decidable (_ ∧ _ ∧ _))

/-- A deaf radio stays deaf until the thread sends something of its own accord: nothing else can happen. -/
theorem deaf_waits {s t : State} {e : Ev} (h : Deaf s) (hs : step s e = some t) : e = .timer := by
  obtain ⟨h1, h2, h3⟩ := h
  cases e <;> simp [step, h1, h2, h3] at hs ⊢

/-- Finding: the radio can become deaf. A frame has been sent, the thread has read this from the status, and another frame arrives before the thread clears the bit:
the line stays high, the frame that has been received is never looked at, and there are no more interrupts. -/
theorem can_become_deaf : ∃ es s, exec init es = some s ∧ Deaf s ∧ s.status = ⟨true, false, false⟩ ∧ s.received = 1 ∧ s.processed = 0 ∧ s.dropped = 0 :=
  ⟨[.timer, .act .later, .act .later, .sent, .wake, .act .later, .good, .act .later, .act .later, .act .later, .act .later, .act .later, .act .later, .act .later],
    _, rfl, by decide, rfl, rfl, rfl, rfl⟩

/-- Finding: so it can when the loop is too late to send (`late_not_sent`): the result of `dwt_starttx` is not looked at. -/
theorem late_becomes_deaf : ∃ es s, exec init es = some s ∧ Deaf s ∧ s.status.line = false :=
  ⟨[.timer, .act .later, .act .late], _, rfl, by decide, rfl⟩

/-- Finding: a frame that has been received is thrown away if the thread sends before it looks at the frame. -/
theorem frame_thrown_away : ∃ es s, exec init es = some s ∧ s.received = 1 ∧ s.processed = 0 ∧ s.dropped = 1 ∧ s.mode = .tx :=
  ⟨[.good, .timer, .act .later, .act .later], _, rfl, rfl, rfl, rfl, rfl⟩

/-- C112, partial: if no reception ends between the reading of the status and the end of `dwt_isr` while the line is high, and the loop is never too late to
send, then whenever the thread waits and no event is pending, the radio listens or is about to send, and the line is low. What is missing is the two assumptions
(`can_become_deaf`, `late_becomes_deaf`). -/
theorem never_deaf_partial {s : State} (r : Run quiet init s) (ht : s.todo = []) (he : s.event = false) :
    s.mode ≠ .off ∧ s.status.line = false := by
  have h := (run_good init_good r).at_
  rw [ht] at h
  obtain ⟨h1, h2, _⟩ := h
  have hl : s.status.line = false := by
    cases hl : s.status.line with
    | false => rfl
    | true => rw [h1 hl] at he; cases he
  refine ⟨fun hm => ?_, hl⟩
  rcases h2.mp hm with h | h <;> simp [Status.line, h] at hl

/-- C112, the radio recovers: whatever happened, after the next frame that the loop sends in time the same holds again, and from then on every frame received is
processed or thrown away by a transmission, or waits. -/
theorem recovers {s t u : State} (r : Run any init s) (ht : s.todo = [.start]) (hs : step s (.act .later) = some t) (q : Run quiet t u) :
    (u.todo = [] → u.event = false → u.mode ≠ .off ∧ u.status.line = false) ∧
    u.received + (s.processed + s.dropped) = s.received + (u.processed + u.dropped + u.waiting) := by
  have ha := run_always init_always r
  obtain ⟨hg, e1, e2, e3⟩ := start_good ha ht hs
  have hu := run_good hg q
  constructor
  · intro hti he
    have h := hu.at_
    rw [hti] at h
    obtain ⟨h1, h2, _⟩ := h
    have hl : u.status.line = false := by
      cases hl : u.status.line with
      | false => rfl
      | true => rw [h1 hl] at he; cases he
    refine ⟨fun hm => ?_, hl⟩
    rcases h2.mp hm with h | h <;> simp [Status.line, h] at hl
  · have hc := hu.count
    have h3 := ha.count
    have : s.waiting = 0 := by
      obtain ⟨_, h2⟩ := ha.start ht
      simp [State.waiting, h2, ht]
    omega

/-- C112, no frame is processed twice: always, frames processed, thrown away and waiting are at most the frames received. -/
theorem no_frame_twice {s : State} (r : Run any init s) : s.processed + s.dropped + s.waiting ≤ s.received := (run_always init_always r).count

/-- C112, partial: under the assumptions of `never_deaf_partial` no frame is lost, but for those thrown away. -/
theorem no_frame_lost_partial {s : State} (r : Run quiet init s) : s.processed + s.dropped + s.waiting = s.received := (run_good init_good r).count

/-- C112, a frame that has been received is processed when the thread next looks, exactly once, and then the radio listens, or sends the answer and will then
listen; even if the answer comes too late. -/
theorem frame_handled_partial {s : State} (r : Run quiet init s) (ht : s.todo = []) (hg : s.status.good = true) (a : Answer) :
    ∃ t, exec s (.wake :: List.replicate 8 (.act a)) = some t ∧ t.processed = s.processed + 1 ∧ t.dropped = s.dropped ∧ t.todo = [] ∧ t.event = false ∧
      t.status.line = false ∧ t.mode = (if a = .later then .tx else .rx) := by
  have h := (run_good init_good r).at_
  rw [ht] at h
  obtain ⟨h1, h2, h3⟩ := h
  have hm := h2.mpr (.inl hg)
  have he := h1 (by simp [Status.line, hg])
  have her : s.status.err = false := by
    cases e : s.status.err with
    | false => rfl
    | true => exact absurd ⟨hg, e⟩ h3
  obtain ⟨m, ⟨g, se, er⟩, ev, todo, c, rc, p, d⟩ := s
  dsimp only at ht hg hm he her
  subst ht hg hm he her
  cases a <;> cases se <;> exact ⟨_, rfl, rfl, rfl, rfl, rfl, rfl, rfl⟩

/-- So an error of reception is followed by listening. -/
theorem error_handled_partial {s : State} (r : Run quiet init s) (ht : s.todo = []) (hg : s.status.err = true) (a : Answer) :
    ∃ t, exec s (.wake :: List.replicate 8 (.act a)) = some t ∧ t.processed = s.processed ∧ t.dropped = s.dropped ∧ t.todo = [] ∧ t.event = false ∧
      t.status.line = false ∧ t.mode = .rx := by
  have h := (run_good init_good r).at_
  rw [ht] at h
  obtain ⟨h1, h2, h3⟩ := h
  have hm := h2.mpr (.inr hg)
  have he := h1 (by simp [Status.line, hg])
  have her : s.status.good = false := by
    cases e : s.status.good with
    | false => rfl
    | true => exact absurd ⟨e, hg⟩ h3
  obtain ⟨m, ⟨g, se, er⟩, ev, todo, c, rc, p, d⟩ := s
  dsimp only at ht hg hm he her
  subst ht hg hm he her
  cases a <;> cases se <;> exact ⟨_, rfl, rfl, rfl, rfl, rfl, rfl, rfl⟩

/-- The hypotheses can be met: a frame arrives while the answer to another one is being prepared for; both are handled. -/
example : ∃ s, Run quiet init s ∧ s.todo = [] ∧ s.status.good = true ∧ s.processed = 1 :=
  ⟨_, .step (.step (.step (.step (.step (.step (.step (.step (.step (.step (.step (.refl init)
    (e := .good) (.inl rfl) rfl) (e := .wake) trivial rfl) (e := .act .nothing) trivial rfl) (e := .act .nothing) trivial rfl) (e := .act .nothing) trivial rfl)
    (e := .act .nothing) trivial rfl) (e := .good) (.inl rfl) rfl) (e := .act .nothing) trivial rfl) (e := .act .nothing) trivial rfl) (e := .act .nothing) trivial rfl)
    (e := .act .nothing) trivial rfl, rfl, rfl, rfl⟩

end Verif.Radio
