import Verif.Trace.Model
import Mathlib.Data.List.Basic

/-!
# Trace buffer properties (C09)
-/

namespace Verif.Trace

/-- The API calls. -/
inductive Call where
  | init
  | enable
  | disable
  | clear
  | trace (id : BitVec 8) (now : BitVec 32) (p : Payload)
  | print
deriving DecidableEq, Repr

def step (size : Nat) (b : Buffer) : Call → Except Err Buffer
  | .init => .ok init
  | .enable => .ok (enable b)
  | .disable => .ok (disable b)
  | .clear => .ok (clear b)
  | .trace id now p => push size b id now p
  | .print => do
    let r ← print size b
    pure r.1

def run (size : Nat) (b : Buffer) : List Call → Except Err Buffer
  | [] => .ok b
  | c :: cs => do
    let b ← step size b c
    run size b cs

/-! ## Specification: a log without bound -/

/-- Recording flag and the events recorded since the last clear, oldest first. -/
structure Log where
  on : Bool
  events : List Event

/-- What each call does to the log. -/
def Log.step (l : Log) : Call → Log
  | .init => ⟨false, []⟩
  | .enable => { l with on := true }
  | .disable => { l with on := false }
  | .clear => { l with events := [] }
  | .trace id now p => if l.on then { l with events := l.events ++ [⟨id, now.setWidth 22, p⟩] } else l
  | .print => { l with on := true }

/-- What the user asked for: as `Log.step`, but printing leaves the flag alone. -/
def Log.stepUser (l : Log) : Call → Log
  | .print => l
  | c => l.step c

/-- The last `n` elements. -/
def lastN {α : Type} (n : Nat) (l : List α) : List α := l.drop (l.length - n)

/-! ## Proofs -/

structure Rel (size : Nat) (b : Buffer) (l : Log) : Prop where
  on : b.active = l.on
  count : b.nbEvents = min l.events.length size
  index : b.writeIndex = l.events.length % size
  data : ∀ i (h : i < l.events.length), l.events.length - size ≤ i → b.data (i % size) = l.events[i]

theorem rel_init (size : Nat) : Rel size init ⟨false, []⟩ :=
  ⟨rfl, by simp [init], by simp [init], by simp⟩

theorem mod_inj_of_close {size i j : Nat} (hij : i < j) (hc : j < i + size) :
    i % size ≠ j % size := by
  intro h
  obtain ⟨k, rfl⟩ : ∃ k, j = i + k := ⟨j - i, by omega⟩
  have h1 := Nat.div_add_mod i size
  have h2 := Nat.div_add_mod (i + k) size
  have h3 : size * ((i + k) / size) = size * (i / size) + k := by omega
  have h4 : size ∣ k := by
    have : k = size * ((i + k) / size) - size * (i / size) := by omega
    rw [this, ← Nat.mul_sub]
    exact Nat.dvd_mul_right _ _
  have := Nat.le_of_dvd (by omega) h4
  omega

theorem printLoop_spec (size : Nat) (hs : 0 < size) (data : Nat → Event) (es : List Event) :
    ∀ (n start : Nat), start + n = es.length →
      (∀ i (h : i < es.length), start ≤ i → data (i % size) = es[i]) →
      printLoop size data n (start % size) = .ok (es.drop start) := by
  intro n
  induction n with
  | zero => intro start h1 _; simp [printLoop, List.drop_of_length_le (show es.length ≤ start by omega)]
  | succ n ih =>
    intro start h1 h2
    unfold printLoop
    rw [if_pos (Nat.mod_lt _ hs), Nat.mod_add_mod, ih (start + 1) (by omega) (fun i h h' => h2 i h (by omega)),
      h2 start (by omega) (Nat.le_refl _)]
    rw [List.drop_eq_getElem_cons (show start < es.length by omega)]
    rfl

theorem print_spec (size : Nat) (hs : 0 < size) (b : Buffer) (l : Log) (h : Rel size b l) :
    print size b = .ok ({ b with active := true }, lastN size l.events) := by
  unfold print
  have hi : (if b.nbEvents = size then b.writeIndex else 0) = (l.events.length - size) % size := by
    rw [h.count, h.index]
    by_cases hc : min l.events.length size = size
    · rw [if_pos hc]
      have : l.events.length = (l.events.length - size) + size := by omega
      conv => lhs; rw [this]
      simp
    · rw [if_neg hc]
      have : l.events.length - size = 0 := by omega
      rw [this]; simp
  simp only [hi]
  rw [printLoop_spec size hs b.data l.events b.nbEvents (l.events.length - size)
    (by rw [h.count]; omega) (fun i h1 h2 => h.data i h1 h2)]
  rfl

theorem step_rel (size : Nat) (hs : 0 < size) (b : Buffer) (l : Log) (h : Rel size b l) (c : Call) :
    ∃ b', step size b c = .ok b' ∧ Rel size b' (l.step c) := by
  cases c with
  | init => exact ⟨_, rfl, rel_init size⟩
  | enable => exact ⟨_, rfl, ⟨rfl, h.count, h.index, h.data⟩⟩
  | disable => exact ⟨_, rfl, ⟨rfl, h.count, h.index, h.data⟩⟩
  | clear => exact ⟨_, rfl, ⟨h.on, by simp [clear, Log.step], by simp [clear, Log.step], by simp [Log.step]⟩⟩
  | print =>
    refine ⟨{ b with active := true }, ?_, ⟨rfl, h.count, h.index, h.data⟩⟩
    simp only [step, print_spec size hs b l h]
    rfl
  | trace id now p =>
    simp only [step, push, h.on, Log.step]
    cases hl : l.on with
    | false => exact ⟨b, by simp, by simpa using h⟩
    | true =>
      have hwi : b.writeIndex < size := by rw [h.index]; exact Nat.mod_lt _ hs
      simp only [Bool.true_eq_false, if_false, if_pos hwi, if_true]
      refine ⟨_, rfl, ⟨?_, ?_, ?_, ?_⟩⟩
      · simp
      · simp only [List.length_append, List.length_singleton, h.count]
        split <;> omega
      · simp only [List.length_append, List.length_singleton, h.index, Nat.mod_add_mod]
      · intro i hi hge
        simp only [List.length_append, List.length_singleton] at hi hge
        by_cases he : i = l.events.length
        · subst he
          simp [h.index]
        · have hi' : i < l.events.length := by omega
          have hne : i % size ≠ b.writeIndex := by
            rw [h.index]; exact mod_inj_of_close hi' (by omega)
          simp only [if_neg hne]
          rw [List.getElem_append_left hi']
          exact h.data i hi' (by omega)

theorem run_rel (size : Nat) (hs : 0 < size) (cs : List Call) : ∀ (b : Buffer) (l : Log), Rel size b l →
    ∃ b', run size b cs = .ok b' ∧ Rel size b' (cs.foldl Log.step l) := by
  induction cs with
  | nil => intro b l h; exact ⟨b, rfl, h⟩
  | cons c cs ih =>
    intro b l h
    obtain ⟨b1, h1, h2⟩ := step_rel size hs b l h c
    obtain ⟨b2, h3, h4⟩ := ih b1 _ h2
    exact ⟨b2, by simp only [run, h1]; exact h3, h4⟩

/-! ## C09 -/

/-- C09: after any sequence of calls from initialisation, printing succeeds without out-of-bounds
access and shows exactly the last `size` events recorded since the last clear, oldest first. -/
theorem print_shows_recent (size : Nat) (hs : 0 < size) (cs : List Call) :
    ∃ b b', run size init cs = .ok b ∧
      print size b = .ok (b', lastN size (cs.foldl Log.step ⟨false, []⟩).events) := by
  obtain ⟨b, h1, h2⟩ := run_rel size hs cs init _ (rel_init size)
  exact ⟨b, _, h1, print_spec size hs b _ h2⟩

/-- Prints happen only while the user has tracing on. -/
def PrintsWhileOn : Log → List Call → Prop
  | _, [] => True
  | l, c :: cs => (c = .print → l.on = true) ∧ PrintsWhileOn (l.stepUser c) cs

theorem user_eq (cs : List Call) : ∀ l : Log, PrintsWhileOn l cs →
    cs.foldl Log.step l = cs.foldl Log.stepUser l := by
  induction cs with
  | nil => intro l _; rfl
  | cons c cs ih =>
    intro l h
    obtain ⟨h1, h2⟩ := h
    have : l.step c = l.stepUser c := by
      cases c <;> try rfl
      simp [Log.step, Log.stepUser, ← h1 rfl]
    rw [List.foldl_cons, List.foldl_cons, this]
    exact ih _ h2

/-- C09 including "events issued while tracing is off are not shown": true when the trace is only
printed while tracing is on. The full statement drops `PrintsWhileOn`; it is false, see
`print_reenables`. -/
theorem print_shows_recent_user_partial (size : Nat) (hs : 0 < size) (cs : List Call)
    (hp : PrintsWhileOn ⟨false, []⟩ cs) :
    ∃ b b', run size init cs = .ok b ∧
      print size b = .ok (b', lastN size (cs.foldl Log.stepUser ⟨false, []⟩).events) := by
  rw [← user_eq cs _ hp]
  exact print_shows_recent size hs cs

/-- Three events in a buffer of two, with tracing turned off in between. -/
example : PrintsWhileOn ⟨false, []⟩
    [.enable, .trace 1 10 (.integer 5), .print, .disable, .trace 2 11 (.integer 6), .enable,
     .trace 3 12 (.scalar 7), .trace 4 13 (.address 8)] ∧
    lastN 2 ([.enable, .trace 1 10 (.integer 5), .print, .disable, .trace 2 11 (.integer 6), .enable,
     .trace 3 12 (.scalar 7), .trace 4 13 (.address 8)].foldl Log.stepUser ⟨false, []⟩).events =
      [⟨3, 12, .scalar 7⟩, ⟨4, 13, .address 8⟩] := by
  simp [PrintsWhileOn, Log.stepUser, Log.step, lastN]

/-- Finding: printing turns tracing on. With tracing off, an event issued after a print is recorded
and shown by the next print, for every buffer size. -/
theorem print_reenables (size : Nat) (hs : 0 < size) :
    ∃ b b', run size init [.enable, .disable, .print, .trace 1 10 (.integer 5)] = .ok b ∧
      print size b = .ok (b', [⟨1, 10, .integer 5⟩]) ∧
      ([.enable, .disable, .print, .trace 1 10 (.integer 5)].foldl Log.stepUser ⟨false, []⟩).events = [] := by
  obtain ⟨b, b', h1, h2⟩ := print_shows_recent size hs [.enable, .disable, .print, .trace 1 10 (.integer 5)]
  refine ⟨b, b', h1, ?_, by simp [Log.stepUser, Log.step]⟩
  rw [h2]
  simp [Log.step, lastN, Nat.sub_eq_zero_of_le hs]

/-- Recorded timestamps wrap: two events 2^22 ms (70 minutes) apart carry the same timestamp. -/
theorem timestamp_wraps (now : BitVec 32) : (now + 4194304#32).setWidth 22 = now.setWidth 22 := by
  apply BitVec.eq_of_toNat_eq
  rw [BitVec.toNat_setWidth, BitVec.toNat_setWidth, BitVec.toNat_add]
  have : (4194304#32).toNat = 4194304 := by decide
  rw [this]
  have e1 : 2 ^ 32 = 4294967296 := by decide
  have e2 : 2 ^ 22 = 4194304 := by decide
  rw [e1, e2]
  omega

end Verif.Trace
