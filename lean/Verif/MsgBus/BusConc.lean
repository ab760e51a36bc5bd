import Verif.MsgBus.Bus

/-!
# Message bus: blocking lookups (C17)

`messagebus_advertise_topic`, `messagebus_find_topic` and `messagebus_find_topic_blocking`
(`lib/msgbus/messagebus.c:32-83`) run by any number of threads under the bus lock. One step is one lock or
condition variable operation, or one walk or update of the topic list (the list itself is in `Bus`; here
it is the list of topics with the names stored in them, newest first).
-/

namespace Verif.MsgBus.BusConc

open Verif.MsgBus

/-- Program counter; numbers are lines of messagebus.c. -/
inductive Pc where
  | idle
  | advLock (t : Nat) (n : Name)   -- 34-37
  | advLink (t : Nat) (n : Name)   -- 39-42
  | advBcast (t : Nat) (n : Name)  -- 44-48 (callbacks do not touch the bus)
  | advRel (t : Nat) (n : Name)    -- 50
  | fLock (n : Name)               -- 57
  | fFind (n : Name)               -- 59
  | fRel (n : Name) (r : Option Nat) -- 61
  | bLock (n : Name)               -- 70
  | bFind (n : Name)               -- 72-73
  | bWait (n : Name)               -- 76
  | bSleep (n : Name)              -- 76, asleep
  | bWoken (n : Name)              -- 76, taking the lock again
  | bRel (n : Name) (t : Nat)      -- 80
  | ret (r : Option Nat)
deriving DecidableEq, Repr

inductive Act where
  | advertise (t : Nat) (n : Name)
  | find (n : Name)
  | findBlocking (n : Name)
  | run
  | leave
deriving DecidableEq, Repr

structure State where
  topics : List (Nat × Name)
  lock : Option Nat
  pc : Nat → Pc

def init : State := ⟨[], none, fun _ => .idle⟩

/-- `topic_by_name` on the list. -/
def lookup (l : List (Nat × Name)) (q : Name) : Option Nat := (l.find? (fun x => q = x.2)).map Prod.fst

def setPc (s : State) (i : Nat) (p : Pc) : State := { s with pc := fun j => if j = i then p else s.pc j }

def acquire (s : State) (i : Nat) (p : Pc) : Option State :=
  if s.lock = none then some (setPc { s with lock := some i } i p) else none

/-- Release by the owner; the release of a lock that is not owned is not a step (never happens, see
`run_enabled`). -/
def release (s : State) (i : Nat) (p : Pc) : Option State :=
  if s.lock = some i then some (setPc { s with lock := none } i p) else none

def wakeAll (s : State) : State :=
  { s with pc := fun j => match s.pc j with | .bSleep n => .bWoken n | p => p }

/-- One step of thread `i`. -/
def step (s : State) (i : Nat) (a : Act) : Option State :=
  match s.pc i, a with
  | .idle, .advertise t n => some (setPc s i (.advLock t n))
  | .idle, .find n => some (setPc s i (.fLock n))
  | .idle, .findBlocking n => some (setPc s i (.bLock n))
  | .advLock t n, .run => acquire s i (.advLink t n)
  | .advLink t n, .run => some (setPc { s with topics := (t, n.take nameMax) :: s.topics } i (.advBcast t n))
  | .advBcast t n, .run => some (setPc (wakeAll s) i (.advRel t n))
  | .advRel t _, .run => release s i (.ret (some t))
  | .fLock n, .run => acquire s i (.fFind n)
  | .fFind n, .run => some (setPc s i (.fRel n (lookup s.topics n)))
  | .fRel _ r, .run => release s i (.ret r)
  | .bLock n, .run => acquire s i (.bFind n)
  | .bFind n, .run =>
    match lookup s.topics n with
    | some t => some (setPc s i (.bRel n t))
    | none => some (setPc s i (.bWait n))
  | .bWait n, .run => release s i (.bSleep n)
  | .bWoken n, .run => acquire s i (.bFind n)
  | .bRel _ t, .run => release s i (.ret (some t))
  | .ret _, .leave => some (setPc s i .idle)
  | _, _ => none

inductive Reach : State → Prop
  | init : Reach init
  | step {s s' : State} {i : Nat} {a : Act} : Reach s → step s i a = some s' → Reach s'

/-! ## Invariant -/

def held : Pc → Bool
  | .advLink _ _ | .advBcast _ _ | .advRel _ _ | .fFind _ | .fRel _ _ | .bFind _ | .bWait _ | .bRel _ _ => true
  | _ => false

/-- Some topic is stored under this name. -/
def Known (s : State) (n : Name) : Prop := ∃ t, (t, n) ∈ s.topics

structure Inv (s : State) : Prop where
  lock : ∀ i, s.lock = some i ↔ held (s.pc i) = true
  wait : ∀ i n, s.pc i = .bWait n → ¬ Known s n
  sleep : ∀ i n, s.pc i = .bSleep n → Known s n → ∃ j t m, s.pc j = .advBcast t m
  rel : ∀ i n t, s.pc i = .bRel n t → lookup s.topics n = some t

theorem lookup_none {l : List (Nat × Name)} {n : Name} : lookup l n = none ↔ ∀ t, (t, n) ∉ l := by
  unfold lookup
  simp only [Option.map_eq_none_iff, List.find?_eq_none, decide_eq_true_eq]
  constructor
  · intro h t ht; exact h _ ht rfl
  · rintro h ⟨t, m⟩ ht rfl; exact h t ht

/-- Only the owner is inside. -/
theorem Inv.owner {s : State} (h : Inv s) {i j : Nat} (hi : held (s.pc i) = true) (hj : held (s.pc j) = true) : i = j := by
  have h1 := (h.lock i).mpr hi
  rw [(h.lock j).mpr hj] at h1
  injection h1 with h1; exact h1.symm

theorem inv_frame {s : State} (h : Inv s) {i : Nat} {p : Pc} (hh : held p = held (s.pc i))
    (hw : ∀ n, p = .bWait n → ¬ Known s n) (hs : ∀ n, p ≠ .bSleep n) (hr : ∀ n t, p = .bRel n t → lookup s.topics n = some t)
    (hb : ∀ t m, s.pc i ≠ .advBcast t m) : Inv (setPc s i p) := by
  constructor
  · intro j
    simp only [setPc]
    split
    · rename_i hji; subst hji; rw [hh]; exact h.lock j
    · exact h.lock j
  · intro j n hj
    simp only [setPc] at hj
    split at hj
    · exact hw n hj
    · exact h.wait j n hj
  · intro j n hj hk
    simp only [setPc] at hj
    split at hj
    · exact absurd hj (hs n)
    · obtain ⟨k, t, m, hkk⟩ := h.sleep j n hj hk
      refine ⟨k, t, m, ?_⟩
      simp only [setPc]
      rw [if_neg]
      · exact hkk
      · rintro rfl; exact hb t m hkk
  · intro j n t hj
    simp only [setPc] at hj
    split at hj
    · exact hr n t hj
    · exact h.rel j n t hj

theorem inv_acquire {s s' : State} (h : Inv s) {i : Nat} {p : Pc} (hp : held p = true)
    (hw : ∀ n, p ≠ .bWait n) (hr : ∀ n t, p ≠ .bRel n t) (hs : acquire s i p = some s') : Inv s' := by
  unfold acquire at hs
  split at hs
  · rename_i hl
    injection hs with hs; subst hs
    have hno : ∀ j, held (s.pc j) = false := by
      intro j
      cases hh : held (s.pc j) with
      | false => rfl
      | true => rw [← h.lock j, hl] at hh; cases hh
    constructor
    · intro j
      simp only [setPc]
      split
      · rename_i hji; subst hji; simp [hp]
      · rename_i hji
        rw [hno j]
        constructor
        · intro he; injection he with he; exact absurd he.symm hji
        · intro he; cases he
    · intro j n hj
      simp only [setPc] at hj
      split at hj
      · exact absurd hj (hw n)
      · exact h.wait j n hj
    · intro j n hj hk
      simp only [setPc] at hj
      split at hj
      · subst hj; cases hp
      · obtain ⟨k, t, m, hkk⟩ := h.sleep j n hj hk
        have := hno k
        rw [hkk] at this; cases this
    · intro j n t hj
      simp only [setPc] at hj
      split at hj
      · exact absurd hj (hr n t)
      · exact h.rel j n t hj
  · cases hs

theorem inv_release {s s' : State} (h : Inv s) {i : Nat} {p : Pc} (hp : held p = false)
    (hs : release s i p = some s') (hb : ∀ t m, s.pc i ≠ .advBcast t m) (hsl : ∀ n, p = .bSleep n → ¬ Known s n) : Inv s' := by
  unfold release at hs
  split at hs
  · rename_i hl
    injection hs with hs; subst hs
    have hi := (h.lock i).mp hl
    constructor
    · intro j
      simp only [setPc]
      split
      · simp [hp]
      · rename_i hji
        constructor
        · intro he; cases he
        · intro he; exact absurd (h.owner he hi) hji
    · intro j n hj
      simp only [setPc] at hj
      split at hj
      · subst hj; cases hp
      · exact h.wait j n hj
    · intro j n hj hk
      simp only [setPc] at hj
      split at hj
      · exact absurd hk (hsl n hj)
      · obtain ⟨k, t, m, hkk⟩ := h.sleep j n hj hk
        have : k = i := h.owner (by rw [hkk]; rfl) hi
        subst this
        exact absurd hkk (hb t m)
    · intro j n t hj
      simp only [setPc] at hj
      split at hj
      · subst hj; cases hp
      · exact h.rel j n t hj
  · cases hs

theorem inv_step {s s' : State} (h : Inv s) {i : Nat} {a : Act} (hs : step s i a = some s') : Inv s' := by
  unfold step at hs
  split at hs <;> rename_i hp
  · injection hs with hs; subst hs
    exact inv_frame h (by rw [hp]; rfl) (by simp) (by simp) (by simp) (by simp [hp])
  · injection hs with hs; subst hs
    exact inv_frame h (by rw [hp]; rfl) (by simp) (by simp) (by simp) (by simp [hp])
  · injection hs with hs; subst hs
    exact inv_frame h (by rw [hp]; rfl) (by simp) (by simp) (by simp) (by simp [hp])
  · exact inv_acquire h rfl (by simp) (by simp) hs
  · -- link
    rename_i t n
    injection hs with hs; subst hs
    have hi : held (s.pc i) = true := by rw [hp]; rfl
    constructor
    · intro j
      simp only [setPc]
      split
      · rename_i hji; subst hji; simp [(h.lock j).mpr hi, held]
      · exact h.lock j
    · intro j n hj
      simp only [setPc] at hj
      split at hj
      · cases hj
      · rename_i hji
        exact absurd (h.owner (by rw [hj]; rfl) hi) hji
    · intro j m _ _
      exact ⟨i, t, n, by simp only [setPc, if_true]⟩
    · intro j n t hj
      simp only [setPc] at hj
      split at hj
      · cases hj
      · rename_i hji
        exact absurd (h.owner (by rw [hj]; rfl) hi) hji
  · -- broadcast
    injection hs with hs; subst hs
    have hi : held (s.pc i) = true := by rw [hp]; rfl
    have hheld : ∀ j, held ((wakeAll s).pc j) = held (s.pc j) := by
      intro j; simp only [wakeAll]; split
      · rename_i hh; rw [hh]; rfl
      · rfl
    constructor
    · intro j
      simp only [setPc]
      split
      · rename_i hji; subst hji; simp [wakeAll, (h.lock j).mpr hi, held]
      · rw [hheld j]; exact h.lock j
    · intro j n hj
      simp only [setPc, wakeAll] at hj
      split at hj
      · cases hj
      · split at hj
        · cases hj
        · exact h.wait j n hj
    · intro j n hj _
      simp only [setPc, wakeAll] at hj
      split at hj
      · cases hj
      · split at hj
        · cases hj
        · rename_i hne; exact absurd hj (hne n)
    · intro j n t hj
      simp only [setPc, wakeAll] at hj
      split at hj
      · cases hj
      · split at hj
        · cases hj
        · exact h.rel j n t hj
  · exact inv_release h rfl hs (by simp [hp]) (by simp)
  · exact inv_acquire h rfl (by simp) (by simp) hs
  · injection hs with hs; subst hs
    exact inv_frame h (by rw [hp]; rfl) (by simp) (by simp) (by simp) (by simp [hp])
  · exact inv_release h rfl hs (by simp [hp]) (by simp)
  · exact inv_acquire h rfl (by simp) (by simp) hs
  · split at hs <;> rename_i hl
    · injection hs with hs; subst hs
      refine inv_frame h (by rw [hp]; rfl) (by simp) (by simp) ?_ (by simp [hp])
      intro n t he; injection he with h1 h2; subst h1 h2; exact hl
    · injection hs with hs; subst hs
      refine inv_frame h (by rw [hp]; rfl) ?_ (by simp) (by simp) (by simp [hp])
      intro n he; injection he with h1; subst h1
      intro ⟨t, ht⟩
      exact lookup_none.mp hl t ht
  · refine inv_release h rfl hs (by simp [hp]) ?_
    intro n he; injection he with h1; subst h1
    exact h.wait i _ hp
  · exact inv_acquire h rfl (by simp) (by simp) hs
  · exact inv_release h rfl hs (by simp [hp]) (by simp)
  · injection hs with hs; subst hs
    exact inv_frame h (by rw [hp]; rfl) (by simp) (by simp) (by simp) (by simp [hp])
  · cases hs

theorem reach_inv {s : State} (h : Reach s) : Inv s := by
  induction h with
  | init => constructor <;> simp [init, held]
  | step _ hs ih => exact inv_step ih hs

/-! ## Theorems -/

/-- C17: an advertisement is never missed. While a thread sleeps for a name that has been advertised,
an advertiser is between linking its topic and its broadcast, holding the lock; its next step wakes the thread. -/
theorem advertisement_not_missed {s : State} (h : Reach s) {i t : Nat} {n : Name} (hs : s.pc i = .bSleep n)
    (hk : (t, n) ∈ s.topics) :
    ∃ j s', s.lock = some j ∧ step s j .run = some s' ∧ s'.pc i = .bWoken n := by
  have hi := reach_inv h
  obtain ⟨j, t', m, hj⟩ := hi.sleep i n hs ⟨t, hk⟩
  have hji : i ≠ j := by rintro rfl; rw [hs] at hj; cases hj
  refine ⟨j, _, (hi.lock j).mpr (by rw [hj]; rfl), by unfold step; rw [hj], ?_⟩
  simp only [setPc, wakeAll, if_neg hji, hs]

/-- C17: whenever the bus lock is free, nobody sleeps for an advertised topic. -/
theorem sleeper_not_advertised {s : State} (h : Reach s) {i : Nat} {n : Name} (hs : s.pc i = .bSleep n)
    (hl : s.lock = none) : ∀ t, (t, n) ∉ s.topics := by
  intro t ht
  obtain ⟨j, _, hj, _⟩ := advertisement_not_missed h hs ht
  rw [hl] at hj; cases hj

/-- Run thread `i` for `k` steps. -/
def runs (i : Nat) : Nat → State → Option State
  | 0, s => some s
  | k + 1, s => (step s i .run).bind (runs i k)

/-- C17: a thread that starts the call or wakes up after the topic was advertised returns, as soon as it gets
the lock, the topic most recently advertised under that name. -/
theorem blocking_returns {s : State} {i t : Nat} {n : Name}
    (hs : s.pc i = .bWoken n ∨ s.pc i = .bLock n) (hl : s.lock = none) (hk : (t, n) ∈ s.topics) :
    ∃ s' r, runs i 3 s = some s' ∧ s'.pc i = .ret (some r) ∧ lookup s.topics n = some r ∧ s'.lock = none ∧ s'.topics = s.topics := by
  have : lookup s.topics n ≠ none := fun h => lookup_none.mp h t hk
  obtain ⟨r, hr⟩ := Option.ne_none_iff_exists'.mp this
  have h1 : step s i .run = some (setPc { s with lock := some i } i (.bFind n)) := by
    rcases hs with hs | hs <;> (unfold step; rw [hs]; simp only [acquire, hl, if_true])
  have h2 : step (setPc { s with lock := some i } i (.bFind n)) i .run =
      some (setPc (setPc { s with lock := some i } i (.bFind n)) i (.bRel n r)) := by
    unfold step; simp only [setPc, if_true, hr]
  have h3 : step (setPc (setPc { s with lock := some i } i (.bFind n)) i (.bRel n r)) i .run =
      some (setPc { setPc (setPc { s with lock := some i } i (.bFind n)) i (.bRel n r) with lock := none } i (.ret (some r))) := by
    unfold step; simp only [setPc, if_true, release]
  have hrun : runs i 3 s = some (setPc { setPc (setPc { s with lock := some i } i (.bFind n)) i (.bRel n r) with lock := none } i (.ret (some r))) := by
    simp only [runs, h1, h2, h3, Option.bind]
  refine ⟨_, r, hrun, ?_, hr, rfl, rfl⟩
  simp only [setPc, if_true]

/-- C17: the topic returned by a blocking lookup is the one most recently advertised under that name at that
moment. -/
theorem blocking_result {s s' : State} (h : Reach s) {i t : Nat} {n : Name} (hp : s.pc i = .bRel n t)
    (hs : step s i .run = some s') : s'.pc i = .ret (some t) ∧ lookup s'.topics n = some t := by
  have hr := (reach_inv h).rel i n t hp
  unfold step at hs
  rw [hp] at hs
  simp only [release] at hs
  split at hs
  · injection hs with hs; subst hs
    exact ⟨by simp only [setPc, if_true], hr⟩
  · cases hs

/-- No deadlock: a thread that is inside a call and not asleep can run, or the owner of the lock can. -/
theorem run_enabled {s : State} (h : Reach s) {i : Nat} (hidle : s.pc i ≠ .idle) (hret : ∀ r, s.pc i ≠ .ret r)
    (hsl : ∀ n, s.pc i ≠ .bSleep n) : ∃ j s', step s j .run = some s' ∧ (j = i ∨ s.lock = some j) := by
  have hi := reach_inv h
  have owner : ∀ j, held (s.pc j) = true → ∃ s', step s j .run = some s' := by
    intro j hj
    have hl := (hi.lock j).mpr hj
    unfold step
    cases hp : s.pc j <;> rw [hp] at hj <;> simp only [held, Bool.false_eq_true] at hj <;>
      simp only [release, hl, if_true] <;> first | exact ⟨_, rfl⟩ | skip
    split <;> exact ⟨_, rfl⟩
  cases hl : s.lock with
  | some j =>
    obtain ⟨s', hs'⟩ := owner j ((hi.lock j).mp hl)
    exact ⟨j, s', hs', Or.inr rfl⟩
  | none =>
    cases hh : held (s.pc i) with
    | true => obtain ⟨s', hs'⟩ := owner i hh; exact ⟨i, s', hs', Or.inl rfl⟩
    | false =>
      have : ∃ s', step s i .run = some s' := by
        unfold step
        cases hp : s.pc i <;> rw [hp] at hh <;> simp only [held, Bool.true_eq_false] at hh <;>
          first
          | exact absurd hp hidle
          | exact absurd hp (hret _)
          | exact absurd hp (hsl _)
          | (simp only [acquire, hl, if_true]; exact ⟨_, rfl⟩)
      obtain ⟨s', hs'⟩ := this
      exact ⟨i, s', hs', Or.inl rfl⟩

/-- Run a schedule. -/
def exec (s : State) : List (Nat × Act) → Option State
  | [] => some s
  | (i, a) :: l => (step s i a).bind (fun s => exec s l)

/-- Thread 0 blocks looking for a name, thread 1 advertises it: there is a moment at which 0 sleeps although
the topic is in the list, and then it gets it. -/
example : (exec init [(0, .findBlocking [65]), (0, .run), (0, .run), (0, .run), (1, .advertise 3 [65]), (1, .run), (1, .run)]).map
    (fun s => (s.pc 0, s.pc 1, s.topics)) = some (.bSleep [65], .advBcast 3 [65], [(3, [65])]) := by decide
example : (exec init [(0, .findBlocking [65]), (0, .run), (0, .run), (0, .run), (1, .advertise 3 [65]), (1, .run), (1, .run), (1, .run), (1, .run), (0, .run), (0, .run), (0, .run)]).map
    (fun s => (s.pc 0, s.pc 1)) = some (.ret (some 3), .ret (some 3)) := by decide

end Verif.MsgBus.BusConc
