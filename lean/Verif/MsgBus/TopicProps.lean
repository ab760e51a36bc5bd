import Verif.MsgBus.TopicLemmas

/-!
# Message bus: topics under concurrency (C12, C13, C14, C17)
-/

namespace Verif.MsgBus.Conc

open HeapList

/-! ## Events of an execution -/

/-- Call, instant at which the operation takes effect on the topic, and return. -/
inductive Event where
  | inv (i : Nat) (a : Act)
  | lin (i : Nat) (t : Nat) (e : Entry)
  | ret (i : Nat) (r : Ret)
deriving DecidableEq, Repr

def Event.thread : Event → Nat
  | .inv i _ | .lin i _ _ | .ret i _ => i

/-- What was added to the log of operations by a step of thread `i`. -/
inductive LogDiff (sh sh' : Shared) (i : Nat) : List Event → Prop
  | none : sh'.log = sh.log → LogDiff sh sh' i []
  | one (t : Nat) (e : Entry) : sh'.log = upd sh.log t (e :: sh.log t) → LogDiff sh sh' i [.lin i t e]

def invEvent (i : Nat) : Act → List Event
  | .run => []
  | .leave => []
  | a => [.inv i a]

def retEvent (i : Nat) (a : Act) (p : Pc) : List Event :=
  match a, p with
  | .run, .ret r => [.ret i r]
  | _, _ => []

/-- Executions with their events, newest first. -/
inductive Exec (bufs : Nat → List Byte) : State → List Event → Prop
  | start : Exec bufs (start bufs) []
  | step {s s' : State} {i : Nat} {a : Act} {evs l : List Event} : Exec bufs s evs → ActOK bufs a →
    step s i a = .ok s' → LogDiff s.sh s'.sh i l →
    Exec bufs s' (retEvent i a (s'.pc i) ++ l ++ invEvent i a ++ evs)

/-- Operations on topic `t` in the order in which they took effect (newest first). -/
def opsOn (t : Nat) : List Event → List Entry
  | [] => []
  | .lin _ t' e :: l => if t' = t then e :: opsOn t l else opsOn t l
  | _ :: l => opsOn t l

/-- Events of thread `i`. -/
def eventsOf (i : Nat) (l : List Event) : List Event := l.filter (fun e => e.thread = i)

/-- A sequence of complete calls of thread `i` (newest event first): each operation on a topic takes
effect exactly once, between its call and its return, with the arguments of the call and the result that
the call returned; only a publish that does not fit has no effect and returns false. -/
inductive Calls (bufs : Nat → List Byte) (W : Nat → Nat → Prop) (i : Nat) : List Event → Prop
  | nil : Calls bufs W i []
  | pub {t : Nat} {m : List Byte} {l : List Event} : m.length ≤ (bufs t).length → Calls bufs W i l →
    Calls bufs W i (.ret i (.pub true) :: .lin i t (.pub i m) :: .inv i (.publish t m) :: l)
  | pubFail {t : Nat} {m : List Byte} {l : List Event} : (bufs t).length < m.length → Calls bufs W i l →
    Calls bufs W i (.ret i (.pub false) :: .inv i (.publish t m) :: l)
  | rd {t n : Nat} {r : Option (List Byte)} {l : List Event} : Calls bufs W i l →
    Calls bufs W i (.ret i (.rd r) :: .lin i t (.rd i n r) :: .inv i (.read t n) :: l)
  | wt {t n : Nat} {r : List Byte} {l : List Event} : Calls bufs W i l →
    Calls bufs W i (.ret i (.wt r) :: .lin i t (.wt i n r) :: .inv i (.wait t n) :: l)
  | gw {g t : Nat} {l : List Event} : W g t → Calls bufs W i l →
    Calls bufs W i (.ret i (.gw (some t)) :: .inv i (.gwait g) :: l)
  | watch {g t : Nat} {l : List Event} : Calls bufs W i l →
    Calls bufs W i (.ret i .watch :: .inv i (.watch g t) :: l)

/-- Somebody has called `watch` for this group and topic. -/
def Watched (evs : List Event) (g t : Nat) : Prop := ∃ j, .inv j (.watch g t) ∈ evs

/-! ## Lemmas -/

/-- The call a thread is executing. -/
def callOf : Pc → Option Act
  | .idle => none
  | .ret _ => none
  | .pubCheck t m | .pubLock t m | .pubCopy t m _ | .pubFlag t m | .pubStat t m | .pubBcast t m
  | .pubNext t m _ | .pubSet t m _ _ | .pubGBcast t m _ _ | .pubGRel t m _ _ | .pubRel t m => some (.publish t m)
  | .rdLock t n | .rdCheck t n | .rdCopy t n _ | .rdRel t n _ => some (.read t n)
  | .wtLock t n | .wtWait t n | .wtSleep t n | .wtWoken t n | .wtCopy t n _ | .wtRel t n _ => some (.wait t n)
  | .gwLock g | .gwWait g | .gwSleep g | .gwWoken g | .gwRead g | .gwRel g _ => some (.gwait g)
  | .wgLockT g t | .wgLockG g t | .wgLink g t | .wgRelG g t | .wgRelT g t => some (.watch g t)

theorem callOf_wake (w : Wake) (p : Pc) : callOf (wake w p) = callOf p := by
  unfold wake
  split
  · split <;> rfl
  · split <;> rfl
  · rfl

theorem logDiff_fun {sh sh' : Shared} {i : Nat} {l l' : List Event} (h : LogDiff sh sh' i l)
    (h' : LogDiff sh sh' i l') : l = l' := by
  cases h with
  | none h1 =>
    cases h' with
    | none => rfl
    | one t e h2 =>
      have := congrFun (h1.symm.trans h2) t
      rw [upd_self] at this
      have := congrArg List.length this
      simp at this
  | one t e h1 =>
    cases h' with
    | none h2 =>
      have := congrFun (h2.symm.trans h1) t
      rw [upd_self] at this
      have := congrArg List.length this
      simp at this
    | one t' e' h2 =>
      have h3 := h1.symm.trans h2
      by_cases ht : t' = t
      · subst ht
        have := congrFun h3 t'
        rw [upd_self, upd_self] at this
        injection this with h4 _
        rw [h4]
      · have := congrFun h3 t
        rw [upd_self, upd_ne _ _ (Ne.symm ht)] at this
        have := congrArg List.length this
        simp at this

/-- Shape of a step as far as events are concerned. -/
inductive Shape (bufs : Nat → List Byte) (sh sh' : Shared) (i : Nat) (p p' : Pc) (a : Act) : Prop
  | call (h1 : p = .idle) (h2 : callOf p' = some a) (h3 : sh'.log = sh.log) (h4 : a ≠ .run) (h5 : a ≠ .leave)
      (h6 : sh'.topics = sh.topics)
  | leave (h1 : callOf p = none) (h2 : p' = .idle) (h3 : sh'.log = sh.log) (h4 : a = .leave) (h6 : sh'.topics = sh.topics)
  | mid (c : Act) (h1 : callOf p = some c) (h2 : callOf p' = some c) (h3 : sh'.log = sh.log) (h4 : a = .run)
      (h5 : ∀ t g, g ∈ (sh'.topics t).watchers → g ∉ (sh.topics t).watchers → c = .watch g t)
  | ret (c : Act) (r : Ret) (l : List Event) (h1 : callOf p = some c) (h2 : p' = .ret r) (h3 : LogDiff sh sh' i l)
      (h4 : a = .run)
      (h5 : ∀ W L, (∀ g t, g ∈ (sh.topics t).watchers → W g t) → Calls bufs W i L → Calls bufs W i (.ret i r :: (l ++ .inv i c :: L)))
      (h6 : ∀ t, (sh'.topics t).watchers = (sh.topics t).watchers)

theorem lockT_log {sh sh' : Shared} {i t : Nat} {p p' : Pc} {w : Wake} (h : lockT sh i t p = .ok sh' p' w) :
    sh'.log = sh.log ∧ p' = p ∧ ∀ t', (sh'.topics t').watchers = (sh.topics t').watchers := by
  unfold lockT at h
  split at h
  · simp only [Res.ok.injEq] at h
    obtain ⟨rfl, rfl, rfl⟩ := h
    refine ⟨rfl, rfl, fun t' => ?_⟩
    by_cases he : t' = t
    · subst he; simp [upd_self]
    · simp [upd_ne _ _ he]
  · split at h <;> cases h

theorem unlockT_log {sh sh' : Shared} {i t : Nat} {es : List Entry} {p p' : Pc} {w : Wake}
    (h : unlockT sh i t es p = .ok sh' p' w) :
    sh'.log = upd sh.log t (es ++ sh.log t) ∧ p' = p ∧ ∀ t', (sh'.topics t').watchers = (sh.topics t').watchers := by
  unfold unlockT at h
  split at h
  · simp only [Res.ok.injEq] at h
    obtain ⟨rfl, rfl, rfl⟩ := h
    refine ⟨rfl, rfl, fun t' => ?_⟩
    by_cases he : t' = t
    · subst he; simp [upd_self]
    · simp [upd_ne _ _ he]
  · cases h

theorem lockG_log {sh sh' : Shared} {i g : Nat} {p p' : Pc} {w : Wake} (h : lockG sh i g p = .ok sh' p' w) :
    sh'.log = sh.log ∧ p' = p ∧ sh'.topics = sh.topics := by
  unfold lockG at h
  split at h
  · simp only [Res.ok.injEq] at h
    obtain ⟨rfl, rfl, rfl⟩ := h
    exact ⟨rfl, rfl, rfl⟩
  · split at h <;> cases h

theorem unlockG_log {sh sh' : Shared} {i g : Nat} {p p' : Pc} {w : Wake} (h : unlockG sh i g p = .ok sh' p' w) :
    sh'.log = sh.log ∧ p' = p ∧ sh'.topics = sh.topics := by
  unfold unlockG at h
  split at h
  · simp only [Res.ok.injEq] at h
    obtain ⟨rfl, rfl, rfl⟩ := h
    exact ⟨rfl, rfl, rfl⟩
  · cases h

theorem upd_eta {α : Type} (f : Nat → α) (t : Nat) : upd f t (f t) = f := by
  funext x
  by_cases h : x = t
  · subst h; rw [upd_self]
  · rw [upd_ne _ _ h]

theorem shape {bufs : Nat → List Byte} {sh sh' : Shared} {i : Nat} {p p' : Pc} {a : Act} {w : Wake}
    (hstep : local_ sh i p a = .ok sh' p' w) (hok : LocalOK bufs sh p)
    (hbuf : ∀ t, (sh.topics t).buf.length = (bufs t).length) : Shape bufs sh sh' i p p' a := by
  have same : ∀ {c : Act} {x : Shared} (_ : x.topics = sh.topics) t g, g ∈ (x.topics t).watchers →
      g ∉ (sh.topics t).watchers → c = .watch g t := by
    intro c x hx t g h1 h2; rw [hx] at h1; exact absurd h1 h2
  cases p with
  | idle =>
    cases a <;> simp only [local_, Res.ok.injEq, reduceCtorEq] at hstep <;> obtain ⟨rfl, rfl, rfl⟩ := hstep <;>
      exact .call rfl rfl rfl (by simp) (by simp) rfl
  | ret r =>
    cases a <;> simp only [local_, Res.ok.injEq, reduceCtorEq] at hstep
    obtain ⟨rfl, rfl, rfl⟩ := hstep
    exact .leave rfl rfl rfl rfl rfl
  | pubCheck t m =>
    cases a <;> simp only [local_, reduceCtorEq] at hstep
    split at hstep <;> simp only [Res.ok.injEq] at hstep <;> obtain ⟨rfl, rfl, rfl⟩ := hstep
    · refine .ret _ _ [] rfl rfl (.none rfl) rfl ?_ (fun _ => rfl)
      intro W L _ hL
      exact .pubFail (by have := hbuf t; omega) hL
    · exact .mid _ rfl rfl rfl rfl (same rfl)
  | pubLock t m =>
    cases a <;> simp only [local_, reduceCtorEq] at hstep
    obtain ⟨h1, rfl, h3⟩ := lockT_log hstep
    exact .mid _ rfl rfl h1 rfl (fun t' g h4 h5 => absurd (h3 t' ▸ h4) h5)
  | pubCopy t m k =>
    cases a <;> simp only [local_, reduceCtorEq] at hstep
    split at hstep
    · simp only [Res.ok.injEq] at hstep; obtain ⟨rfl, rfl, rfl⟩ := hstep
      exact .mid _ rfl rfl rfl rfl (same rfl)
    · split at hstep
      · simp only [Res.ok.injEq] at hstep; obtain ⟨rfl, rfl, rfl⟩ := hstep
        refine .mid _ rfl rfl rfl rfl ?_
        intro t' g h4 h5
        by_cases he : t' = t
        · subst he; simp only [setT, upd_self] at h4; exact absurd h4 h5
        · simp only [setT, upd_ne _ _ he] at h4; exact absurd h4 h5
      · cases hstep
  | pubFlag t m =>
    cases a <;> simp only [local_, reduceCtorEq, Res.ok.injEq] at hstep
    obtain ⟨rfl, rfl, rfl⟩ := hstep
    refine .mid _ rfl rfl rfl rfl ?_
    intro t' g h4 h5
    by_cases he : t' = t
    · subst he; simp only [setT, upd_self] at h4; exact absurd h4 h5
    · simp only [setT, upd_ne _ _ he] at h4; exact absurd h4 h5
  | pubStat t m =>
    cases a <;> simp only [local_, reduceCtorEq, Res.ok.injEq] at hstep
    obtain ⟨rfl, rfl, rfl⟩ := hstep
    refine .mid _ rfl rfl rfl rfl ?_
    intro t' g h4 h5
    by_cases he : t' = t
    · subst he; simp only [setT, upd_self] at h4; exact absurd h4 h5
    · simp only [setT, upd_ne _ _ he] at h4; exact absurd h4 h5
  | pubBcast t m =>
    cases a <;> simp only [local_, reduceCtorEq, Res.ok.injEq] at hstep
    obtain ⟨rfl, rfl, rfl⟩ := hstep
    exact .mid _ rfl rfl rfl rfl (same rfl)
  | pubNext t m ws =>
    cases a <;> cases ws <;> simp only [local_, reduceCtorEq, Res.ok.injEq] at hstep
    · obtain ⟨rfl, rfl, rfl⟩ := hstep
      exact .mid _ rfl rfl rfl rfl (same rfl)
    · obtain ⟨h1, rfl, h3⟩ := lockG_log hstep
      exact .mid _ rfl rfl h1 rfl (same h3)
  | pubSet t m g ws =>
    cases a <;> simp only [local_, reduceCtorEq, Res.ok.injEq] at hstep
    obtain ⟨rfl, rfl, rfl⟩ := hstep
    exact .mid _ rfl rfl rfl rfl (same rfl)
  | pubGBcast t m g ws =>
    cases a <;> simp only [local_, reduceCtorEq, Res.ok.injEq] at hstep
    obtain ⟨rfl, rfl, rfl⟩ := hstep
    exact .mid _ rfl rfl rfl rfl (same rfl)
  | pubGRel t m g ws =>
    cases a <;> simp only [local_, reduceCtorEq] at hstep
    obtain ⟨h1, rfl, h3⟩ := unlockG_log hstep
    exact .mid _ rfl rfl h1 rfl (same h3)
  | pubRel t m =>
    cases a <;> simp only [local_, reduceCtorEq] at hstep
    obtain ⟨h1, rfl, h3⟩ := unlockT_log hstep
    refine .ret _ _ _ rfl rfl (.one t (.pub i m) h1) rfl ?_ h3
    intro W L _ hL
    exact .pub hok.1 hL
  | rdLock t n =>
    cases a <;> simp only [local_, reduceCtorEq] at hstep
    obtain ⟨h1, rfl, h3⟩ := lockT_log hstep
    exact .mid _ rfl rfl h1 rfl (fun t' g h4 h5 => absurd (h3 t' ▸ h4) h5)
  | rdCheck t n =>
    cases a <;> simp only [local_, reduceCtorEq] at hstep
    split at hstep <;> simp only [Res.ok.injEq] at hstep <;> obtain ⟨rfl, rfl, rfl⟩ := hstep <;>
      exact .mid _ rfl rfl rfl rfl (same rfl)
  | rdCopy t n out =>
    cases a <;> simp only [local_, reduceCtorEq] at hstep
    split at hstep
    · split at hstep
      · cases hstep
      · simp only [Res.ok.injEq] at hstep; obtain ⟨rfl, rfl, rfl⟩ := hstep
        exact .mid _ rfl rfl rfl rfl (same rfl)
    · simp only [Res.ok.injEq] at hstep; obtain ⟨rfl, rfl, rfl⟩ := hstep
      exact .mid _ rfl rfl rfl rfl (same rfl)
  | rdRel t n r =>
    cases a <;> simp only [local_, reduceCtorEq] at hstep
    obtain ⟨h1, rfl, h3⟩ := unlockT_log hstep
    exact .ret _ _ _ rfl rfl (.one t (.rd i n r) h1) rfl (fun W L _ hL => .rd hL) h3
  | wtLock t n =>
    cases a <;> simp only [local_, reduceCtorEq] at hstep
    obtain ⟨h1, rfl, h3⟩ := lockT_log hstep
    exact .mid _ rfl rfl h1 rfl (fun t' g h4 h5 => absurd (h3 t' ▸ h4) h5)
  | wtWait t n =>
    cases a <;> simp only [local_, reduceCtorEq] at hstep
    obtain ⟨h1, rfl, h3⟩ := unlockT_log hstep
    refine .mid _ rfl rfl ?_ rfl (fun t' g h4 h5 => absurd (h3 t' ▸ h4) h5)
    rw [h1, List.nil_append, upd_eta]
  | wtSleep t n => cases a <;> simp only [local_, reduceCtorEq] at hstep
  | wtWoken t n =>
    cases a <;> simp only [local_, reduceCtorEq] at hstep
    obtain ⟨h1, rfl, h3⟩ := lockT_log hstep
    exact .mid _ rfl rfl h1 rfl (fun t' g h4 h5 => absurd (h3 t' ▸ h4) h5)
  | wtCopy t n out =>
    cases a <;> simp only [local_, reduceCtorEq] at hstep
    split at hstep
    · split at hstep
      · cases hstep
      · simp only [Res.ok.injEq] at hstep; obtain ⟨rfl, rfl, rfl⟩ := hstep
        exact .mid _ rfl rfl rfl rfl (same rfl)
    · simp only [Res.ok.injEq] at hstep; obtain ⟨rfl, rfl, rfl⟩ := hstep
      exact .mid _ rfl rfl rfl rfl (same rfl)
  | wtRel t n out =>
    cases a <;> simp only [local_, reduceCtorEq] at hstep
    obtain ⟨h1, rfl, h3⟩ := unlockT_log hstep
    exact .ret _ _ _ rfl rfl (.one t (.wt i n out) h1) rfl (fun W L _ hL => .wt hL) h3
  | gwLock g =>
    cases a <;> simp only [local_, reduceCtorEq] at hstep
    obtain ⟨h1, rfl, h3⟩ := lockG_log hstep
    exact .mid _ rfl rfl h1 rfl (same h3)
  | gwWait g =>
    cases a <;> simp only [local_, reduceCtorEq] at hstep
    obtain ⟨h1, rfl, h3⟩ := unlockG_log hstep
    exact .mid _ rfl rfl h1 rfl (same h3)
  | gwSleep g => cases a <;> simp only [local_, reduceCtorEq] at hstep
  | gwWoken g =>
    cases a <;> simp only [local_, reduceCtorEq] at hstep
    obtain ⟨h1, rfl, h3⟩ := lockG_log hstep
    exact .mid _ rfl rfl h1 rfl (same h3)
  | gwRead g =>
    cases a <;> simp only [local_, reduceCtorEq, Res.ok.injEq] at hstep
    obtain ⟨rfl, rfl, rfl⟩ := hstep
    exact .mid _ rfl rfl rfl rfl (same rfl)
  | gwRel g r =>
    cases a <;> simp only [local_, reduceCtorEq] at hstep
    obtain ⟨h1, rfl, h3⟩ := unlockG_log hstep
    obtain ⟨t, rfl, h4⟩ := hok
    exact .ret _ _ [] rfl rfl (.none h1) rfl (fun W L hW hL => .gw (hW g t h4) hL) (fun _ => by rw [h3])
  | wgLockT g t =>
    cases a <;> simp only [local_, reduceCtorEq] at hstep
    obtain ⟨h1, rfl, h3⟩ := lockT_log hstep
    exact .mid _ rfl rfl h1 rfl (fun t' g h4 h5 => absurd (h3 t' ▸ h4) h5)
  | wgLockG g t =>
    cases a <;> simp only [local_, reduceCtorEq] at hstep
    obtain ⟨h1, rfl, h3⟩ := lockG_log hstep
    exact .mid _ rfl rfl h1 rfl (same h3)
  | wgLink g t =>
    cases a <;> simp only [local_, reduceCtorEq, Res.ok.injEq] at hstep
    obtain ⟨rfl, rfl, rfl⟩ := hstep
    refine .mid _ rfl rfl rfl rfl ?_
    intro t' g' h4 h5
    by_cases he : t' = t
    · subst he
      simp only [setT, upd_self, List.mem_cons] at h4
      rcases h4 with rfl | h4
      · rfl
      · exact absurd h4 h5
    · simp only [setT, upd_ne _ _ he] at h4; exact absurd h4 h5
  | wgRelG g t =>
    cases a <;> simp only [local_, reduceCtorEq] at hstep
    obtain ⟨h1, rfl, h3⟩ := unlockG_log hstep
    exact .mid _ rfl rfl h1 rfl (same h3)
  | wgRelT g t =>
    cases a <;> simp only [local_, reduceCtorEq] at hstep
    obtain ⟨h1, rfl, h3⟩ := unlockT_log hstep
    refine .ret _ _ [] rfl rfl (.none ?_) rfl (fun W L _ hL => .watch hL) h3
    rw [h1, List.nil_append, upd_eta]

theorem Calls.mono {bufs : Nat → List Byte} {W W' : Nat → Nat → Prop} {i : Nat} {l : List Event}
    (hW : ∀ g t, W g t → W' g t) (h : Calls bufs W i l) : Calls bufs W' i l := by
  induction h with
  | nil => exact .nil
  | pub h _ ih => exact .pub h ih
  | pubFail h _ ih => exact .pubFail h ih
  | rd _ ih => exact .rd ih
  | wt _ ih => exact .wt ih
  | gw h _ ih => exact .gw (hW _ _ h) ih
  | watch _ ih => exact .watch ih

/-- Where a thread is in its sequence of calls. -/
def Progress (bufs : Nat → List Byte) (W : Nat → Nat → Prop) (i : Nat) (p : Pc) (l : List Event) : Prop :=
  match callOf p with
  | none => Calls bufs W i l
  | some a => ∃ l', l = .inv i a :: l' ∧ Calls bufs W i l'

theorem Progress.mono {bufs : Nat → List Byte} {W W' : Nat → Nat → Prop} {i : Nat} {p : Pc} {l : List Event}
    (hW : ∀ g t, W g t → W' g t) (h : Progress bufs W i p l) : Progress bufs W' i p l := by
  unfold Progress at h ⊢
  split at h
  · exact Calls.mono hW h
  · rename_i a hc
    obtain ⟨l', h1, h2⟩ := h
    exact ⟨l', h1, Calls.mono hW h2⟩

structure EInv (bufs : Nat → List Byte) (s : State) (evs : List Event) : Prop where
  inv : Inv bufs s
  log : ∀ t, opsOn t evs = s.sh.log t
  watched : ∀ t g, g ∈ (s.sh.topics t).watchers → Watched evs g t
  progress : ∀ i, Progress bufs (Watched evs) i (s.pc i) (eventsOf i evs)

theorem opsOn_append (t : Nat) (l l' : List Event) : opsOn t (l ++ l') = opsOn t l ++ opsOn t l' := by
  induction l with
  | nil => rfl
  | cons e l ih =>
    cases e <;> simp only [List.cons_append, opsOn, ih]
    split <;> simp

theorem invEvent_thread {i : Nat} {a : Act} {e : Event} (h : e ∈ invEvent i a) : e.thread = i := by
  cases a <;> simp [invEvent] at h <;> subst h <;> rfl

theorem retEvent_thread {i : Nat} {a : Act} {p : Pc} {e : Event} (h : e ∈ retEvent i a p) : e.thread = i := by
  unfold retEvent at h
  split at h <;> simp at h
  subst h; rfl

theorem logDiff_thread {sh sh' : Shared} {i : Nat} {l : List Event} (hl : LogDiff sh sh' i l) {e : Event}
    (h : e ∈ l) : e.thread = i := by
  cases hl <;> simp at h
  subst h; rfl

theorem opsOn_inv (t i : Nat) (a : Act) : opsOn t (invEvent i a) = [] := by cases a <;> rfl
theorem opsOn_ret (t i : Nat) (a : Act) (p : Pc) : opsOn t (retEvent i a p) = [] := by
  unfold retEvent; split <;> rfl
theorem opsOn_diff {sh sh' : Shared} {i : Nat} {l : List Event} (hl : LogDiff sh sh' i l) (t : Nat) :
    sh'.log t = opsOn t l ++ sh.log t := by
  cases hl with
  | none h => rw [h]; rfl
  | one t' e h =>
    rw [h]
    simp only [opsOn]
    split
    · rename_i he; subst he; rw [upd_self]; rfl
    · rename_i he; rw [upd_ne _ _ (Ne.symm he)]; rfl

theorem einv_step {bufs : Nat → List Byte} {s s' : State} {i : Nat} {a : Act} {evs l : List Event}
    (h : EInv bufs s evs) (ha : ActOK bufs a) (hs : step s i a = .ok s') (hl : LogDiff s.sh s'.sh i l) :
    EInv bufs s' (retEvent i a (s'.pc i) ++ l ++ invEvent i a ++ evs) := by
  obtain ⟨p', w, hloc, hpc, hc⟩ := step_contract h.inv ha hs
  have hi : s'.pc i = p' := by rw [hpc]; simp
  have hj : ∀ j, j ≠ i → s'.pc j = wake w (s.pc j) := by intro j hne; rw [hpc]; simp [hne]
  have hsh := shape hloc (h.inv.localOK i) h.inv.bufLen
  have hWmono : ∀ g t, Watched evs g t → Watched (retEvent i a (s'.pc i) ++ l ++ invEvent i a ++ evs) g t := by
    intro g t ⟨j, hj⟩; exact ⟨j, by simp [hj]⟩
  constructor
  · exact inv_step h.inv ha hs
  · intro t
    rw [opsOn_append, opsOn_append, opsOn_append, opsOn_inv, opsOn_ret, opsOn_diff hl, h.log]
    simp
  · intro t g hg
    by_cases hold : g ∈ (s.sh.topics t).watchers
    · exact hWmono g t (h.watched t g hold)
    · cases hsh with
      | call h1 h2 h3 h4 h5 h6 => rw [h6] at hg; exact absurd hg hold
      | leave h1 h2 h3 h4 h6 => rw [h6] at hg; exact absurd hg hold
      | mid c h1 h2 h3 h4 h5 =>
        have hcw := h5 t g hg hold
        have hp := h.progress i
        simp only [Progress, h1] at hp
        obtain ⟨l', he, _⟩ := hp
        apply hWmono
        refine ⟨i, ?_⟩
        have : Event.inv i c ∈ eventsOf i evs := by rw [he]; simp
        rw [hcw] at this
        exact (List.mem_filter.mp this).1
      | ret c r l h1 h2 h3 h4 h5 h6 => rw [h6] at hg; exact absurd hg hold
  · intro j
    by_cases hji : j = i
    · subst hji
      have hall : eventsOf j (retEvent j a (s'.pc j) ++ l ++ invEvent j a ++ evs) =
          retEvent j a (s'.pc j) ++ l ++ invEvent j a ++ eventsOf j evs := by
        unfold eventsOf
        rw [List.filter_append, List.filter_append, List.filter_append]
        congr 1
        congr 1
        · congr 1
          · exact List.filter_eq_self.mpr (fun e he => by simp [retEvent_thread he])
          · exact List.filter_eq_self.mpr (fun e he => by simp [logDiff_thread hl he])
        · exact List.filter_eq_self.mpr (fun e he => by simp [invEvent_thread he])
      rw [hall]
      have hp := (h.progress j).mono hWmono
      generalize hW : Watched (retEvent j a (s'.pc j) ++ l ++ invEvent j a ++ evs) = W at hp ⊢
      have hwm : ∀ g t, g ∈ (s.sh.topics t).watchers → W g t := by
        intro g t hg; rw [← hW]; exact hWmono g t (h.watched t g hg)
      rw [hi]
      cases hsh with
      | call h1 h2 h3 h4 h5 h6 =>
        have hlnil := logDiff_fun hl (.none h3)
        subst hlnil
        have hr : retEvent j a p' = [] := by
          unfold retEvent; split
          · exact absurd rfl h4
          · rfl
        have hiv : invEvent j a = [.inv j a] := by
          cases a <;> first | rfl | exact absurd rfl h4 | exact absurd rfl h5
        rw [hr, hiv]
        simp only [Progress, h1, callOf] at hp
        simp only [Progress, h2]
        exact ⟨_, rfl, hp⟩
      | leave h1 h2 h3 h4 h6 =>
        have hlnil := logDiff_fun hl (.none h3)
        subst hlnil
        subst h4 h2
        simp only [Progress, h1] at hp
        simpa only [Progress, callOf, retEvent, invEvent, List.nil_append] using hp
      | mid c h1 h2 h3 h4 h5 =>
        have hlnil := logDiff_fun hl (.none h3)
        subst hlnil
        subst h4
        have hr : retEvent j .run p' = [] := by
          unfold retEvent; split
          · cases h2
          · rfl
        rw [hr]
        simp only [Progress, h1] at hp
        simp only [Progress, h2, invEvent, List.nil_append]
        exact hp
      | ret c r l' h1 h2 h3 h4 h5 h6 =>
        have hleq := logDiff_fun hl h3
        subst hleq
        subst h4 h2
        simp only [Progress, h1] at hp
        obtain ⟨l', he, hC⟩ := hp
        simp only [Progress, callOf, retEvent, invEvent, List.append_nil, he]
        have := h5 W l' hwm hC
        simpa using this
    · have hnone : eventsOf j (retEvent i a (s'.pc i) ++ l ++ invEvent i a ++ evs) = eventsOf j evs := by
        unfold eventsOf
        rw [List.filter_append, List.filter_append, List.filter_append]
        rw [List.filter_eq_nil_iff.mpr (fun e he => by simp [retEvent_thread he]; omega),
          List.filter_eq_nil_iff.mpr (fun e he => by simp [logDiff_thread hl he]; omega),
          List.filter_eq_nil_iff.mpr (fun e he => by simp [invEvent_thread he]; omega)]
        rfl
      rw [hnone, hj j hji]
      have hp := (h.progress j).mono hWmono
      unfold Progress at hp ⊢
      rw [callOf_wake]
      exact hp

theorem exec_inv {bufs : Nat → List Byte} {s : State} {evs : List Event} (h : Exec bufs s evs) : EInv bufs s evs := by
  induction h with
  | start =>
    refine ⟨inv_start bufs, fun _ => rfl, ?_, fun i => ?_⟩
    · intro t g h; simp [start] at h
    · simp only [Progress, start, callOf]; exact .nil
  | step _ ha hs hl ih => exact einv_step ih ha hs hl

theorem logDiff_exists {bufs : Nat → List Byte} {s s' : State} {i : Nat} {a : Act} (h : Inv bufs s)
    (ha : ActOK bufs a) (hs : step s i a = .ok s') : ∃ l, LogDiff s.sh s'.sh i l := by
  obtain ⟨p', w, hloc, hpc, hc⟩ := step_contract h ha hs
  cases shape hloc (h.localOK i) h.bufLen with
  | call _ _ h3 => exact ⟨_, .none h3⟩
  | leave _ _ h3 => exact ⟨_, .none h3⟩
  | mid _ _ _ h3 => exact ⟨_, .none h3⟩
  | ret _ _ l _ _ h3 => exact ⟨l, h3⟩

/-! ## Theorems -/

/-- Every schedule is an execution with events. -/
theorem every_schedule_has_events {bufs : Nat → List Byte} {s : State} (h : Reach bufs s) : ∃ evs, Exec bufs s evs := by
  induction h with
  | start => exact ⟨_, .start⟩
  | step hr ha hs ih =>
    obtain ⟨evs, he⟩ := ih
    obtain ⟨l, hl⟩ := logDiff_exists (reach_inv hr) ha hs
    exact ⟨_, .step he ha hs hl⟩

/-- C12, C14: every execution is linearizable. Each call takes effect once between its call and its return
with the value it returns (`Calls`), and the operations on each topic, in the order in which they take
effect, are a run of the sequential topic (`ValidLog`): reads return nothing before the first publish and
the first `n` bytes of the content after it. -/
theorem linearizable {bufs : Nat → List Byte} {s : State} {evs : List Event} (h : Exec bufs s evs) :
    (∀ t, ValidLog (bufs t) (opsOn t evs)) ∧
    ∀ i, Calls bufs (Watched evs) i (eventsOf i evs) ∨
      ∃ a l, eventsOf i evs = .inv i a :: l ∧ Calls bufs (Watched evs) i l := by
  have hi := exec_inv h
  refine ⟨fun t => by rw [hi.log t]; exact hi.inv.valid t, fun i => ?_⟩
  have hp := hi.progress i
  unfold Progress at hp
  split at hp
  · exact Or.inl hp
  · obtain ⟨l, h1, h2⟩ := hp
    exact Or.inr ⟨_, l, h1, h2⟩

/-- C12: read off the specification: right after a publish of `m`, with any reads in between, a read of
`n ≤ m.length` bytes returns the first `n` bytes of `m`; nothing is returned if nothing was published. -/
theorem read_latest {b0 : List Byte} {i n : Nat} {r : Option (List Byte)} {l : List Entry}
    (h : ValidLog b0 (.rd i n r :: l)) :
    ((∀ j m, .pub j m ∉ l) → r = none) ∧
    ∀ l1 l2 j m, l = l1 ++ .pub j m :: l2 → (∀ j' m', .pub j' m' ∉ l1) →
      ∃ out, r = some out ∧ (n ≤ m.length → out = m.take n) ∧
        (m.length ≤ n → ∃ rest, out = m ++ rest ∧ rest = ((content b0 l2).drop m.length).take (n - m.length)) := by
  obtain ⟨hr, hv⟩ := h
  have hzero : ∀ l : List Entry, (∀ j m, .pub j m ∉ l) → pubCount l = 0 := by
    intro l
    induction l with
    | nil => intro _; rfl
    | cons e l ih =>
      intro h
      cases e with
      | pub j m => exact absurd (by simp) (h j m)
      | rd j n r => simp only [pubCount]; exact ih (fun j m hm => h j m (by simp [hm]))
      | wt j n r => simp only [pubCount]; exact ih (fun j m hm => h j m (by simp [hm]))
  have happ : ∀ l1 l2 : List Entry, (∀ j m, .pub j m ∉ l1) → content b0 (l1 ++ l2) = content b0 l2 ∧
      pubCount (l1 ++ l2) = pubCount l2 := by
    intro l1 l2
    induction l1 with
    | nil => intro _; exact ⟨rfl, rfl⟩
    | cons e l ih =>
      intro h
      cases e with
      | pub j m => exact absurd (by simp) (h j m)
      | rd j n r => simp only [List.cons_append, content, pubCount]; exact ih (fun j m hm => h j m (by simp [hm]))
      | wt j n r => simp only [List.cons_append, content, pubCount]; exact ih (fun j m hm => h j m (by simp [hm]))
  constructor
  · intro hn
    rw [hr, hzero l hn]; rfl
  · intro l1 l2 j m hl hn
    obtain ⟨h1, h2⟩ := happ l1 (.pub j m :: l2) hn
    rw [← hl] at h1 h2
    refine ⟨(content b0 l).take n, ?_, ?_, ?_⟩
    · rw [hr, if_pos]; rw [h2]; simp [pubCount]
    · intro hle
      rw [h1]; simp only [content]
      rw [List.take_append_of_le_length hle]
    · intro hle
      rw [h1]; simp only [content]
      exact ⟨_, by rw [List.take_append, List.take_of_length_le hle], rfl⟩

/-- C13: a publish that does not fit returns false in the step after the call, without touching any
topic, group or lock, and without waking anybody. -/
theorem oversized_publish {bufs : Nat → List Byte} {s : State} (h : Reach bufs s) {i t : Nat} {m : List Byte}
    (hp : s.pc i = .pubCheck t m) (hm : (bufs t).length < m.length) :
    step s i .run = .ok ⟨s.sh, fun j => if j = i then .ret (.pub false) else s.pc j⟩ := by
  have hb := (reach_inv h).bufLen t
  unfold step
  rw [hp]
  simp only [local_]
  rw [if_pos (by omega)]
  simp only [GRes.ok.injEq, State.mk.injEq, true_and]
  funext j
  split
  · rfl
  · unfold wake; rfl

/-- C13: a publish returns true exactly if the message fits. -/
theorem publish_result {bufs : Nat → List Byte} {s : State} {evs : List Event} (h : Exec bufs s evs) {i t : Nat}
    {m : List Byte} {b : Bool} {pre mid post : List Event}
    (he : eventsOf i evs = pre ++ .ret i (.pub b) :: mid ++ .inv i (.publish t m) :: post)
    (hmid : ∀ a, .inv i a ∉ mid) (hmid' : ∀ r, .ret i r ∉ mid) :
    b = decide (m.length ≤ (bufs t).length) := by
  have key : ∀ {W : Nat → Nat → Prop} {l : List Event}, Calls bufs W i l → ∀ pre,
      l = pre ++ .ret i (.pub b) :: mid ++ .inv i (.publish t m) :: post → b = decide (m.length ≤ (bufs t).length) := by
    intro W l hC
    induction hC with
    | nil => intro pre he; simp at he
    | pub hle _ ih =>
      intro pre he
      match pre with
      | [] =>
        simp only [List.nil_append, List.cons_append, List.cons.injEq, Event.ret.injEq, true_and] at he
        obtain ⟨h1, h2⟩ := he
        match mid with
        | [] => simp at h2
        | [_] => simp at h2; obtain ⟨_, ⟨rfl, rfl⟩, _⟩ := h2; injection h1 with h1; simp [← h1, hle]
        | _ :: x :: _ =>
          simp at h2
          obtain ⟨_, rfl, _⟩ := h2
          exact (hmid _ (List.mem_cons_of_mem _ List.mem_cons_self)).elim
      | [_] => simp at he
      | [_, _] => simp at he
      | _ :: _ :: _ :: pre =>
        simp only [List.cons_append, List.cons.injEq] at he
        exact ih pre he.2.2.2
    | pubFail hlt _ ih =>
      intro pre he
      match pre with
      | [] =>
        simp only [List.nil_append, List.cons_append, List.cons.injEq, Event.ret.injEq, true_and] at he
        obtain ⟨h1, h2⟩ := he
        match mid with
        | [] => simp at h2; obtain ⟨⟨rfl, rfl⟩, _⟩ := h2; injection h1 with h1; simp [← h1]; omega
        | x :: _ =>
          simp at h2
          obtain ⟨rfl, _⟩ := h2
          exact (hmid _ List.mem_cons_self).elim
      | [_] => simp at he
      | _ :: _ :: pre =>
        simp only [List.cons_append, List.cons.injEq] at he
        exact ih pre he.2.2
    | rd _ ih =>
      intro pre he
      match pre with
      | [] => simp at he
      | [_] => simp at he
      | [_, _] => simp at he
      | _ :: _ :: _ :: pre =>
        simp only [List.cons_append, List.cons.injEq] at he
        exact ih pre he.2.2.2
    | wt _ ih =>
      intro pre he
      match pre with
      | [] => simp at he
      | [_] => simp at he
      | [_, _] => simp at he
      | _ :: _ :: _ :: pre =>
        simp only [List.cons_append, List.cons.injEq] at he
        exact ih pre he.2.2.2
    | gw _ _ ih =>
      intro pre he
      match pre with
      | [] => simp at he
      | [_] => simp at he
      | _ :: _ :: pre =>
        simp only [List.cons_append, List.cons.injEq] at he
        exact ih pre he.2.2
    | watch _ ih =>
      intro pre he
      match pre with
      | [] => simp at he
      | [_] => simp at he
      | _ :: _ :: pre =>
        simp only [List.cons_append, List.cons.injEq] at he
        exact ih pre he.2.2
  rcases (linearizable h).2 i with hC | ⟨a, l, hl, hC⟩
  · exact key hC pre he
  · rw [hl] at he
    match pre with
    | [] => simp at he
    | _ :: pre =>
      simp only [List.cons_append, List.cons.injEq] at he
      exact key hC pre he.2

/-- C14: a thread that is not in a call holds no lock. -/
theorem idle_holds_nothing {bufs : Nat → List Byte} {s : State} (h : Reach bufs s) {i : Nat}
    (hp : s.pc i = .idle ∨ ∃ r, s.pc i = .ret r) :
    (∀ t, (s.sh.topics t).lock ≠ some i) ∧ ∀ g, (s.sh.groups g).lock ≠ some i := by
  have hi := reach_inv h
  constructor
  · intro t ht
    rw [hi.lockT] at ht
    rcases hp with h | ⟨r, h⟩ <;> rw [h] at ht <;> cases ht
  · intro t ht
    rw [hi.lockG] at ht
    rcases hp with h | ⟨r, h⟩ <;> rw [h] at ht <;> cases ht

theorem lockT_ub {sh : Shared} {i t : Nat} {p : Pc} (h : (sh.topics t).lock ≠ some i) : lockT sh i t p ≠ .ub := by
  unfold lockT
  split
  · simp
  · split
    · rename_i h1 h2; subst h2; exact absurd h1 h
    · simp

theorem lockG_ub {sh : Shared} {i t : Nat} {p : Pc} (h : (sh.groups t).lock ≠ some i) : lockG sh i t p ≠ .ub := by
  unfold lockG
  split
  · simp
  · split
    · rename_i h1 h2; subst h2; exact absurd h1 h
    · simp

theorem unlockT_ub {sh : Shared} {i t : Nat} {es : List Entry} {p : Pc} (h : (sh.topics t).lock = some i) :
    unlockT sh i t es p ≠ .ub := by
  unfold unlockT; rw [if_pos h]; simp

theorem unlockG_ub {sh : Shared} {i t : Nat} {p : Pc} (h : (sh.groups t).lock = some i) :
    unlockG sh i t p ≠ .ub := by
  unfold unlockG; rw [if_pos h]; simp

/-- C14: no access outside a buffer, no double acquisition and no release of a lock not held, as long as
readers ask for no more than the buffer size. -/
theorem no_undefined_behaviour {bufs : Nat → List Byte} {s : State} (h : Reach bufs s) {i : Nat} {a : Act} :
    step s i a ≠ .ub := by
  have hi := reach_inv h
  have hT : ∀ t, topicHeld (s.pc i) ≠ some t → (s.sh.topics t).lock ≠ some i := fun t h1 h2 => h1 ((hi.lockT t i).mp h2)
  have hG : ∀ t, groupHeld (s.pc i) ≠ some t → (s.sh.groups t).lock ≠ some i := fun t h1 h2 => h1 ((hi.lockG t i).mp h2)
  have hT' : ∀ t, topicHeld (s.pc i) = some t → (s.sh.topics t).lock = some i := fun t h1 => (hi.lockT t i).mpr h1
  have hG' : ∀ t, groupHeld (s.pc i) = some t → (s.sh.groups t).lock = some i := fun t h1 => (hi.lockG t i).mpr h1
  have hok := hi.localOK i
  have hbl := hi.bufLen
  unfold step
  generalize s.pc i = p at *
  suffices local_ s.sh i p a ≠ .ub by
    split
    · simp
    · rename_i h; exact absurd h this
    · simp
  cases p <;> cases a <;> simp only [local_, ne_eq, reduceCtorEq, not_false_eq_true] <;>
    first
    | exact lockT_ub (hT _ (by simp [topicHeld]))
    | exact lockG_ub (hG _ (by simp [groupHeld]))
    | exact unlockT_ub (hT' _ rfl)
    | exact unlockG_ub (hG' _ rfl)
    | skip
  · split <;> simp
  · obtain ⟨h1, h2, h3⟩ := hok
    rename_i t m k
    split
    · simp
    · rename_i b hb
      have : k < m.length := by
        rcases Nat.lt_or_ge k m.length with h | h
        · exact h
        · rw [List.getElem?_eq_none h] at hb; cases hb
      rw [if_pos (by rw [hbl]; omega)]; simp
  · rename_i t m ws
    cases ws with
    | nil => simp [local_]
    | cons g ws => exact lockG_ub (hG _ (by simp [groupHeld]))
  · split <;> simp
  · obtain ⟨h1, h2, h3, h4, h5⟩ := hok
    rename_i t n out
    split
    · rename_i hlt
      split
      · rename_i hn
        have := List.getElem?_eq_none_iff.mp hn
        rw [hbl] at this; omega
      · simp
    · simp
  · obtain ⟨h1, h2, h3, h4, h5⟩ := hok
    rename_i t n out
    split
    · rename_i hlt
      split
      · rename_i hn
        have := List.getElem?_eq_none_iff.mp hn
        rw [hbl] at this; omega
      · simp
    · simp

theorem group_holder_runs {bufs : Nat → List Byte} {s : State} (h : Reach bufs s) {i g : Nat}
    (hg : groupHeld (s.pc i) = some g) : ∃ s', step s i .run = .ok s' := by
  have hi := reach_inv h
  have hl := (hi.lockG g i).mpr hg
  unfold step
  cases hp : s.pc i <;> rw [hp] at hg <;> simp only [groupHeld, Option.some.injEq, reduceCtorEq] at hg <;>
    subst hg <;> simp only [local_, unlockG, hl, if_true] <;> exact ⟨_, rfl⟩

theorem lockG_blocked {sh : Shared} {i g : Nat} {p : Pc} (h : lockG sh i g p = .blocked) :
    ∃ j, (sh.groups g).lock = some j := by
  unfold lockG at h
  split at h
  · cases h
  · exact ⟨_, by assumption⟩

theorem lockT_blocked {sh : Shared} {i g : Nat} {p : Pc} (h : lockT sh i g p = .blocked) :
    ∃ j, (sh.topics g).lock = some j := by
  unfold lockT at h
  split at h
  · cases h
  · exact ⟨_, by assumption⟩

/-- Why a thread in a call cannot run. -/
theorem blocked_why {bufs : Nat → List Byte} {s : State} (h : Reach bufs s) {i : Nat} (hc : callOf (s.pc i) ≠ none)
    (hb : step s i .run = .blocked) :
    (∃ g j, (s.sh.groups g).lock = some j) ∨ (topicHeld (s.pc i) = none ∧
      ((∃ t j, (s.sh.topics t).lock = some j) ∨ (∃ t n, s.pc i = .wtSleep t n) ∨ ∃ g, s.pc i = .gwSleep g)) := by
  have hi := reach_inv h
  have hT : ∀ t, topicHeld (s.pc i) = some t → (s.sh.topics t).lock = some i := fun t h1 => (hi.lockT t i).mpr h1
  have hG : ∀ t, groupHeld (s.pc i) = some t → (s.sh.groups t).lock = some i := fun t h1 => (hi.lockG t i).mpr h1
  unfold step at hb
  have hb' : local_ s.sh i (s.pc i) .run = .blocked := by
    split at hb
    · assumption
    · cases hb
    · cases hb
  clear hb
  cases hp : s.pc i <;> rw [hp] at hb' hc hT hG <;> simp only [local_, reduceCtorEq] at hb' <;>
    first
    | exact absurd rfl hc
    | exact Or.inr ⟨rfl, Or.inl ⟨_, lockT_blocked hb'⟩⟩
    | exact Or.inl ⟨_, lockG_blocked hb'⟩
    | (unfold unlockT at hb'; split at hb' <;> cases hb')
    | (unfold unlockG at hb'; split at hb' <;> cases hb')
    | (split at hb' <;> cases hb')
    | skip
  · split at hb'
    · cases hb'
    · split at hb' <;> cases hb'
  · rename_i t m ws
    cases ws with
    | nil => simp only [local_, reduceCtorEq] at hb'
    | cons g ws => obtain ⟨j, hj⟩ := lockG_blocked hb'; exact Or.inl ⟨_, j, hj⟩
  · split at hb'
    · split at hb' <;> cases hb'
    · cases hb'
  · exact Or.inr ⟨rfl, Or.inr (Or.inl ⟨_, _, rfl⟩)⟩
  · split at hb'
    · split at hb' <;> cases hb'
    · cases hb'
  · exact Or.inr ⟨rfl, Or.inr (Or.inr ⟨_, rfl⟩)⟩

/-- C14, C17: no deadlock. Whenever a thread is inside a call and not asleep on a condition variable, some
thread can make a step inside its call. -/
theorem no_deadlock {bufs : Nat → List Byte} {s : State} (h : Reach bufs s) {i : Nat} (hc : callOf (s.pc i) ≠ none)
    (hw : ∀ t n, s.pc i ≠ .wtSleep t n) (hg : ∀ g, s.pc i ≠ .gwSleep g) :
    ∃ j s', step s j .run = .ok s' := by
  have hi := reach_inv h
  have grp : (∃ g j, (s.sh.groups g).lock = some j) → ∃ j s', step s j .run = .ok s' := by
    intro ⟨g, j, hj⟩
    exact ⟨j, group_holder_runs h ((hi.lockG g j).mp hj)⟩
  have main : ∀ i, callOf (s.pc i) ≠ none → topicHeld (s.pc i) ≠ none → ∃ j s', step s j .run = .ok s' := by
    intro i hc ht
    cases hb : step s i .run with
    | ok s' => exact ⟨i, s', hb⟩
    | ub => exact absurd hb (no_undefined_behaviour h)
    | blocked =>
      rcases blocked_why h hc hb with h1 | ⟨h1, _⟩
      · exact grp h1
      · exact absurd h1 ht
  cases hb : step s i .run with
  | ok s' => exact ⟨i, s', hb⟩
  | ub => exact absurd hb (no_undefined_behaviour h)
  | blocked =>
    rcases blocked_why h hc hb with h1 | ⟨_, ⟨t, j, hj⟩ | ⟨t, n, h2⟩ | ⟨g, h2⟩⟩
    · exact grp h1
    · have hth := (hi.lockT t j).mp hj
      apply main j
      · intro hn
        cases hp : s.pc j <;> rw [hp] at hn hth <;> simp [callOf, topicHeld] at hn hth
      · rw [hth]; simp
    · exact absurd h2 (hw t n)
    · exact absurd h2 (hg g)

/-! ## Wakeups -/

/-- Schedules during which thread `j` stays in the call it is executing and `P` holds of all states. -/
inductive Path (bufs : Nat → List Byte) (j : Nat) (P : State → Prop) : State → State → Prop
  | refl (s : State) : P s → Path bufs j P s s
  | step {s s1 s2 : State} {i : Nat} {a : Act} : Path bufs j P s s1 → ActOK bufs a → step s1 i a = .ok s2 →
    (i = j → a = .run) → P s2 → Path bufs j P s s2

theorem path_reach {bufs : Nat → List Byte} {j : Nat} {P : State → Prop} {s s' : State} (hr : Reach bufs s)
    (h : Path bufs j P s s') : Reach bufs s' := by
  induction h with
  | refl => exact hr
  | step _ ha hs _ _ ih => exact .step ih ha hs

/-- The publisher still has to wake group `g`. -/
def WillWake (t : Nat) (m : List Byte) (g : Nat) : Pc → Prop
  | .pubCheck t' m' | .pubLock t' m' | .pubCopy t' m' _ | .pubFlag t' m' | .pubStat t' m' | .pubBcast t' m' =>
    t' = t ∧ m' = m
  | .pubNext t' m' ws => t' = t ∧ m' = m ∧ g ∈ ws
  | .pubSet t' m' g' ws | .pubGBcast t' m' g' ws => t' = t ∧ m' = m ∧ (g' = g ∨ g ∈ ws)
  | .pubGRel t' m' _ ws => t' = t ∧ m' = m ∧ g ∈ ws
  | _ => False

/-- The publisher still has to wake the readers of the topic. -/
def WillWakeT (t : Nat) (m : List Byte) : Pc → Prop
  | .pubCheck t' m' | .pubLock t' m' | .pubCopy t' m' _ | .pubFlag t' m' | .pubStat t' m' | .pubBcast t' m' =>
    t' = t ∧ m' = m
  | _ => False

theorem wake_pub {w : Wake} {p : Pc} {t : Nat} {m : List Byte} (h : callOf p = some (.publish t m)) : wake w p = p := by
  unfold wake
  split
  · cases h
  · cases h
  · rfl

theorem willWake_step {bufs : Nat → List Byte} {s s' : State} (hr : Reach bufs s) {i j : Nat} {a : Act} {t g : Nat} {m : List Byte}
    {k : Nat} (hk : k ≠ j) (hm : m.length ≤ (bufs t).length) (hs : step s i a = .ok s') (hij : i = j → a = .run)
    (hg : g ∈ (s.sh.topics t).watchers) (hsl : s.pc k = .gwSleep g) (hsl' : s'.pc k = .gwSleep g)
    (hw : WillWake t m g (s.pc j)) : WillWake t m g (s'.pc j) := by
  have hcall : callOf (s.pc j) = some (.publish t m) := by
    cases hp : s.pc j <;> rw [hp] at hw <;> simp only [WillWake] at hw <;>
      first
      | (obtain ⟨rfl, rfl, _⟩ := hw; rfl)
      | (obtain ⟨rfl, rfl⟩ := hw; rfl)
      | exact hw.elim
  unfold step at hs
  split at hs
  · cases hs
  · cases hs
  rename_i sh p w hloc
  injection hs with hs
  subst hs
  by_cases hji : j = i
  · subst hji
    have := hij rfl
    subst this
    simp only [if_true]
    simp only [if_neg hk] at hsl'
    have hbl := (reach_inv hr).bufLen t
    cases hp : s.pc j <;> rw [hp] at hw hloc <;> simp only [WillWake] at hw <;> simp only [local_, reduceCtorEq] at hloc
    · obtain ⟨rfl, rfl⟩ := hw
      rw [if_neg (by omega)] at hloc
      simp only [Res.ok.injEq] at hloc
      obtain ⟨rfl, rfl, rfl⟩ := hloc
      exact ⟨rfl, rfl⟩
    · obtain ⟨_, rfl, _⟩ := lockT_log hloc
      exact hw
    · split at hloc
      · simp only [Res.ok.injEq] at hloc; obtain ⟨rfl, rfl, rfl⟩ := hloc; exact hw
      · split at hloc
        · simp only [Res.ok.injEq] at hloc; obtain ⟨rfl, rfl, rfl⟩ := hloc; exact hw
        · cases hloc
    · simp only [Res.ok.injEq] at hloc; obtain ⟨rfl, rfl, rfl⟩ := hloc; exact hw
    · simp only [Res.ok.injEq] at hloc; obtain ⟨rfl, rfl, rfl⟩ := hloc; exact hw
    · simp only [Res.ok.injEq] at hloc; obtain ⟨rfl, rfl, rfl⟩ := hloc
      obtain ⟨rfl, rfl⟩ := hw
      exact ⟨rfl, rfl, hg⟩
    · rename_i ws
      obtain ⟨rfl, rfl, hmem⟩ := hw
      cases ws with
      | nil => cases hmem
      | cons g' ws =>
        simp only [local_] at hloc
        obtain ⟨_, rfl, _⟩ := lockG_log hloc
        rcases List.mem_cons.mp hmem with h | h
        · exact ⟨rfl, rfl, Or.inl h.symm⟩
        · exact ⟨rfl, rfl, Or.inr h⟩
    · simp only [Res.ok.injEq] at hloc; obtain ⟨rfl, rfl, rfl⟩ := hloc; exact hw
    · simp only [Res.ok.injEq] at hloc; obtain ⟨rfl, rfl, rfl⟩ := hloc
      obtain ⟨rfl, rfl, h⟩ := hw
      rcases h with rfl | h
      · rw [hsl] at hsl'
        simp only [wake, if_true] at hsl'
        cases hsl'
      · exact ⟨rfl, rfl, h⟩
    · obtain ⟨_, rfl, _⟩ := unlockG_log hloc
      exact hw
    all_goals exact hw.elim
  · simp only [if_neg hji]
    rw [wake_pub hcall]
    exact hw

/-- C17: a publish of a message that fits on a watched topic, called after thread `k` went to sleep on the
group, cannot return while `k` is still asleep: somebody has woken it before. -/
theorem publish_wakes_watcher {bufs : Nat → List Byte} {s s1 s' : State} (hr : Reach bufs s) {j k t g : Nat}
    {m : List Byte} (hk : s.pc k = .gwSleep g) (hg : g ∈ (s.sh.topics t).watchers) (hm : m.length ≤ (bufs t).length)
    (hs : step s j (.publish t m) = .ok s1)
    (hp : Path bufs j (fun s => s.pc k = .gwSleep g) s1 s') : callOf (s'.pc j) = some (.publish t m) := by
  have hidle : s.pc j = .idle := by
    unfold step at hs
    cases hpj : s.pc j with
    | idle => rfl
    | pubNext t m ws => rw [hpj] at hs; cases ws <;> simp [local_] at hs
    | _ => rw [hpj] at hs; simp [local_] at hs
  have hkj : k ≠ j := by rintro rfl; rw [hidle] at hk; cases hk
  have h1 : WillWake t m g (s1.pc j) ∧ g ∈ (s1.sh.topics t).watchers := by
    unfold step at hs
    rw [hidle] at hs
    simp only [local_, GRes.ok.injEq] at hs
    subst hs
    simp [WillWake, hg]
  have hr1 : Reach bufs s1 := .step hr (by exact trivial) hs
  have key : WillWake t m g (s'.pc j) ∧ g ∈ (s'.sh.topics t).watchers := by
    clear hs
    induction hp with
    | refl => exact h1
    | step hpath ha hstep hij hP ih =>
      have hrm := path_reach hr1 hpath
      have hPs : ∀ {x : State}, Path bufs j (fun s => s.pc k = .gwSleep g) s1 x → x.pc k = .gwSleep g := by
        intro x hx; cases hx <;> assumption
      refine ⟨willWake_step hrm hkj hm hstep hij ih.2 (hPs hpath) hP ih.1, ?_⟩
      obtain ⟨_, _, _, _, hc⟩ := step_contract (reach_inv hrm) ha hstep
      exact hc.grows.watchers t g ih.2
  cases hpc : s'.pc j <;> rw [hpc] at key <;> simp only [WillWake] at key <;>
    first
    | (obtain ⟨⟨rfl, rfl, _⟩, _⟩ := key; rfl)
    | (obtain ⟨⟨rfl, rfl⟩, _⟩ := key; rfl)
    | exact key.1.elim

theorem willWakeT_step {bufs : Nat → List Byte} {s s' : State} (hr : Reach bufs s) {i j : Nat} {a : Act} {t n : Nat} {m : List Byte}
    {k : Nat} (hk : k ≠ j) (hm : m.length ≤ (bufs t).length) (hs : step s i a = .ok s') (hij : i = j → a = .run)
    (hsl : s.pc k = .wtSleep t n) (hsl' : s'.pc k = .wtSleep t n)
    (hw : WillWakeT t m (s.pc j)) : WillWakeT t m (s'.pc j) := by
  have hcall : callOf (s.pc j) = some (.publish t m) := by
    cases hp : s.pc j <;> rw [hp] at hw <;> simp only [WillWakeT] at hw <;>
      first
      | (obtain ⟨rfl, rfl⟩ := hw; rfl)
      | exact hw.elim
  unfold step at hs
  split at hs
  · cases hs
  · cases hs
  rename_i sh p w hloc
  injection hs with hs
  subst hs
  by_cases hji : j = i
  · subst hji
    have := hij rfl
    subst this
    simp only [if_true]
    simp only [if_neg hk] at hsl'
    have hbl := (reach_inv hr).bufLen t
    cases hp : s.pc j <;> rw [hp] at hw hloc <;> simp only [WillWakeT] at hw <;> simp only [local_, reduceCtorEq] at hloc
    · obtain ⟨rfl, rfl⟩ := hw
      rw [if_neg (by omega)] at hloc
      simp only [Res.ok.injEq] at hloc
      obtain ⟨rfl, rfl, rfl⟩ := hloc
      exact ⟨rfl, rfl⟩
    · obtain ⟨_, rfl, _⟩ := lockT_log hloc
      exact hw
    · split at hloc
      · simp only [Res.ok.injEq] at hloc; obtain ⟨rfl, rfl, rfl⟩ := hloc; exact hw
      · split at hloc
        · simp only [Res.ok.injEq] at hloc; obtain ⟨rfl, rfl, rfl⟩ := hloc; exact hw
        · cases hloc
    · simp only [Res.ok.injEq] at hloc; obtain ⟨rfl, rfl, rfl⟩ := hloc; exact hw
    · simp only [Res.ok.injEq] at hloc; obtain ⟨rfl, rfl, rfl⟩ := hloc; exact hw
    · simp only [Res.ok.injEq] at hloc; obtain ⟨rfl, rfl, rfl⟩ := hloc
      obtain ⟨rfl, rfl⟩ := hw
      rw [hsl] at hsl'
      simp only [wake, if_true] at hsl'
      cases hsl'
    all_goals exact hw.elim
  · simp only [if_neg hji]
    rw [wake_pub hcall]
    exact hw

/-- C17: the same for threads in `messagebus_topic_wait`. -/
theorem publish_wakes_reader {bufs : Nat → List Byte} {s s1 s' : State} (hr : Reach bufs s) {j k t n : Nat}
    {m : List Byte} (hk : s.pc k = .wtSleep t n) (hm : m.length ≤ (bufs t).length)
    (hs : step s j (.publish t m) = .ok s1)
    (hp : Path bufs j (fun s => s.pc k = .wtSleep t n) s1 s') : callOf (s'.pc j) = some (.publish t m) := by
  have hidle : s.pc j = .idle := by
    unfold step at hs
    cases hpj : s.pc j with
    | idle => rfl
    | pubNext t m ws => rw [hpj] at hs; cases ws <;> simp [local_] at hs
    | _ => rw [hpj] at hs; simp [local_] at hs
  have hkj : k ≠ j := by rintro rfl; rw [hidle] at hk; cases hk
  have h1 : WillWakeT t m (s1.pc j) := by
    unfold step at hs
    rw [hidle] at hs
    simp only [local_, GRes.ok.injEq] at hs
    subst hs
    simp [WillWakeT]
  have hr1 : Reach bufs s1 := .step hr (by exact trivial) hs
  have key : WillWakeT t m (s'.pc j) := by
    clear hs
    induction hp with
    | refl => exact h1
    | step hpath ha hstep hij hP ih =>
      have hrm := path_reach hr1 hpath
      have hPs : ∀ {x : State}, Path bufs j (fun s => s.pc k = .wtSleep t n) s1 x → x.pc k = .wtSleep t n := by
        intro x hx; cases hx <;> assumption
      exact willWakeT_step hrm hkj hm hstep hij (hPs hpath) hP ih
  cases hpc : s'.pc j <;> rw [hpc] at key <;> simp only [WillWakeT] at key <;>
    first
    | (obtain ⟨rfl, rfl⟩ := key; rfl)
    | exact key.elim

/-! ## Witnesses -/

/-- Run a schedule. -/
def exec (s : State) : List (Nat × Act) → GRes
  | [] => .ok s
  | (i, a) :: l =>
    match step s i a with
    | .ok s' => exec s' l
    | r => r

theorem exec_reach {bufs : Nat → List Byte} : ∀ (l : List (Nat × Act)) {s s' : State}, Reach bufs s →
    (∀ x ∈ l, ActOK bufs x.2) → exec s l = .ok s' → Reach bufs s'
  | [], _, _, hr, _, h => by simp only [exec, GRes.ok.injEq] at h; exact h ▸ hr
  | (i, a) :: l, s, s', hr, ha, h => by
    simp only [exec] at h
    split at h
    · rename_i s1 hs
      exact exec_reach l (.step hr (ha (i, a) (by simp)) hs) (fun x hx => ha x (by simp [hx])) h
    · rename_i hne
      exact (hne _ h).elim

/-- What is left of a result: program counters of threads 0 to 2, or the failure. -/
def pcs : GRes → Option (List Pc)
  | .ok s => some [s.pc 0, s.pc 1, s.pc 2]
  | _ => none

def isUb : GRes → Bool
  | .ub => true
  | _ => false

/-- Two-byte buffers. -/
def bufs2 : Nat → List Byte := fun _ => [0, 0]

/-- Thread 2 goes to sleep on group 5 watching topic 7; thread 0 publishes while thread 1 tries to read. -/
def sched : List (Nat × Act) :=
  [(2, .watch 5 7)] ++ List.replicate 5 (2, .run) ++ [(2, .leave), (2, .gwait 5), (2, .run), (2, .run),
   (0, .publish 7 [1, 2]), (1, .read 7 2)] ++ List.replicate 4 (0, .run)

example : pcs (exec (start bufs2) sched) = some [.pubCopy 7 [1, 2] 2, .rdLock 7 2, .gwSleep 5] := by decide
/-- The reader is blocked while the bytes are being copied … -/
example : pcs (exec (start bufs2) (sched ++ [(1, .run)])) = none := by decide
/-- … and everybody gets the message in the end. -/
example : pcs (exec (start bufs2) (sched ++ List.replicate 10 (0, .run) ++ List.replicate 6 (1, .run) ++
    List.replicate 3 (2, .run))) = some [.ret (.pub true), .ret (.rd (some [1, 2])), .ret (.gw (some 7))] := by decide
/-- Too long a message. -/
example : pcs (exec (start bufs2) [(0, .publish 7 [1, 2, 3]), (0, .run)]) = some [.ret (.pub false), .idle, .idle] := by
  decide

/-- Without the obligation on the callers, reads run over the end of the buffer: the code copies `buf_len`
bytes without comparing with `buffer_len` (messagebus.c:118, 131). -/
theorem read_too_long_overruns : isUb (exec (start bufs2)
    ([(0, .publish 7 [1, 2])] ++ List.replicate 10 (0, .run) ++ [(1, .read 7 3)] ++ List.replicate 5 (1, .run))) = true := by
  decide

/-- A watcher can miss which topic was published: with two publishes before it runs again it only gets
the topic of the second. -/
theorem watcher_sees_last_topic : pcs (exec (start bufs2)
    ([(2, .watch 5 7)] ++ List.replicate 5 (2, .run) ++ [(2, .leave), (2, .watch 5 8)] ++ List.replicate 5 (2, .run) ++
     [(2, .leave), (2, .gwait 5), (2, .run), (2, .run), (0, .publish 7 [1, 2])] ++ List.replicate 14 (0, .run) ++
     [(0, .leave), (0, .publish 8 [3])] ++ List.replicate 13 (0, .run) ++ List.replicate 3 (2, .run))) =
    some [.ret (.pub true), .idle, .ret (.gw (some 8))] := by
  decide

end Verif.MsgBus.Conc
