import Verif.MsgBus.Topic

namespace Verif.MsgBus.Conc

open HeapList

/-! ## Sequential specification of a topic -/

/-- Content of the buffer after the logged operations (newest first): each publish overwrites the
beginning of what was there. -/
def content (b0 : List Byte) : List Entry → List Byte
  | [] => b0
  | .pub _ m :: l => m ++ (content b0 l).drop m.length
  | _ :: l => content b0 l

/-- Number of publishes. -/
def pubCount : List Entry → Nat
  | [] => 0
  | .pub _ _ :: l => pubCount l + 1
  | _ :: l => pubCount l

/-- Every logged operation returned what the sequential topic returns at that point. -/
def ValidLog (b0 : List Byte) : List Entry → Prop
  | [] => True
  | .pub _ m :: l => m.length ≤ b0.length ∧ ValidLog b0 l
  | .rd _ n r :: l => r = (if 0 < pubCount l then some ((content b0 l).take n) else none) ∧ ValidLog b0 l
  | .wt _ n r :: l => 0 < pubCount l ∧ r = (content b0 l).take n ∧ ValidLog b0 l

/-! ## Invariant -/

/-- Topic whose lock the thread holds. -/
def topicHeld : Pc → Option Nat
  | .pubCopy t _ _ | .pubFlag t _ | .pubStat t _ | .pubBcast t _ | .pubNext t _ _ | .pubSet t _ _ _
  | .pubGBcast t _ _ _ | .pubGRel t _ _ _ | .pubRel t _ | .rdCheck t _ | .rdCopy t _ _ | .rdRel t _ _
  | .wtWait t _ | .wtCopy t _ _ | .wtRel t _ _ | .wgLockG _ t | .wgLink _ t | .wgRelG _ t
  | .wgRelT _ t => some t
  | _ => none

/-- Group whose lock the thread holds. -/
def groupHeld : Pc → Option Nat
  | .pubSet _ _ g _ | .pubGBcast _ _ g _ | .pubGRel _ _ g _ | .gwWait g | .gwRead g | .gwRel g _
  | .wgLink g _ | .wgRelG g _ => some g
  | _ => none

def Data (sh : Shared) (t : Nat) (b : List Byte) (p : Bool) (n : Nat) : Prop :=
  (sh.topics t).buf = b ∧ (sh.topics t).published = p ∧ (sh.topics t).messages = n

/-- The topic is as the log says. -/
def Clean (bufs : Nat → List Byte) (sh : Shared) (t : Nat) : Prop :=
  Data sh t (content (bufs t) (sh.log t)) (decide (0 < pubCount (sh.log t))) (pubCount (sh.log t))

/-- The topic after the publish of `m` in progress. -/
def Written (bufs : Nat → List Byte) (sh : Shared) (t : Nat) (m : List Byte) : Prop :=
  m.length ≤ (bufs t).length ∧
  Data sh t (m ++ (content (bufs t) (sh.log t)).drop m.length) true (pubCount (sh.log t) + 1)

/-- What a thread can rely on at each point. -/
def LocalOK (bufs : Nat → List Byte) (sh : Shared) : Pc → Prop
  | .pubLock t m => m.length ≤ (bufs t).length
  | .pubCopy t m k => k ≤ m.length ∧ m.length ≤ (bufs t).length ∧
      Data sh t (m.take k ++ (content (bufs t) (sh.log t)).drop k) (decide (0 < pubCount (sh.log t)))
        (pubCount (sh.log t))
  | .pubFlag t m => m.length ≤ (bufs t).length ∧
      Data sh t (m ++ (content (bufs t) (sh.log t)).drop m.length) (decide (0 < pubCount (sh.log t)))
        (pubCount (sh.log t))
  | .pubStat t m => m.length ≤ (bufs t).length ∧
      Data sh t (m ++ (content (bufs t) (sh.log t)).drop m.length) true (pubCount (sh.log t))
  | .pubBcast t m => Written bufs sh t m
  | .pubNext t m ws => Written bufs sh t m ∧ ∀ g ∈ ws, g ∈ (sh.topics t).watchers
  | .pubSet t m g ws => Written bufs sh t m ∧ g ∈ (sh.topics t).watchers ∧ ∀ g ∈ ws, g ∈ (sh.topics t).watchers
  | .pubGBcast t m g ws => Written bufs sh t m ∧ (sh.groups g).published = some t ∧
      ∀ g ∈ ws, g ∈ (sh.topics t).watchers
  | .pubGRel t m _ ws => Written bufs sh t m ∧ ∀ g ∈ ws, g ∈ (sh.topics t).watchers
  | .pubRel t m => Written bufs sh t m
  | .rdLock t n => n ≤ (bufs t).length
  | .rdCheck t n => n ≤ (bufs t).length ∧ Clean bufs sh t
  | .rdCopy t n out => n ≤ (bufs t).length ∧ Clean bufs sh t ∧ 0 < pubCount (sh.log t) ∧ out.length ≤ n ∧
      out = (content (bufs t) (sh.log t)).take out.length
  | .rdRel t n r => Clean bufs sh t ∧
      r = if 0 < pubCount (sh.log t) then some ((content (bufs t) (sh.log t)).take n) else none
  | .wtLock t n => n ≤ (bufs t).length
  | .wtWait t n => n ≤ (bufs t).length ∧ Clean bufs sh t
  | .wtSleep t n => n ≤ (bufs t).length
  | .wtWoken t n => n ≤ (bufs t).length ∧ (sh.topics t).published = true
  | .wtCopy t n out => n ≤ (bufs t).length ∧ Clean bufs sh t ∧ 0 < pubCount (sh.log t) ∧ out.length ≤ n ∧
      out = (content (bufs t) (sh.log t)).take out.length
  | .wtRel t n out => Clean bufs sh t ∧ 0 < pubCount (sh.log t) ∧ out = (content (bufs t) (sh.log t)).take n
  | .gwWoken g => (sh.groups g).published ≠ none
  | .gwRead g => (sh.groups g).published ≠ none
  | .gwRel g r => ∃ t, r = some t ∧ g ∈ (sh.topics t).watchers
  | .wgLockG _ t | .wgLink _ t | .wgRelG _ t | .wgRelT _ t => Clean bufs sh t
  | _ => True

/-- Things that never go back. -/
structure Grows (sh sh' : Shared) : Prop where
  published : ∀ t, (sh.topics t).published = true → (sh'.topics t).published = true
  watchers : ∀ t g, g ∈ (sh.topics t).watchers → g ∈ (sh'.topics t).watchers
  groups : ∀ g, (sh.groups g).published ≠ none → (sh'.groups g).published ≠ none

theorem Grows.refl (sh : Shared) : Grows sh sh := ⟨fun _ h => h, fun _ _ h => h, fun _ h => h⟩

theorem localOK_frame {bufs : Nat → List Byte} {sh sh' : Shared} {p : Pc}
    (hT : ∀ t, topicHeld p = some t → sh'.topics t = sh.topics t ∧ sh'.log t = sh.log t)
    (hG : ∀ g, groupHeld p = some g → sh'.groups g = sh.groups g)
    (hg : Grows sh sh') (h : LocalOK bufs sh p) : LocalOK bufs sh' p := by
  cases p <;> simp only [topicHeld, groupHeld, Option.some.injEq, reduceCtorEq, forall_eq', false_implies,
    implies_true] at hT hG <;>
    simp only [LocalOK, Written, Clean, Data] at h ⊢ <;>
    (try rw [hT.1, hT.2]) <;> (try rw [hG]) <;> (try exact h)
  · exact ⟨h.1, hg.published _ h.2⟩
  · exact hg.groups _ h
  · obtain ⟨t, h1, h2⟩ := h; exact ⟨t, h1, hg.watchers _ _ h2⟩

theorem localOK_wake {bufs : Nat → List Byte} {sh : Shared} {w : Wake} {p : Pc}
    (hT : ∀ t, w = .topic t → (sh.topics t).published = true)
    (hG : ∀ g, w = .group g → (sh.groups g).published ≠ none)
    (h : LocalOK bufs sh p) : LocalOK bufs sh (wake w p) := by
  unfold wake
  split
  · split
    · rename_i he; subst he; exact ⟨h, hT _ rfl⟩
    · exact h
  · split
    · rename_i he; subst he; exact hG _ rfl
    · exact h
  · exact h

theorem held_wake (w : Wake) (p : Pc) : topicHeld (wake w p) = topicHeld p ∧ groupHeld (wake w p) = groupHeld p := by
  unfold wake
  split
  · split <;> exact ⟨rfl, rfl⟩
  · split <;> exact ⟨rfl, rfl⟩
  · exact ⟨rfl, rfl⟩

/-- Summary of what one step of thread `i` from `p` to `p'` does to the shared memory. -/
structure Contract (bufs : Nat → List Byte) (sh : Shared) (i : Nat) (p : Pc) (sh' : Shared) (p' : Pc) (w : Wake) :
    Prop where
  frameT : ∀ t, topicHeld p ≠ some t → topicHeld p' ≠ some t → sh'.topics t = sh.topics t ∧ sh'.log t = sh.log t
  acqT : ∀ t, topicHeld p ≠ some t → topicHeld p' = some t → (sh.topics t).lock = none
  lockT : ∀ t, (sh'.topics t).lock =
    if topicHeld p' = some t then some i else if topicHeld p = some t then none else (sh.topics t).lock
  frameG : ∀ g, groupHeld p ≠ some g → groupHeld p' ≠ some g → sh'.groups g = sh.groups g
  acqG : ∀ g, groupHeld p ≠ some g → groupHeld p' = some g → (sh.groups g).lock = none
  lockG : ∀ g, (sh'.groups g).lock =
    if groupHeld p' = some g then some i else if groupHeld p = some g then none else (sh.groups g).lock
  clean : ∀ t, topicHeld p = some t → topicHeld p' ≠ some t → Clean bufs sh' t
  localOK : LocalOK bufs sh' p'
  grows : Grows sh sh'
  wakeT : ∀ t, w = .topic t → (sh'.topics t).published = true
  wakeG : ∀ g, w = .group g → (sh'.groups g).published ≠ none
  pubs : ∀ g t, (sh'.groups g).published = some t → (sh.groups g).published = some t ∨ g ∈ (sh'.topics t).watchers
  valid : ∀ t, ValidLog (bufs t) (sh.log t) → ValidLog (bufs t) (sh'.log t)

theorem content_length (b0 : List Byte) : ∀ l, ValidLog b0 l → (content b0 l).length = b0.length
  | [], _ => rfl
  | .pub _ m :: l, h => by
    simp only [content, List.length_append, List.length_drop, content_length b0 l h.2]
    have := h.1; omega
  | .rd _ _ _ :: l, h => content_length b0 l h.2
  | .wt _ _ _ :: l, h => content_length b0 l h.2.2

/-- A step that changes nothing shared and keeps the locks. -/
theorem contract_pure {bufs : Nat → List Byte} {sh : Shared} {i : Nat} {p p' : Pc} {w : Wake}
    (hT : topicHeld p' = topicHeld p) (hG : groupHeld p' = groupHeld p)
    (hlT : ∀ t, topicHeld p = some t → (sh.topics t).lock = some i)
    (hlG : ∀ g, groupHeld p = some g → (sh.groups g).lock = some i)
    (hwT : ∀ t, w = .topic t → (sh.topics t).published = true)
    (hwG : ∀ g, w = .group g → (sh.groups g).published ≠ none)
    (hok : LocalOK bufs sh p') : Contract bufs sh i p sh p' w where
  frameT := fun _ _ _ => ⟨rfl, rfl⟩
  acqT := fun t h1 h2 => absurd (hT ▸ h2) h1
  lockT := by
    intro t
    rw [hT]
    split
    · rename_i h; exact hlT t h
    · rfl
  frameG := fun _ _ _ => rfl
  acqG := fun t h1 h2 => absurd (hG ▸ h2) h1
  lockG := by
    intro t
    rw [hG]
    split
    · rename_i h; exact hlG t h
    · rfl
  clean := fun t h1 h2 => absurd (hT ▸ h1) h2
  localOK := hok
  grows := Grows.refl sh
  wakeT := hwT
  wakeG := hwG
  pubs := fun _ _ h => Or.inl h
  valid := fun _ h => h

/-- Taking a topic lock. -/
theorem contract_lockT {bufs : Nat → List Byte} {sh sh' : Shared} {i t : Nat} {p p' p'' : Pc} {w : Wake}
    (h : lockT sh i t p' = .ok sh' p'' w) (hp : topicHeld p = none) (hp' : topicHeld p' = some t)
    (hG : groupHeld p = none) (hG' : groupHeld p' = none)
    (hok : (sh.topics t).lock = none → ∀ sh' : Shared, sh'.log = sh.log → Data sh' t (sh.topics t).buf (sh.topics t).published (sh.topics t).messages →
      LocalOK bufs sh' p') : Contract bufs sh i p sh' p'' w := by
  unfold lockT at h
  split at h
  · rename_i hl
    simp only [Res.ok.injEq] at h
    obtain ⟨rfl, rfl, rfl⟩ := h
    have hgr : ∀ t', (upd sh.topics t { sh.topics t with lock := some i } t').published = (sh.topics t').published ∧
        (upd sh.topics t { sh.topics t with lock := some i } t').watchers = (sh.topics t').watchers := by
      intro t'
      by_cases he : t' = t
      · subst he; simp [upd_self]
      · simp [upd_ne _ _ he]
    constructor
    · intro t' _ h2
      rw [hp'] at h2
      have : t' ≠ t := by rintro rfl; exact h2 rfl
      simp [upd_ne _ _ this]
    · intro t' _ h2; rw [hp'] at h2; injection h2 with h2; subst h2; exact hl
    · intro t'
      simp only [hp', hp]
      by_cases he : t' = t
      · subst he; simp [upd_self]
      · simp [upd_ne _ _ he, Ne.symm he]
    · intro g _ _; rfl
    · intro g _ h2; rw [hG'] at h2; cases h2
    · intro g; simp [hG, hG']
    · intro t' h1; rw [hp] at h1; cases h1
    · refine hok hl { sh with topics := upd sh.topics t { sh.topics t with lock := some i } } rfl ?_
      simp [Data, upd_self]
    · exact ⟨fun t' h => by rw [(hgr t').1]; exact h, fun t' g h => by rw [(hgr t').2]; exact h, fun _ h => h⟩
    · intro _ h; cases h
    · intro _ h; cases h
    · intro _ _ h; exact Or.inl h
    · intro _ h; exact h
  · split at h <;> cases h

/-- Releasing a topic lock. -/
theorem contract_unlockT {bufs : Nat → List Byte} {sh sh' : Shared} {i t : Nat} {es : List Entry} {p p' p'' : Pc} {w : Wake}
    (h : unlockT sh i t es p' = .ok sh' p'' w) (hp : topicHeld p = some t) (hp' : topicHeld p' = none)
    (hG : groupHeld p = none) (hG' : groupHeld p' = none)
    (hc : ∀ sh' : Shared, sh'.log t = es ++ sh.log t → Data sh' t (sh.topics t).buf (sh.topics t).published (sh.topics t).messages →
      Clean bufs sh' t)
    (hv : ValidLog (bufs t) (sh.log t) → ValidLog (bufs t) (es ++ sh.log t))
    (hok : ∀ sh', LocalOK bufs sh' p') : Contract bufs sh i p sh' p'' w := by
  unfold unlockT at h
  split at h
  · rename_i hl
    simp only [Res.ok.injEq] at h
    obtain ⟨rfl, rfl, rfl⟩ := h
    have hgr : ∀ t', (upd sh.topics t { sh.topics t with lock := none } t').published = (sh.topics t').published ∧
        (upd sh.topics t { sh.topics t with lock := none } t').watchers = (sh.topics t').watchers := by
      intro t'
      by_cases he : t' = t
      · subst he; simp [upd_self]
      · simp [upd_ne _ _ he]
    constructor
    · intro t' h1 h2
      rw [hp] at h1
      have : t' ≠ t := by rintro rfl; exact h1 rfl
      simp [upd_ne _ _ this]
    · intro t' _ h2; rw [hp'] at h2; cases h2
    · intro t'
      simp only [hp', hp]
      by_cases he : t' = t
      · subst he; simp [upd_self]
      · simp [upd_ne _ _ he, Ne.symm he]
    · intro g _ _; rfl
    · intro g _ h2; rw [hG'] at h2; cases h2
    · intro g; simp [hG, hG']
    · intro t' h1 _
      rw [hp] at h1; injection h1 with h1; subst h1
      apply hc
      · simp [upd_self]
      · simp [Data, upd_self]
    · exact hok _
    · exact ⟨fun t' h => by rw [(hgr t').1]; exact h, fun t' g h => by rw [(hgr t').2]; exact h, fun _ h => h⟩
    · intro _ h; cases h
    · intro _ h; cases h
    · intro _ _ h; exact Or.inl h
    · intro t' h
      by_cases he : t' = t
      · subst he; simp only [upd_self]; exact hv h
      · simp only [upd_ne _ _ he]; exact h
  · cases h

/-- Taking a group lock. -/
theorem contract_lockG {bufs : Nat → List Byte} {sh sh' : Shared} {i g : Nat} {p p' p'' : Pc} {w : Wake}
    (h : lockG sh i g p' = .ok sh' p'' w) (hT : topicHeld p' = topicHeld p)
    (hlT : ∀ t, topicHeld p = some t → (sh.topics t).lock = some i)
    (hG : groupHeld p = none) (hG' : groupHeld p' = some g)
    (hok : ∀ sh' : Shared, sh'.log = sh.log → sh'.topics = sh.topics → (sh'.groups g).published = (sh.groups g).published →
      LocalOK bufs sh' p') : Contract bufs sh i p sh' p'' w := by
  unfold lockG at h
  split at h
  · rename_i hl
    simp only [Res.ok.injEq] at h
    obtain ⟨rfl, rfl, rfl⟩ := h
    have hgr : ∀ g', (upd sh.groups g { sh.groups g with lock := some i } g').published = (sh.groups g').published := by
      intro g'
      by_cases he : g' = g
      · subst he; simp [upd_self]
      · simp [upd_ne _ _ he]
    constructor
    · intro t _ _; exact ⟨rfl, rfl⟩
    · intro t h1 h2; exact absurd (hT ▸ h2) h1
    · intro t
      rw [hT]
      split
      · rename_i h; exact hlT t h
      · rfl
    · intro g' _ h2
      rw [hG'] at h2
      have : g' ≠ g := by rintro rfl; exact h2 rfl
      simp [upd_ne _ _ this]
    · intro g' _ h2; rw [hG'] at h2; injection h2 with h2; subst h2; exact hl
    · intro g'
      simp only [hG', hG]
      by_cases he : g' = g
      · subst he; simp [upd_self]
      · simp [upd_ne _ _ he, Ne.symm he]
    · intro t h1 h2; exact absurd (hT ▸ h1) h2
    · exact hok _ rfl rfl (hgr g)
    · exact ⟨fun _ h => h, fun _ _ h => h, fun g' h => by rw [hgr g']; exact h⟩
    · intro _ h; cases h
    · intro _ h; cases h
    · intro g' _ h; rw [hgr g'] at h; exact Or.inl h
    · intro _ h; exact h
  · split at h <;> cases h

/-- Releasing a group lock. -/
theorem contract_unlockG {bufs : Nat → List Byte} {sh sh' : Shared} {i g : Nat} {p p' p'' : Pc} {w : Wake}
    (h : unlockG sh i g p' = .ok sh' p'' w) (hT : topicHeld p' = topicHeld p)
    (hlT : ∀ t, topicHeld p = some t → (sh.topics t).lock = some i)
    (hG : groupHeld p = some g) (hG' : groupHeld p' = none)
    (hok : ∀ sh' : Shared, sh'.log = sh.log → sh'.topics = sh.topics → LocalOK bufs sh' p') :
    Contract bufs sh i p sh' p'' w := by
  unfold unlockG at h
  split at h
  · rename_i hl
    simp only [Res.ok.injEq] at h
    obtain ⟨rfl, rfl, rfl⟩ := h
    have hgr : ∀ g', (upd sh.groups g { sh.groups g with lock := none } g').published = (sh.groups g').published := by
      intro g'
      by_cases he : g' = g
      · subst he; simp [upd_self]
      · simp [upd_ne _ _ he]
    constructor
    · intro t _ _; exact ⟨rfl, rfl⟩
    · intro t h1 h2; exact absurd (hT ▸ h2) h1
    · intro t
      rw [hT]
      split
      · rename_i h; exact hlT t h
      · rfl
    · intro g' h1 _
      rw [hG] at h1
      have : g' ≠ g := by rintro rfl; exact h1 rfl
      simp [upd_ne _ _ this]
    · intro g' _ h2; rw [hG'] at h2; cases h2
    · intro g'
      simp only [hG', hG]
      by_cases he : g' = g
      · subst he; simp [upd_self]
      · simp [upd_ne _ _ he, Ne.symm he]
    · intro t h1 h2; exact absurd (hT ▸ h1) h2
    · exact hok _ rfl rfl
    · exact ⟨fun _ h => h, fun _ _ h => h, fun g' h => by rw [hgr g']; exact h⟩
    · intro _ h; cases h
    · intro _ h; cases h
    · intro g' _ h; rw [hgr g'] at h; exact Or.inl h
    · intro _ h; exact h
  · cases h

/-- Changing the fields of a topic whose lock is held. -/
theorem contract_setT {bufs : Nat → List Byte} {sh : Shared} {i t : Nat} {x : Topic} {p p' : Pc}
    (hp : topicHeld p = some t) (hp' : topicHeld p' = some t) (hl : (sh.topics t).lock = some i) (hx : x.lock = some i)
    (hG : groupHeld p' = groupHeld p)
    (hlG : ∀ g, groupHeld p = some g → (sh.groups g).lock = some i)
    (hpub : (sh.topics t).published = true → x.published = true)
    (hw : ∀ g, g ∈ (sh.topics t).watchers → g ∈ x.watchers)
    (hok : LocalOK bufs (setT sh t x) p') : Contract bufs sh i p (setT sh t x) p' .none := by
  constructor
  · intro t' _ h2
    rw [hp'] at h2
    have : t' ≠ t := by rintro rfl; exact h2 rfl
    simp [setT, upd_ne _ _ this]
  · intro t' h1 h2; exact absurd (hp ▸ hp' ▸ h2) h1
  · intro t'
    simp only [hp', setT]
    by_cases he : t' = t
    · subst he; simp [upd_self, hx]
    · simp [upd_ne _ _ he, Ne.symm he, hp]
  · intro g _ _; rfl
  · intro g h1 h2; exact absurd (hG ▸ h2) h1
  · intro g
    rw [hG]
    split
    · rename_i h; exact hlG g h
    · rfl
  · intro t' h1 h2; rw [hp] at h1; exact absurd (hp'.trans h1) h2
  · exact hok
  · refine ⟨?_, ?_, fun _ h => h⟩
    · intro t' h
      simp only [setT]
      by_cases he : t' = t
      · subst he; rw [upd_self]; exact hpub h
      · rw [upd_ne _ _ he]; exact h
    · intro t' g h
      simp only [setT]
      by_cases he : t' = t
      · subst he; rw [upd_self]; exact hw g h
      · rw [upd_ne _ _ he]; exact h
  · intro _ h; cases h
  · intro _ h; cases h
  · intro _ _ h; exact Or.inl h
  · intro _ h; exact h

theorem take_set_drop (m c : List Byte) (k : Nat) (b : Byte) (hk : m[k]? = some b) (hl : m.length ≤ c.length) :
    (m.take k ++ c.drop k).set k b = m.take (k + 1) ++ c.drop (k + 1) := by
  have hkm : k < m.length := by
    rcases Nat.lt_or_ge k m.length with h | h
    · exact h
    · rw [List.getElem?_eq_none h] at hk; cases hk
  have hb : m[k] = b := by rw [List.getElem?_eq_getElem hkm] at hk; simpa using hk
  have hlen : (m.take k).length = k := by simp; omega
  rw [List.set_append_right _ _ (by omega), hlen, Nat.sub_self]
  rw [List.drop_eq_getElem_cons (show k < c.length by omega), List.set_cons_zero, List.take_succ, hk]
  simp

theorem contract {bufs : Nat → List Byte} {sh sh' : Shared} {i : Nat} {p p' : Pc} {a : Act} {w : Wake}
    (hstep : local_ sh i p a = .ok sh' p' w) (hact : ActOK bufs a) (hok : LocalOK bufs sh p)
    (hlT : ∀ t, topicHeld p = some t → (sh.topics t).lock = some i)
    (hlG : ∀ g, groupHeld p = some g → (sh.groups g).lock = some i)
    (hfree : ∀ t, (sh.topics t).lock = none → Clean bufs sh t)
    (hvalid : ∀ t, ValidLog (bufs t) (sh.log t))
    (hbuf : ∀ t, (sh.topics t).buf.length = (bufs t).length)
    (hpub : ∀ g t, (sh.groups g).published = some t → g ∈ (sh.topics t).watchers) :
    Contract bufs sh i p sh' p' w := by
  have hlen := fun t => content_length (bufs t) (sh.log t) (hvalid t)
  cases p with
  | idle =>
    cases a <;> simp only [local_, Res.ok.injEq, reduceCtorEq] at hstep <;> obtain ⟨rfl, rfl, rfl⟩ := hstep <;>
      refine contract_pure rfl rfl hlT hlG (by simp) (by simp) ?_ <;> first | trivial | exact hact
  | ret r =>
    cases a <;> simp only [local_, Res.ok.injEq, reduceCtorEq] at hstep
    obtain ⟨rfl, rfl, rfl⟩ := hstep
    exact contract_pure rfl rfl hlT hlG (by simp) (by simp) trivial
  | pubCheck t m =>
    cases a <;> simp only [local_, reduceCtorEq] at hstep
    split at hstep <;> simp only [Res.ok.injEq] at hstep <;> obtain ⟨rfl, rfl, rfl⟩ := hstep
    · exact contract_pure rfl rfl hlT hlG (by simp) (by simp) trivial
    · refine contract_pure rfl rfl hlT hlG (by simp) (by simp) ?_
      simp only [LocalOK]; have := hbuf t; omega
  | pubLock t m =>
    cases a <;> simp only [local_, reduceCtorEq] at hstep
    refine contract_lockT hstep rfl rfl rfl rfl ?_
    intro hl s2 hlog hd
    have hc := hfree t hl
    simp only [LocalOK] at hok ⊢
    refine ⟨Nat.zero_le _, hok, ?_⟩
    rw [hlog]
    simp only [List.take_zero, List.nil_append, List.drop_zero]
    exact ⟨hd.1.trans hc.1, hd.2.1.trans hc.2.1, hd.2.2.trans hc.2.2⟩
  | pubCopy t m k =>
    cases a <;> simp only [local_, reduceCtorEq] at hstep
    obtain ⟨hk, hm, hd⟩ := hok
    split at hstep
    · rename_i hnone
      simp only [Res.ok.injEq] at hstep; obtain ⟨rfl, rfl, rfl⟩ := hstep
      refine contract_pure rfl rfl hlT hlG (by simp) (by simp) ?_
      have : k = m.length := by
        have := List.getElem?_eq_none_iff.mp hnone; omega
      subst this
      simp only [List.take_length] at hd
      exact ⟨hm, hd⟩
    · rename_i b hb
      split at hstep
      · simp only [Res.ok.injEq] at hstep; obtain ⟨rfl, rfl, rfl⟩ := hstep
        refine contract_setT rfl rfl (hlT t rfl) (hlT t rfl) rfl hlG (fun h => h) (fun _ h => h) ?_
        have hkm : k < m.length := by
          rcases Nat.lt_or_ge k m.length with h | h
          · exact h
          · rw [List.getElem?_eq_none h] at hb; cases hb
        refine ⟨hkm, hm, ?_⟩
        simp only [Data, setT, upd_self, hd.1]
        exact ⟨take_set_drop m _ k b hb (by rw [hlen t]; exact hm), hd.2.1, hd.2.2⟩
      · cases hstep
  | pubFlag t m =>
    cases a <;> simp only [local_, reduceCtorEq, Res.ok.injEq] at hstep
    obtain ⟨rfl, rfl, rfl⟩ := hstep
    refine contract_setT rfl rfl (hlT t rfl) (hlT t rfl) rfl hlG (fun h => rfl) (fun _ h => h) ?_
    exact ⟨hok.1, by simp only [Data, setT, upd_self]; exact ⟨hok.2.1, trivial, hok.2.2.2⟩⟩
  | pubStat t m =>
    cases a <;> simp only [local_, reduceCtorEq, Res.ok.injEq] at hstep
    obtain ⟨rfl, rfl, rfl⟩ := hstep
    refine contract_setT rfl rfl (hlT t rfl) (hlT t rfl) rfl hlG (fun h => h) (fun _ h => h) ?_
    refine ⟨hok.1, ?_⟩
    simp only [Data, setT, upd_self]
    exact ⟨hok.2.1, hok.2.2.1, by rw [hok.2.2.2]⟩
  | pubBcast t m =>
    cases a <;> simp only [local_, reduceCtorEq, Res.ok.injEq] at hstep
    obtain ⟨rfl, rfl, rfl⟩ := hstep
    refine contract_pure rfl rfl hlT hlG ?_ (by simp) ⟨hok, fun _ h => h⟩
    intro t' h; injection h with h; subst h; exact hok.2.2.1
  | pubNext t m ws =>
    cases a <;> cases ws <;> simp only [local_, reduceCtorEq, Res.ok.injEq] at hstep
    · obtain ⟨rfl, rfl, rfl⟩ := hstep
      exact contract_pure rfl rfl hlT hlG (by simp) (by simp) hok.1
    · refine contract_lockG hstep rfl hlT rfl rfl ?_
      intro s2 h1 h2 _
      simp only [LocalOK, Written, Data, h1, h2] at hok ⊢
      exact ⟨hok.1, hok.2 _ (by simp), fun g hg => hok.2 g (by simp [hg])⟩
  | pubSet t m g ws =>
    cases a <;> simp only [local_, reduceCtorEq, Res.ok.injEq] at hstep
    obtain ⟨rfl, rfl, rfl⟩ := hstep
    have hl := hlG g rfl
    constructor
    · intro _ _ _; exact ⟨rfl, rfl⟩
    · intro t' h1 h2; exact absurd h2 h1
    · intro t'
      by_cases h : some t = some t'
      · simp only [topicHeld, h, if_true]; exact hlT t' h
      · simp only [topicHeld, h, if_false]
    · intro g' h1 _
      have : g' ≠ g := by rintro rfl; exact h1 rfl
      simp [upd_ne _ _ this]
    · intro g' h1 h2; exact absurd h2 h1
    · intro g'
      simp only [groupHeld]
      by_cases he : g' = g
      · subst he; simp [upd_self, hl]
      · simp [upd_ne _ _ he, Ne.symm he]
    · intro t' h1 h2; exact absurd h1 h2
    · exact ⟨hok.1, by simp [upd_self], hok.2.2⟩
    · refine ⟨fun _ h => h, fun _ _ h => h, ?_⟩
      intro g' h
      by_cases he : g' = g
      · subst he; simp [upd_self]
      · simp only [upd_ne _ _ he]; exact h
    · intro _ h; cases h
    · intro _ h; cases h
    · intro g' t' h
      by_cases he : g' = g
      · subst he
        simp only [upd_self, Option.some.injEq] at h
        subst h
        exact Or.inr hok.2.1
      · simp only [upd_ne _ _ he] at h; exact Or.inl h
    · intro _ h; exact h
  | pubGBcast t m g ws =>
    cases a <;> simp only [local_, reduceCtorEq, Res.ok.injEq] at hstep
    obtain ⟨rfl, rfl, rfl⟩ := hstep
    refine contract_pure rfl rfl hlT hlG (by simp) ?_ ⟨hok.1, hok.2.2⟩
    intro g' h; injection h with h; subst h; rw [hok.2.1]; simp
  | pubGRel t m g ws =>
    cases a <;> simp only [local_, reduceCtorEq] at hstep
    refine contract_unlockG hstep rfl hlT rfl rfl ?_
    intro s2 h1 h2
    simp only [LocalOK, Written, Data, h1, h2] at hok ⊢
    exact hok
  | pubRel t m =>
    cases a <;> simp only [local_, reduceCtorEq] at hstep
    refine contract_unlockT hstep rfl rfl rfl rfl ?_ ?_ (fun _ => trivial)
    · intro s2 h1 h2
      obtain ⟨_, hd⟩ := hok
      simp only [Clean, h1, List.singleton_append, content, pubCount]
      exact ⟨h2.1.trans hd.1, by rw [h2.2.1, hd.2.1]; simp, h2.2.2.trans hd.2.2⟩
    · intro h; exact ⟨hok.1, h⟩
  | rdLock t n =>
    cases a <;> simp only [local_, reduceCtorEq] at hstep
    refine contract_lockT hstep rfl rfl rfl rfl ?_
    intro hl s2 hlog hd
    have hc := hfree t hl
    simp only [LocalOK, Clean, hlog] at hok hc ⊢
    exact ⟨hok, hd.1.trans hc.1, hd.2.1.trans hc.2.1, hd.2.2.trans hc.2.2⟩
  | rdCheck t n =>
    cases a <;> simp only [local_, reduceCtorEq] at hstep
    split at hstep <;> simp only [Res.ok.injEq] at hstep <;> obtain ⟨rfl, rfl, rfl⟩ := hstep <;> rename_i hp
    · refine contract_pure rfl rfl hlT hlG (by simp) (by simp) ⟨hok.1, hok.2, ?_, by simp, by simp⟩
      have := hok.2.2.1; rw [hp] at this; simpa using this.symm
    · refine contract_pure rfl rfl hlT hlG (by simp) (by simp) ⟨hok.2, ?_⟩
      have := hok.2.2.1
      simp only [Bool.not_eq_true] at hp
      rw [hp] at this
      have : ¬ 0 < pubCount (sh.log t) := by simpa using this.symm
      rw [if_neg this]
  | rdCopy t n out =>
    cases a <;> simp only [local_, reduceCtorEq] at hstep
    obtain ⟨hn, hc, hpos, ho, heq⟩ := hok
    split at hstep
    · rename_i hlt
      split at hstep
      · cases hstep
      · rename_i b hb
        simp only [Res.ok.injEq] at hstep; obtain ⟨rfl, rfl, rfl⟩ := hstep
        refine contract_pure rfl rfl hlT hlG (by simp) (by simp) ⟨hn, hc, hpos, by simp; omega, ?_⟩
        rw [hc.1] at hb
        simp only [List.length_append, List.length_singleton, List.take_succ, hb, Option.toList_some]
        rw [← heq]
    · simp only [Res.ok.injEq] at hstep; obtain ⟨rfl, rfl, rfl⟩ := hstep
      refine contract_pure rfl rfl hlT hlG (by simp) (by simp) ⟨hc, ?_⟩
      rw [if_pos hpos, heq]
      congr 2; omega
  | rdRel t n r =>
    cases a <;> simp only [local_, reduceCtorEq] at hstep
    refine contract_unlockT hstep rfl rfl rfl rfl ?_ ?_ (fun _ => trivial)
    · intro s2 h1 h2
      obtain ⟨hd, _⟩ := hok
      simp only [Clean, h1, List.singleton_append, content, pubCount]
      exact ⟨h2.1.trans hd.1, h2.2.1.trans hd.2.1, h2.2.2.trans hd.2.2⟩
    · intro h; exact ⟨hok.2, h⟩
  | wtLock t n =>
    cases a <;> simp only [local_, reduceCtorEq] at hstep
    refine contract_lockT hstep rfl rfl rfl rfl ?_
    intro hl s2 hlog hd
    have hc := hfree t hl
    simp only [LocalOK, Clean, hlog] at hok hc ⊢
    exact ⟨hok, hd.1.trans hc.1, hd.2.1.trans hc.2.1, hd.2.2.trans hc.2.2⟩
  | wtWait t n =>
    cases a <;> simp only [local_, reduceCtorEq] at hstep
    refine contract_unlockT hstep rfl rfl rfl rfl ?_ (fun h => h) (fun _ => hok.1)
    intro s2 h1 h2
    obtain ⟨_, hd⟩ := hok
    simp only [Clean, h1, List.nil_append]
    exact ⟨h2.1.trans hd.1, h2.2.1.trans hd.2.1, h2.2.2.trans hd.2.2⟩
  | wtSleep t n => cases a <;> simp only [local_, reduceCtorEq] at hstep
  | wtWoken t n =>
    cases a <;> simp only [local_, reduceCtorEq] at hstep
    refine contract_lockT hstep rfl rfl rfl rfl ?_
    intro hl s2 hlog hd
    have hc := hfree t hl
    obtain ⟨h1, h2⟩ := hok
    have hpos : 0 < pubCount (sh.log t) := by
      have := hc.2.1; rw [h2] at this; simpa using this.symm
    simp only [LocalOK, Clean, hlog]
    exact ⟨h1, ⟨hd.1.trans hc.1, hd.2.1.trans hc.2.1, hd.2.2.trans hc.2.2⟩, hpos, by simp, by simp⟩
  | wtCopy t n out =>
    cases a <;> simp only [local_, reduceCtorEq] at hstep
    obtain ⟨hn, hc, hpos, ho, heq⟩ := hok
    split at hstep
    · rename_i hlt
      split at hstep
      · cases hstep
      · rename_i b hb
        simp only [Res.ok.injEq] at hstep; obtain ⟨rfl, rfl, rfl⟩ := hstep
        refine contract_pure rfl rfl hlT hlG (by simp) (by simp) ⟨hn, hc, hpos, by simp; omega, ?_⟩
        rw [hc.1] at hb
        simp only [List.length_append, List.length_singleton, List.take_succ, hb, Option.toList_some]
        rw [← heq]
    · simp only [Res.ok.injEq] at hstep; obtain ⟨rfl, rfl, rfl⟩ := hstep
      refine contract_pure rfl rfl hlT hlG (by simp) (by simp) ⟨hc, hpos, ?_⟩
      rw [heq]
      congr 1; omega
  | wtRel t n out =>
    cases a <;> simp only [local_, reduceCtorEq] at hstep
    refine contract_unlockT hstep rfl rfl rfl rfl ?_ ?_ (fun _ => trivial)
    · intro s2 h1 h2
      obtain ⟨hd, _⟩ := hok
      simp only [Clean, h1, List.singleton_append, content, pubCount]
      exact ⟨h2.1.trans hd.1, h2.2.1.trans hd.2.1, h2.2.2.trans hd.2.2⟩
    · intro h; exact ⟨hok.2.1, hok.2.2, h⟩
  | gwLock g =>
    cases a <;> simp only [local_, reduceCtorEq] at hstep
    exact contract_lockG hstep rfl hlT rfl rfl (fun _ _ _ _ => trivial)
  | gwWait g =>
    cases a <;> simp only [local_, reduceCtorEq] at hstep
    exact contract_unlockG hstep rfl hlT rfl rfl (fun _ _ _ => trivial)
  | gwSleep g => cases a <;> simp only [local_, reduceCtorEq] at hstep
  | gwWoken g =>
    cases a <;> simp only [local_, reduceCtorEq] at hstep
    refine contract_lockG hstep rfl hlT rfl rfl ?_
    intro s2 _ _ h3
    simp only [LocalOK, h3] at hok ⊢
    exact hok
  | gwRead g =>
    cases a <;> simp only [local_, reduceCtorEq, Res.ok.injEq] at hstep
    obtain ⟨rfl, rfl, rfl⟩ := hstep
    refine contract_pure rfl rfl hlT hlG (by simp) (by simp) ?_
    simp only [LocalOK] at hok ⊢
    obtain ⟨t, ht⟩ := Option.ne_none_iff_exists'.mp hok
    exact ⟨t, ht, hpub g t ht⟩
  | gwRel g r =>
    cases a <;> simp only [local_, reduceCtorEq] at hstep
    exact contract_unlockG hstep rfl hlT rfl rfl (fun _ _ _ => trivial)
  | wgLockT g t =>
    cases a <;> simp only [local_, reduceCtorEq] at hstep
    refine contract_lockT hstep rfl rfl rfl rfl ?_
    intro hl s2 hlog hd
    have hc := hfree t hl
    simp only [LocalOK, Clean, hlog] at hok hc ⊢
    exact ⟨hd.1.trans hc.1, hd.2.1.trans hc.2.1, hd.2.2.trans hc.2.2⟩
  | wgLockG g t =>
    cases a <;> simp only [local_, reduceCtorEq] at hstep
    refine contract_lockG hstep rfl hlT rfl rfl ?_
    intro s2 h1 h2 _
    simp only [LocalOK, Clean, Data, h1, h2] at hok ⊢
    exact hok
  | wgLink g t =>
    cases a <;> simp only [local_, reduceCtorEq, Res.ok.injEq] at hstep
    obtain ⟨rfl, rfl, rfl⟩ := hstep
    refine contract_setT rfl rfl (hlT t rfl) (hlT t rfl) rfl hlG (fun h => h) (fun _ h => by simp [h]) ?_
    simp only [LocalOK, Clean, Data, setT, upd_self] at hok ⊢
    exact hok
  | wgRelG g t =>
    cases a <;> simp only [local_, reduceCtorEq] at hstep
    refine contract_unlockG hstep rfl hlT rfl rfl ?_
    intro s2 h1 h2
    simp only [LocalOK, Clean, Data, h1, h2] at hok ⊢
    exact hok
  | wgRelT g t =>
    cases a <;> simp only [local_, reduceCtorEq] at hstep
    refine contract_unlockT hstep rfl rfl rfl rfl ?_ (fun h => h) (fun _ => trivial)
    intro s2 h1 h2
    have hd := hok
    simp only [LocalOK] at hd
    simp only [Clean, h1, List.nil_append]
    exact ⟨h2.1.trans hd.1, h2.2.1.trans hd.2.1, h2.2.2.trans hd.2.2⟩

/-- The global invariant. -/
structure Inv (bufs : Nat → List Byte) (s : State) : Prop where
  lockT : ∀ t i, (s.sh.topics t).lock = some i ↔ topicHeld (s.pc i) = some t
  lockG : ∀ g i, (s.sh.groups g).lock = some i ↔ groupHeld (s.pc i) = some g
  free : ∀ t, (s.sh.topics t).lock = none → Clean bufs s.sh t
  localOK : ∀ i, LocalOK bufs s.sh (s.pc i)
  valid : ∀ t, ValidLog (bufs t) (s.sh.log t)
  pubs : ∀ g t, (s.sh.groups g).published = some t → g ∈ (s.sh.topics t).watchers

/-- The buffer never changes its length. -/
theorem Inv.bufLen {bufs : Nat → List Byte} {s : State} (h : Inv bufs s) (t : Nat) :
    (s.sh.topics t).buf.length = (bufs t).length := by
  have hlen := content_length (bufs t) (s.sh.log t) (h.valid t)
  cases hl : (s.sh.topics t).lock with
  | none => rw [(h.free t hl).1, hlen]
  | some i =>
    have h1 := (h.lockT t i).mp hl
    have h2 := h.localOK i
    cases hp : s.pc i <;> rw [hp] at h1 h2 <;> simp only [topicHeld, Option.some.injEq, reduceCtorEq] at h1 <;>
      subst h1 <;> simp only [LocalOK, Written, Clean, Data] at h2
    · obtain ⟨hk, hm, hd⟩ := h2; rw [hd.1]; simp; omega
    · rw [h2.2.1]; simp; omega
    · rw [h2.2.1]; simp; omega
    · rw [h2.2.1]; simp; omega
    · rw [h2.1.2.1]; simp; omega
    · rw [h2.1.2.1]; simp; omega
    · rw [h2.1.2.1]; simp; omega
    · rw [h2.1.2.1]; simp; omega
    · rw [h2.2.1]; simp; omega
    · rw [h2.2.1, hlen]
    · rw [h2.2.1.1, hlen]
    · rw [h2.1.1, hlen]
    · rw [h2.2.1, hlen]
    · rw [h2.2.1.1, hlen]
    · rw [h2.1.1, hlen]
    · rw [h2.1, hlen]
    · rw [h2.1, hlen]
    · rw [h2.1, hlen]
    · rw [h2.1, hlen]

theorem inv_start (bufs : Nat → List Byte) : Inv bufs (start bufs) where
  lockT := by intro t i; simp [start, topicHeld]
  lockG := by intro g i; simp [start, groupHeld]
  free := by intro t _; simp [start, Clean, Data, content, pubCount]
  localOK := by intro i; simp [start, LocalOK]
  valid := by intro t; simp [start, ValidLog]
  pubs := by intro g t h; simp [start] at h

theorem step_contract {bufs : Nat → List Byte} {s s' : State} {i : Nat} {a : Act} (h : Inv bufs s)
    (ha : ActOK bufs a) (hs : step s i a = .ok s') :
    ∃ p' w, local_ s.sh i (s.pc i) a = .ok s'.sh p' w ∧ s'.pc = (fun j => if j = i then p' else wake w (s.pc j)) ∧
      Contract bufs s.sh i (s.pc i) s'.sh p' w := by
  unfold step at hs
  split at hs
  · cases hs
  · cases hs
  · rename_i sh p w hl
    injection hs with hs
    subst hs
    exact ⟨p, w, hl, rfl, contract hl ha (h.localOK i) (fun t ht => (h.lockT t i).mpr ht)
      (fun g hg => (h.lockG g i).mpr hg) h.free h.valid h.bufLen h.pubs⟩

theorem inv_step {bufs : Nat → List Byte} {s s' : State} {i : Nat} {a : Act} (h : Inv bufs s)
    (ha : ActOK bufs a) (hs : step s i a = .ok s') : Inv bufs s' := by
  obtain ⟨p', w, hl, hpc, hc⟩ := step_contract h ha hs
  have hi : s'.pc i = p' := by rw [hpc]; simp
  have hj : ∀ j, j ≠ i → s'.pc j = wake w (s.pc j) := by intro j hne; rw [hpc]; simp [hne]
  constructor
  · intro t j
    rw [hc.lockT t]
    by_cases hji : j = i
    · subst hji
      rw [hi]
      split
      · rename_i h1; simp [h1]
      · rename_i h1
        split
        · simp [h1]
        · rename_i h2
          rw [h.lockT t j]; simp [h1, h2]
    · rw [hj j hji, (held_wake w _).1, ← h.lockT t j]
      split
      · rename_i h1
        constructor
        · intro h2; injection h2 with h2; exact absurd h2.symm hji
        · intro h2
          by_cases h3 : topicHeld (s.pc i) = some t
          · rw [← h.lockT t i, h2] at h3; injection h3 with h3; exact absurd h3 hji
          · rw [hc.acqT t h3 h1] at h2; cases h2
      · split
        · rename_i h1 h2
          constructor
          · intro h3; cases h3
          · intro h3; rw [← h.lockT t i, h3] at h2; injection h2 with h2; exact absurd h2 hji
        · rfl
  · intro t j
    rw [hc.lockG t]
    by_cases hji : j = i
    · subst hji
      rw [hi]
      split
      · rename_i h1; simp [h1]
      · rename_i h1
        split
        · simp [h1]
        · rename_i h2
          rw [h.lockG t j]; simp [h1, h2]
    · rw [hj j hji, (held_wake w _).2, ← h.lockG t j]
      split
      · rename_i h1
        constructor
        · intro h2; injection h2 with h2; exact absurd h2.symm hji
        · intro h2
          by_cases h3 : groupHeld (s.pc i) = some t
          · rw [← h.lockG t i, h2] at h3; injection h3 with h3; exact absurd h3 hji
          · rw [hc.acqG t h3 h1] at h2; cases h2
      · split
        · rename_i h1 h2
          constructor
          · intro h3; cases h3
          · intro h3; rw [← h.lockG t i, h3] at h2; injection h2 with h2; exact absurd h2 hji
        · rfl
  · intro t ht
    rw [hc.lockT t] at ht
    split at ht
    · cases ht
    · rename_i h1
      split at ht
      · rename_i h2; exact hc.clean t h2 h1
      · rename_i h2
        obtain ⟨h3, h4⟩ := hc.frameT t h2 h1
        have := h.free t ht
        simp only [Clean, Data, h3, h4] at this ⊢
        exact this
  · intro j
    by_cases hji : j = i
    · subst hji; rw [hi]; exact hc.localOK
    · rw [hj j hji]
      apply localOK_wake hc.wakeT hc.wakeG
      apply localOK_frame _ _ hc.grows (h.localOK j)
      · intro t ht
        have hlk := (h.lockT t j).mpr ht
        apply hc.frameT
        · intro h2; rw [← h.lockT t i, hlk] at h2; injection h2 with h2; exact hji h2
        · intro h2
          by_cases h3 : topicHeld (s.pc i) = some t
          · rw [← h.lockT t i, hlk] at h3; injection h3 with h3; exact hji h3
          · rw [hc.acqT t h3 h2] at hlk; cases hlk
      · intro g hg
        have hlk := (h.lockG g j).mpr hg
        apply hc.frameG
        · intro h2; rw [← h.lockG g i, hlk] at h2; injection h2 with h2; exact hji h2
        · intro h2
          by_cases h3 : groupHeld (s.pc i) = some g
          · rw [← h.lockG g i, hlk] at h3; injection h3 with h3; exact hji h3
          · rw [hc.acqG g h3 h2] at hlk; cases hlk
  · intro t; exact hc.valid t (h.valid t)
  · intro g t hp
    rcases hc.pubs g t hp with h1 | h1
    · exact hc.grows.watchers t g (h.pubs g t h1)
    · exact h1

theorem reach_inv {bufs : Nat → List Byte} {s : State} (h : Reach bufs s) : Inv bufs s := by
  induction h with
  | start => exact inv_start bufs
  | step _ ha hs ih => exact inv_step ih ha hs

end Verif.MsgBus.Conc
