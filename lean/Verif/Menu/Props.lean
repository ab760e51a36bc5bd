import Verif.Menu.Model

/-! # The menu of the master's screen: properties (C116) -/

namespace Verif.Menu

/-! ## Specification: a stack of pages, the page shown first -/

/-- The next stack. -/
def next (pages : Pages) : List Nat → Ev → List Nat
  | [], _ => []
  | p :: ps, .back => if ps = [] then [p] else ps
  | p :: ps, .press i =>
    match (pages p)[i]? with
    | some (some q) => q :: p :: ps
    | _ => p :: ps

def stackRun (pages : Pages) : List Nat → List Ev → List Nat
  | st, [] => st
  | st, e :: es => stackRun pages (next pages st e) es

/-- Every page of the stack is led to by the one before; the first is the root. -/
def Path (pages : Pages) (root : Nat) : List Nat → Prop
  | [] => False
  | [p] => p = root
  | q :: p :: ps => some q ∈ pages p ∧ Path pages root (p :: ps)

/-- The screen shows the stack: page, widgets and title are those of the top, the back button works if there is a page
below. -/
structure Shows (s : St) (st : List Nat) : Prop where
  page : s.page = st.head?
  live : s.live = st.head?
  title : s.title = st.head?
  back : s.back = decide (1 < st.length)

/-- No page leads to itself, over any number of pages: pages can be numbered such that buttons lead to greater numbers. -/
def Acyclic (pages : Pages) (rank : Nat → Nat) : Prop := ∀ p q, some q ∈ pages p → rank p < rank q

/-! ## The pointers -/

/-- The pointers of the pages are the stack. -/
def Linked (prev : Nat → Option (Option Nat)) : List Nat → Prop
  | [] => True
  | p :: ps => prev p = some ps.head? ∧ Linked prev ps

structure Rep (s : St) (st : List Nat) : Prop where
  shows : Shows s st
  linked : Linked s.prev st
  nodup : st.Nodup

theorem linked_frame {prev : Nat → Option (Option Nat)} {p : Nat} {x : Option (Option Nat)} : ∀ {st : List Nat}, p ∉ st → Linked prev st →
    Linked (fun q => if q = p then x else prev q) st
  | [], _, _ => True.intro
  | q :: st, hp, h => by
    refine ⟨?_, linked_frame (fun hm => hp (List.mem_cons_of_mem _ hm)) h.2⟩
    show (if q = p then x else prev q) = _
    rw [if_neg (fun e => hp (by rw [e]; exact List.mem_cons_self))]
    exact h.1

/-- Entering a page that is not in the history puts it on the stack. -/
theorem enter_rep {s : St} {st : List Nat} (hp : s.page = st.head?) (hl : Linked s.prev st) (hn : st.Nodup) {q : Nat} (hq : q ∉ st) :
    ∃ s', execAll s (enterPage q) = .ok s' ∧ Rep s' (q :: st) := by
  refine ⟨⟨some q, fun r => if r = q then some s.page else s.prev r, some q, s.page.isSome, some q⟩, ?_, ?_, ?_, ?_⟩
  · simp [enterPage, switchTo, execAll, exec]
  · refine ⟨rfl, rfl, rfl, ?_⟩
    show s.page.isSome = _
    rw [hp]
    cases st <;> simp
  · refine ⟨?_, linked_frame hq hl⟩
    show (if q = q then some s.page else s.prev q) = _
    rw [if_pos rfl, hp]
  · exact List.nodup_cons.mpr ⟨hq, hn⟩

theorem pop_rep {s : St} {p q : Nat} {st : List Nat} (h : Rep s (p :: q :: st)) :
    ∃ is s', popPage s = .ok is ∧ execAll s is = .ok s' ∧ Rep s' (q :: st) := by
  have hp : s.page = some p := h.shows.page
  have h1 : s.prev p = some (some q) := h.linked.1
  have h2 : s.prev q = some st.head? := h.linked.2.1
  refine ⟨switchTo (some q), ⟨some q, s.prev, some q, st.head?.isSome, some q⟩, ?_, ?_, ?_, ?_, ?_⟩
  · simp [popPage, hp, h1]
  · simp [switchTo, execAll, exec, h2]
  · refine ⟨rfl, rfl, rfl, ?_⟩
    cases st <;> simp
  · exact h.linked.2
  · exact (List.nodup_cons.mp h.nodup).2

theorem path_rank {pages : Pages} {rank : Nat → Nat} (ha : Acyclic pages rank) {root : Nat} : ∀ {p : Nat} {ps : List Nat},
    Path pages root (p :: ps) → ∀ r ∈ ps, rank r < rank p
  | p, [], _, r, hr => by cases hr
  | p, q :: ps, h, r, hr => by
    have h1 := ha q p h.1
    rcases List.mem_cons.mp hr with rfl | hr
    · exact h1
    · have := path_rank ha h.2 r hr; omega

theorem event_rep {pages : Pages} {rank : Nat → Nat} (ha : Acyclic pages rank) {root : Nat} {s : St} {st : List Nat} (h : Rep s st)
    (hpath : Path pages root st) (e : Ev) :
    ∃ s', event pages s e = .ok s' ∧ Rep s' (next pages st e) ∧ Path pages root (next pages st e) := by
  cases st with
  | nil => exact absurd hpath (by simp [Path])
  | cons p ps =>
    have hp : s.page = some p := h.shows.page
    cases e with
    | back =>
      cases ps with
      | nil =>
        have hb : s.back = false := by rw [h.shows.back]; rfl
        exact ⟨s, by simp [event, onEvent, hb, execAll], h, hpath⟩
      | cons q ps =>
        have hb : s.back = true := by rw [h.shows.back]; simp
        obtain ⟨is, s', h1, h2, h3⟩ := pop_rep h
        exact ⟨s', by simp [event, onEvent, hb, h1, h2], h3, hpath.2⟩
    | press i =>
      cases hq : (pages p)[i]? with
      | none =>
        refine ⟨s, by simp [event, onEvent, hp, hq, execAll], ?_, ?_⟩ <;> simp only [next, hq]
        · exact h
        · exact hpath
      | some o =>
        cases o with
        | none =>
          refine ⟨s, by simp [event, onEvent, hp, hq, execAll], ?_, ?_⟩ <;> simp only [next, hq]
          · exact h
          · exact hpath
        | some q =>
          have hmem : some q ∈ pages p := List.mem_of_getElem? hq
          have hpath' : Path pages root (q :: p :: ps) := ⟨hmem, hpath⟩
          have hnot : q ∉ p :: ps := fun hm => by have := path_rank ha hpath' q hm; omega
          obtain ⟨s', h1, h2⟩ := enter_rep h.shows.page h.linked h.nodup hnot
          refine ⟨s', by simp [event, onEvent, hp, hq, h1], ?_, ?_⟩ <;> simp only [next, hq]
          · exact h2
          · exact hpath'

theorem run_rep {pages : Pages} {rank : Nat → Nat} (ha : Acyclic pages rank) {root : Nat} : ∀ {es : List Ev} {s : St} {st : List Nat},
    Rep s st → Path pages root st → ∃ s', run pages s es = .ok s' ∧ Rep s' (stackRun pages st es) ∧ Path pages root (stackRun pages st es)
  | [], s, st, h, hp => ⟨s, rfl, h, hp⟩
  | e :: es, s, st, h, hp => by
    obtain ⟨s1, h1, h2, h3⟩ := event_rep ha h hp e
    obtain ⟨s2, h4, h5, h6⟩ := run_rep ha (es := es) h2 h3
    exact ⟨s2, by simp [run, h1, h4], h5, h6⟩

theorem start_rep {root first : Nat} (h : first ≠ root) : ∃ s, start root first = .ok s ∧ Rep s [first, root] := by
  obtain ⟨s1, h1, r1⟩ := enter_rep (s := init) (st := []) rfl True.intro List.nodup_nil (q := root) (by simp)
  obtain ⟨s2, h2, r2⟩ := enter_rep r1.shows.page r1.linked r1.nodup (q := first) (by simpa using h)
  have happ : ∀ (a b : List Ins) (s s' : St), execAll s a = .ok s' → execAll s (a ++ b) = execAll s' b := by
    intro a
    induction a with
    | nil => intro b s s' h; injection h with h; rw [h]; rfl
    | cons i a ih =>
      intro b s s' h
      have h : (match exec s i with
        | .error e => Except.error e
        | .ok s => execAll s a) = Except.ok s' := h
      show (match exec s i with
        | .error e => Except.error e
        | .ok s => execAll s (a ++ b)) = _
      cases he : exec s i with
      | error e => rw [he] at h; cases h
      | ok s'' => rw [he] at h; exact ih b s'' s' h
  exact ⟨s2, by unfold start; rw [happ _ _ _ _ h1, h2], r2⟩

/-! ## Properties -/

/-- With pages that do not lead in a circle, whatever is pressed: no pointer is used that is null or was not written, and the screen shows the
page that a stack of visited pages says; the stack is a way from the root along the buttons. -/
theorem shows_stack {pages : Pages} {rank : Nat → Nat} (ha : Acyclic pages rank) {root first : Nat} (hf : some first ∈ pages root)
    (es : List Ev) : ∃ s0 s, start root first = .ok s0 ∧ run pages s0 es = .ok s ∧
      Shows s (stackRun pages [first, root] es) ∧ Path pages root (stackRun pages [first, root] es) := by
  have hne : first ≠ root := fun e => by have := ha root first hf; rw [e] at this; omega
  obtain ⟨s0, h0, r0⟩ := start_rep hne
  obtain ⟨s, h1, h2, h3⟩ := run_rep ha (es := es) r0 (show Path pages root [first, root] from ⟨hf, rfl⟩)
  exact ⟨s0, s, h0, h1, h2.shows, h3⟩

theorem stackRun_backs (pages : Pages) : ∀ (n : Nat) (st : List Nat), n + 1 = st.length →
    stackRun pages st (List.replicate n .back) = st.drop n
  | 0, st, _ => rfl
  | n + 1, st, h => by
    match st, h with
    | p :: q :: ps, h =>
      rw [List.replicate_succ]
      show stackRun pages (next pages (p :: q :: ps) .back) _ = _
      rw [show next pages (p :: q :: ps) .back = q :: ps by simp [next], stackRun_backs pages n (q :: ps) (by simpa using h)]
      rfl

theorem path_last {pages : Pages} {root : Nat} : ∀ {st : List Nat}, Path pages root st → st.drop (st.length - 1) = [root]
  | [], h => absurd h (by simp [Path])
  | [p], h => by simp [Path] at h; simp [h]
  | q :: p :: ps, h => by
    have := path_last h.2
    simpa using this

theorem stackRun_append (pages : Pages) : ∀ (a b : List Ev) (st : List Nat), stackRun pages st (a ++ b) = stackRun pages (stackRun pages st a) b
  | [], _, _ => rfl
  | e :: a, b, st => stackRun_append pages a b _

/-- From everywhere the back button leads to the root, one page at a time, and there, and only there, it is disabled. -/
theorem back_to_root {pages : Pages} {rank : Nat → Nat} (ha : Acyclic pages rank) {root first : Nat} (hf : some first ∈ pages root)
    (es : List Ev) : ∃ s0 s, start root first = .ok s0 ∧
      run pages s0 (es ++ List.replicate ((stackRun pages [first, root] es).length - 1) .back) = .ok s ∧
      s.page = some root ∧ s.live = some root ∧ s.back = false ∧
      ∀ s1, run pages s0 es = .ok s1 → (s1.back = false ↔ s1.page = some root) := by
  obtain ⟨s0, s, h0, h1, h2, h3⟩ := shows_stack ha hf (es ++ List.replicate ((stackRun pages [first, root] es).length - 1) .back)
  obtain ⟨s0', s1, h0', h1', h2', h3'⟩ := shows_stack ha hf es
  rw [h0] at h0'; cases h0'
  have hst : stackRun pages [first, root] (es ++ List.replicate ((stackRun pages [first, root] es).length - 1) .back) = [root] := by
    rw [stackRun_append, stackRun_backs, path_last h3']
    cases hx : stackRun pages [first, root] es with
    | nil => rw [hx] at h3'; exact absurd h3' (by simp [Path])
    | cons p ps => simp
  rw [hst] at h2
  refine ⟨s0, s, h0, h1, h2.page, h2.live, h2.back, fun s2 hs2 => ?_⟩
  rw [h1'] at hs2; cases hs2
  rw [h2'.back, h2'.page]
  cases hx : stackRun pages [first, root] es with
  | nil => rw [hx] at h3'; exact absurd h3' (by simp [Path])
  | cons p ps =>
    rw [hx] at h3'
    cases ps with
    | nil => simp only [Path] at h3'; simp [h3']
    | cons q ps =>
      have hrank := path_rank ha h3'
      have hroot : root ∈ q :: ps := by
        have := path_last h3'.2
        have hm : root ∈ (q :: ps).drop ((q :: ps).length - 1) := by rw [this]; simp
        exact List.mem_of_mem_drop hm
      have hne : p ≠ root := fun e => by have := hrank root hroot; rw [e] at this; omega
      simp [hne]

/-- Back undoes a button. -/
theorem press_back {pages : Pages} {p : Nat} {ps : List Nat} (i : Nat) {q : Nat} (h : (pages p)[i]? = some (some q)) :
    stackRun pages (p :: ps) [.press i, .back] = p :: ps := by
  simp [stackRun, next, h]

/-- The numbering of the robot's pages. -/
def robotRank (p : Nat) : Nat := if p = 0 then 0 else if p ≤ 4 then 1 else 2

/-- The pages of the robot, with any number of actions, do not lead in a circle. -/
theorem robot_acyclic (n : Nat) : Acyclic (robot n) robotRank := by
  intro p q h
  unfold robot at h
  split at h
  · simp only [List.mem_cons, Option.some.injEq, List.not_mem_nil, or_false, reduceCtorEq] at h
    rcases h with rfl | rfl | rfl | rfl <;> decide
  · simp only [List.mem_cons, Option.some.injEq, List.not_mem_nil, or_false, reduceCtorEq] at h
    rcases h with rfl | rfl <;> decide
  · simp only [List.mem_cons, Option.some.injEq, List.not_mem_nil, or_false, reduceCtorEq] at h
    rcases h with rfl | rfl | rfl | rfl | rfl | rfl <;> decide
  · simp only [List.mem_map] at h
    obtain ⟨i, _, h⟩ := h
    split at h
    · cases h
      have : robotRank (13 + i) = 2 := by unfold robotRank; rw [if_neg (by omega), if_neg (by omega)]
      rw [this]; decide
    · cases h
  · cases h

/-- The robot's menu: at most three pages deep, so two presses of the back button lead to the root from everywhere. -/
theorem robot_depth (n : Nat) (es : List Ev) : (stackRun (robot n) [2, 0] es).length ≤ 3 := by
  obtain ⟨_, _, _, _, _, hp⟩ := shows_stack (robot_acyclic n) (root := 0) (first := 2) (by simp [robot]) es
  have key : ∀ (st : List Nat) (p : Nat), Path (robot n) 0 (p :: st) → st.length ≤ robotRank p := by
    intro st
    induction st with
    | nil => intro p _; simp
    | cons q st ih =>
      intro p h
      have h1 := ih q h.2
      have h2 := robot_acyclic n q p h.1
      simp only [List.length_cons]; omega
  cases hx : stackRun (robot n) [2, 0] es with
  | nil => simp
  | cons p st =>
    rw [hx] at hp
    have := key st p hp
    have : robotRank p ≤ 2 := by unfold robotRank; split <;> (try split) <;> omega
    simp only [List.length_cons]; omega

/-- Every page of the robot can be reached: here the one of action `k`, for the first six actions. -/
theorem action_reached {n k : Nat} (hk : k < n) (h6 : k < 6) : stackRun (robot n) [2, 0] [.back, .press 3, .press k] = [13 + k, 4, 0] := by
  have : (robot n 4)[k]? = some (some (13 + k)) := by
    simp only [robot, List.getElem?_map, List.getElem?_range h6, Option.map_some, if_pos hk]
  have h0 : (robot n 0)[3]? = some (some 4) := rfl
  simp [stackRun, next, this, h0]

/-- The seventh action and those after it have no button. -/
theorem action_hidden {n : Nat} (es : List Ev) {k : Nat} (hk : 6 ≤ k) : 13 + k ∉ stackRun (robot n) [2, 0] es := by
  obtain ⟨_, _, _, _, _, hp⟩ := shows_stack (robot_acyclic n) (root := 0) (first := 2) (by simp [robot]) es
  have hno : ∀ p, some (13 + k) ∉ robot n p := by
    intro p h
    unfold robot at h
    split at h
    · simp at h; omega
    · simp at h; omega
    · simp at h; omega
    · simp only [List.mem_map, List.mem_range] at h
      obtain ⟨i, hi, h⟩ := h
      split at h
      · injection h with h; omega
      · cases h
    · cases h
  have key : ∀ st : List Nat, Path (robot n) 0 st → 13 + k ∉ st := by
    intro st
    induction st with
    | nil => intro _; simp
    | cons q st ih =>
      cases st with
      | nil => intro h; simp only [Path] at h; simp; omega
      | cons p st =>
        intro h hm
        rcases List.mem_cons.mp hm with rfl | hm
        · exact hno p h.1
        · exact ih h.2 hm
  exact key _ hp

/-- The full claim "back leads to where one came from" for all menus is false: with a page that leads back to a page already entered, the
older history is lost and the back button goes in a circle for ever. -/
theorem circle {pages : Pages} (h0 : (pages 0)[0]? = some (some 1)) (h1 : (pages 1)[0]? = some (some 0)) (n : Nat) :
    ∃ s0 s, start 0 1 = .ok s0 ∧ run pages s0 (.press 0 :: List.replicate n .back) = .ok s ∧ s.back = true := by
  obtain ⟨s0, hs, r⟩ := start_rep (root := 0) (first := 1) (by decide)
  have hp : s0.page = some 1 := r.shows.page
  have hprev : s0.prev 1 = some (some 0) := r.linked.1
  let c : Nat → St := fun x => ⟨some x, fun q => if q = 0 then some (some 1) else s0.prev q, some x, true, some x⟩
  have e1 : event pages s0 (.press 0) = .ok (c 0) := by
    simp [event, onEvent, hp, h1, enterPage, switchTo, execAll, exec, c]
  have e2 : event pages (c 0) .back = .ok (c 1) := by
    simp [event, onEvent, popPage, switchTo, execAll, exec, c, hprev]
  have e3 : event pages (c 1) .back = .ok (c 0) := by
    simp [event, onEvent, popPage, switchTo, execAll, exec, c, hprev]
  have key : ∀ n, (∃ s, run pages (c 0) (List.replicate n .back) = .ok s ∧ s.back = true) ∧
      ∃ s, run pages (c 1) (List.replicate n .back) = .ok s ∧ s.back = true := by
    intro n
    induction n with
    | zero => exact ⟨⟨c 0, rfl, rfl⟩, ⟨c 1, rfl, rfl⟩⟩
    | succ n ih =>
      refine ⟨?_, ?_⟩
      · obtain ⟨s, h, hb⟩ := ih.2
        exact ⟨s, by simp only [List.replicate_succ, run, e2, h], hb⟩
      · obtain ⟨s, h, hb⟩ := ih.1
        exact ⟨s, by simp only [List.replicate_succ, run, e3, h], hb⟩
  obtain ⟨s, h, hb⟩ := (key n).1
  exact ⟨s0, s, hs, by simp only [run, e1, h], hb⟩

/-! ## The buttons -/

def Rect.contains (r : Rect) (x y : Nat) : Prop := r.x ≤ x ∧ x < r.x + r.w ∧ r.y ≤ y ∧ y < r.y + r.h

/-- A point of the screen is in at most one button of a menu; all buttons are inside the container, and the container does not
touch the back button and the title, which do not touch each other. -/
theorem buttons_apart :
    (∀ i j x y, i < 6 → j < 6 → (button i).contains x y → (button j).contains x y → i = j) ∧
    (∀ i x y, i < 6 → (button i).contains x y → x < container.w ∧ y < container.h) ∧
    (∀ x y, container.contains x y → ¬ backRect.contains x y ∧ ¬ titleRect.contains x y) ∧
    (∀ x y, backRect.contains x y → ¬ titleRect.contains x y) ∧
    container.x + container.w = 480 ∧ container.y + container.h = 320 := by
  refine ⟨?_, ?_, ?_, ?_, rfl, rfl⟩
  · intro i j x y hi hj h1 h2
    simp only [Rect.contains, button] at h1 h2
    omega
  · intro i x y hi h
    simp only [Rect.contains, button, container] at h ⊢
    omega
  · intro x y h
    simp only [Rect.contains, container, backRect, titleRect] at h ⊢
    omega
  · intro x y h
    simp only [Rect.contains, backRect, titleRect] at h ⊢
    omega

/-! ## The timer -/

/-- Between events the timer finds the widgets of its page. -/
theorem timer_between_partial {pages : Pages} {rank : Nat → Nat} (ha : Acyclic pages rank) {root first : Nat} (hf : some first ∈ pages root)
    (es : List Ev) (timed : Nat → Bool) : ∃ s0 s, start root first = .ok s0 ∧ run pages s0 es = .ok s ∧ onTimer timed s = .ok () := by
  obtain ⟨s0, s, h0, h1, h2, h3⟩ := shows_stack ha hf es
  refine ⟨s0, s, h0, h1, ?_⟩
  cases hx : stackRun pages [first, root] es with
  | nil => rw [hx] at h3; exact absurd h3 (by simp [Path])
  | cons p ps =>
    rw [hx] at h2
    have hp : s.page = some p := h2.page
    have hl : s.live = some p := h2.live
    simp [onTimer, hp, hl]

/-- The full claim, at any time, is false: the thread of the timers is not kept out while the page changes. From every page with a timer, and to
every page with a timer, there is a moment at which the timer uses widgets that do not exist. -/
theorem timer_race {timed : Nat → Bool} {s : St} {p q : Nat} (hp : s.page = some p) (hl : s.live = some p) (ht : timed p = true ∨ timed q = true) :
    ∃ bs, interleave timed s bs (enterPage q) = .error .widgets := by
  by_cases h : timed p = true
  · exact ⟨[true, true, false], by simp [enterPage, switchTo, interleave, exec, onTimer, hp, h]⟩
  · exact ⟨[true, true, true, false], by simp [enterPage, switchTo, interleave, exec, onTimer, ht.resolve_left h]⟩

/-- The robot: the score page is shown first, and has a timer; back to the root. -/
example : ∃ s0 s, start 0 2 = .ok s0 ∧ run (robot 4) s0 [.back, .press 3, .press 1, .back] = .ok s ∧ s.page = some 4 ∧ s.back = true := by
  obtain ⟨s0, s, h0, h1, h2, _⟩ := shows_stack (robot_acyclic 4) (root := 0) (first := 2) (by simp [robot]) [.back, .press 3, .press 1, .back]
  exact ⟨s0, s, h0, h1, h2.page, h2.back⟩

end Verif.Menu
