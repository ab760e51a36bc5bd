/-!
# The menu of the master's screen

Model of master-firmware/src/gui/{Menu.cpp, MenuPage.cpp, Page.h} and of the pages of gui.cpp.

Simplifications: pages are numbers. The widgets of a page are one thing that exists or not. A disabled or destroyed
button sends no events (uGFX). Of the pages only the menus lead to other pages; what their other buttons do is elsewhere
(`Verif.Panel`, `Verif.Motors`) or not modelled.
-/

namespace Verif.Menu

/-- Undefined behaviour: a null page is used, `history_previous` is read before it was written (Page.h:6 does not
initialise it), widgets are used that do not exist. -/
inductive Err where
  | null
  | uninit
  | widgets
deriving DecidableEq, Repr

/-- The members of `Menu`, and of every page: `history_previous` (`none`: not initialised). `live` is the page whose widgets are in the
container, `title` the page whose name is shown. -/
structure St where
  page : Option Nat
  prev : Nat → Option (Option Nat)
  live : Option Nat
  back : Bool
  title : Option Nat

/-- The steps of `enter_page` and `switch_to_page`. -/
inductive Ins where
  | setPrev (p : Nat)
  | delete
  | setPage (p : Option Nat)
  | backButton
  | onEnter
  | setTitle
deriving DecidableEq, Repr

/-- `Menu::switch_to_page`, Menu.cpp:32-45. -/
def switchTo (p : Option Nat) : List Ins := [.delete, .setPage p, .backButton, .onEnter, .setTitle]

/-- `Menu::enter_page`, Menu.cpp:57-61. -/
def enterPage (p : Nat) : List Ins := .setPrev p :: switchTo (some p)

def exec (s : St) : Ins → Except Err St
  | .setPrev p => .ok { s with prev := fun q => if q = p then some s.page else s.prev q }
  | .delete => .ok { s with live := none }
  | .setPage p => .ok { s with page := p }
  | .backButton =>
    match s.page with
    | none => .error .null
    | some p =>
      match s.prev p with
      | none => .error .uninit
      | some q => .ok { s with back := q.isSome }
  | .onEnter => .ok { s with live := s.page }
  | .setTitle => .ok { s with title := s.page }

def execAll (s : St) : List Ins → Except Err St
  | [] => .ok s
  | i :: is =>
    match exec s i with
    | .error e => .error e
    | .ok s => execAll s is

/-- `Menu::pop_page`, Menu.cpp:47-50. -/
def popPage (s : St) : Except Err (List Ins) :=
  match s.page with
  | none => .error .null
  | some p =>
    match s.prev p with
    | none => .error .uninit
    | some q => .ok (switchTo q)

/-- What the user does: press the back button, or button `i` of the page. -/
inductive Ev where
  | back
  | press (i : Nat)
deriving DecidableEq, Repr

/-- The pages: `next_page` of the menus (MenuPage.cpp:3-21), empty for the other pages. -/
abbrev Pages := Nat → List (Option Nat)

/-- The steps an event leads to: `event_loop`, Menu.cpp:72-80 and `MenuPage::on_event`, MenuPage.cpp:49-62. The buttons are different
widgets, so at most one of the comparisons of the loop holds. -/
def onEvent (pages : Pages) (s : St) : Ev → Except Err (List Ins)
  | .back => if s.back then popPage s else .ok []
  | .press i =>
    match s.page with
    | none => .error .null
    | some p =>
      match (pages p)[i]? with
      | some (some q) => .ok (enterPage q)
      | _ => .ok []

def event (pages : Pages) (s : St) (e : Ev) : Except Err St :=
  match onEvent pages s e with
  | .error e => .error e
  | .ok is => execAll s is

def run (pages : Pages) (s : St) : List Ev → Except Err St
  | [] => .ok s
  | e :: es =>
    match event pages s e with
    | .error e => .error e
    | .ok s => run pages s es

/-- `Menu::Menu`, Menu.cpp:4-13; the pages' pointers hold anything. -/
def init : St := ⟨none, fun _ => none, none, true, none⟩

/-- The start of `gui_thread`, gui.cpp:67-68: root page, then a first page. -/
def start (root first : Nat) : Except Err St := execAll init (enterPage root ++ enterPage first)

/-! ## The pages of the robot -/

/-- The pages of gui.cpp:27-65 with `n` actions: 0 root, 1 base, 2 score, 3 actuators, 4 actions, 5 position, 6 move, 7-12 the actuators, 13
and following the actions, of which the menu takes the first six. -/
def robot (n : Nat) : Pages
  | 0 => [some 1, some 2, some 3, some 4, none, none]
  | 1 => [some 5, some 6, none, none, none, none]
  | 3 => [some 7, some 8, some 9, some 10, some 11, some 12]
  | 4 => (List.range 6).map fun i => if i < n then some (13 + i) else none
  | _ => []

/-! ## The buttons -/

/-- A rectangle on the screen: left, top, width, height. -/
structure Rect where
  x : Nat
  y : Nat
  w : Nat
  h : Nat
deriving DecidableEq, Repr

/-- The button of index `i`, MenuPage.cpp:23-46; the outer loop is over the columns. Coordinates are relative to the container. -/
def button (i : Nat) : Rect := ⟨10 + (225 + 10) * (i / 3), 15 + (70 + 15) * (i % 3), 225, 70⟩

/-- The container of the page, Menu.cpp:15-26, on a screen of 480 times 320 (gfxconf.h:130-131). -/
def container : Rect := ⟨0, 60, 480, 320 - 60⟩

/-- The back button and the title, Menu.cpp:83-106. -/
def backRect : Rect := ⟨10, 10, 40, 40⟩

def titleRect : Rect := ⟨60, 0, 480 - 60, 60⟩

/-! ## The timer -/

/-- `Menu::on_timer`, Menu.cpp:52-55, run by the thread of the timers every 100 ms: a page with a timer sets the text of one of its
widgets (ScorePage.h, PositionPage.h, ActuatorPage.h). -/
def onTimer (timed : Nat → Bool) (s : St) : Except Err Unit :=
  match s.page with
  | none => .error .null
  | some p => if timed p ∧ s.live ≠ some p then .error .widgets else .ok ()

/-- The interleaving with the timer: `true` is a step of the thread of the menu, `false` the timer. -/
def interleave (timed : Nat → Bool) (s : St) : List Bool → List Ins → Except Err (St × List Ins)
  | [], is => .ok (s, is)
  | true :: bs, i :: is =>
    match exec s i with
    | .error e => .error e
    | .ok s => interleave timed s bs is
  | true :: bs, [] => interleave timed s bs []
  | false :: bs, is =>
    match onTimer timed s with
    | .error e => .error e
    | .ok _ => interleave timed s bs is

end Verif.Menu
