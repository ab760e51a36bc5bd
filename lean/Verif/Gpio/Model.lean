/-!
# Handles of GPIO inputs — model

`master-firmware/src/gpio_input.h` and `gpio_input.cpp`, with the objects of a program that uses them and the state of libgpiod.
A chip that is opened gets a new number; `open` asks for one line of it, which is named by the number of the chip.
-/

namespace Verif.Gpio

/-- An object of the class, gpio_input.h:9-10; `none`: a null pointer -/
structure Input where
  chip : Option Nat
  line : Option Nat
deriving DecidableEq

/-- libgpiod: the chips that are open, the lines that are requested, the number of the next chip, the level of each line; and the objects of the program that are alive -/
structure World where
  opened : Nat → Bool
  held : Nat → Bool
  next : Nat
  level : Nat → Bool
  objs : Nat → Option Input

/-- What a call leads to; `misuse`: not a program (an object is used before its construction or after its destruction, or constructed where another is); `undefined`: libgpiod is given a chip that is closed or a line of one -/
inductive Out (α : Type) where
  | done (a : α) | misuse | undefined

/-- The next call is made if the first one returns. -/
def Out.bind {α β : Type} (x : Out α) (f : α → Out β) : Out β :=
  match x with
  | .done a => f a
  | .misuse => .misuse
  | .undefined => .undefined

/-- A function with one value changed -/
def upd {α : Type} (f : Nat → α) (i : Nat) (v : α) : Nat → α := fun j => if j = i then v else f j

/-- `gpiod_line_release`; a line that is not requested may be released -/
def release (w : World) (h : Nat) : Out World := if w.opened h then .done { w with held := upd w.held h false } else .undefined

/-- `gpiod_chip_close`, which also releases the lines of the chip -/
def close (w : World) (h : Nat) : Out World := if w.opened h then .done { w with opened := upd w.opened h false, held := upd w.held h false } else .undefined

/-- The destructor, gpio_input.cpp:4-15 -/
def drop (w : World) (o : Input) : Out World :=
  (match o.line with
    | some h => release w h
    | none => .done w).bind fun w =>
  match o.chip with
    | some h => close w h
    | none => .done w

/-- The constructor from an object that is moved, gpio_input.h:31-39: the new object and what is left of the other -/
def moveNew (other : Input) : Input × Input := (⟨other.chip, other.line⟩, ⟨none, none⟩)

/-- The assignment of an object that is moved, gpio_input.h:41-46: both objects afterwards -/
def moveAssign (this other : Input) : Input × Input := (⟨other.chip, other.line⟩, ⟨this.chip, this.line⟩)

/-- What libgpiod returns in `open`: no chip, no line, the line cannot be requested, or the line -/
inductive Reply where
  | noChip | noLine | refused | given
deriving DecidableEq

/-- `GpioInput::open`, gpio_input.cpp:25-49: the local object `result` is destroyed at each return. -/
def openInput (w : World) (r : Reply) : Out (World × Option Input) :=
  let h := w.next
  let chip : World := { w with opened := upd w.opened h true, next := h + 1 }
  match r with
  | .noChip => (drop w ⟨none, none⟩).bind fun w => .done (w, none)
  | .noLine => (drop chip ⟨some h, none⟩).bind fun w => .done (w, none)
  | .refused => (drop chip ⟨some h, some h⟩).bind fun w => .done (w, none)
  | .given =>
    let m := moveNew ⟨some h, some h⟩
    (drop { chip with held := upd chip.held h true } m.2).bind fun w => .done (w, some m.1)

/-- `GpioInput::read`, gpio_input.cpp:17-23; `gpiod_line_get_value` fails for a line that is not requested. -/
def readInput (w : World) (o : Input) : Out Bool :=
  match o.line with
  | none => .done false
  | some h => if w.opened h then .done (w.held h && w.level h) else .undefined

/-- What a program does with objects -/
inductive Op where
  | make (d : Nat)
  | opened (d : Nat) (r : Reply)
  | moved (d s : Nat)
  | assigned (d s : Nat)
  | destroyed (s : Nat)
  | read (s : Nat)
  | levels (f : Nat → Bool)

/-- One step of a program. Copies are not possible: the constructor and the operator are deleted (gpio_input.h:28-29). -/
def step (w : World) : Op → Out World
  | .make d => match w.objs d with
    | none => .done { w with objs := upd w.objs d (some ⟨none, none⟩) }
    | some _ => .misuse
  | .opened d r => match w.objs d with
    | none => (openInput w r).bind fun x => .done { x.1 with objs := upd x.1.objs d x.2 }
    | some _ => .misuse
  | .moved d s => match w.objs d, w.objs s with
    | none, some o =>
      let m := moveNew o
      .done { w with objs := upd (upd w.objs d (some m.1)) s (some m.2) }
    | _, _ => .misuse
  | .assigned d s => match w.objs d, w.objs s with
    | some t, some o =>
      let m := moveAssign t o
      .done { w with objs := upd (upd w.objs d (some m.1)) s (some m.2) }
    | _, _ => .misuse
  | .destroyed s => match w.objs s with
    | some o => (drop w o).bind fun w => .done { w with objs := upd w.objs s none }
    | none => .misuse
  | .read s => match w.objs s with
    | some o => (readInput w o).bind fun _ => .done w
    | none => .misuse
  | .levels f => .done { w with level := f }

/-- A program -/
def run : World → List Op → Out World
  | w, [] => .done w
  | w, p :: ps => (step w p).bind fun w => run w ps

/-- Before the program -/
def start : World := ⟨fun _ => false, fun _ => false, 0, fun _ => false, fun _ => none⟩

end Verif.Gpio
