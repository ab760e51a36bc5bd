import Verif.Match.GotoProps
import Verif.Strategy.Props

/-!
# Playing a match: the actions and the loop of the match (C84)
-/

namespace Verif.Match

open Geom (P)
open Base (GOAL_REACHED COLLISION OPPONENT_NEAR TIMER ALLY_NEAR NEAR_GOAL gameHasEnded)
open Strategy (State Goal Outcome)
open Goap.Spec (Executes)

variable {α β : Type}

/-! ### Actions do what the model of the strategy supposes -/

theorem must_full {c : Cmd} {s : State} {k : Prog (State × Bool)} {l : List Event} {r : State × Bool} (h : Exec (must c s k) l (some r)) :
    ∃ e l', l = .did c :: .saw (.wait FLAGS_ALL) e :: l' ∧ ((e.reason ≠ GOAL_REACHED ∧ l' = [] ∧ r = (s, false)) ∨ (e.reason = GOAL_REACHED ∧ Exec k l' (some r))) := by
  unfold must at h
  stepAct l1
  stepAsk e l2
  refine ⟨e, l2, rfl, ?_⟩
  by_cases hr : e.reason ≠ GOAL_REACHED
  · rw [if_pos hr] at h
    obtain ⟨h1, h2⟩ := full_ret h
    exact .inl ⟨hr, h1, h2⟩
  · rw [if_neg hr] at h
    exact .inr ⟨Classical.not_not.mp hr, h⟩

/-- What the actions must have done when they are successful: the movements in order; the number of first movements that must have reached their goals; the distance from the wall
that must have been measured -/
structure Recipe where
  moves : List Cmd
  reach : Nat
  wall : Option ℚ

def recipe : Nat → Recipe
  | 0 => ⟨[.gotoForward ⟨525, 300⟩, .gotoBackward ⟨225, 400⟩, .turnTo (-90), .forward 300, .forward (-200)], 3, some 150⟩
  | 1 => ⟨[.gotoXy ⟨2670, 1500⟩, .gotoXy ⟨2670, 1850⟩, .turnTo 0, .forward 200], 4, none⟩
  | 2 => ⟨[.gotoXy ⟨2265, 1500⟩, .gotoXy ⟨2265, 1850⟩, .turnTo 0, .forward 200], 4, none⟩
  | _ => ⟨[.gotoXy ⟨500, 1525⟩, .turnTo 0, .forward (-300), .forward 100], 4, none⟩

/-- An action followed its recipe. -/
structure Followed (i : Nat) (l : List Event) : Prop where
  moves : movements l = (recipe i).moves
  reached : ∀ x ∈ (polls l).take (recipe i).reach, x.2.reason = GOAL_REACHED
  count : (polls l).length = (recipe i).moves.length
  wall : ∀ w, (recipe i).wall = some w → ∃ y : ℚ, .saw .y y ∈ l ∧ y ≤ w

theorem windsock_full {second : Bool} {s : State} {l : List Event} {r : State × Bool} (h : Exec (windsock second s) l (some r)) :
    r = (s, false) ∨ (r = (if second then { s with windsock1 := true } else { s with windsock0 := true }, true) ∧ Followed (if second then 2 else 1) l) := by
  unfold windsock at h
  obtain ⟨e1, l1, rfl, ⟨-, -, h1⟩ | ⟨g1, h1⟩⟩ := must_full h
  · exact .inl h1
  obtain ⟨e2, l2, rfl, ⟨-, -, h2⟩ | ⟨g2, h2⟩⟩ := must_full h1
  · exact .inl h2
  obtain ⟨e3, l3, rfl, ⟨-, -, h3⟩ | ⟨g3, h3⟩⟩ := must_full h2
  · exact .inl h3
  obtain ⟨e4, l4, rfl, ⟨-, -, h4⟩ | ⟨g4, h4⟩⟩ := must_full h3
  · exact .inl h4
  obtain ⟨rfl, rfl⟩ := full_ret h4
  refine .inr ⟨rfl, ?_⟩
  have hp : ∀ x ∈ [(FLAGS_ALL, e1), (FLAGS_ALL, e2), (FLAGS_ALL, e3), (FLAGS_ALL, e4)], x.2.reason = GOAL_REACHED := by
    intro x hx
    simp only [List.mem_cons, List.not_mem_nil, or_false] at hx
    rcases hx with rfl | rfl | rfl | rfl <;> assumption
  cases second
  · refine ⟨?_, hp, rfl, fun w h => by cases h⟩
    show [Cmd.gotoXy _, .gotoXy _, _, _] = [Cmd.gotoXy _, .gotoXy _, _, _]
    norm_num
  · refine ⟨?_, hp, rfl, fun w h => by cases h⟩
    show [Cmd.gotoXy _, .gotoXy _, _, _] = [Cmd.gotoXy _, .gotoXy _, _, _]
    norm_num

theorem lighthouse_full {s : State} {l : List Event} {r : State × Bool} (h : Exec (lighthouse s) l (some r)) :
    r = (s, false) ∨ (r = ({ s with lighthouse := true }, true) ∧ Followed 0 l) := by
  unfold lighthouse at h
  obtain ⟨e1, l1, rfl, ⟨-, -, h1⟩ | ⟨g1, h1⟩⟩ := must_full h
  · exact .inl h1
  obtain ⟨e2, l2, rfl, ⟨-, -, h2⟩ | ⟨g2, h2⟩⟩ := must_full h1
  · exact .inl h2
  obtain ⟨e3, l3, rfl, ⟨-, -, h3⟩ | ⟨g3, h3⟩⟩ := must_full h2
  · exact .inl h3
  obtain ⟨l4, rfl, h4⟩ := full_act h3
  obtain ⟨e5, l5, rfl, h5⟩ := full_ask h4
  obtain ⟨y, l6, rfl, h6⟩ := full_ask h5
  change ℚ at y
  by_cases hy : y > 150
  · have h6 : Exec (if y > 150 then _ else _) l6 _ := h6
    rw [if_pos hy] at h6
    exact .inl (full_ret h6).2
  · have h6 : Exec (if y > 150 then _ else _) l6 _ := h6
    rw [if_neg hy] at h6
    obtain ⟨l7, rfl, h7⟩ := full_act h6
    obtain ⟨e8, l8, rfl, h8⟩ := full_ask h7
    obtain ⟨rfl, rfl⟩ := full_ret h8
    refine .inr ⟨rfl, rfl, ?_, rfl, ?_⟩
    · show ∀ x ∈ [(FLAGS_ALL, e1), (FLAGS_ALL, e2), (FLAGS_ALL, e3)], x.2.reason = GOAL_REACHED
      intro x hx
      simp only [List.mem_cons, List.not_mem_nil, or_false] at hx
      rcases hx with rfl | rfl | rfl <;> assumption
    · rintro w ⟨⟩
      exact ⟨y, by simp, not_lt.mp hy⟩

theorem pickup_full {s : State} {l : List Event} {r : State × Bool} (h : Exec (pickup s) l (some r)) :
    r = (s, false) ∨ r = Strategy.execute 3 .failedLate s ∨ (r = Strategy.execute 3 .success s ∧ Followed 3 l) := by
  unfold pickup at h
  obtain ⟨e1, l1, rfl, ⟨-, -, h1⟩ | ⟨g1, h1⟩⟩ := must_full h
  · exact .inl h1
  obtain ⟨e2, l2, rfl, ⟨-, -, h2⟩ | ⟨g2, h2⟩⟩ := must_full h1
  · exact .inl h2
  obtain ⟨l3, rfl, h3⟩ := full_act h2
  obtain ⟨e4, l4, rfl, ⟨-, -, h4⟩ | ⟨g4, h4⟩⟩ := must_full h3
  · exact .inl h4
  obtain ⟨l5, rfl, h5⟩ := full_act h4
  obtain ⟨e6, l6, rfl, ⟨-, -, h6⟩ | ⟨g6, h6⟩⟩ := must_full h5
  · exact .inr (.inl h6)
  obtain ⟨rfl, rfl⟩ := full_ret h6
  refine .inr (.inr ⟨rfl, rfl, ?_, rfl, fun w h => by cases h⟩)
  show ∀ x ∈ [(FLAGS_ALL, e1), (FLAGS_ALL, e2), (FLAGS_ALL, e4), (FLAGS_ALL, e6)], x.2.reason = GOAL_REACHED
  intro x hx
  simp only [List.mem_cons, List.not_mem_nil, or_false] at hx
  rcases hx with rfl | rfl | rfl | rfl <;> assumption

/-- C84: the state changes as in the model of the strategy, and an action is successful only if it made all its movements and reached the goals of all but the last two movements of the
lighthouse. -/
theorem execute_full {i : Nat} {s : State} {l : List Event} {r : State × Bool} (h : Exec (execute i s) l (some r)) :
    (∃ o, r = Strategy.execute i o s) ∧ (r.2 = true → Followed i l) := by
  unfold execute at h
  obtain ⟨l1, rfl, h1⟩ := full_act h
  have lift : ∀ {i}, Followed i l1 → Followed i (.did (.begin i s) :: l1) := by
    intro i hf
    refine ⟨hf.1, hf.2, hf.3, fun w hw => ?_⟩
    obtain ⟨y, k1, k2⟩ := hf.4 w hw
    exact ⟨y, List.mem_cons_of_mem _ k1, k2⟩
  match i, h1 with
  | 0, h1 =>
    rcases lighthouse_full h1 with rfl | ⟨rfl, hf⟩
    · exact ⟨⟨.failed, rfl⟩, fun h => by cases h⟩
    · exact ⟨⟨.success, rfl⟩, fun _ => lift hf⟩
  | 1, h1 =>
    rcases windsock_full h1 with rfl | ⟨rfl, hf⟩
    · exact ⟨⟨.failed, rfl⟩, fun h => by cases h⟩
    · exact ⟨⟨.success, rfl⟩, fun _ => lift hf⟩
  | 2, h1 =>
    rcases windsock_full h1 with rfl | ⟨rfl, hf⟩
    · exact ⟨⟨.failed, rfl⟩, fun h => by cases h⟩
    · exact ⟨⟨.success, rfl⟩, fun _ => lift hf⟩
  | n + 3, h1 =>
    rcases pickup_full h1 with rfl | rfl | ⟨rfl, hf⟩
    · exact ⟨⟨.failed, by rfl⟩, fun h => by cases h⟩
    · exact ⟨⟨.failedLate, by rfl⟩, fun h => by cases h⟩
    · exact ⟨⟨.success, by rfl⟩, fun _ => ⟨hf.1, hf.2, hf.3, fun w hw => by cases hw⟩⟩

/-! ### The match refines the model of the strategy -/

theorem ended_full {k : Bool → Prog α} {l : List Event} {a : α} (h : Exec (ended k) l (some a)) :
    ∃ start now l', l = .saw .ended (start, now) :: l' ∧ Exec (k (gameHasEnded start now)) l' (some a) := by
  unfold ended at h
  obtain ⟨⟨start, now⟩, l1, rfl, h1⟩ := full_ask h
  exact ⟨start, now, l1, rfl, h1⟩

theorem perform_full {path : List (Option Nat)} {s s' : State} {l : List Event} (h : Exec (perform path s) l (some s')) : ∃ os, s' = Strategy.runPath path os s := by
  induction path generalizing s l with
  | nil =>
    unfold perform at h
    obtain ⟨-, rfl⟩ := full_ret h
    exact ⟨[], rfl⟩
  | cons x path ih =>
    cases x with
    | none =>
      unfold perform at h
      obtain ⟨os, rfl⟩ := ih h
      exact ⟨(.failed, false) :: os, rfl⟩
    | some i =>
      unfold perform at h
      obtain ⟨l1, l2, ⟨t, ok⟩, -, h1, h2⟩ := full_bind h
      obtain ⟨⟨o, ho⟩, -⟩ := execute_full h1
      cases ok with
      | false =>
        obtain ⟨-, rfl⟩ := full_ret h2
        refine ⟨[(o, false)], ?_⟩
        simp only [Strategy.runPath, ← ho]
        rfl
      | true =>
        have h2 : Exec (ended fun e => if e then .ret t else perform path t) l2 (some s') := h2
        obtain ⟨start, now, l3, -, h3⟩ := ended_full h2
        cases he : gameHasEnded start now with
        | true =>
          rw [he] at h3
          obtain ⟨-, rfl⟩ := full_ret h3
          refine ⟨[(o, true)], ?_⟩
          simp only [Strategy.runPath, ← ho]
          rfl
        | false =>
          rw [he] at h3
          obtain ⟨os, rfl⟩ := ih h3
          refine ⟨(o, false) :: os, ?_⟩
          simp only [Strategy.runPath, ← ho]
          rfl

/-- Passes of the strategy, without the flags at its end -/
def through : List (Goal × Goap.Heap State × List (Outcome × Bool)) → State → Option State
  | [], s => some s
  | (g, pool, os) :: l, s => (Strategy.pass g pool os s).bind (through l)

theorem through_append (l l' : List (Goal × Goap.Heap State × List (Outcome × Bool))) (s : State) : through (l ++ l') s = (through l s).bind (through l') := by
  induction l generalizing s with
  | nil => rfl
  | cons x l ih =>
    obtain ⟨g, pool, os⟩ := x
    show (Strategy.pass g pool os s).bind (through (l ++ l')) = ((Strategy.pass g pool os s).bind (through l)).bind (through l')
    rw [Option.bind_assoc]
    congr
    funext t
    exact ih t

theorem through_play (l : List (Goal × Goap.Heap State × List (Outcome × Bool))) (s : State) :
    Strategy.play l s = (through l s).map fun s => { s with robot := { s.robot with flagsDeployed := { s.robot.flagsDeployed with val := true } } } := by
  induction l generalizing s with
  | nil => rfl
  | cons x l ih =>
    obtain ⟨g, pool, os⟩ := x
    unfold Strategy.play through
    cases Strategy.pass g pool os s with
    | none => rfl
    | some t => exact ih t

theorem passes_full {gs : List Goal} {s s' : State} {l : List Event} (h : Exec (passes gs s) l (some s')) (hok : ∀ e ∈ l, e.Ok) :
    ∃ ps, through ps s = some s' ∧ ∀ x ∈ ps, x.1 ∈ gs := by
  induction gs generalizing s l with
  | nil =>
    unfold passes at h
    obtain ⟨-, rfl⟩ := full_ret h
    exact ⟨[], rfl, by simp⟩
  | cons g gs ih =>
    unfold passes at h
    obtain ⟨path, l1, rfl, h1⟩ := full_ask h
    obtain ⟨l2, l3, t, rfl, h2, h3⟩ := full_bind h1
    obtain ⟨os, rfl⟩ := perform_full h2
    obtain ⟨pool, r, k1, k2⟩ : ∃ pool r, Goap.plan Strategy.SPACE_SIZE g.problem Strategy.MAX_PATH_LEN (Strategy.SPACE_SIZE + 2) pool s = .ok r ∧ path = r.path :=
      hok _ (List.mem_cons_self ..)
    subst k2
    obtain ⟨start, now, l4, rfl, h4⟩ := ended_full h3
    have one : Strategy.pass g pool os s = some (Strategy.runPath r.path os s) := by
      unfold Strategy.pass; rw [k1]
    cases he : gameHasEnded start now with
    | true =>
      rw [he] at h4
      obtain ⟨-, rfl⟩ := full_ret h4
      exact ⟨[(g, pool, os)], by simp only [through, one, Option.bind_some], by simp⟩
    | false =>
      rw [he] at h4
      obtain ⟨ps, k3, k4⟩ := ih (s := Strategy.runPath r.path os s) h4 (fun e he => hok e (by simp [he]))
      refine ⟨(g, pool, os) :: ps, by simp only [through, one, Option.bind_some, k3], fun x hx => ?_⟩
      rcases List.mem_cons.mp hx with rfl | hx
      · exact List.mem_cons_self ..
      · exact List.mem_cons_of_mem _ (k4 x hx)

theorem rounds_full {fuel : Nat} {s s' : State} {l : List Event} (h : Exec (rounds fuel s) l (some (some s'))) (hok : ∀ e ∈ l, e.Ok) :
    (∃ ps, through ps s = some s') ∧ ∃ l0 start now, l = l0 ++ [.saw .ended (start, now)] ∧ gameHasEnded start now = true := by
  induction fuel generalizing s l with
  | zero => unfold rounds at h; obtain ⟨-, h⟩ := full_ret h; cases h
  | succ fuel ih =>
    unfold rounds at h
    obtain ⟨start, now, l1, rfl, h1⟩ := ended_full h
    cases he : gameHasEnded start now with
    | true =>
      rw [he] at h1
      obtain ⟨rfl, h1⟩ := full_ret h1
      cases h1
      exact ⟨⟨[], rfl⟩, [], start, now, rfl, he⟩
    | false =>
      rw [he] at h1
      obtain ⟨l2, l3, t, rfl, h2, h3⟩ := full_bind h1
      obtain ⟨ps, k1, -⟩ := passes_full h2 (fun e he => hok e (by simp [he]))
      obtain ⟨⟨qs, k2⟩, l0, st, nw, rfl, k3⟩ := ih (s := t) h3 (fun e he => hok e (by simp only [List.mem_cons, List.mem_append] at he ⊢; tauto))
      exact ⟨⟨ps ++ qs, by rw [through_append, k1, Option.bind_some, k2]⟩, .saw .ended (start, now) :: (l2 ++ l0), st, nw, by simp, k3⟩

/-- C84: a match that comes to its end is a match of the model of the strategy (`Strategy.play`): so no glass is lost, the score does not decrease, and what was reached stays so. The
last thing that was seen is that the match was over: it is not left before. -/
theorem play_full {fuel : Nat} {s s' : State} {l : List Event} (h : Exec (play fuel s) l (some (some s'))) (hok : ∀ e ∈ l, e.Ok) :
    (∃ ps, Strategy.play ps s = some s') ∧ (∃ l0 start now, l = l0 ++ [.saw .ended (start, now)] ∧ gameHasEnded start now = true) := by
  unfold play at h
  obtain ⟨l1, l2, r, rfl, h1, h2⟩ := full_bind h
  obtain ⟨rfl, h3⟩ := full_ret h2
  cases r with
  | none => cases h3
  | some t =>
    cases h3
    rw [List.append_nil] at hok ⊢
    obtain ⟨⟨ps, k⟩, k'⟩ := rounds_full h1 hok
    exact ⟨⟨ps, by rw [through_play, k]; rfl⟩, k'⟩

/-- C84: what follows for the state of the match -/
theorem play_better {fuel : Nat} {s s' : State} {l : List Event} (h : Exec (play fuel s) l (some (some s'))) (hok : ∀ e ∈ l, e.Ok) :
    (Strategy.glasses s').Perm (Strategy.glasses s) ∧ (∀ main, Strategy.score s main ≤ Strategy.score s' main) ∧ s'.robot.flagsDeployed.val = true ∧
      (∀ g : Goal, g.Reached s → g.Reached s') := by
  obtain ⟨⟨ps, hp⟩, -⟩ := play_full h hok
  obtain ⟨t, k1, k2, k3, k4, k5, -⟩ := Strategy.play_spec ps s
  rw [hp] at k1
  cases k1
  exact ⟨k3, k4, k5, fun g => k2.reached⟩

/-! ### Actions begin before the end, and only if they can -/

/-- Just before, the match was not over. In between there was at most the making of a plan. -/
def Checked (h : List Event) : Prop :=
  ∃ h0 start now t, h = h0 ++ .saw .ended (start, now) :: t ∧ gameHasEnded start now = false ∧ (t = [] ∨ ∃ g s path, t = [.saw (.plan g s) path])

/-- All beginnings in `l`, after `h` -/
def Begins : List Event → List Event → Prop
  | _, [] => True
  | h, e :: l => (∀ i s, e = .did (.begin i s) → Checked h ∧ ∃ a, Strategy.actions[i]? = some a ∧ a.canRun s = true) ∧ Begins (h ++ [e]) l

theorem begins_append {h l l' : List Event} : Begins h (l ++ l') ↔ Begins h l ∧ Begins (h ++ l) l' := by
  induction l generalizing h with
  | nil => simp [Begins]
  | cons e l ih =>
    show _ ∧ Begins (h ++ [e]) (l ++ l') ↔ (_ ∧ Begins (h ++ [e]) l) ∧ _
    rw [ih, List.append_assoc, List.singleton_append, and_assoc]

theorem begins_at {h l1 l2 : List Event} {i : Nat} {s : State} (hb : Begins h (l1 ++ .did (.begin i s) :: l2)) :
    Checked (h ++ l1) ∧ ∃ a, Strategy.actions[i]? = some a ∧ a.canRun s = true :=
  (begins_append.mp hb).2.1 i s rfl

/-- Programs without beginnings -/
def NoBegin (p : Prog α) : Prop := ∀ l r, Exec p l r → ∀ i s, .did (.begin i s) ∉ l

theorem nb_ret (a : α) : NoBegin (.ret a) := by
  intro l r h i s
  obtain ⟨rfl, -⟩ := exec_ret h
  simp

theorem nb_act {c : Cmd} {k : Prog α} (hc : ∀ i s, c ≠ .begin i s) (hk : NoBegin k) : NoBegin (.act c k) := by
  intro l r h i s
  rcases exec_act h with ⟨rfl, -⟩ | ⟨l', rfl, h'⟩
  · simp
  · intro hm
    rcases List.mem_cons.mp hm with e | hm
    · exact hc i s (Event.did.inj e).symm
    · exact hk l' r h' i s hm

theorem nb_ask {q : Query} {k : q.Ans → Prog α} (hk : ∀ a, NoBegin (k a)) : NoBegin (.ask q k) := by
  intro l r h i s
  rcases exec_ask h with ⟨rfl, -⟩ | ⟨a, l', rfl, h'⟩
  · simp
  · intro hm
    rcases List.mem_cons.mp hm with e | hm
    · cases e
    · exact hk a l' r h' i s hm

theorem nb_must {c : Cmd} {s : State} {k : Prog (State × Bool)} (hc : ∀ i s, c ≠ .begin i s) (hk : NoBegin k) : NoBegin (must c s k) := by
  unfold must
  refine nb_act hc (nb_ask fun e => ?_)
  split
  · exact nb_ret _
  · exact hk

theorem nb_begins {p : Prog α} (hp : NoBegin p) {l : List Event} {r : Option α} (h : Exec p l r) (h0 : List Event) : Begins h0 l := by
  have := hp l r h
  clear h hp
  induction l generalizing h0 with
  | nil => trivial
  | cons e l ih =>
    refine ⟨fun i s he => ?_, ih _ fun i s hm => this i s (List.mem_cons_of_mem _ hm)⟩
    exact absurd (by rw [he]; exact List.mem_cons_self ..) (this i s)

theorem nb_lighthouse (s : State) : NoBegin (lighthouse s) := by
  unfold lighthouse
  refine nb_must (fun _ _ h => by cases h) (nb_must (fun _ _ h => by cases h) (nb_must (fun _ _ h => by cases h) (nb_act (fun _ _ h => by cases h) (nb_ask fun _ => nb_ask fun y => ?_))))
  change ℚ at y
  show NoBegin (if y > 150 then _ else _)
  split
  · exact nb_ret _
  · exact nb_act (fun _ _ h => by cases h) (nb_ask fun _ => nb_ret _)

theorem nb_windsock (b : Bool) (s : State) : NoBegin (windsock b s) := by
  unfold windsock
  exact nb_must (fun _ _ h => by cases h) (nb_must (fun _ _ h => by cases h) (nb_must (fun _ _ h => by cases h) (nb_must (fun _ _ h => by cases h) (nb_ret _))))

theorem nb_pickup (s : State) : NoBegin (pickup s) := by
  unfold pickup
  exact nb_must (fun _ _ h => by cases h) (nb_must (fun _ _ h => by cases h) (nb_act (fun _ _ h => by cases h) (nb_must (fun _ _ h => by cases h) (nb_act (fun _ _ h => by cases h)
    (nb_must (fun _ _ h => by cases h) (nb_ret _))))))

theorem execute_begins {i : Nat} {a : Goap.Action State} {s : State} (ha : Strategy.actions[i]? = some a) (hr : a.canRun s = true) {h0 : List Event} (hc : Checked h0) {l : List Event}
    {r : Option (State × Bool)} (h : Exec (execute i s) l r) : Begins h0 l := by
  unfold execute at h
  rcases exec_act h with ⟨rfl, -⟩ | ⟨l', rfl, h'⟩
  · trivial
  · refine ⟨fun j t he => ?_, ?_⟩
    · cases he
      exact ⟨hc, a, ha, hr⟩
    · match i, h' with
      | 0, h' => exact nb_begins (nb_lighthouse s) h' _
      | 1, h' => exact nb_begins (nb_windsock _ s) h' _
      | 2, h' => exact nb_begins (nb_windsock _ s) h' _
      | n + 3, h' => exact nb_begins (nb_pickup s) h' _

theorem ended_exec {k : Bool → Prog α} {l : List Event} {r : Option α} (h : Exec (ended k) l r) :
    l = [] ∨ ∃ start now l', l = .saw .ended (start, now) :: l' ∧ Exec (k (gameHasEnded start now)) l' r := by
  unfold ended at h
  rcases exec_ask h with ⟨h, -⟩ | ⟨⟨start, now⟩, l1, rfl, h1⟩
  · exact .inl h
  · exact .inr ⟨start, now, l1, rfl, h1⟩

theorem perform_begins {path : List (Option Nat)} {s s' : State} (hp : Executes Strategy.actions s path s') {h0 : List Event} (hc : Checked h0) {l : List Event} {r : Option State}
    (h : Exec (perform path s) l r) : Begins h0 l := by
  induction hp generalizing h0 l with
  | nil =>
    unfold perform at h
    obtain ⟨rfl, -⟩ := exec_ret h
    trivial
  | @cons s i a path s' ha hr _ ih =>
    unfold perform at h
    rcases exec_bind h with ⟨-, h1⟩ | ⟨l1, l2, ⟨t, ok⟩, rfl, h1, h2⟩
    · exact execute_begins ha hr hc h1
    · refine begins_append.mpr ⟨execute_begins ha hr hc h1, ?_⟩
      obtain ⟨⟨o, ho⟩, -⟩ := execute_full h1
      have ht := (Strategy.execute_spec ha (o := o) hr).1
      rw [← ho] at ht
      cases ok with
      | false =>
        obtain ⟨rfl, -⟩ := exec_ret h2
        trivial
      | true =>
        have ht : t = a.effects s := ht rfl
        subst ht
        have h2 : Exec (ended fun e => if e then .ret (a.effects s) else perform path (a.effects s)) l2 r := h2
        rcases ended_exec h2 with rfl | ⟨start, now, l3, rfl, h3⟩
        · trivial
        · refine ⟨(fun _ _ h => by cases h), ?_⟩
          cases he : gameHasEnded start now with
          | true =>
            rw [he] at h3
            obtain ⟨rfl, -⟩ := exec_ret h3
            trivial
          | false =>
            rw [he] at h3
            exact ih ⟨h0 ++ l1, start, now, [], rfl, he, .inl rfl⟩ h3

theorem passes_begins {gs : List Goal} {s : State} {h0 : List Event} {start : Option Int} {now : Int} (hc : gameHasEnded start now = false) {l : List Event} {r : Option State}
    (h : Exec (passes gs s) l r) (hok : ∀ e ∈ l, e.Ok) : Begins (h0 ++ [.saw .ended (start, now)]) l := by
  induction gs generalizing s h0 start now l with
  | nil =>
    unfold passes at h
    obtain ⟨rfl, -⟩ := exec_ret h
    trivial
  | cons g gs ih =>
    unfold passes at h
    rcases exec_ask h with ⟨rfl, -⟩ | ⟨path, l1, rfl, h1⟩
    · trivial
    · refine ⟨(fun _ _ h => by cases h), ?_⟩
      obtain ⟨pool, r', k1, k2⟩ : ∃ pool r, Goap.plan Strategy.SPACE_SIZE g.problem Strategy.MAX_PATH_LEN (Strategy.SPACE_SIZE + 2) pool s = .ok r ∧ path = r.path :=
        hok _ (List.mem_cons_self ..)
      subst k2
      obtain ⟨r'', k3, -, -, -, s', k4, -⟩ := Strategy.plan_always g pool s
      rw [k1] at k3
      cases k3
      have hck : Checked (h0 ++ [.saw .ended (start, now)] ++ [.saw (.plan g s) r'.path]) :=
        ⟨h0, start, now, [.saw (.plan g s) r'.path], by simp, hc, .inr ⟨g, s, r'.path, rfl⟩⟩
      rcases exec_bind h1 with ⟨-, h2⟩ | ⟨l2, l3, t, rfl, h2, h3⟩
      · exact perform_begins k4 hck h2
      · refine begins_append.mpr ⟨perform_begins k4 hck h2, ?_⟩
        rcases ended_exec h3 with rfl | ⟨st, nw, l4, rfl, h4⟩
        · trivial
        · refine ⟨(fun _ _ h => by cases h), ?_⟩
          cases he : gameHasEnded st nw with
          | true =>
            rw [he] at h4
            obtain ⟨rfl, -⟩ := exec_ret h4
            trivial
          | false =>
            rw [he] at h4
            exact ih he h4 (fun e he => hok e (by simp [he]))

theorem rounds_begins {fuel : Nat} {s : State} {h0 l : List Event} {r : Option (Option State)} (h : Exec (rounds fuel s) l r) (hok : ∀ e ∈ l, e.Ok) : Begins h0 l := by
  induction fuel generalizing s h0 l with
  | zero =>
    unfold rounds at h
    obtain ⟨rfl, -⟩ := exec_ret h
    trivial
  | succ fuel ih =>
    unfold rounds at h
    rcases ended_exec h with rfl | ⟨st, nw, l1, rfl, h1⟩
    · trivial
    · refine ⟨(fun _ _ h => by cases h), ?_⟩
      cases he : gameHasEnded st nw with
      | true =>
        rw [he] at h1
        obtain ⟨rfl, -⟩ := exec_ret h1
        trivial
      | false =>
        rw [he] at h1
        rcases exec_bind h1 with ⟨-, h2⟩ | ⟨l2, l3, t, rfl, h2, h3⟩
        · exact passes_begins he h2 (fun e he => hok e (by simp [he]))
        · exact begins_append.mpr ⟨passes_begins he h2 (fun e he => hok e (by simp [he])), ih h3 (fun e he => hok e (by simp [he]))⟩

theorem play_begins {fuel : Nat} {s : State} {l : List Event} {r : Option (Option State)} (h : Exec (play fuel s) l r) (hok : ∀ e ∈ l, e.Ok) : Begins [] l := by
  unfold play at h
  rcases exec_bind h with ⟨-, h1⟩ | ⟨l1, l2, r', rfl, h1, h2⟩
  · exact rounds_begins h1 hok
  · obtain ⟨rfl, -⟩ := exec_ret h2
    rw [List.append_nil] at hok ⊢
    exact rounds_begins h1 hok

/-- C84: whenever an action begins, at any time of the match, its condition holds. -/
theorem begin_canRun {fuel : Nat} {s : State} {l1 l2 : List Event} {i : Nat} {t : State} {r : Option (Option State)} (h : Exec (play fuel s) (l1 ++ .did (.begin i t) :: l2) r)
    (hok : ∀ e ∈ l1 ++ .did (.begin i t) :: l2, e.Ok) : ∃ a, Strategy.actions[i]? = some a ∧ a.canRun t = true :=
  (begins_at (play_begins h hok)).2

theorem over_iff {start now : Int} (h0 : start ≤ now) (h1 : now < start + 2147483647000000000) : gameHasEnded (some start) now = true ↔ over start now := by
  have := (Base.game_time h0 (Int.le_refl now) (by omega)).2.2.2.2
  rw [this]
  unfold over
  omega

theorem times_append (a b : List Event) : (a ++ b).filterMap Event.time = a.filterMap Event.time ++ b.filterMap Event.time := List.filterMap_append

/-- C84: no action begins after something was seen at a time when the match was over. -/
theorem begin_in_time {fuel : Nat} {s : State} {l1 l2 : List Event} {i : Nat} {t : State} {r : Option (Option State)} (h : Exec (play fuel s) (l1 ++ .did (.begin i t) :: l2) r)
    (hok : ∀ e ∈ l1 ++ .did (.begin i t) :: l2, e.Ok) {start : Int} (hclock : Clock start (l1 ++ .did (.begin i t) :: l2)) :
    ∀ x ∈ l1.filterMap Event.time, ¬ over start x := by
  obtain ⟨⟨h0, st, now, tl, he, hg, htl⟩, -⟩ := begins_at (play_begins h hok)
  rw [List.nil_append] at he
  subst he
  have hst : st = some start := hclock.ended st now (by simp)
  subst hst
  have e1 : tl.filterMap Event.time = [] := by
    rcases htl with rfl | ⟨g, s, path, rfl⟩ <;> rfl
  have e2 : (h0 ++ .saw .ended (some start, now) :: tl).filterMap Event.time = h0.filterMap Event.time ++ [now] := by
    rw [times_append]
    show _ ++ now :: tl.filterMap Event.time = _
    rw [e1]
  have hr := hclock.range now (by
    rw [times_append, e2]; simp)
  have hn : ¬ over start now := by
    rw [← over_iff hr.1 hr.2, hg]; simp
  have hm := hclock.mono
  rw [times_append, e2] at hm
  intro x hx
  rw [e2] at hx
  rcases List.mem_append.mp hx with hx | hx
  · have := (List.pairwise_append.mp (List.pairwise_append.mp hm).1).2.2 x hx now (by simp)
    unfold over at hn ⊢
    omega
  · rw [List.mem_singleton.mp hx]; exact hn

/-! ### After the end -/

/-- Programs that do not move the robot any more once every look at the time shows the end of the match -/
def Settled (p : Prog α) : Prop := ∀ l r, Exec p l r → (∀ start now, .saw .ended (start, now) ∈ l → gameHasEnded start now = true) → movements l = []

/-- Programs that make at most the one movement after a movement was ended by the end of the match -/
def Fine (p : Prog α) : Prop :=
  ∀ l1 f q l2 r, Exec p (l1 ++ .saw (.wait f) q :: l2) r → (∀ start now, .saw .ended (start, now) ∈ l2 → gameHasEnded start now = true) → q.reason = TIMER →
    movements l2 <+: [.forward (-200)]

theorem fine_ret (a : α) : Fine (.ret a) := by
  intro l1 f q l2 r h
  have := (exec_ret h).1
  simp at this

theorem fine_act {c : Cmd} {k : Prog α} (hk : Fine k) : Fine (.act c k) := by
  intro l1 f q l2 r h hend ht
  rcases exec_act h with ⟨h1, -⟩ | ⟨l', h1, h'⟩
  · simp at h1
  · cases l1 with
    | nil => cases h1
    | cons e l1 =>
      rw [List.cons_append] at h1
      have := (List.cons.inj h1).2
      subst this
      exact hk l1 f q l2 r h' hend ht

theorem fine_ask {q : Query} {k : q.Ans → Prog α} (hq : ∀ f, q ≠ .wait f) (hk : ∀ a, Fine (k a)) : Fine (.ask q k) := by
  intro l1 f p l2 r h hend ht
  rcases exec_ask h with ⟨h1, -⟩ | ⟨a, l', h1, h'⟩
  · simp at h1
  · cases l1 with
    | nil =>
      have := (List.cons.inj h1).1
      cases this
      exact absurd rfl (hq f)
    | cons e l1 =>
      rw [List.cons_append] at h1
      have := (List.cons.inj h1).2
      subst this
      exact hk a l1 f p l2 r h' hend ht

theorem fine_wait {f : BitVec 32} {k : Poll → Prog α} (hk : ∀ a, Fine (k a)) (ht : ∀ e : Poll, e.reason = TIMER → ∀ l r, Exec (k e) l r → movements l <+: [.forward (-200)]) :
    Fine (.ask (.wait f) k) := by
  intro l1 f p l2 r h hend hr
  rcases exec_ask h with ⟨h1, -⟩ | ⟨a, l', h1, h'⟩
  · simp at h1
  · cases l1 with
    | nil =>
      cases h1
      exact ht _ hr _ r h'
    | cons e l1 =>
      rw [List.cons_append] at h1
      have := (List.cons.inj h1).2
      subst this
      exact hk a l1 _ p l2 r h' hend hr

theorem fine_bind {p : Prog α} {f : α → Prog β} (hp : Fine p) (hf : ∀ a, Fine (f a)) (hs : ∀ a, Settled (f a)) : Fine (p.bind f) := by
  intro l1 w q l2 r h hend ht
  rcases exec_bind h with ⟨-, h1⟩ | ⟨la, lb, a, h1, h2, h3⟩
  · exact hp l1 w q l2 none h1 hend ht
  · rcases List.append_eq_append_iff.mp h1 with ⟨a', e1, e2⟩ | ⟨c', e1, e2⟩
    · cases a' with
      | nil =>
        rw [List.nil_append] at e2
        subst e2
        exact hf a [] w q l2 r h3 hend ht
      | cons x a' =>
        rw [List.cons_append] at e2
        obtain ⟨rfl, rfl⟩ := List.cons.inj e2
        subst e1
        rw [movements_append, hs a lb r h3 (fun s n hm => hend s n (List.mem_append_right _ hm)), List.append_nil]
        exact hp l1 w q a' (some a) h2 (fun s n hm => hend s n (List.mem_append_left _ hm)) ht
    · subst e2
      exact hf a c' w q l2 r h3 hend ht

theorem fine_must {c : Cmd} {s : State} {k : Prog (State × Bool)} (hk : Fine k) : Fine (must c s k) := by
  unfold must
  refine fine_act (fine_wait (fun e => ?_) fun e he l r h => ?_)
  · by_cases h : e.reason ≠ GOAL_REACHED
    · rw [if_pos h]; exact fine_ret _
    · rw [if_neg h]; exact hk
  · rw [if_pos (by rw [he]; decide)] at h
    obtain ⟨rfl, -⟩ := exec_ret h
    exact List.nil_prefix

theorem back_moves {f : BitVec 32} {x : State × Bool} {l : List Event} {r : Option (State × Bool)}
    (h : Exec (.act (.forward (-200)) (.ask (.wait f) fun _ => .ret x)) l r) : movements l <+: [.forward (-200)] := by
  rcases exec_act h with ⟨rfl, -⟩ | ⟨l1, rfl, h1⟩
  · exact List.nil_prefix
  · rcases exec_ask h1 with ⟨rfl, -⟩ | ⟨a, l2, rfl, h2⟩
    · exact List.prefix_rfl
    · obtain ⟨rfl, -⟩ := exec_ret h2
      exact List.prefix_rfl

theorem fine_execute (i : Nat) (s : State) : Fine (execute i s) := by
  unfold execute
  refine fine_act ?_
  match i with
  | 0 =>
    unfold lighthouse
    refine fine_must (fine_must (fine_must (fine_act (fine_wait (fun _ => fine_ask (fun _ h => by cases h) fun y => ?_) fun e he l r h => ?_))))
    · change ℚ at y
      show Fine (if y > 150 then _ else _)
      split
      · exact fine_ret _
      · refine fine_act (fine_wait (fun _ => fine_ret _) fun e _ l r h => ?_)
        obtain ⟨rfl, -⟩ := exec_ret h
        exact List.nil_prefix
    · rcases exec_ask h with ⟨rfl, -⟩ | ⟨y, l1, rfl, h1⟩
      · exact List.nil_prefix
      · change ℚ at y
        have h1 : Exec (if y > 150 then _ else _) l1 r := h1
        show movements l1 <+: _
        by_cases hy : y > 150
        · rw [if_pos hy] at h1
          obtain ⟨rfl, -⟩ := exec_ret h1
          exact List.nil_prefix
        · rw [if_neg hy] at h1
          exact back_moves h1
  | 1 => exact fine_must (fine_must (fine_must (fine_must (fine_ret _))))
  | 2 => exact fine_must (fine_must (fine_must (fine_must (fine_ret _))))
  | n + 3 => exact fine_must (fine_must (fine_act (fine_must (fine_act (fine_must (fine_ret _))))))

theorem settled_ret (a : α) : Settled (.ret a) := by
  intro l r h _
  obtain ⟨rfl, -⟩ := exec_ret h
  rfl

theorem settled_ended {k : Bool → Prog α} (hk : Settled (k true)) : Settled (ended k) := by
  intro l r h he
  rcases ended_exec h with rfl | ⟨start, now, l', rfl, h'⟩
  · rfl
  · rw [he start now (List.mem_cons_self ..)] at h'
    show movements l' = []
    exact hk l' r h' fun s n hm => he s n (List.mem_cons_of_mem _ hm)

theorem fine_ended {k : Bool → Prog α} (hk : ∀ b, Fine (k b)) : Fine (ended k) := fine_ask (fun _ h => by cases h) fun (_, _) => hk _

theorem fine_perform (path : List (Option Nat)) (s : State) : Fine (perform path s) := by
  induction path generalizing s with
  | nil => exact fine_ret _
  | cons x path ih =>
    cases x with
    | none => exact ih s
    | some i =>
      refine fine_bind (fine_execute i s) (fun (t, ok) => ?_) (fun (t, ok) => ?_)
      · cases ok
        · exact fine_ret _
        · show Fine (ended fun e => if e then .ret t else perform path t)
          refine fine_ended fun b => ?_
          cases b
          · exact ih t
          · exact fine_ret _
      · cases ok
        · exact settled_ret _
        · show Settled (ended fun e => if e then .ret t else perform path t)
          exact settled_ended (settled_ret _)

theorem fine_passes (gs : List Goal) (s : State) : Fine (passes gs s) := by
  induction gs generalizing s with
  | nil => exact fine_ret _
  | cons g gs ih =>
    refine fine_ask (fun _ h => by cases h) fun path => fine_bind (fine_perform path s) (fun t => fine_ended fun b => ?_) (fun t => settled_ended (settled_ret _))
    cases b
    · exact ih t
    · exact fine_ret _

theorem settled_rounds (fuel : Nat) (s : State) : Settled (rounds fuel s) := by
  cases fuel with
  | zero => exact settled_ret _
  | succ fuel => exact settled_ended (settled_ret _)

theorem fine_rounds (fuel : Nat) (s : State) : Fine (rounds fuel s) := by
  induction fuel generalizing s with
  | zero => exact fine_ret _
  | succ fuel ih =>
    refine fine_ended fun b => ?_
    cases b
    · exact fine_bind (fine_passes _ s) ih (settled_rounds fuel)
    · exact fine_ret _

/-- C84: once a movement was ended by the end of the match, the robot is commanded at most one more movement: 200 mm back from the lighthouse. Missing for the full property: none at
all, which is false, see `lighthouse_after_end`. -/
theorem after_timer_partial {fuel : Nat} {s : State} {l1 l2 : List Event} {f : BitVec 32} {q : Poll} {r : Option (Option State)}
    (h : Exec (play fuel s) (l1 ++ .saw (.wait f) q :: l2) r) (hok : (Event.saw (.wait f) q).Ok) {start : Int} (hclock : Clock start (l1 ++ .saw (.wait f) q :: l2)) (ht : q.reason = TIMER) :
    movements l2 = [] ∨ movements l2 = [.forward (-200)] := by
  have hover : over start q.now := by
    obtain ⟨h0, r', h⟩ := hok
    obtain ⟨-, h⟩ := (Base.hasEnded_partial h).1 h0
    rw [ht] at h
    have hg := hclock.polls f q (by simp)
    have hr := hclock.range q.now (by
      rw [times_append]; exact List.mem_append_right _ (List.mem_cons_self ..))
    rcases h with ⟨h, -⟩ | ⟨h, -⟩ | ⟨h, -⟩ | ⟨-, h⟩
    · exact absurd h (by decide)
    · exact absurd h (by decide)
    · exact absurd h (by decide)
    · exact (over_iff hr.1 hr.2).mp ((Base.gameHasEnded_iff _ _).mpr (by rw [← hg]; exact h))
  have hend : ∀ s now, .saw .ended (s, now) ∈ l2 → gameHasEnded s now = true := by
    intro s now hm
    have hs : s = some start := hclock.ended s now (by simp [hm])
    subst hs
    have hin : now ∈ l2.filterMap Event.time := List.mem_filterMap.mpr ⟨_, hm, rfl⟩
    have hmono := hclock.mono
    have hr := hclock.range now (by
      rw [times_append]; exact List.mem_append_right _ (List.mem_cons_of_mem _ hin))
    rw [times_append] at hmono
    have h2 : (q.now :: l2.filterMap Event.time).Pairwise (· ≤ ·) := (List.pairwise_append.mp hmono).2.1
    have := (List.pairwise_cons.mp h2).1 now hin
    rw [over_iff hr.1 hr.2]
    unfold over at hover ⊢
    omega
  have key : movements l2 <+: [.forward (-200)] := by
    unfold play at h
    exact fine_bind (fine_rounds fuel s) (fun _ => fine_ret _) (fun _ => settled_ret _) l1 f q l2 r h hend ht
  obtain ⟨t, ht⟩ := key
  cases hm : movements l2 with
  | nil => exact .inl rfl
  | cons c m =>
    rw [hm] at ht
    obtain ⟨rfl, h2⟩ := List.cons.inj ht
    obtain ⟨rfl, -⟩ := List.append_eq_nil_iff.mp h2
    exact .inr rfl

/-! ### Movements are waited for -/

/-- Every movement is followed by waiting for its end. -/
def Waits (p : Prog α) : Prop :=
  ∀ l1 c l2 r, Exec p (l1 ++ .did c :: l2) r → c.Moves = true → (l2 = [] ∧ r = none) ∨ ∃ f e l3, l2 = .saw (.wait f) e :: l3 ∧ (f = FLAGS_ALL ∨ f = FLAGS_SHORT_DISTANCE)

theorem waits_ret (a : α) : Waits (.ret a) := by
  intro l1 f l2 r h
  have := (exec_ret h).1
  simp at this

theorem waits_act {c : Cmd} {k : Prog α} (hc : c.Moves = false) (hk : Waits k) : Waits (.act c k) := by
  intro l1 d l2 r h hd
  rcases exec_act h with ⟨h1, -⟩ | ⟨l', h1, h'⟩
  · simp at h1
  · cases l1 with
    | nil => cases h1; rw [hc] at hd; cases hd
    | cons e l1 =>
      rw [List.cons_append] at h1
      have := (List.cons.inj h1).2
      subst this
      exact hk l1 d l2 r h' hd

theorem waits_ask {q : Query} {k : q.Ans → Prog α} (hk : ∀ a, Waits (k a)) : Waits (.ask q k) := by
  intro l1 d l2 r h hd
  rcases exec_ask h with ⟨h1, -⟩ | ⟨a, l', h1, h'⟩
  · simp at h1
  · cases l1 with
    | nil => cases h1
    | cons e l1 =>
      rw [List.cons_append] at h1
      have := (List.cons.inj h1).2
      subst this
      exact hk a l1 d l2 r h' hd

theorem waits_move {c : Cmd} {f : BitVec 32} {k : Poll → Prog α} (hf : f = FLAGS_ALL ∨ f = FLAGS_SHORT_DISTANCE) (hk : ∀ a, Waits (k a)) : Waits (.act c (.ask (.wait f) k)) := by
  intro l1 d l2 r h hd
  rcases exec_act h with ⟨h1, -⟩ | ⟨l', h1, h'⟩
  · simp at h1
  · cases l1 with
    | nil =>
      obtain ⟨-, rfl⟩ := List.cons.inj h1
      rcases exec_ask h' with ⟨rfl, rfl⟩ | ⟨a, l3, rfl, -⟩
      · exact .inl ⟨rfl, rfl⟩
      · exact .inr ⟨f, a, l3, rfl, hf⟩
    | cons e l1 =>
      rw [List.cons_append] at h1
      have := (List.cons.inj h1).2
      subst this
      exact waits_ask (q := .wait f) hk l1 d l2 r h' hd

theorem waits_bind {p : Prog α} {f : α → Prog β} (hp : Waits p) (hf : ∀ a, Waits (f a)) : Waits (p.bind f) := by
  intro l1 c l2 r h hc
  rcases exec_bind h with ⟨rfl, h1⟩ | ⟨la, lb, a, h1, h2, h3⟩
  · exact (hp l1 c l2 none h1 hc).imp (fun h => ⟨h.1, rfl⟩) id
  · rcases List.append_eq_append_iff.mp h1 with ⟨a', e1, e2⟩ | ⟨c', e1, e2⟩
    · cases a' with
      | nil =>
        rw [List.nil_append] at e2
        subst e2
        exact hf a [] c l2 r h3 hc
      | cons x a' =>
        rw [List.cons_append] at e2
        obtain ⟨rfl, rfl⟩ := List.cons.inj e2
        subst e1
        rcases hp l1 c a' (some a) h2 hc with ⟨-, h⟩ | ⟨f, e, l3, rfl, hf⟩
        · cases h
        · exact .inr ⟨f, e, l3 ++ lb, rfl, hf⟩
    · subst e2
      exact hf a c' c l2 r h3 hc

theorem waits_must {c : Cmd} {s : State} {k : Prog (State × Bool)} (hk : Waits k) : Waits (must c s k) := by
  refine waits_move (.inl rfl) fun e => ?_
  split
  · exact waits_ret _
  · exact hk

theorem waits_execute (i : Nat) (s : State) : Waits (execute i s) := by
  unfold execute
  refine waits_act rfl ?_
  match i with
  | 0 =>
    refine waits_must (waits_must (waits_must (waits_move (.inr rfl) fun _ => waits_ask fun y => ?_)))
    change ℚ at y
    show Waits (if y > 150 then _ else _)
    split
    · exact waits_ret _
    · exact waits_move (.inr rfl) fun _ => waits_ret _
  | 1 => exact waits_must (waits_must (waits_must (waits_must (waits_ret _))))
  | 2 => exact waits_must (waits_must (waits_must (waits_must (waits_ret _))))
  | n + 3 => exact waits_must (waits_must (waits_act rfl (waits_must (waits_act rfl (waits_must (waits_ret _))))))

theorem waits_perform (path : List (Option Nat)) (s : State) : Waits (perform path s) := by
  induction path generalizing s with
  | nil => exact waits_ret _
  | cons x path ih =>
    cases x with
    | none => exact ih s
    | some i =>
      refine waits_bind (waits_execute i s) (fun (t, ok) => ?_)
      cases ok
      · exact waits_ret _
      · refine waits_ask fun (_, _) => ?_
        show Waits (if _ then _ else _)
        split
        · exact waits_ret _
        · exact ih t

theorem waits_passes (gs : List Goal) (s : State) : Waits (passes gs s) := by
  induction gs generalizing s with
  | nil => exact waits_ret _
  | cons g gs ih =>
    refine waits_ask fun path => waits_bind (waits_perform path s) fun t => waits_ask fun (_, _) => ?_
    show Waits (if _ then _ else _)
    split
    · exact waits_ret _
    · exact ih t

theorem waits_rounds (fuel : Nat) (s : State) : Waits (rounds fuel s) := by
  induction fuel generalizing s with
  | zero => exact waits_ret _
  | succ fuel ih =>
    refine waits_ask fun (_, _) => ?_
    show Waits (if _ then _ else _)
    split
    · exact waits_ret _
    · exact waits_bind (waits_passes _ s) ih

/-- C84: no command is given, nothing is decided and the match is not left while a movement goes on: after each movement, its end is waited for. It has reached its goal, or was ended by
a collision or the end of the match. -/
theorem moves_end {fuel : Nat} {s : State} {l1 l2 : List Event} {c : Cmd} {r : Option (Option State)} (h : Exec (play fuel s) (l1 ++ .did c :: l2) r) (hc : c.Moves = true)
    (hok : ∀ e ∈ l2, e.Ok) :
    (l2 = [] ∧ r = none) ∨ ∃ f e l3, l2 = .saw (.wait f) e :: l3 ∧ (e.reason = GOAL_REACHED ∨ e.reason = COLLISION ∨ e.reason = TIMER) := by
  have := waits_bind (waits_rounds fuel s) (fun _ => waits_ret _) l1 c l2 r h hc
  rcases this with h | ⟨f, e, l3, rfl, hf⟩
  · exact .inl h
  · refine .inr ⟨f, e, l3, rfl, ?_⟩
    obtain ⟨h1, h2⟩ := reason_of (hok _ (List.mem_cons_self ..))
    rcases h2 with h2 | h2 | h2 | h2
    · exact .inl h2
    · rw [h2] at h1
      rcases hf with rfl | rfl
      · exact absurd rfl h1
      · exact absurd rfl h1
    · exact .inr (.inl h2)
    · exact .inr (.inr h2)

/-! ### Examples and findings -/

/-- The plan for the lighthouse -/
theorem plan_lighthouse : (Event.saw (.plan .lighthouseEnabled Strategy.initial) [some 0]).Ok := by
  let pool : Goap.Heap State := fun _ => ⟨0, 0, Strategy.initial, none, none, none⟩
  have h : (match Goap.plan Strategy.SPACE_SIZE Goal.lighthouseEnabled.problem Strategy.MAX_PATH_LEN (Strategy.SPACE_SIZE + 2) pool Strategy.initial with
      | .ok r => decide (r.path = [some 0]) | .error _ => false) = true := by decide +kernel
  refine ⟨pool, ?_⟩
  revert h
  generalize Goap.plan Strategy.SPACE_SIZE Goal.lighthouseEnabled.problem Strategy.MAX_PATH_LEN (Strategy.SPACE_SIZE + 2) pool Strategy.initial = x
  intro h
  match x with
  | .ok r => exact ⟨r, rfl, (of_decide_eq_true h).symm⟩
  | .error _ => cases h

/-- At 1 s the match goes on, three movements arrive at 5 s, the fourth one is ended by the end of the match. -/
def upToEnd : List Event :=
  [.saw .ended (some 0, 1000000000), .saw (.plan .lighthouseEnabled Strategy.initial) [some 0], .did (.begin 0 Strategy.initial), .did (.gotoForward ⟨525, 300⟩), .saw (.wait FLAGS_ALL) early,
    .did (.gotoBackward ⟨225, 400⟩), .saw (.wait FLAGS_ALL) early, .did (.turnTo (-90)), .saw (.wait FLAGS_ALL) early, .did (.forward 300)]

/-- The robot is close to the wall, goes back, and the match is over. -/
def afterEnd : List Event :=
  [.saw .y (100 : ℚ), .did (.forward (-200)), .saw (.wait FLAGS_SHORT_DISTANCE) late, .saw .ended (some 0, 101000000000), .saw .ended (some 0, 101000000000), .saw .ended (some 0, 101000000000)]

theorem end_clock : Clock 0 (upToEnd ++ .saw (.wait FLAGS_SHORT_DISTANCE) late :: afterEnd) := by
  have ht : (upToEnd ++ .saw (.wait FLAGS_SHORT_DISTANCE) late :: afterEnd).filterMap Event.time =
    [1000000000, 5000000000, 5000000000, 5000000000, 100000000000, 100000000000, 101000000000, 101000000000, 101000000000] := rfl
  constructor
  · intro f p hm
    simp only [upToEnd, afterEnd, List.cons_append, List.nil_append, List.mem_cons, List.not_mem_nil, or_false, reduceCtorEq, false_or] at hm
    rcases hm with hm | hm | hm | hm | hm | hm | hm | hm | hm | hm | hm <;> cases hm <;> rfl
  · intro s now hm
    simp only [upToEnd, afterEnd, List.cons_append, List.nil_append, List.mem_cons, List.not_mem_nil, or_false, reduceCtorEq, false_or] at hm
    rcases hm with hm | hm | hm | hm | hm | hm | hm | hm | hm | hm | hm <;> cases hm <;> rfl
  · rw [ht]; decide
  · rw [ht]; decide

/-- C84, the end of the match: at the lighthouse the robot moves on after the end of the match was noticed. The execution meets the hypotheses of `play_full`, `begin_in_time`,
`after_timer_partial` and `moves_end`. -/
theorem lighthouse_after_end : ∃ s', Exec (play 2 Strategy.initial) (upToEnd ++ .saw (.wait FLAGS_SHORT_DISTANCE) late :: afterEnd) (some (some s')) ∧
    (∀ e ∈ upToEnd ++ .saw (.wait FLAGS_SHORT_DISTANCE) late :: afterEnd, e.Ok) ∧ Clock 0 (upToEnd ++ .saw (.wait FLAGS_SHORT_DISTANCE) late :: afterEnd) ∧
    late.reason = TIMER ∧ movements afterEnd = [.forward (-200)] ∧ s'.lighthouse = true := by
  refine ⟨{ Strategy.initial with
      lighthouse := true
      robot := { Strategy.initial.robot with flagsDeployed := { Strategy.initial.robot.flagsDeployed with val := true } } }, ?_, ?_, end_clock, rfl, rfl, rfl⟩
  · refine .ask (.ask (.act (.act (.ask (.act (.ask (.act (.ask (.act (.ask (.ask ?_)))))))))))
    refine .act (.ask (.ask (.ask (.ask ?_))))
    exact .ret _
  · intro e he
    simp only [upToEnd, afterEnd, List.cons_append, List.nil_append, List.mem_cons, List.not_mem_nil, or_false] at he
    rcases he with rfl | rfl | rfl | rfl | rfl | rfl | rfl | rfl | rfl | rfl | rfl | rfl | rfl | rfl | rfl | rfl | rfl
    case inr.inl => exact plan_lighthouse
    case inr.inr.inr.inr.inl => exact early_ok _ (by decide)
    case inr.inr.inr.inr.inr.inr.inl => exact early_ok _ (by decide)
    case inr.inr.inr.inr.inr.inr.inr.inr.inl => exact early_ok _ (by decide)
    case inr.inr.inr.inr.inr.inr.inr.inr.inr.inr.inl => exact late_ok _ (by decide) (by decide)
    case inr.inr.inr.inr.inr.inr.inr.inr.inr.inr.inr.inr.inr.inl => exact late_ok _ (by decide) (by decide)
    all_goals trivial

/-- Arrived, but only after the end of the match -/
def tooLate : Poll := ⟨arrived, 100500000000, GOAL_REACHED⟩

/-- C84, the end of the match: that a movement has reached its goal is reported in preference to the end of the match, and then the next one is commanded. -/
theorem move_after_end : ∃ l1 l2, Exec (play 2 Strategy.initial) (l1 ++ l2) none ∧ (∀ e ∈ l1 ++ l2, e.Ok) ∧ Clock 0 (l1 ++ l2) ∧
    (∃ t ∈ l1.filterMap Event.time, over 0 t) ∧ movements l2 = [.gotoBackward ⟨225, 400⟩] := by
  refine ⟨[.saw .ended (some 0, 1000000000), .saw (.plan .lighthouseEnabled Strategy.initial) [some 0], .did (.begin 0 Strategy.initial), .did (.gotoForward ⟨525, 300⟩),
    .saw (.wait FLAGS_ALL) tooLate], [.did (.gotoBackward ⟨225, 400⟩)], ?_, ?_, ?_, ⟨100500000000, by decide, by unfold over; decide⟩, rfl⟩
  · exact .ask (.ask (.act (.act (.ask (.act (.cut _))))))
  · intro e he
    simp only [List.cons_append, List.nil_append, List.mem_cons, List.not_mem_nil, or_false] at he
    rcases he with rfl | rfl | rfl | rfl | rfl | rfl
    case inr.inl => exact plan_lighthouse
    case inr.inr.inr.inr.inl =>
      refine ⟨by decide, arrived, ?_⟩
      show arrived.hasEnded FLAGS_ALL 100500000000 = some (GOAL_REACHED, arrived)
      unfold Base.Robot.hasEnded
      rw [if_pos ⟨by decide, by decide +kernel⟩]
    all_goals trivial
  · constructor
    · intro f p hm
      simp only [List.cons_append, List.nil_append, List.mem_cons, List.not_mem_nil, or_false, reduceCtorEq, false_or] at hm
      rcases hm with hm | hm | hm <;> cases hm
      rfl
    · intro s now hm
      simp only [List.cons_append, List.nil_append, List.mem_cons, List.not_mem_nil, or_false, reduceCtorEq, false_or] at hm
      rcases hm with hm | hm | hm <;> cases hm
      rfl
    · show [1000000000, 100500000000].Pairwise (· ≤ ·)
      decide
    · show ∀ t ∈ [1000000000, 100500000000], _
      decide

end Verif.Match
