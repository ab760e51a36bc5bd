import Verif.Match.Lemmas
import Verif.Plan.Props
import Verif.Base.Commands

/-!
# Going somewhere around obstacles: properties
-/

namespace Verif.Match

open Geom (P InRange)
open Base (GOAL_REACHED COLLISION OPPONENT_NEAR TIMER ALLY_NEAR NEAR_GOAL)

/-! ## Waypoints -/

/-- Waypoints that were commanded, each followed by the end of the movement -/
def visits : List (P × BitVec 32 × Poll) → List Event
  | [] => []
  | (p, f, e) :: l => .did (.gotoXy p) :: .saw (.wait f) e :: visits l

theorem visits_append (a b : List (P × BitVec 32 × Poll)) : visits (a ++ b) = visits a ++ visits b := by
  induction a with
  | nil => rfl
  | cons x a ih => obtain ⟨p, f, e⟩ := x; simp only [List.cons_append, visits, ih]

theorem visits_movements (a : List (P × BitVec 32 × Poll)) : movements (visits a) = a.map fun x => .gotoXy x.1 := by
  induction a with
  | nil => rfl
  | cons x a ih =>
    obtain ⟨p, f, e⟩ := x
    rw [List.map_cons, ← ih]
    rfl

theorem visits_commands (a : List (P × BitVec 32 × Poll)) : commands (visits a) = a.map fun x => .gotoXy x.1 := by
  induction a with
  | nil => rfl
  | cons x a ih =>
    obtain ⟨p, f, e⟩ := x
    rw [List.map_cons, ← ih]
    rfl

theorem visits_polls (a : List (P × BitVec 32 × Poll)) : polls (visits a) = a.map fun x => x.2 := by
  induction a with
  | nil => rfl
  | cons x a ih =>
    obtain ⟨p, f, e⟩ := x
    rw [List.map_cons, ← ih]
    rfl

/-- The movement reached its goal or came near -/
def Good (e : Poll) : Prop := e.reason = GOAL_REACHED ∨ e.reason = NEAR_GOAL

/-- What is watched at a waypoint that is not the last one -/
def between (flags : BitVec 32) : BitVec 32 := flags ||| NEAR_GOAL

/-- Following a path that is not empty to its end, or until a movement did not come near its goal -/
theorem follow_full {flags : BitVec 32} {pts : List P} {r0 x : BitVec 32} {l : List Event} (hp : pts ≠ []) (h : Exec (follow flags pts r0) l (some x)) :
    ∃ vs p f e, l = visits (vs ++ [(p, f, e)]) ∧ x = e.reason ∧ (∀ v ∈ vs, v.2.1 = between flags ∧ Good v.2.2) ∧
      ((vs ++ [(p, f, e)]).map (·.1) = pts ∧ f = flags ∨ (vs ++ [(p, f, e)]).map (·.1) <+: pts ∧ f = between flags ∧ ¬Good e) := by
  induction pts generalizing r0 l with
  | nil => exact absurd rfl hp
  | cons p pts ih =>
    unfold follow at h
    stepAct l1
    stepAsk e l2
    by_cases hg : e.reason ≠ GOAL_REACHED ∧ e.reason ≠ NEAR_GOAL
    · rw [if_pos hg] at h
      stepRet
      have hng : ¬Good e := by rintro (h | h); exacts [hg.1 h, hg.2 h]
      by_cases hl : pts = []
      · rw [if_pos hl]
        subst hl
        exact ⟨[], p, flags, e, rfl, rfl, by simp, .inl ⟨rfl, rfl⟩⟩
      · rw [if_neg hl]
        exact ⟨[], p, between flags, e, rfl, rfl, by simp, .inr ⟨⟨pts, rfl⟩, rfl, hng⟩⟩
    · rw [if_neg hg] at h
      have hgood : Good e := by
        by_cases h1 : e.reason = GOAL_REACHED
        · exact .inl h1
        · exact .inr (Classical.byContradiction fun h2 => hg ⟨h1, h2⟩)
      by_cases hl : pts = []
      · rw [if_pos hl]
        subst hl
        unfold follow at h
        stepRet
        exact ⟨[], p, flags, e, rfl, rfl, by simp, .inl ⟨rfl, rfl⟩⟩
      · rw [if_neg hl]
        obtain ⟨vs, p', f', e', rfl, rfl, h3, h4⟩ := ih hl h
        refine ⟨(p, between flags, e) :: vs, p', f', e', rfl, rfl, ?_, ?_⟩
        · intro v hv
          rcases List.mem_cons.mp hv with rfl | hv
          · exact ⟨rfl, hgood⟩
          · exact h3 v hv
        · rcases h4 with ⟨h4, h5⟩ | ⟨h4, h5, h6⟩
          · exact .inl ⟨by rw [List.cons_append, List.map_cons, h4], h5⟩
          · refine .inr ⟨?_, h5, h6⟩
            obtain ⟨t, ht⟩ := h4
            exact ⟨t, by rw [List.cons_append, List.map_cons, List.cons_append, ht]⟩

/-- Following a path until any point -/
theorem follow_cut {flags : BitVec 32} {pts : List P} {r0 : BitVec 32} {l : List Event} {r : Option (BitVec 32)} (h : Exec (follow flags pts r0) l r) :
    commands l <+: pts.map .gotoXy := by
  induction pts generalizing r0 l with
  | nil => obtain ⟨rfl, -⟩ := exec_ret h; exact ⟨[], rfl⟩
  | cons p pts ih =>
    unfold follow at h
    rcases exec_act h with ⟨rfl, -⟩ | ⟨l1, rfl, h1⟩
    · exact ⟨_, rfl⟩
    · clear h
      rcases exec_ask h1 with ⟨rfl, -⟩ | ⟨e, l2, rfl, h⟩
      · exact ⟨pts.map .gotoXy, rfl⟩
      · have : commands l2 <+: pts.map .gotoXy := by
          split at h
          · obtain ⟨rfl, -⟩ := exec_ret h; exact ⟨_, rfl⟩
          · exact ih h
        obtain ⟨t, ht⟩ := this
        exact ⟨t, by rw [commands_did, commands_saw, List.map_cons, ← ht]; rfl⟩

/-! ## The parts of an execution -/

/-- The events of `strategy_stop_robot` and `strategy_hardstop_robot` -/
def halted (c : Cmd) : List Event := [.did c, .did (.sleep 200), .did (.mode .free), .did (.sleep 200), .did (.mode .angleDistance)]

theorem halt_full {α : Type} {c : Cmd} {k : Prog α} {l : List Event} {a : α} (h : Exec (halt c k) l (some a)) : ∃ l', l = halted c ++ l' ∧ Exec k l' (some a) := by
  unfold halt at h
  stepAct l'
  stepAct l'
  stepAct l'
  stepAct l'
  stepAct l'
  exact ⟨l', rfl, h⟩

set_option hygiene false in
macro "stepHalt" l:ident : tactic => `(tactic| (obtain ⟨$l, hEq, hNew⟩ := halt_full h; clear h; subst hEq; have h := hNew; clear hNew))

/-- Setting the flag of the map -/
def flagged (flags : BitVec 32) (b : Bool) : List Event := if flags = FLAGS_ALL_IGNORE_OPPONENT then [.did (.enableOpponent b)] else []

theorem dangerous_full {α : Type} {flags : BitVec 32} {b : Bool} {k : Prog α} {l : List Event} {a : α} (h : Exec (dangerous flags b k) l (some a)) :
    ∃ l', l = flagged flags b ++ l' ∧ Exec k l' (some a) := by
  unfold dangerous at h
  unfold flagged
  split at h
  · rename_i hf
    stepAct l'
    rw [if_pos hf]
    exact ⟨l', rfl, h⟩
  · rename_i hf
    rw [if_neg hf]
    exact ⟨l, rfl, h⟩

set_option hygiene false in
macro "stepFlag" l:ident : tactic => `(tactic| (obtain ⟨$l, hEq, hNew⟩ := dangerous_full h; clear h; subst hEq; have h := hNew; clear hNew))

/-- How `finish` ends -/
inductive Ends (deg : Int) : BitVec 32 → Bool → List Event → Prop
  | goal (e : Poll) : Ends deg GOAL_REACHED true [.did (.sleep 200), .did (.turnTo deg), .saw (.wait GOAL_REACHED) e]
  | opponent : Ends deg OPPONENT_NEAR false (halted .hardstop ++ .did (.sleep 100) :: halted .hardstop)
  | collision : Ends deg COLLISION false (halted .hardstop)
  | ally : Ends deg ALLY_NEAR false (halted .hardstop)
  | timer : Ends deg TIMER false (halted .stop)
  | other (x : BitVec 32) (h : x ∉ [GOAL_REACHED, OPPONENT_NEAR, COLLISION, ALLY_NEAR, TIMER]) : Ends deg x false []

theorem finish_full {deg : Int} {x : BitVec 32} {l : List Event} {b : Bool} (h : Exec (finish deg x) l (some b)) : ∃ l', l = l' ++ [.did .unlock] ∧ Ends deg x b l' := by
  unfold finish at h
  split at h
  · rename_i hx
    stepAct l'
    stepAct l'
    stepAsk e l'
    stepAct l'
    stepRet
    exact ⟨_, rfl, by rw [hx]; exact .goal e⟩
  · rename_i h1
    split at h
    · rename_i hx
      stepHalt l'
      stepAct l'
      stepHalt l'
      stepAct l'
      stepRet
      exact ⟨_, rfl, by rw [hx]; exact .opponent⟩
    · rename_i h2
      split at h
      · rename_i hx
        stepHalt l'
        stepAct l'
        stepRet
        exact ⟨_, rfl, by rw [hx]; exact .collision⟩
      · rename_i h3
        split at h
        · rename_i hx
          stepHalt l'
          stepAct l'
          stepRet
          exact ⟨_, rfl, by rw [hx]; exact .ally⟩
        · rename_i h4
          split at h
          · rename_i hx
            stepHalt l'
            stepAct l'
            stepRet
            exact ⟨_, rfl, by rw [hx]; exact .timer⟩
          · rename_i h5
            stepAct l'
            stepRet
            exact ⟨[], rfl, .other x (by simp only [List.mem_cons, List.not_mem_nil, or_false, not_or]; exact ⟨h1, h2, h3, h4, h5⟩)⟩

/-- What happens between taking and releasing the map: a path is planned; without a path the robot is stopped, else it is followed. -/
inductive Body (goal : Int × Int) (deg : Int) (flags : BitVec 32) : Bool → List Event → Prop
  | none (m : Map.Map) (start : Int × Int) (r : Except Oa.Fail (List P)) (h : points r = []) :
      Body goal deg flags false (flagged flags false ++ .saw (.path goal) (m, start, r) :: flagged flags true ++ halted .stop)
  | path (m : Map.Map) (start : Int × Int) (pts : List P) (hp : pts ≠ []) (vs : List (P × BitVec 32 × Poll)) (v : P × BitVec 32 × Poll) (b : Bool) (l : List Event)
      (hv : ∀ v ∈ vs, v.2.1 = between flags ∧ Good v.2.2)
      (hvs : (vs ++ [v]).map (·.1) = pts ∧ v.2.1 = flags ∨ (vs ++ [v]).map (·.1) <+: pts ∧ v.2.1 = between flags ∧ ¬Good v.2.2) (hl : Ends deg v.2.2.reason b l) :
      Body goal deg flags b (flagged flags false ++ .saw (.path goal) (m, start, .ok pts) :: flagged flags true ++ visits (vs ++ [v]) ++ l)

theorem gotoAvoid_full {goal : Int × Int} {deg : Int} {flags : BitVec 32} {l : List Event} {b : Bool} (h : Exec (gotoAvoid goal deg flags) l (some b)) :
    ∃ l', l = .did .lock :: l' ++ [.did .unlock] ∧ Body goal deg flags b l' := by
  unfold gotoAvoid at h
  stepAct l'
  stepFlag l'
  stepAsk x l'
  obtain ⟨m, start, r⟩ := x
  stepFlag l'
  split at h
  · rename_i hp
    stepHalt l'
    stepAct l'
    stepRet
    exact ⟨_, by simp only [List.append_assoc, List.cons_append], .none m start r hp⟩
  · rename_i hp
    obtain ⟨l1, l2, x, rfl, h1, h2⟩ := full_bind h
    obtain ⟨vs, p, f, e, rfl, rfl, hv, hvs⟩ := follow_full hp h1
    obtain ⟨l', rfl, he⟩ := finish_full h2
    cases r with
    | error e => exact absurd rfl hp
    | ok pts => exact ⟨_, by simp only [List.append_assoc, List.cons_append], .path m start pts hp vs (p, f, e) b l' hv hvs he⟩

/-! ## C83 -/

/-- The movement was finished -/
def Reached (e : Poll) : Prop := e.reason = GOAL_REACHED ∧ e.robot.traj.finished = true

theorem reached_of {f : BitVec 32} {e : Poll} (h : (Event.saw (.wait f) e).Ok) (hr : e.reason = GOAL_REACHED) : Reached e := by
  refine ⟨hr, ?_⟩
  obtain ⟨h0, r', h⟩ := h
  obtain ⟨-, h⟩ := (Base.hasEnded_partial h).1 h0
  rw [hr] at h
  rcases h with ⟨-, h⟩ | ⟨h, -⟩ | ⟨h, -⟩ | ⟨h, -⟩
  · exact h
  · exact absurd h (by decide)
  · exact absurd h (by decide)
  · exact absurd h (by decide)

/-- Only the reasons that `trajectory_has_ended` knows, and only those that are watched -/
theorem reason_of {f : BitVec 32} {e : Poll} (h : (Event.saw (.wait f) e).Ok) :
    f &&& e.reason ≠ 0 ∧ (e.reason = GOAL_REACHED ∨ e.reason = NEAR_GOAL ∨ e.reason = COLLISION ∨ e.reason = TIMER) := by
  obtain ⟨h0, r', h⟩ := h
  obtain ⟨h1, h⟩ := (Base.hasEnded_partial h).1 h0
  refine ⟨h1, ?_⟩
  rcases h with ⟨h, -⟩ | ⟨h, -⟩ | ⟨h, -⟩ | ⟨h, -⟩
  · exact .inl h
  · exact .inr (.inl h)
  · exact .inr (.inr (.inl h))
  · exact .inr (.inr (.inr h))

theorem flagged_commands (flags : BitVec 32) (b : Bool) : movements (flagged flags b) = [] ∧ polls (flagged flags b) = [] := by
  unfold flagged
  split <;> exact ⟨rfl, rfl⟩

/-- C83: if `strategy_goto_avoid` returns true, a path was found; all its points were commanded in order and no other movement, except for the turn at the end; the robot came
near every point before going on to the next one; it finished the movement to the last point, and the turn. -/
theorem goto_true {goal : Int × Int} {deg : Int} {flags : BitVec 32} {l : List Event} (h : Exec (gotoAvoid goal deg flags) l (some true)) (hok : ∀ e ∈ l, e.Ok) :
    ∃ m start pts, Event.saw (.path goal) (m, start, .ok pts) ∈ l ∧ pts ≠ [] ∧ movements l = pts.map .gotoXy ++ [.turnTo deg] ∧
      ∃ ps last turn, polls l = ps ++ [(flags, last), (GOAL_REACHED, turn)] ∧ ps.length + 1 = pts.length ∧ (∀ p ∈ ps, Good p.2) ∧ Reached last ∧ Reached turn := by
  obtain ⟨l', rfl, hb⟩ := gotoAvoid_full h
  have hmem : ∀ e ∈ l', e.Ok := fun e he => hok e (by simp [he])
  cases hb with
  | path m start pts hp vs v _ l hv hvs hl =>
    obtain ⟨p, f, e⟩ := v
    simp only at hvs hl
    generalize hr : e.reason = x at hl
    cases hl with
    | goal t =>
      have hgood : Good e := .inl hr
      rcases hvs with ⟨hvs, rfl⟩ | ⟨-, -, hn⟩
      · have he : (Event.saw (.wait f) e).Ok := by
          apply hmem
          rw [visits_append]
          simp [visits]
        have ht : (Event.saw (.wait GOAL_REACHED) t).Ok := by
          apply hmem
          simp
        have htr : t.reason = GOAL_REACHED := by
          have := (reason_of ht)
          rcases this with ⟨h1, h | h | h | h⟩
          · exact h
          all_goals rw [h] at h1; exact absurd h1 (by decide)
        refine ⟨m, start, pts, by simp, hp, ?_, vs.map (·.2), e, t, ?_, ?_, ?_, reached_of he hr, reached_of ht htr⟩
        · have e1 : movements (Event.did .lock :: (flagged f false ++ Event.saw (.path goal) (m, start, .ok pts) :: flagged f true ++ visits (vs ++ [(p, f, e)]) ++
              [.did (.sleep 200), .did (.turnTo deg), .saw (.wait GOAL_REACHED) t]) ++ [.did .unlock]) =
              movements (flagged f false) ++ movements (flagged f true) ++ movements (visits (vs ++ [(p, f, e)])) ++ [.turnTo deg] := by
            rw [List.append_assoc, List.cons_append, ← List.singleton_append, movements_append]
            simp only [List.append_assoc, List.cons_append]
            rw [movements_append, ← List.singleton_append (l := flagged f true ++ _), movements_append, movements_append, movements_append]
            rfl
          rw [e1, (flagged_commands f false).1, (flagged_commands f true).1, visits_movements, ← hvs, List.map_map]
          rfl
        · have e1 : polls (Event.did .lock :: (flagged f false ++ Event.saw (.path goal) (m, start, .ok pts) :: flagged f true ++ visits (vs ++ [(p, f, e)]) ++
              [.did (.sleep 200), .did (.turnTo deg), .saw (.wait GOAL_REACHED) t]) ++ [.did .unlock]) =
              polls (flagged f false) ++ polls (flagged f true) ++ polls (visits (vs ++ [(p, f, e)])) ++ [(GOAL_REACHED, t)] := by
            rw [List.append_assoc, List.cons_append, ← List.singleton_append, polls_append]
            simp only [List.append_assoc, List.cons_append]
            rw [polls_append, ← List.singleton_append (l := flagged f true ++ _), polls_append, polls_append, polls_append]
            rfl
          rw [e1, (flagged_commands f false).2, (flagged_commands f true).2, visits_polls, List.map_append]
          simp
        · have := congrArg List.length hvs
          simpa using this
        · intro q hq
          obtain ⟨v, hv', rfl⟩ := List.mem_map.mp hq
          exact (hv v hv').2
      · exact absurd hgood hn

/-- C83: if it returns false and did not stop near the goal on request, the last thing that happened is that the robot was stopped: it was set to be free, and then to hold its
position. There was no path, or the last movement ended by a collision or the end of the match. -/
theorem goto_false {goal : Int × Int} {deg : Int} {flags : BitVec 32} {l : List Event} (h : Exec (gotoAvoid goal deg flags) l (some false)) (hok : ∀ e ∈ l, e.Ok)
    (hn : flags &&& NEAR_GOAL = 0) :
    (∃ c l0, (c = .stop ∨ c = .hardstop) ∧
      l = l0 ++ [.did c, .did (.sleep 200), .did (.mode .free), .did (.sleep 200), .did (.mode .angleDistance), .did .unlock]) ∧
    ((∃ m start r, Event.saw (.path goal) (m, start, r) ∈ l ∧ (r = .ok [] ∨ ∃ e, r = .error e) ∧ movements l = []) ∨
      ∃ f e, (polls l).getLast? = some (f, e) ∧ (e.reason = COLLISION ∨ e.reason = TIMER)) := by
  obtain ⟨l', rfl, hb⟩ := gotoAvoid_full h
  have hmem : ∀ e ∈ l', e.Ok := fun e he => hok e (by simp [he])
  cases hb with
  | none m start r hr =>
    refine ⟨⟨.stop, .did .lock :: (flagged flags false ++ .saw (.path goal) (m, start, r) :: flagged flags true), .inl rfl, ?_⟩, .inl ⟨m, start, r, by simp, ?_, ?_⟩⟩
    · simp [halted]
    · cases r with
      | error e => exact .inr ⟨e, rfl⟩
      | ok l => exact .inl (by rw [show l = [] from hr])
    · have e1 : movements (Event.did .lock :: (flagged flags false ++ Event.saw (.path goal) (m, start, r) :: flagged flags true ++ halted .stop) ++ [.did .unlock]) =
          movements (flagged flags false) ++ movements (flagged flags true) := by
        rw [List.append_assoc, List.cons_append, ← List.singleton_append, movements_append]
        simp only [List.append_assoc, List.cons_append]
        rw [movements_append, ← List.singleton_append (l := flagged flags true ++ _), movements_append, movements_append, movements_append]
        simp [movements, commands, halted, Cmd.Moves]
      rw [e1, (flagged_commands flags false).1, (flagged_commands flags true).1]
      rfl
  | path m start pts hp vs v _ l hv hvs hl =>
    obtain ⟨p, f, e⟩ := v
    have he : (Event.saw (.wait f) e).Ok := by
      apply hmem
      rw [visits_append]
      simp [visits]
    obtain ⟨hw, hr⟩ := reason_of he
    have hng : e.reason ≠ NEAR_GOAL := by
      intro h1
      rcases hvs with ⟨-, h2⟩ | ⟨-, -, h2⟩
      · rw [h1, show f = flags from h2] at hw
        exact hw hn
      · exact h2 (.inr h1)
    have key : (∃ c l0, (c = .stop ∨ c = .hardstop) ∧ l = l0 ++ halted c ∧ polls l = []) ∧ (e.reason = COLLISION ∨ e.reason = TIMER) := by
      simp only at hl
      generalize e.reason = x at hl hr hng
      cases hl with
      | opponent => exact absurd hr (by decide)
      | collision => exact ⟨⟨.hardstop, [], .inr rfl, rfl, rfl⟩, .inl rfl⟩
      | ally => exact absurd hr (by decide)
      | timer => exact ⟨⟨.stop, [], .inl rfl, rfl, rfl⟩, .inr rfl⟩
      | other _ hx =>
        simp only [List.mem_cons, List.not_mem_nil, or_false, not_or] at hx
        rcases hr with hr | hr | hr | hr
        · exact absurd hr hx.1
        · exact absurd hr hng
        · exact absurd hr hx.2.2.1
        · exact absurd hr hx.2.2.2.2
    obtain ⟨⟨c, l0, hc, rfl, hpl⟩, hcause⟩ := key
    refine ⟨⟨c, .did .lock :: (flagged flags false ++ .saw (.path goal) (m, start, .ok pts) :: flagged flags true ++ visits (vs ++ [(p, f, e)]) ++ l0), hc, by simp [halted]⟩,
      .inr ⟨f, e, ?_, hcause⟩⟩
    have e1 : polls (Event.did .lock :: (flagged flags false ++ Event.saw (.path goal) (m, start, .ok pts) :: flagged flags true ++ visits (vs ++ [(p, f, e)]) ++
          (l0 ++ halted c)) ++ [.did .unlock]) =
          polls (flagged flags false) ++ polls (flagged flags true) ++ polls (visits (vs ++ [(p, f, e)])) := by
      rw [List.append_assoc, List.cons_append, ← List.singleton_append, polls_append]
      simp only [List.append_assoc, List.cons_append]
      rw [polls_append, ← List.singleton_append (l := flagged flags true ++ _), polls_append, polls_append, polls_append, ← List.append_assoc l0, polls_append, hpl]
      simp [polls]
    rw [e1, visits_polls, (flagged_commands flags false).2, (flagged_commands flags true).2]
    simp

/-- C83: the map is taken before anything else and released as the very last thing, and neither in between: while the robot moves nobody else can change the map. The flag
of the opponent is as before. -/
theorem goto_lock {goal : Int × Int} {deg : Int} {flags : BitVec 32} {l : List Event} {b : Bool} (h : Exec (gotoAvoid goal deg flags) l (some b)) :
    (∃ l', l = .did .lock :: l' ++ [.did .unlock] ∧ .lock ∉ commands l' ∧ .unlock ∉ commands l') ∧
    (flagsSet l = [] ∨ flags = FLAGS_ALL_IGNORE_OPPONENT ∧ flagsSet l = [false, true]) := by
  obtain ⟨l', rfl, hb⟩ := gotoAvoid_full h
  have key : .lock ∉ commands l' ∧ .unlock ∉ commands l' ∧ flagsSet l' = flagsSet (flagged flags false) ++ flagsSet (flagged flags true) := by
    have app : ∀ a b : List Event, flagsSet (a ++ b) = flagsSet a ++ flagsSet b := by
      intro a b; unfold flagsSet; rw [commands_append, List.filterMap_append]
    have hfl : ∀ b, .lock ∉ commands (flagged flags b) ∧ .unlock ∉ commands (flagged flags b) := by
      intro b; unfold flagged; split <;> simp [commands]
    cases hb with
    | none m start r hr =>
      simp only [commands_append, List.append_assoc, List.cons_append, commands_saw, app]
      refine ⟨?_, ?_, ?_⟩
      · rw [show commands (Event.saw (.path goal) (m, start, r) :: (flagged flags true ++ halted .stop)) = commands (flagged flags true ++ halted .stop) from rfl]
        simp [(hfl false).1, (hfl true).1, commands_append, show commands (halted .stop) = [.stop, .sleep 200, .mode .free, .sleep 200, .mode .angleDistance] from rfl]
      · rw [show commands (Event.saw (.path goal) (m, start, r) :: (flagged flags true ++ halted .stop)) = commands (flagged flags true ++ halted .stop) from rfl]
        simp [(hfl false).2, (hfl true).2, commands_append, show commands (halted .stop) = [.stop, .sleep 200, .mode .free, .sleep 200, .mode .angleDistance] from rfl]
      · rw [← List.singleton_append, app, app]
        simp [flagsSet, commands, halted]
    | path m start pts hp vs v _ l hv hvs hl =>
      have hl' : .lock ∉ commands l ∧ .unlock ∉ commands l ∧ flagsSet l = [] := by
        generalize v.2.2.reason = x at hl
        cases hl <;> simp [commands, halted, flagsSet]
      have hvis : flagsSet (visits (vs ++ [v])) = [] := by
        unfold flagsSet
        rw [visits_commands, List.filterMap_map]
        generalize vs ++ [v] = w
        induction w with
        | nil => rfl
        | cons x w ih => rw [List.filterMap_cons]; exact ih
      simp only [commands_append, List.append_assoc, List.cons_append, commands_saw, app]
      refine ⟨?_, ?_, ?_⟩
      · rw [show commands (Event.saw (.path goal) (m, start, .ok pts) :: (flagged flags true ++ (visits (vs ++ [v]) ++ l))) =
          commands (flagged flags true ++ (visits (vs ++ [v]) ++ l)) from rfl]
        simp [(hfl false).1, (hfl true).1, commands_append, visits_commands, hl'.1]
      · rw [show commands (Event.saw (.path goal) (m, start, .ok pts) :: (flagged flags true ++ (visits (vs ++ [v]) ++ l))) =
          commands (flagged flags true ++ (visits (vs ++ [v]) ++ l)) from rfl]
        simp [(hfl false).2, (hfl true).2, commands_append, visits_commands, hl'.2.1]
      · rw [← List.singleton_append, app, app, app, hvis, hl'.2.2]
        simp [flagsSet, commands]
  refine ⟨⟨l', rfl, key.1, key.2.1⟩, ?_⟩
  have e : flagsSet (Event.did .lock :: l' ++ [.did .unlock]) = flagsSet l' := by
    unfold flagsSet
    rw [List.cons_append, commands_did, commands_append]
    simp [commands]
  rw [e, key.2.2]
  unfold flagged
  split
  · rename_i hf; exact .inr ⟨hf, rfl⟩
  · exact .inl rfl

/-! ### At any time -/

theorem halt_cut {α : Type} {c : Cmd} {k : Prog α} {l : List Event} {r : Option α} (hc : c.Moves = false) (h : Exec (halt c k) l r) :
    movements l = [] ∨ ∃ l', Exec k l' r ∧ movements l = movements l' := by
  have one : ∀ {c : Cmd} {k : Prog α} {l : List Event}, c.Moves = false → Exec (.act c k) l r → movements l = [] ∨ ∃ l', Exec k l' r ∧ movements l = movements l' := by
    intro c k l hc h
    rcases exec_act h with ⟨rfl, -⟩ | ⟨l', rfl, h'⟩
    · exact .inl rfl
    · refine .inr ⟨l', h', ?_⟩
      unfold movements
      rw [commands_did, List.filter_cons, hc]
      rfl
  unfold halt at h
  rcases one hc h with h | ⟨l1, h, e1⟩
  · exact .inl h
  rcases one rfl h with h | ⟨l2, h, e2⟩
  · exact .inl (e1.trans h)
  rcases one rfl h with h | ⟨l3, h, e3⟩
  · exact .inl (e1.trans (e2.trans h))
  rcases one rfl h with h | ⟨l4, h, e4⟩
  · exact .inl (e1.trans (e2.trans (e3.trans h)))
  rcases one rfl h with h | ⟨l5, h, e5⟩
  · exact .inl (e1.trans (e2.trans (e3.trans (e4.trans h))))
  · exact .inr ⟨l5, h, e1.trans (e2.trans (e3.trans (e4.trans e5)))⟩

theorem unlock_cut {b : Bool} {l : List Event} {r : Option Bool} (h : Exec (.act .unlock (.ret b)) l r) : movements l = [] := by
  rcases exec_act h with ⟨rfl, -⟩ | ⟨l', rfl, h'⟩
  · rfl
  · obtain ⟨rfl, -⟩ := exec_ret h'; rfl

theorem halt_unlock {c : Cmd} {b : Bool} {l : List Event} {r : Option Bool} (hc : c.Moves = false) (h : Exec (halt c (.act .unlock (.ret b))) l r) : movements l = [] := by
  rcases halt_cut hc h with h | ⟨l', h, e⟩
  · exact h
  · exact e.trans (unlock_cut h)

theorem finish_cut {deg : Int} {x : BitVec 32} {l : List Event} {r : Option Bool} (h : Exec (finish deg x) l r) :
    movements l = [] ∨ x = GOAL_REACHED ∧ movements l = [.turnTo deg] := by
  unfold finish at h
  split at h
  · rename_i hx
    rcases exec_act h with ⟨rfl, -⟩ | ⟨l1, rfl, h1⟩
    · exact .inl rfl
    rcases exec_act h1 with ⟨rfl, -⟩ | ⟨l2, rfl, h2⟩
    · exact .inl rfl
    rcases exec_ask h2 with ⟨rfl, -⟩ | ⟨a, l3, rfl, h3⟩
    · exact .inr ⟨hx, rfl⟩
    · have := unlock_cut h3
      refine .inr ⟨hx, ?_⟩
      show Cmd.turnTo deg :: movements l3 = _
      rw [this]
  · left
    split at h
    · rcases halt_cut rfl h with h | ⟨l', h, e⟩
      · exact h
      · rw [e]
        rcases exec_act h with ⟨rfl, -⟩ | ⟨l1, rfl, h1⟩
        · rfl
        · have : movements l1 = [] := halt_unlock rfl h1
          exact this
    · split at h
      · exact halt_unlock rfl h
      · split at h
        · exact halt_unlock rfl h
        · split at h
          · exact halt_unlock rfl h
          · exact unlock_cut h

theorem dangerous_cut {α : Type} {flags : BitVec 32} {b : Bool} {k : Prog α} {l : List Event} {r : Option α} (h : Exec (dangerous flags b k) l r) :
    movements l = [] ∨ ∃ l', Exec k l' r ∧ movements l = movements l' ∧ ∀ e ∈ l', e ∈ l := by
  unfold dangerous at h
  split at h
  · rcases exec_act h with ⟨rfl, -⟩ | ⟨l', rfl, h'⟩
    · exact .inl rfl
    · exact .inr ⟨l', h', rfl, fun e he => List.mem_cons_of_mem _ he⟩
  · exact .inr ⟨l, h, rfl, fun e he => he⟩

/-- C83: at any time, the movements that were commanded are the first points of the path that was planned, in order, and at the end the turn. -/
theorem goto_on_path {goal : Int × Int} {deg : Int} {flags : BitVec 32} {l : List Event} {r : Option Bool} (h : Exec (gotoAvoid goal deg flags) l r) :
    movements l = [] ∨ ∃ m start pts, Event.saw (.path goal) (m, start, .ok pts) ∈ l ∧ movements l <+: pts.map .gotoXy ++ [.turnTo deg] := by
  unfold gotoAvoid at h
  rcases exec_act h with ⟨rfl, -⟩ | ⟨l1, rfl, h1⟩
  · exact .inl rfl
  have e0 : movements (Event.did .lock :: l1) = movements l1 := rfl
  rw [e0]
  rcases dangerous_cut h1 with h2 | ⟨l2, h2, e1, s1⟩
  · exact .inl h2
  rcases exec_ask h2 with ⟨rfl, -⟩ | ⟨⟨m, start, res⟩, l3, rfl, h3⟩
  · exact .inl e1
  have e2 : movements (Event.saw (.path goal) (m, start, res) :: l3) = movements l3 := rfl
  rw [e2] at e1
  rw [e1]
  rcases dangerous_cut h3 with h4 | ⟨l4, h4, e3, s3⟩
  · exact .inl h4
  rw [e3]
  split at h4
  · exact .inl (halt_unlock rfl h4)
  · rename_i hp
    cases res with
    | error e => exact absurd rfl hp
    | ok pts =>
      refine .inr ⟨m, start, pts, List.mem_cons_of_mem _ (s1 _ (List.mem_cons_self ..)), ?_⟩
      have pre : ∀ {l r}, Exec (follow flags pts 0) l r → movements l = commands l := by
        intro l r h
        unfold movements
        rw [List.filter_eq_self]
        intro c hc
        obtain ⟨t, ht⟩ := follow_cut h
        have : c ∈ pts.map Cmd.gotoXy := by rw [← ht]; exact List.mem_append_left _ hc
        obtain ⟨p, -, rfl⟩ := List.mem_map.mp this
        rfl
      rcases exec_bind h4 with ⟨-, h5⟩ | ⟨a1, a2, x, rfl, h5, h6⟩
      · rw [pre h5]
        exact (follow_cut h5).trans (List.prefix_append _ _)
      · rw [movements_append, pre h5]
        rcases finish_cut h6 with h7 | ⟨hx, h7⟩
        · rw [h7, List.append_nil]
          exact (follow_cut h5).trans (List.prefix_append _ _)
        · obtain ⟨vs, p, f, e, rfl, rfl, -, hvs⟩ := follow_full hp h5
          rcases hvs with ⟨hvs, -⟩ | ⟨-, -, hvs⟩
          · rw [h7, visits_commands, show pts = List.map (fun x => x.1) (vs ++ [(p, f, e)]) from hvs.symm, List.map_map]
            exact List.prefix_rfl
          · exact absurd (.inl hx) hvs

/-- C83: with the map of the match, after any reports of robots, the points that are commanded lie on a path whose legs keep the distances from everything on the table; it starts
at the position of the robot and ends at the goal. -/
theorem goto_free (robot : Int) (hr : 2 ≤ robot ∧ robot ≤ 10000) (wall : Bool) (rs : List Plan.Report) (hf : ∀ r ∈ rs, r.Fair) (goal : Int × Int) (hg : InRange ⟨goal.1, goal.2⟩)
    (deg : Int) (flags : BitVec 32) {l : List Event} {r : Option Bool} (h : Exec (gotoAvoid goal deg flags) l r) (hok : ∀ e ∈ l, e.Ok)
    (hm : ∀ m start x, Event.saw (.path goal) (m, start, x) ∈ l → (Map.Map.init robot wall).bind (fun m0 => Plan.runAll m0 rs) = some m ∧ InRange ⟨start.1, start.2⟩) :
    movements l = [] ∨ ∃ m start pts, Event.saw (.path goal) (m, start, .ok pts) ∈ l ∧ movements l <+: pts.map .gotoXy ++ [.turnTo deg] ∧
      ((⟨start.1, start.2⟩ : P) :: pts).getLast? = some ⟨goal.1, goal.2⟩ ∧
      ∀ e ∈ Plan.legs ((⟨start.1, start.2⟩ : P) :: pts), Plan.Free (Plan.inner robot) (Plan.table robot wall (Plan.ally rs) (Plan.newest rs) (Plan.older rs)) e.1 e.2 := by
  rcases goto_on_path h with h1 | ⟨m, start, pts, h1, h2⟩
  · exact .inl h1
  · obtain ⟨hm, hs⟩ := hm m start _ h1
    refine .inr ⟨m, start, pts, h1, h2, ?_⟩
    have hplan : Plan.plan m start goal FUEL = .ok (.ok pts) := hok _ h1
    obtain ⟨m0, m', x, k1, k2, k3, k4⟩ := Plan.plan_spec robot hr wall rs hf start goal hs hg FUEL (Nat.lt_succ_self _)
    rw [k1, Option.bind_some, k2] at hm
    cases hm
    rw [hplan] at k3
    cases k3
    exact ⟨k4.1, k4.2.1⟩

/-! ### Retries -/

/-- C83: `strategy_goto_avoid_retry` is a sequence of tries, of which all but the last one failed. It returns what the last one returned. It gives up only after one try more than the
number of retries, and never if this is negative; and it does not make more tries than that. Missing: that there is no try after the end of the match, which is false (`retry_after_end`). -/
theorem retry_full_partial {goal : Int × Int} {deg : Int} {flags : BitVec 32} {n : Int} {fuel : Nat} {c : Int} {l : List Event} {res : Option Bool}
    (h : Exec (retry goal deg flags n fuel c) l (some res)) (hc : 0 ≤ n → c ≤ n) :
    ∃ tries : List (List Event × Bool), l = (tries.map (·.1)).flatten ∧ (∀ t ∈ tries, Exec (gotoAvoid goal deg flags) t.1 (some t.2)) ∧
      (∀ t ∈ tries.dropLast, t.2 = false) ∧ (0 ≤ n → (tries.length : Int) ≤ n + 1 - c) ∧
      match res with
      | none => tries.length = fuel ∧ (∀ t ∈ tries, t.2 = false)
      | some b => tries.getLast?.map (·.2) = some b ∧ (b = false → 0 ≤ n ∧ (tries.length : Int) = n + 1 - c) := by
  induction fuel generalizing c l with
  | zero =>
    unfold retry at h
    stepRet
    exact ⟨[], rfl, by simp, by simp, fun h => by simp; have := hc h; omega, rfl, by simp⟩
  | succ fuel ih =>
    unfold retry at h
    obtain ⟨l1, l2, b, rfl, h1, h2⟩ := full_bind h
    by_cases hn : 0 ≤ n ∧ n < c + 1
    · rw [if_pos hn] at h2
      obtain ⟨rfl, rfl⟩ := full_ret h2
      have := hc hn.1
      exact ⟨[(l1, b)], by simp, by simp [h1], by simp, fun h => by simp; omega, by simp, fun _ => ⟨hn.1, by simp; omega⟩⟩
    · rw [if_neg hn] at h2
      cases b with
      | true =>
        rw [if_pos rfl] at h2
        obtain ⟨rfl, rfl⟩ := full_ret h2
        exact ⟨[(l1, true)], by simp, by simp [h1], by simp, fun h => by simp; have := hc h; omega, by simp, fun h => by cases h⟩
      | false =>
        rw [if_neg (by decide)] at h2
        obtain ⟨tries, rfl, k1, k2, k3, k4⟩ := ih h2 (fun h => by omega)
        refine ⟨(l1, false) :: tries, by simp, ?_, ?_, fun h => ?_, ?_⟩
        · intro t ht
          rcases List.mem_cons.mp ht with rfl | ht
          · exact h1
          · exact k1 t ht
        · intro t ht
          cases tries with
          | nil => simp at ht
          | cons u tries =>
            rw [List.dropLast_cons_of_ne_nil (by simp)] at ht
            rcases List.mem_cons.mp ht with rfl | ht
            · rfl
            · exact k2 t ht
        · have := k3 h
          rw [List.length_cons]
          push_cast
          omega
        · cases res with
          | none =>
            refine ⟨by rw [List.length_cons, k4.1], fun t ht => ?_⟩
            rcases List.mem_cons.mp ht with rfl | ht
            · rfl
            · exact k4.2 t ht
          | some b =>
            obtain ⟨k4, k5⟩ := k4
            refine ⟨?_, fun h => ?_⟩
            · cases tries with
              | nil => simp at k4
              | cons u tries => rw [List.getLast?_cons_cons]; exact k4
            · obtain ⟨k6, k7⟩ := k5 h
              refine ⟨k6, ?_⟩
              rw [List.length_cons]
              push_cast
              omega

/-- C83: with a number of retries that is not negative it always comes to an end. -/
theorem retry_ends {goal : Int × Int} {deg : Int} {flags : BitVec 32} {n : Int} {fuel : Nat} (hn : 0 ≤ n) (hfuel : n + 1 < fuel) {l : List Event} {res : Option Bool}
    (h : Exec (retry goal deg flags n fuel 0) l (some res)) : res ≠ none := by
  rintro rfl
  obtain ⟨tries, -, -, -, h1, h2, -⟩ := retry_full_partial h (fun h => h)
  have := h1 hn
  omega

/-! ### Examples and findings -/

/-- A robot in motion, and one that has arrived -/
def moving : Base.Robot := ⟨{ Base.sample with csd := { Base.Cs.init with consign := 1000 }, state := .d, pol := ⟨1000, 0⟩ }, Base.Bd.init, Base.Bd.init, some 0⟩
def arrived : Base.Robot := ⟨Base.sample, Base.Bd.init, Base.Bd.init, some 0⟩

/-- The match has ended after 100 s; before, the robot arrives. -/
def late : Poll := ⟨moving, 100000000000, TIMER⟩
def early : Poll := ⟨arrived, 5000000000, GOAL_REACHED⟩

theorem late_ok (f : BitVec 32) (h1 : f &&& NEAR_GOAL = 0) (h2 : f &&& TIMER ≠ 0) : (Event.saw (.wait f) late).Ok := by
  refine ⟨by decide, ?_⟩
  show ∃ r', moving.hasEnded f 100000000000 = some (TIMER, r')
  unfold Base.Robot.hasEnded
  rw [if_neg (by rintro ⟨-, h⟩; exact absurd h (by decide +kernel)), if_neg (by rintro ⟨h, -⟩; exact h h1), if_neg (by rintro ⟨-, h⟩; exact absurd h (by decide +kernel)),
    if_pos ⟨h2, by decide +kernel⟩]
  have : ∃ t, moving.traj.hardstop = some t := Option.isSome_iff_exists.mp (by decide +kernel)
  obtain ⟨t, ht⟩ := this
  rw [ht]
  exact ⟨_, rfl⟩

theorem early_ok (f : BitVec 32) (h : f &&& GOAL_REACHED ≠ 0) : (Event.saw (.wait f) early).Ok := by
  refine ⟨by decide, arrived, ?_⟩
  show arrived.hasEnded f 5000000000 = some (GOAL_REACHED, arrived)
  unfold Base.Robot.hasEnded
  rw [if_pos ⟨h, by decide +kernel⟩]

/-- With all three sets of flags, also on the way (with the near goal), a poll goes on only if the goal is not reached, neither loop is blocked and the game has not ended; the opponent is watched by one of them. -/
theorem flags_watch (f : BitVec 32) (hf : f = FLAGS_ALL ∨ f = FLAGS_ALL_IGNORE_OPPONENT ∨ f = FLAGS_SHORT_DISTANCE) (near : Bool) (r r' : Base.Robot) (now : Int)
    (h : r.hasEnded (if near then f ||| NEAR_GOAL else f) now = some (0, r')) :
    r.traj.finished = false ∧ r.angleBd.get = false ∧ r.distanceBd.get = false ∧ Base.gameHasEnded r.gameStart now = false ∧ r' = r := by
  have b : ∀ g : BitVec 32, g = (if near then f ||| NEAR_GOAL else f) → g &&& GOAL_REACHED ≠ 0 ∧ g &&& COLLISION ≠ 0 ∧ g &&& TIMER ≠ 0 := by
    rintro g rfl
    rcases hf with rfl | rfl | rfl <;> cases near <;> decide
  obtain ⟨b1, b2, b3⟩ := b _ rfl
  generalize (if near then f ||| NEAR_GOAL else f) = g at *
  unfold Base.Robot.hasEnded at h
  split at h
  · cases h
  · rename_i h1
    split at h
    · cases h
    · split at h
      · split at h <;> cases h
      · rename_i h2
        split at h
        · split at h <;> cases h
        · rename_i h3
          cases h
          refine ⟨?_, ?_, ?_, ?_, rfl⟩
          · simpa using fun x => h1 ⟨b1, x⟩
          · simpa using fun x => h2 ⟨b2, Or.inl x⟩
          · simpa using fun x => h2 ⟨b2, Or.inr x⟩
          · simpa using fun x => h3 ⟨b3, x⟩

/-- Which set watches the opponent and the ally -/
theorem flags_others : FLAGS_ALL &&& OPPONENT_NEAR ≠ 0 ∧ FLAGS_ALL_IGNORE_OPPONENT &&& OPPONENT_NEAR = 0 ∧ FLAGS_SHORT_DISTANCE &&& OPPONENT_NEAR = 0 ∧ FLAGS_ALL &&& ALLY_NEAR ≠ 0 ∧
    FLAGS_ALL_IGNORE_OPPONENT &&& ALLY_NEAR ≠ 0 ∧ FLAGS_SHORT_DISTANCE &&& ALLY_NEAR = 0 := by decide

/-- The map of the match without other robots, and the direct way along the table -/
theorem way : ∃ m, Map.Map.init 200 true = some m ∧ (Event.saw (.path (2500, 750)) (m, (500, 750), .ok [⟨2500, 750⟩])).Ok := by
  have h : ((Map.Map.init 200 true).map fun m => match Plan.plan m (500, 750) (2500, 750) FUEL with | .ok (.ok l) => decide (l = [⟨2500, 750⟩]) | _ => false) = some true := by
    decide +kernel
  cases hm : Map.Map.init 200 true with
  | none => rw [hm] at h; cases h
  | some m =>
    refine ⟨m, rfl, ?_⟩
    rw [hm, Option.map_some] at h
    have h := Option.some.inj h
    show Plan.plan m (500, 750) (2500, 750) FUEL = .ok (.ok [⟨2500, 750⟩])
    revert h
    generalize Plan.plan m (500, 750) (2500, 750) FUEL = x
    intro h
    match x with
    | .ok (.ok l) => rw [of_decide_eq_true h]
    | .ok (.error _) => cases h
    | .error _ => cases h

/-- The hypotheses of `goto_true` and of `goto_free` are met: the robot goes to (2500, 750) and turns to 90 degrees. -/
theorem goto_example : ∃ m l, Map.Map.init 200 true = some m ∧ Exec (gotoAvoid (2500, 750) 90 FLAGS_ALL) l (some true) ∧ (∀ e ∈ l, e.Ok) ∧
    movements l = [.gotoXy ⟨2500, 750⟩, .turnTo 90] ∧ ∀ m' start x, Event.saw (.path (2500, 750)) (m', start, x) ∈ l → m' = m ∧ start = (500, 750) := by
  obtain ⟨m, hm, hw⟩ := way
  refine ⟨m, [.did .lock, .saw (.path (2500, 750)) (m, (500, 750), .ok [⟨2500, 750⟩]), .did (.gotoXy ⟨2500, 750⟩), .saw (.wait FLAGS_ALL) early, .did (.sleep 200),
    .did (.turnTo 90), .saw (.wait GOAL_REACHED) early, .did .unlock], hm, ?_, ?_, rfl, ?_⟩
  · exact .act (.ask (.act (.ask (.act (.act (.ask (.act (.ret _))))))))
  · intro e he
    simp only [List.mem_cons, List.not_mem_nil, or_false] at he
    rcases he with rfl | rfl | rfl | rfl | rfl | rfl | rfl | rfl
    · trivial
    · exact hw
    · trivial
    · exact early_ok _ (by decide)
    · trivial
    · trivial
    · exact early_ok _ (by decide)
    · trivial
  · intro m' start x hx
    simp only [List.mem_cons, List.not_mem_nil, or_false, reduceCtorEq, false_or, or_false, Event.saw.injEq, false_and, Query.path.injEq] at hx
    rcases hx with hx | hx | hx
    · cases hx; exact ⟨rfl, rfl⟩
    · cases hx
    · cases hx

example : ∃ (m : Map.Map) (l : List Event), (Map.Map.init 200 true).bind (fun m0 => Plan.runAll m0 []) = some m ∧ Exec (gotoAvoid (2500, 750) 90 FLAGS_ALL) l (some true) ∧ movements l ≠ [] := by
  obtain ⟨m, l, h1, h2, -, h3, -⟩ := goto_example
  exact ⟨m, l, by rw [h1]; rfl, h2, by rw [h3]; simp⟩

/-- One try at the end of the match -/
theorem late_try : ∃ l, Exec (gotoAvoid (2500, 750) 90 FLAGS_ALL) l (some false) ∧ (∀ e ∈ l, e.Ok) ∧ movements l = [.gotoXy ⟨2500, 750⟩] ∧ polls l = [(FLAGS_ALL, late)] := by
  obtain ⟨m, -, hw⟩ := way
  refine ⟨[.did .lock, .saw (.path (2500, 750)) (m, (500, 750), .ok [⟨2500, 750⟩]), .did (.gotoXy ⟨2500, 750⟩), .saw (.wait FLAGS_ALL) late] ++ halted .stop ++ [.did .unlock], ?_, ?_, rfl, rfl⟩
  · exact .act (.ask (.act (.ask (.act (.act (.act (.act (.act (.act (.ret _))))))))))
  · intro e he
    simp only [halted, List.mem_append, List.mem_cons, List.not_mem_nil, or_false] at he
    rcases he with ((rfl | rfl | rfl | rfl) | rfl | rfl | rfl | rfl | rfl) | rfl
    case inl.inl.inr.inl => exact hw
    case inl.inl.inr.inr.inr => exact late_ok _ (by decide) (by decide)
    all_goals trivial

/-- C83, the end of the match: after a movement was ended by the end of the match, `strategy_goto_avoid_retry` commands the next one. -/
theorem retry_after_end : ∃ l1 l2, Exec (retry (2500, 750) 90 FLAGS_ALL 1 3 0) (l1 ++ l2) (some (some false)) ∧ (∀ e ∈ l1 ++ l2, e.Ok) ∧
    (polls l1).getLast? = some (FLAGS_ALL, late) ∧ late.reason = TIMER ∧ movements l2 = [.gotoXy ⟨2500, 750⟩] := by
  obtain ⟨l, h1, h2, h3, h4⟩ := late_try
  refine ⟨l, l, ?_, fun e he => (List.mem_append.mp he).elim (h2 e) (h2 e), by rw [h4]; rfl, rfl, h3⟩
  have app : ∀ {α β : Type} {p : Prog α} {f : α → Prog β} {l1 l2 : List Event} {a : α} {r : Option β}, Exec p l1 (some a) → Exec (f a) l2 r → Exec (p.bind f) (l1 ++ l2) r := by
    intro α β p f l1 l2 a r h1 h2
    generalize hx : some a = x at h1
    induction h1 with
    | cut => cases hx
    | ret => cases hx; exact h2
    | act _ ih => exact .act (ih hx)
    | ask _ ih => exact .ask (ih hx)
  unfold retry
  refine app h1 ?_
  show Exec (retry (2500, 750) 90 FLAGS_ALL 1 2 1) l (some (some false))
  unfold retry
  have : Exec (.ret (some false) : Prog (Option Bool)) [] (some (some false)) := .ret _
  rw [← List.append_nil l]
  exact app h1 this

/-- Near its goal: 5 mm -/
def near : Poll := ⟨⟨{ Base.sample with csd := { Base.Cs.init with consign := 1000 }, state := .d, pol := ⟨1000, 70⟩ }, Base.Bd.init, Base.Bd.init, some 0⟩, 5000000000, NEAR_GOAL⟩

/-- C83: the condition on the flags in `goto_false` is needed: if the end of the path may be the neighbourhood of its goal, `strategy_goto_avoid` returns false there, and the robot is
not stopped. -/
theorem goto_near : ∃ l, Exec (gotoAvoid (2500, 750) 90 (FLAGS_ALL ||| NEAR_GOAL)) l (some false) ∧ (∀ e ∈ l, e.Ok) ∧ (commands l).filter Cmd.Drives = [.gotoXy ⟨2500, 750⟩] := by
  obtain ⟨m, -, hw⟩ := way
  refine ⟨[.did .lock, .saw (.path (2500, 750)) (m, (500, 750), .ok [⟨2500, 750⟩]), .did (.gotoXy ⟨2500, 750⟩), .saw (.wait (FLAGS_ALL ||| NEAR_GOAL)) near, .did .unlock], ?_, ?_, rfl⟩
  · exact .act (.ask (.act (.ask (.act (.ret _)))))
  · intro e he
    simp only [List.mem_cons, List.not_mem_nil, or_false] at he
    rcases he with rfl | rfl | rfl | rfl | rfl
    case inr.inl => exact hw
    case inr.inr.inr.inl =>
      refine ⟨by decide, near.robot, ?_⟩
      show near.robot.hasEnded (FLAGS_ALL ||| NEAR_GOAL) 5000000000 = some (NEAR_GOAL, near.robot)
      unfold Base.Robot.hasEnded
      rw [if_neg (by rintro ⟨-, h⟩; exact absurd h (by decide +kernel)), if_pos ⟨by decide, by decide +kernel⟩]
    all_goals trivial

end Verif.Match
