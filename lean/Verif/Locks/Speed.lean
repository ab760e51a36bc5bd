/-!
# Speeds of the trajectory, written by two threads

`trajectory_set_speed` and `trajectory_set_acc` (trajectory_manager.cpp:64-75) write four fields of the trajectory without any lock. They are called by the loop of
control at each of its rounds (base_controller.cpp:176-207), and by the thread of the strategy in `trajectory_set_mode_aligning` and `trajectory_set_mode_game`
(trajectory_helpers.cpp:226-269) and in autoposition.cpp:46, 72. A command copies them to the ramps (`delete_event`, trajectory_manager_utils.cpp:79-84).

Each write of a field and each copy is one step (a copy also reads the fields one by one in the code; simplified). Speeds are arbitrary values.
-/

namespace Verif.Locks.Speed

inductive Field
  | dSpeed | aSpeed | dAcc | aAcc
deriving DecidableEq

/-- What is set: a value for each field. -/
abbrev Speeds (α : Type) := Field → α

inductive Op (α : Type)
  | set (f : Field) (v : α)
  | go

structure St (α : Type) where
  traj : Speeds α
  ramp : Speeds α

def step {α : Type} (s : St α) : Op α → St α
  | .set f v => { s with traj := fun g => if g = f then v else s.traj g }
  | .go => { s with ramp := s.traj }

def run {α : Type} (s : St α) (ops : List (Op α)) : St α := ops.foldl step s

/-- `trajectory_set_speed` and `trajectory_set_acc`. -/
def setAll {α : Type} (v : Speeds α) : List (Op α) := [.set .dSpeed (v .dSpeed), .set .aSpeed (v .aSpeed), .set .dAcc (v .dAcc), .set .aAcc (v .aAcc)]

/-- Interleavings of two threads. -/
inductive Merge {β : Type} : List β → List β → List β → Prop
  | nil : Merge [] [] []
  | left {x xs ys zs} : Merge xs ys zs → Merge (x :: xs) ys (x :: zs)
  | right {y xs ys zs} : Merge xs ys zs → Merge xs (y :: ys) (y :: zs)

/-- `n` rounds of the loop of control. -/
def loop {α : Type} (base : Speeds α) (n : Nat) : List (Op α) := (List.replicate n (setAll base)).flatten

/-- The strategy sets its speeds and gives a command. -/
def command {α : Type} (mode : Speeds α) : List (Op α) := setAll mode ++ [.go]

/-! ## Lemmas -/

theorem merge_nil_left {β : Type} {ys zs : List β} (h : Merge [] ys zs) : zs = ys := by
  generalize hx : ([] : List β) = xs at h
  induction h with
  | nil => rfl
  | left _ _ => cases hx
  | right _ ih => rw [ih hx]

/-- Every operation of the loop sets a field to its base value. -/
def IsBase {α : Type} (base : Speeds α) (o : Op α) : Prop := ∃ f, o = .set f (base f)

theorem loop_base {α : Type} (base : Speeds α) (n : Nat) : ∀ o ∈ loop base n, IsBase base o := by
  intro o ho
  obtain ⟨l, hl, ho⟩ := List.mem_flatten.1 ho
  rw [List.eq_of_mem_replicate hl] at ho
  simp only [setAll, List.mem_cons, List.not_mem_nil, or_false] at ho
  rcases ho with rfl | rfl | rfl | rfl <;> exact ⟨_, rfl⟩

theorem base_run {α : Type} {base : Speeds α} {ops : List (Op α)} (h : ∀ o ∈ ops, IsBase base o) (s : St α) :
    (run s ops).ramp = s.ramp ∧ ∀ f, (run s ops).traj f = s.traj f ∨ (run s ops).traj f = base f := by
  induction ops generalizing s with
  | nil => exact ⟨rfl, fun _ => .inl rfl⟩
  | cons o ops ih =>
    obtain ⟨g, rfl⟩ := h o (by simp)
    obtain ⟨h1, h2⟩ := ih (fun o ho => h o (by simp [ho])) (step s (.set g (base g)))
    refine ⟨h1, fun f => ?_⟩
    rcases h2 f with h2 | h2
    · have e : (run s (Op.set g (base g) :: ops)).traj f = (step s (.set g (base g))).traj f := h2
      rw [e]
      by_cases hf : f = g
      · subst hf; right; exact if_pos rfl
      · left; exact if_neg hf
    · exact .inr h2

/-- Fields listed in `todo` are still to be set by the strategy. -/
theorem merge_run {α : Type} {mode base : Speeds α} (todo : List Field) {ys zs : List (Op α)} (hb : ∀ o ∈ ys, IsBase base o)
    (h : Merge (todo.map (fun f => Op.set f (mode f)) ++ [Op.go]) ys zs) (s : St α)
    (hs : ∀ f, f ∉ todo → s.traj f = mode f ∨ s.traj f = base f) (f : Field) :
    (run s zs).ramp f = mode f ∨ (run s zs).ramp f = base f := by
  generalize hx : todo.map (fun f => Op.set f (mode f)) ++ [Op.go] = xs at h
  induction h generalizing todo s with
  | nil => cases todo <;> simp at hx
  | @left x xs ys zs hm ih =>
    cases todo with
    | nil =>
      simp only [List.map_nil, List.nil_append, List.cons.injEq] at hx
      obtain ⟨rfl, rfl⟩ := hx
      rw [merge_nil_left hm]
      have h1 := (base_run hb (step s .go)).1
      have h2 : (run s (Op.go :: ys)).ramp f = s.traj f := congrFun h1 f
      rw [h2]
      exact hs f (by simp)
    | cons g todo =>
      simp only [List.map_cons, List.cons_append, List.cons.injEq] at hx
      obtain ⟨rfl, hx⟩ := hx
      refine ih todo hb (step s _) ?_ hx
      intro f' hf'
      by_cases hg : f' = g
      · subst hg; left; simp [step]
      · have := hs f' (by simp [hg, hf'])
        simpa [step, hg] using this
  | @right y xs ys zs hm ih =>
    obtain ⟨g, rfl⟩ := hb y (by simp)
    refine ih todo (fun o ho => hb o (by simp [ho])) (step s _) ?_ hx
    intro f' hf'
    by_cases hg : f' = g
    · subst hg; right; simp [step]
    · have := hs f' hf'
      simpa [step, hg] using this

theorem merge_right_all {β : Type} (xs ys : List β) : Merge xs ys (xs ++ ys) := by
  induction xs with
  | nil =>
    induction ys with
    | nil => exact .nil
    | cons y ys ih => exact .right ih
  | cons x xs ih => exact .left ih

/-! ## Properties -/

/-- **What the ramps get.** However the two threads interleave, each of the four values used by the command is that of the strategy or that of the loop. Missing: that all values are those of the mode, which is false (`ramp_any`, `mode_undone`). -/
theorem ramp_either_partial {α : Type} (mode base : Speeds α) (n : Nat) {zs : List (Op α)} (h : Merge (command mode) (loop base n) zs) (s : St α) (f : Field) :
    (run s zs).ramp f = mode f ∨ (run s zs).ramp f = base f := by
  refine merge_run [.dSpeed, .aSpeed, .dAcc, .aAcc] (loop_base base n) h s ?_ f
  intro g hg
  cases g <;> simp at hg

/-- **Any mixture happens.** For any choice of fields there is an interleaving with one round of the loop, after which the command uses the values of the loop for
these fields and those of the strategy for the others. -/
theorem ramp_any {α : Type} (mode base : Speeds α) (pick : Field → Bool) (s : St α) :
    ∃ zs, Merge (command mode) (loop base 1) zs ∧ ∀ f, (run s zs).ramp f = if pick f then base f else mode f := by
  have key : ∀ b : Bool, ∀ f : Field, ∀ xs ys zs : List (Op α), Merge xs ys zs →
      ∃ a c : Op α, Merge (.set f (mode f) :: xs) (.set f (base f) :: ys) (a :: c :: zs) ∧
        ∀ t : St α, step (step t a) c = step t (.set f (if b then base f else mode f)) := by
    intro b f xs ys zs h
    cases b with
    | true =>
      refine ⟨_, _, .left (.right h), fun t => ?_⟩
      simp only [step, if_true]
      congr 1
      funext g
      by_cases hg : g = f <;> simp [hg]
    | false =>
      refine ⟨_, _, .right (.left h), fun t => ?_⟩
      simp only [step, Bool.false_eq_true, if_false]
      congr 1
      funext g
      by_cases hg : g = f <;> simp [hg]
  obtain ⟨a1, b1, h1, e1⟩ := key (pick .aAcc) .aAcc [.go] [] [.go] (.left .nil)
  obtain ⟨a2, b2, h2, e2⟩ := key (pick .dAcc) .dAcc _ _ _ h1
  obtain ⟨a3, b3, h3, e3⟩ := key (pick .aSpeed) .aSpeed _ _ _ h2
  obtain ⟨a4, b4, h4, e4⟩ := key (pick .dSpeed) .dSpeed _ _ _ h3
  refine ⟨_, h4, fun f => ?_⟩
  simp only [run, List.foldl_cons, List.foldl_nil, e1, e2, e3, e4]
  cases f <;> simp [step]

/-- **A round of the loop undoes the mode.** Once a whole round has passed after the strategy has set its speeds, every later command uses those of the loop,
however long the mode is meant to last. -/
theorem mode_undone {α : Type} (mode base : Speeds α) (n k : Nat) (s : St α) (f : Field) :
    (run s (setAll mode ++ loop base (n + 1) ++ [.go] ++ loop base k)).ramp f = base f := by
  have hset : ∀ t : St α, (run t (setAll base)).traj = base := by
    intro t; funext g; cases g <;> simp [run, setAll, step]
  have hloop : ∀ n (t : St α), (run t (loop base (n + 1))).traj = base := by
    intro n
    induction n with
    | zero => intro t; simpa [loop] using hset t
    | succ n ih =>
      intro t
      have : loop base (n + 2) = setAll base ++ loop base (n + 1) := by simp [loop, List.replicate_succ]
      rw [this, run, List.foldl_append]
      exact ih _
  have hr := (base_run (loop_base base k) (step (run (run s (setAll mode)) (loop base (n + 1))) .go)).1
  simp only [run, List.foldl_append, List.foldl_cons, List.foldl_nil] at hr ⊢
  rw [hr]
  exact congrFun (hloop n _) f

/-- With aligning speeds of 30 mm/s and 30 mm/s² and a loop at 300 and 600, the robot may be sent against the wall at 300 mm/s with an acceleration of 30 mm/s². -/
example (s : St Nat) : ∃ zs, Merge (command (fun _ => 30)) (loop (fun | .dSpeed => 300 | .aSpeed => 3 | .dAcc => 600 | .aAcc => 6) 1) zs ∧
    (run s zs).ramp .dSpeed = 300 ∧ (run s zs).ramp .dAcc = 30 := by
  obtain ⟨zs, h, hr⟩ := ramp_any (fun _ => 30) (fun | .dSpeed => 300 | .aSpeed => 3 | .dAcc => 600 | .aAcc => 6) (fun f => f == .dSpeed) s
  exact ⟨zs, h, hr _, hr _⟩

end Verif.Locks.Speed
