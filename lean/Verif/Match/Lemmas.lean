import Verif.Match.Spec
import Verif.Base.Props
import Verif.Strategy.Props

/-!
# Playing a match: executions
-/

namespace Verif.Match

variable {α β : Type}

theorem exec_ret {a : α} {l : List Event} {r : Option α} (h : Exec (.ret a) l r) : l = [] ∧ (r = none ∨ r = some a) := by
  cases h with
  | cut => exact ⟨rfl, .inl rfl⟩
  | ret => exact ⟨rfl, .inr rfl⟩

theorem exec_act {c : Cmd} {k : Prog α} {l : List Event} {r : Option α} (h : Exec (.act c k) l r) :
    (l = [] ∧ r = none) ∨ ∃ l', l = .did c :: l' ∧ Exec k l' r := by
  cases h with
  | cut => exact .inl ⟨rfl, rfl⟩
  | act h => exact .inr ⟨_, rfl, h⟩

theorem exec_ask {q : Query} {k : q.Ans → Prog α} {l : List Event} {r : Option α} (h : Exec (.ask q k) l r) :
    (l = [] ∧ r = none) ∨ ∃ a l', l = .saw q a :: l' ∧ Exec (k a) l' r := by
  cases h with
  | cut => exact .inl ⟨rfl, rfl⟩
  | ask h => exact .inr ⟨_, _, rfl, h⟩

theorem exec_bind {p : Prog α} {f : α → Prog β} {l : List Event} {r : Option β} (h : Exec (p.bind f) l r) :
    (r = none ∧ Exec p l none) ∨ ∃ l1 l2 a, l = l1 ++ l2 ∧ Exec p l1 (some a) ∧ Exec (f a) l2 r := by
  induction p generalizing l with
  | ret a => exact .inr ⟨[], l, a, rfl, .ret a, h⟩
  | act c k ih =>
    rcases exec_act h with ⟨rfl, rfl⟩ | ⟨l', rfl, h'⟩
    · exact .inl ⟨rfl, .cut _⟩
    · rcases ih h' with ⟨rfl, h1⟩ | ⟨l1, l2, a, rfl, h1, h2⟩
      · exact .inl ⟨rfl, .act h1⟩
      · exact .inr ⟨.did c :: l1, l2, a, rfl, .act h1, h2⟩
  | ask q k ih =>
    rcases exec_ask h with ⟨rfl, rfl⟩ | ⟨a, l', rfl, h'⟩
    · exact .inl ⟨rfl, .cut _⟩
    · rcases ih a h' with ⟨rfl, h1⟩ | ⟨l1, l2, b, rfl, h1, h2⟩
      · exact .inl ⟨rfl, .ask h1⟩
      · exact .inr ⟨.saw q a :: l1, l2, b, rfl, .ask h1, h2⟩

/-! Complete executions -/

theorem full_ret {a b : α} {l : List Event} (h : Exec (.ret a) l (some b)) : l = [] ∧ b = a := by
  obtain ⟨rfl, h | h⟩ := exec_ret h
  · cases h
  · cases h; exact ⟨rfl, rfl⟩

theorem full_act {c : Cmd} {k : Prog α} {l : List Event} {b : α} (h : Exec (.act c k) l (some b)) : ∃ l', l = .did c :: l' ∧ Exec k l' (some b) := by
  rcases exec_act h with ⟨-, h⟩ | h
  · cases h
  · exact h

theorem full_ask {q : Query} {k : q.Ans → Prog α} {l : List Event} {b : α} (h : Exec (.ask q k) l (some b)) : ∃ a l', l = .saw q a :: l' ∧ Exec (k a) l' (some b) := by
  rcases exec_ask h with ⟨-, h⟩ | h
  · cases h
  · exact h

theorem full_bind {p : Prog α} {f : α → Prog β} {l : List Event} {b : β} (h : Exec (p.bind f) l (some b)) :
    ∃ l1 l2 a, l = l1 ++ l2 ∧ Exec p l1 (some a) ∧ Exec (f a) l2 (some b) := by
  rcases exec_bind h with ⟨h, -⟩ | h
  · cases h
  · exact h

/-! Following the execution `h` by one event -/

set_option hygiene false in
macro "stepAct" l:ident : tactic => `(tactic| (obtain ⟨$l, hEq, hNew⟩ := full_act h; clear h; subst hEq; have h := hNew; clear hNew))

set_option hygiene false in
macro "stepAsk" a:ident l:ident : tactic => `(tactic| (obtain ⟨$a, $l, hEq, hNew⟩ := full_ask h; clear h; subst hEq; have h := hNew; clear hNew))

set_option hygiene false in
macro "stepRet" : tactic => `(tactic| (obtain ⟨hEq, hNew⟩ := full_ret h; clear h; subst hEq; subst hNew))

/-- The beginning of an execution is an execution. -/
theorem exec_prefix {p : Prog α} {l1 l2 : List Event} {r : Option α} (h : Exec p (l1 ++ l2) r) : Exec p l1 none := by
  induction p generalizing l1 with
  | ret a =>
    obtain ⟨h, -⟩ := exec_ret h
    obtain ⟨rfl, -⟩ := List.append_eq_nil_iff.mp h
    exact .cut _
  | act c k ih =>
    cases l1 with
    | nil => exact .cut _
    | cons e l1 =>
      rcases exec_act h with ⟨h, -⟩ | ⟨l', h, h'⟩
      · cases h
      · rw [List.cons_append] at h
        cases h
        exact .act (ih h')
  | ask q k ih =>
    cases l1 with
    | nil => exact .cut _
    | cons e l1 =>
      rcases exec_ask h with ⟨h, -⟩ | ⟨a, l', h, h'⟩
      · cases h
      · rw [List.cons_append] at h
        cases h
        exact .ask (ih a h')

/-! The observations are compatible with appending. -/

theorem commands_append (a b : List Event) : commands (a ++ b) = commands a ++ commands b := List.filterMap_append
theorem movements_append (a b : List Event) : movements (a ++ b) = movements a ++ movements b := by
  unfold movements; rw [commands_append, List.filter_append]
theorem polls_append (a b : List Event) : polls (a ++ b) = polls a ++ polls b := List.filterMap_append

theorem commands_did (c : Cmd) (l : List Event) : commands (.did c :: l) = c :: commands l := rfl
theorem commands_saw (q : Query) (a : q.Ans) (l : List Event) : commands (.saw q a :: l) = commands l := rfl
theorem polls_did (c : Cmd) (l : List Event) : polls (.did c :: l) = polls l := rfl
theorem polls_wait (f : BitVec 32) (p : Poll) (l : List Event) : polls (.saw (.wait f) p :: l) = (f, p) :: polls l := rfl

end Verif.Match
