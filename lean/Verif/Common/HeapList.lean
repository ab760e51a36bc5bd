/-! Singly linked lists in a heap of numbered cells. -/

namespace Verif.HeapList

/-- Following `next` from `p` visits exactly the cells `l` and then NULL. -/
def IsList (next : Nat → Option Nat) : Option Nat → List Nat → Prop
  | p, [] => p = none
  | p, c :: l => p = some c ∧ IsList next (next c) l

/-- Assignment to a field of cell `c`. -/
def upd {α : Type} (f : Nat → α) (c : Nat) (v : α) : Nat → α := fun x => if x = c then v else f x

theorem upd_self {α : Type} (f : Nat → α) (c : Nat) (v : α) : upd f c v c = v := by simp [upd]

theorem upd_ne {α : Type} (f : Nat → α) {c x : Nat} (v : α) (h : x ≠ c) : upd f c v x = f x := by
  simp [upd, h]

theorem isList_upd {next : Nat → Option Nat} {p : Option Nat} {l : List Nat} {c : Nat} (v : Option Nat)
    (hc : c ∉ l) (h : IsList next p l) : IsList (upd next c v) p l := by
  induction l generalizing p with
  | nil => exact h
  | cons x l ih =>
    simp only [List.mem_cons, not_or] at hc
    obtain ⟨h1, h2⟩ := h
    refine ⟨h1, ?_⟩
    rw [upd_ne _ _ (Ne.symm hc.1)]
    exact ih hc.2 h2

theorem isList_head_none {next : Nat → Option Nat} {l : List Nat} (h : IsList next none l) : l = [] := by
  cases l with
  | nil => rfl
  | cons c l => simp [IsList] at h

end Verif.HeapList
