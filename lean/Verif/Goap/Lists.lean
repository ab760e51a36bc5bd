import Verif.Goap.Spec

/-!
# GOAP planner: the linked lists
-/

namespace Verif.Goap

variable {S : Type}

theorem upd_same (h : Heap S) (p : Nat) (n : VNode S) : h.upd p n p = n := if_pos rfl

theorem upd_ne (h : Heap S) {p q : Nat} (n : VNode S) (hq : q ≠ p) : h.upd p n q = h q := if_neg hq

theorem setNext_ne (h : Heap S) {p q : Nat} (x : Option Nat) (hq : q ≠ p) : h.setNext p x q = h q := if_neg hq

theorem setNext_next (h : Heap S) (p : Nat) (x : Option Nat) : (h.setNext p x p).next = x := by simp only [Heap.setNext, upd_same]

/-- All fields but the list pointer agree. -/
def Same (h h' : Heap S) : Prop :=
  ∀ p, (h' p).priority = (h p).priority ∧ (h' p).cost = (h p).cost ∧ (h' p).state = (h p).state ∧ (h' p).parent = (h p).parent ∧ (h' p).action = (h p).action

theorem same_refl (h : Heap S) : Same h h := fun _ => ⟨rfl, rfl, rfl, rfl, rfl⟩

theorem same_setNext (h : Heap S) (p : Nat) (x : Option Nat) : Same h (h.setNext p x) := by
  intro q
  by_cases hq : q = p
  · subst hq; simp only [Heap.setNext, upd_same, and_self]
  · rw [setNext_ne h x hq]; exact ⟨rfl, rfl, rfl, rfl, rfl⟩

theorem Same.trans {a b c : Heap S} (h1 : Same a b) (h2 : Same b c) : Same a c := by
  intro p
  obtain ⟨a1, a2, a3, a4, a5⟩ := h1 p
  obtain ⟨b1, b2, b3, b4, b5⟩ := h2 p
  exact ⟨b1.trans a1, b2.trans a2, b3.trans a3, b4.trans a4, b5.trans a5⟩

/-- The list that starts at `head` consists of the nodes `l`. -/
def Chain (h : Heap S) : Option Nat → List Nat → Prop
  | head, [] => head = none
  | head, p :: l => head = some p ∧ Chain h (h p).next l

theorem chain_congr {h h' : Heap S} : ∀ {l : List Nat} {head : Option Nat}, (∀ p ∈ l, (h' p).next = (h p).next) → Chain h head l → Chain h' head l
  | [], _, _, hc => hc
  | p :: l, _, he, hc => ⟨hc.1, by
    rw [he p (List.mem_cons_self)]
    exact chain_congr (fun q hq => he q (List.mem_cons_of_mem _ hq)) hc.2⟩

theorem chain_setNext {h : Heap S} {l : List Nat} {head : Option Nat} {p : Nat} {x : Option Nat} (hp : p ∉ l) (hc : Chain h head l) :
    Chain (h.setNext p x) head l :=
  chain_congr (fun q hq => by rw [setNext_ne (q := q) h x (fun e => hp (by rw [← e]; exact hq))]) hc

theorem walk_chain {h : Heap S} : ∀ {l : List Nat} {head : Option Nat} {n : Nat}, Chain h head l → l.length ≤ n → walk n h head = .ok l
  | [], head, n, hc, _ => by
    cases (hc : head = none)
    unfold walk
    cases n <;> rfl
  | p :: l, head, n, hc, hn => by
    obtain ⟨rfl, hc⟩ := hc
    cases n with
    | zero => cases hn
    | succ n =>
      rw [walk, walk_chain hc (by simpa using hn)]

/-- Removing a node. -/
theorem unlink_spec {h : Heap S} : ∀ {l1 l2 : List Nat} {m p : Nat} {head : Option Nat}, (p :: l1 ++ m :: l2).Nodup → Chain h head (p :: l1 ++ m :: l2) →
    Chain (unlink h (p :: l1 ++ m :: l2) m) head (p :: l1 ++ l2) ∧ Same h (unlink h (p :: l1 ++ m :: l2) m) ∧
      ∀ q, q ∉ p :: l1 ++ m :: l2 → unlink h (p :: l1 ++ m :: l2) m q = h q := by
  -- the predecessor is unique
  have key : ∀ {l1 l2 : List Nat} {m p : Nat} {head : Option Nat}, (p :: l1 ++ m :: l2).Nodup → Chain h head (p :: l1 ++ m :: l2) →
      ∃ a b, p :: l1 = a ++ [b] ∧ (p :: l1 ++ m :: l2).find? (fun p => (h p).next == some m) = some b ∧ (h b).next = some m ∧ Chain h (h m).next l2 := by
    intro l1
    induction l1 with
    | nil =>
      intro l2 m p head hnd hc
      have hn : (h p).next = some m := hc.2.1
      exact ⟨[], p, rfl, by simp [hn], hn, hc.2.2⟩
    | cons q l1 ih =>
      intro l2 m p head hnd hc
      have hnd' := (List.nodup_cons.mp hnd).2
      obtain ⟨a, b, h1, h2, h3, h4⟩ := ih hnd' hc.2
      refine ⟨p :: a, b, by rw [h1]; rfl, ?_, h3, h4⟩
      have hn : (h p).next = some q := hc.2.1
      have hqm : q ≠ m := by
        intro e
        subst e
        exact (List.nodup_cons.mp hnd').1 (by simp)
      rw [List.cons_append, List.find?_cons_of_neg (by simp [hn, hqm])]
      exact h2
  intro l1 l2 m p head hnd hc
  obtain ⟨a, b, h1, h2, h3, h4⟩ := key hnd hc
  unfold unlink
  rw [h2]
  simp only
  rw [h1] at hnd hc ⊢
  have hbm : b ≠ m ∧ b ∉ l2 ∧ m ∉ l2 ∧ b ∉ a ∧ m ∉ a := by
    simp only [List.nodup_append, List.nodup_cons, List.mem_append, List.mem_cons, List.mem_singleton] at hnd
    grind
  refine ⟨?_, (same_setNext _ _ _).trans (same_setNext _ _ _), ?_⟩
  · -- chain up to b
    have : ∀ {a : List Nat} {head : Option Nat}, b ∉ a → m ∉ a → Chain h head (a ++ [b] ++ m :: l2) →
        Chain ((h.setNext b (h m).next).setNext m none) head (a ++ [b] ++ l2) := by
      intro a
      induction a with
      | nil =>
        intro head _ _ hc
        refine ⟨hc.1, ?_⟩
        rw [setNext_ne _ _ hbm.1, setNext_next]
        exact chain_setNext hbm.2.2.1 (chain_setNext hbm.2.1 h4)
      | cons x a ih =>
        intro head hb hm hc
        simp only [List.mem_cons, not_or] at hb hm
        refine ⟨hc.1, ?_⟩
        rw [setNext_ne _ _ (Ne.symm hm.1), setNext_ne _ _ (Ne.symm hb.1)]
        exact ih hb.2 hm.2 hc.2
    exact this hbm.2.2.2.1 hbm.2.2.2.2 hc
  · intro q hq
    simp only [List.mem_append, List.mem_cons, List.mem_singleton, not_or] at hq
    rw [setNext_ne _ _ hq.2.1, setNext_ne _ _ (by grind)]

/-- `minElem` finds a node with minimal priority, if some priority is below the bound. -/
theorem minElem_spec (h : Heap S) : ∀ (l : List Nat) (b : Option Nat × Int),
    (minElem h l b = b ∧ ∀ p ∈ l, b.2 ≤ (h p).priority) ∨
    (∃ m ∈ l, minElem h l b = (some m, (h m).priority) ∧ (h m).priority < b.2 ∧ ∀ p ∈ l, (h m).priority ≤ (h p).priority)
  | [], b => .inl ⟨rfl, by simp⟩
  | p :: l, b => by
    unfold minElem
    by_cases hp : (h p).priority < b.2
    · rw [if_pos hp]
      rcases minElem_spec h l (some p, (h p).priority) with ⟨h1, h2⟩ | ⟨m, hm, h1, h2, h3⟩
      · refine .inr ⟨p, List.mem_cons_self, h1, hp, ?_⟩
        intro q hq
        rcases List.mem_cons.mp hq with rfl | hq
        · omega
        · exact h2 q hq
      · simp only at h2
        refine .inr ⟨m, List.mem_cons_of_mem _ hm, h1, by omega, ?_⟩
        intro q hq
        rcases List.mem_cons.mp hq with rfl | hq
        · omega
        · exact h3 q hq
    · rw [if_neg hp]
      rcases minElem_spec h l b with ⟨h1, h2⟩ | ⟨m, hm, h1, h2, h3⟩
      · refine .inl ⟨h1, ?_⟩
        intro q hq
        rcases List.mem_cons.mp hq with rfl | hq
        · omega
        · exact h2 q hq
      · refine .inr ⟨m, List.mem_cons_of_mem _ hm, h1, h2, ?_⟩
        intro q hq
        rcases List.mem_cons.mp hq with rfl | hq
        · omega
        · exact h3 q hq

/-- `priority_list_pop` removes one node with minimal priority and keeps the others. -/
theorem priorityPop_spec {N : Nat} {h : Heap S} {head : Option Nat} {l : List Nat} (hc : Chain h head l) (hnd : l.Nodup) (hl : l.length ≤ N) :
    (∃ m l' h' head', priorityPop N h head = .ok (m, h', head') ∧ l.Perm (m :: l') ∧ Chain h' head' l' ∧ Same h h' ∧ (∀ q, q ∉ l → h' q = h q) ∧
      ∀ p ∈ l, (h m).priority ≤ (h p).priority) ∨
    (priorityPop N h head = .error .null ∧ ∀ p ∈ l, intMax ≤ (h p).priority) := by
  unfold priorityPop
  rw [walk_chain hc hl]
  simp only
  rcases minElem_spec h l (none, intMax) with ⟨h1, h2⟩ | ⟨m, hm, h1, _, h3⟩
  · rw [h1]; exact .inr ⟨rfl, h2⟩
  · rw [h1]
    simp only
    refine .inl ?_
    obtain ⟨l1, l2, rfl⟩ := List.append_of_mem hm
    cases l1 with
    | nil =>
      have he : head = some m := hc.1
      rw [if_pos he.symm]
      exact ⟨m, l2, h, (h m).next, rfl, .refl _, hc.2, same_refl h, fun _ _ => rfl, h3⟩
    | cons p l1 =>
      have he : head = some p := hc.1
      have hne : some m ≠ head := by
        rw [he]
        intro e
        cases e
        exact (List.nodup_cons.mp hnd).1 (by simp)
      rw [if_neg hne]
      obtain ⟨g1, g2, g3⟩ := unlink_spec hnd hc
      refine ⟨m, p :: l1 ++ l2, _, head, rfl, ?_, g1, g2, g3, h3⟩
      exact List.perm_middle

end Verif.Goap
