import Verif.Goap.Lists

/-!
# GOAP planner: invariant
-/

namespace Verif.Goap

open Spec

variable {S : Type}

/-- A node is the start, or it comes from a closed node by an action that was possible there. -/
def Link (P : Problem S) (s0 : S) (h : Heap S) (cl : List Nat) (p : Nat) : Prop :=
  ((h p).parent = none ∧ (h p).state = s0) ∨
  ∃ q i a, (h p).parent = some q ∧ q ∈ cl ∧ (h p).action = some i ∧ P.acts[i]? = some a ∧ a.canRun (h q).state = true ∧
    (h p).state = a.effects (h q).state ∧ (h q).cost < (h p).cost

theorem Link.same {P : Problem S} {s0 : S} {h h' : Heap S} {cl : List Nat} {p : Nat} (hs : Same h h') (hl : Link P s0 h cl p) : Link P s0 h' cl p := by
  rcases hl with ⟨h1, h2⟩ | ⟨q, i, a, h1, h2, h3, h4, h5, h6, h7⟩
  · exact .inl ⟨(hs p).2.2.2.1.trans h1, (hs p).2.2.1.trans h2⟩
  · refine .inr ⟨q, i, a, (hs p).2.2.2.1.trans h1, h2, (hs p).2.2.2.2.trans h3, h4, ?_, ?_, ?_⟩
    · rw [(hs q).2.2.1]; exact h5
    · rw [(hs q).2.2.1, (hs p).2.2.1]; exact h6
    · rw [(hs q).2.1, (hs p).2.1]; exact h7

theorem Link.mono {P : Problem S} {s0 : S} {h : Heap S} {cl cl' : List Nat} {p : Nat} (hs : ∀ q ∈ cl, q ∈ cl') (hl : Link P s0 h cl p) : Link P s0 h cl' p := by
  rcases hl with h1 | ⟨q, i, a, h1, h2, h3⟩
  · exact .inl h1
  · exact .inr ⟨q, i, a, h1, hs q h2, h3⟩

/-! ## Following the parents -/

theorem executes_snoc {acts : List (Action S)} {s s' : S} {l : List (Option Nat)} (h : Executes acts s l s') {i : Nat} {a : Action S} (ha : acts[i]? = some a)
    (hr : a.canRun s' = true) : Executes acts s (l ++ [some i]) (a.effects s') := by
  induction h with
  | nil => exact .cons ha hr .nil
  | cons h1 h2 _ ih => exact .cons h1 h2 (ih hr)

theorem ancestors_ok {P : Problem S} {s0 : S} {h : Heap S} {cl : List Nat} (hl : ∀ p ∈ cl, Link P s0 h cl p) :
    ∀ (n : Nat) {p : Nat}, p ∈ cl → (cl.countP fun q => decide ((h q).cost < (h p).cost)) ≤ n →
      ∃ l, ancestors n h p = .ok l ∧ l.length ≤ (cl.countP fun q => decide ((h q).cost < (h p).cost)) ∧ Executes P.acts s0 (l.map fun p => (h p).action).reverse (h p).state := by
  intro n
  induction n with
  | zero =>
    intro p hp hc
    rcases hl p hp with ⟨h1, h2⟩ | ⟨q, i, a, h1, h2, h3, h4, h5, h6, h7⟩
    · refine ⟨[], ?_, Nat.zero_le _, ?_⟩
      · unfold ancestors; rw [h1]
      · rw [h2]; exact .nil
    · exfalso
      have := List.countP_pos_iff (p := fun q => decide ((h q).cost < (h p).cost)).mpr ⟨q, h2, by simpa using h7⟩
      omega
  | succ n ih =>
    intro p hp hc
    rcases hl p hp with ⟨h1, h2⟩ | ⟨q, i, a, h1, h2, h3, h4, h5, h6, h7⟩
    · refine ⟨[], ?_, Nat.zero_le _, ?_⟩
      · unfold ancestors; rw [h1]
      · rw [h2]; exact .nil
    · have hlt : (cl.countP fun x => decide ((h x).cost < (h q).cost)) < (cl.countP fun x => decide ((h x).cost < (h p).cost)) := by
        obtain ⟨l1, l2, e⟩ := List.append_of_mem h2
        rw [e]
        simp only [List.countP_append, List.countP_cons]
        have m1 := List.countP_mono_left (l := l1) (p := fun x => decide ((h x).cost < (h q).cost)) (q := fun x => decide ((h x).cost < (h p).cost))
          (by intro x _ hx; simp only [decide_eq_true_eq] at hx ⊢; omega)
        have m2 := List.countP_mono_left (l := l2) (p := fun x => decide ((h x).cost < (h q).cost)) (q := fun x => decide ((h x).cost < (h p).cost))
          (by intro x _ hx; simp only [decide_eq_true_eq] at hx ⊢; omega)
        rw [if_neg (by simp), if_pos (by simpa using h7)]
        omega
      obtain ⟨l, g1, g2, g3⟩ := ih h2 (by omega)
      refine ⟨p :: l, ?_, by rw [List.length_cons]; omega, ?_⟩
      · unfold ancestors
        rw [h1]
        simp only [g1]
      · rw [List.map_cons, List.reverse_cons, h3, h6]
        exact executes_snoc g3 h4 h5

/-! ## Updating nodes with the state of the new one -/

variable [DecidableEq S]

/-- What `updateAll` does to the nodes: some nodes of the same state and with a greater cost get the priority, parent and action of `n`. -/
def Upd (n : Nat) (h h' : Heap S) : Prop :=
  ∀ p, h' p = h p ∨ ((h p).state = (h n).state ∧ (h n).cost < (h p).cost ∧
    h' p = { h p with priority := (h n).priority, parent := (h n).parent, action := (h n).action })

theorem Upd.self {n : Nat} {h h' : Heap S} (hu : Upd n h h') : h' n = h n := by
  rcases hu n with h1 | ⟨_, h1, _⟩
  · exact h1
  · omega

theorem Upd.keeps {n : Nat} {h h' : Heap S} (hu : Upd n h h') (p : Nat) : (h' p).state = (h p).state ∧ (h' p).cost = (h p).cost ∧ (h' p).next = (h p).next := by
  rcases hu p with h1 | ⟨_, _, h1⟩
  · rw [h1]; exact ⟨rfl, rfl, rfl⟩
  · rw [h1]; exact ⟨rfl, rfl, rfl⟩

theorem updateQueued_upd {n p : Nat} {h h' : Heap S} (hu : Upd n h h') (hs : (h' p).state = (h' n).state) : Upd n h (updateQueued h' p n) := by
  unfold updateQueued
  split
  · rename_i hc
    intro q
    by_cases hq : q = p
    · subst hq
      rw [upd_same]
      have hk := hu.keeps q
      rw [hu.self] at hs hc ⊢
      refine .inr ⟨by rw [← hk.1]; exact hs, by rw [← hk.2.1]; omega, ?_⟩
      rcases hu q with h1 | ⟨_, _, h1⟩
      · rw [h1]
      · rw [h1]
    · rw [upd_ne _ _ hq]
      exact hu q
  · exact hu

theorem updateAll_spec {n : Nat} {h : Heap S} : ∀ (l : List Nat) (x : Heap S × Bool), Upd n h x.1 →
    Upd n h (updateAll n l x).1 ∧ (updateAll n l x).2 = (x.2 && l.all fun p => decide ((h p).state ≠ (h n).state))
  | [], x, hx => ⟨hx, by simp [updateAll]⟩
  | p :: l, x, hx => by
    unfold updateAll
    by_cases he : (x.1 p).state = (x.1 n).state
    · rw [if_pos he]
      have h1 := updateAll_spec l (updateQueued x.1 p n, false) (updateQueued_upd hx he)
      refine ⟨h1.1, ?_⟩
      rw [h1.2]
      rw [(hx.keeps p).1, hx.self] at he
      simp [he]
    · rw [if_neg he]
      have h1 := updateAll_spec l x hx
      refine ⟨h1.1, ?_⟩
      rw [h1.2]
      rw [(hx.keeps p).1, hx.self] at he
      simp [he]

/-! ## The new node -/

/-- The heap after the new node `n` has been written, goap.hpp:122-127. -/
def write (h : Heap S) (n cur i : Nat) (s : S) (cost priority : Int) : Heap S :=
  h.upd n { h n with state := s, cost := cost, priority := priority, parent := some cur, action := some i }

/-- The additions of goap.hpp:124-125 fit an `int`. -/
def Fits (P : Problem S) (n : VNode S) (s : S) : Prop :=
  (-2147483648 ≤ n.cost + 1 ∧ n.cost + 1 ≤ intMax) ∧ (-2147483648 ≤ n.priority + 1 ∧ n.priority + 1 ≤ intMax) ∧
    (-2147483648 ≤ n.priority + 1 + P.dist s ∧ n.priority + 1 + P.dist s ≤ intMax)

theorem expand1_eq {N : Nat} {P : Problem S} {cur i n : Nat} {a : Action S} {st : St S} (hf : st.free = some n) (hn : n ≠ cur) :
    (Fits P (st.h cur) (a.effects (st.h cur).state) ∧ expand1 N P cur i a st =
      place N ⟨write (st.h.setNext n none) n cur i (a.effects (st.h cur).state) ((st.h cur).cost + 1)
        ((st.h cur).priority + 1 + P.dist (a.effects (st.h cur).state)), (st.h n).next, st.opn, st.close⟩ n) ∨
    (¬ Fits P (st.h cur) (a.effects (st.h cur).state) ∧ expand1 N P cur i a st = .error .overflow) := by
  unfold expand1
  rw [hf]
  simp only [popHead]
  rw [setNext_ne _ _ (Ne.symm hn)]
  unfold chk Fits
  split
  · rename_i h1
    split at h1
    · cases h1
    · rename_i h2; cases h1; exact .inr ⟨fun h => h2 h.1, rfl⟩
  · rename_i c h1
    split at h1
    · rename_i hc
      cases h1
      split
      · rename_i h1
        split at h1
        · cases h1
        · rename_i h2; cases h1; exact .inr ⟨fun h => h2 h.2.1, rfl⟩
      · rename_i x h1
        split at h1
        · rename_i hx
          cases h1
          split
          · rename_i h1
            split at h1
            · cases h1
            · rename_i h2; cases h1; exact .inr ⟨fun h => h2 h.2.2, rfl⟩
          · rename_i y h1
            split at h1
            · rename_i hy
              cases h1
              exact .inl ⟨⟨hc, hx, hy⟩, rfl⟩
            · cases h1
        · cases h1
    · cases h1

theorem write_ne (h : Heap S) {n q : Nat} (cur i : Nat) (s : S) (c p : Int) (hq : q ≠ n) : write (h.setNext n none) n cur i s c p q = h q := by
  unfold write
  rw [upd_ne _ _ hq, setNext_ne _ _ hq]

theorem write_same (h : Heap S) (n cur i : Nat) (s : S) (c p : Int) : write (h.setNext n none) n cur i s c p n = ⟨p, c, s, some cur, some i, none⟩ := by
  unfold write
  rw [upd_same]
  simp only [setNext_next]

/-- Every node that counts is linked after the updates if it was before, and so is the new node. -/
theorem link_upd {P : Problem S} {s0 : S} {h h2 : Heap S} {cl : List Nat} {cur i n : Nat} {a : Action S} {p : Int} (hn : n ∉ cl) (hcur : cur ∈ cl)
    (ha : P.acts[i]? = some a) (hr : a.canRun (h cur).state = true)
    (hu : Upd n (write (h.setNext n none) n cur i (a.effects (h cur).state) ((h cur).cost + 1) p) h2) :
    Link P s0 h2 cl n ∧ ∀ q, q ≠ n → Link P s0 h cl q → Link P s0 h2 cl q := by
  have hk := fun q (hq : q ≠ n) => hu.keeps q
  have hcn : cur ≠ n := fun e => hn (e ▸ hcur)
  have st : ∀ q, q ≠ n → (h2 q).state = (h q).state ∧ (h2 q).cost = (h q).cost := by
    intro q hq
    have := hu.keeps q
    rw [write_ne h cur i _ _ _ hq] at this
    exact ⟨this.1, this.2.1⟩
  constructor
  · have hs := hu.self
    rw [write_same] at hs
    refine .inr ⟨cur, i, a, by rw [hs], hcur, by rw [hs], ha, ?_, ?_, ?_⟩
    · rw [(st cur hcn).1]; exact hr
    · rw [(st cur hcn).1, hs]
    · rw [(st cur hcn).2, hs]; simp only; omega
  · intro q hq hl
    rcases hu q with h1 | ⟨h1, h2', h3⟩
    · rw [write_ne h cur i _ _ _ hq] at h1
      rcases hl with ⟨g1, g2⟩ | ⟨r, j, b, g1, g2, g3, g4, g5, g6, g7⟩
      · exact .inl ⟨by rw [h1]; exact g1, by rw [h1]; exact g2⟩
      · have hrn : r ≠ n := fun e => hn (e ▸ g2)
        refine .inr ⟨r, j, b, by rw [h1]; exact g1, g2, by rw [h1]; exact g3, g4, ?_, ?_, ?_⟩
        · rw [(st r hrn).1]; exact g5
        · rw [(st r hrn).1, h1]; exact g6
        · rw [(st r hrn).2, h1]; exact g7
    · rw [write_same, write_ne h cur i _ _ _ hq] at h3 h1 h2'
      simp only at h1 h2' h3
      refine .inr ⟨cur, i, a, by rw [h3], hcur, by rw [h3], ha, ?_, ?_, ?_⟩
      · rw [(st cur hcn).1]; exact hr
      · rw [(st cur hcn).1, h3]; exact h1
      · rw [(st cur hcn).2, h3]; simp only; omega

/-! ## The three situations the planner can be in -/

/-- The lists share no node. -/
structure Normal (P : Problem S) (s0 : S) (N : Nat) (st : St S) (fl ol cl : List Nat) : Prop where
  free : Chain st.h st.free fl
  opn : Chain st.h st.opn ol
  close : Chain st.h st.close cl
  nodup : (fl ++ (ol ++ cl)).Nodup
  count : fl.length + (ol.length + cl.length) = N
  link : ∀ p ∈ ol ++ cl, Link P s0 st.h cl p
  distinct : ∀ p ∈ ol ++ cl, ∀ q ∈ ol ++ cl, (st.h p).state = (st.h q).state → p = q

/-- The only open node is also the only free one. -/
structure Half (P : Problem S) (s0 : S) (N : Nat) (st : St S) (x : Nat) (cl : List Nat) : Prop where
  free : st.free = some x
  opn : Chain st.h st.opn [x]
  close : Chain st.h st.close cl
  nodup : (x :: cl).Nodup
  count : (x :: cl).length ≤ N
  link : ∀ p ∈ x :: cl, Link P s0 st.h cl p

/-- The last closed node is also free. -/
structure Dead (N : Nat) (st : St S) (x : Nat) (cl : List Nat) : Prop where
  free : st.free = some x
  opn : st.opn = none
  close : Chain st.h st.close (x :: cl)
  nodup : (x :: cl).Nodup
  count : (x :: cl).length ≤ N

/-- How the nodes that count differ after an action of `cur` has been tried. -/
def Grown (P : Problem S) (h h2 : Heap S) (live live2 : List Nat) (cur n : Nat) (s : S) : Prop :=
  (h2 cur).priority = (h cur).priority ∧ (∀ p ∈ live, p ∈ live2 ∧ (h2 p).state = (h p).state) ∧ (∃ p ∈ live2, (h2 p).state = s) ∧
  (∀ p ∈ live2, (p ∈ live ∧ (h2 p).state = (h p).state ∧ (h2 p).cost = (h p).cost ∧
      ((h2 p).priority = (h p).priority ∨ (h2 p).priority = (h cur).priority + 1 + P.dist (h2 p).state)) ∨
    (p = n ∧ (h2 p).state = s ∧ (h2 p).cost = (h cur).cost + 1 ∧ (h2 p).priority = (h cur).priority + 1 + P.dist s))

theorem expand1_normal {P : Problem S} {s0 : S} {N : Nat} {st : St S} {n : Nat} {fl ol cl : List Nat} (hi : Normal P s0 N st (n :: fl) ol cl) {cur i : Nat}
    (hcur : cur ∈ cl) {a : Action S} (ha : P.acts[i]? = some a) (hr : a.canRun (st.h cur).state = true) :
    (∃ st' fl' ol', expand1 N P cur i a st = .ok st' ∧ Normal P s0 N st' fl' ol' cl ∧
      Grown P st.h st'.h (ol ++ cl) (ol' ++ cl) cur n (a.effects (st.h cur).state)) ∨
    (¬ Fits P (st.h cur) (a.effects (st.h cur).state) ∧ expand1 N P cur i a st = .error .overflow) := by
  have hnn : n ∉ fl ∧ n ∉ ol ∧ n ∉ cl := by
    have : n ∉ fl ++ (ol ++ cl) := (List.nodup_cons.mp hi.nodup).1
    simp only [List.mem_append, not_or] at this
    exact this
  obtain ⟨hnf, hno, hnc⟩ := hnn
  have hcn : n ≠ cur := fun e => hnc (e ▸ hcur)
  rcases expand1_eq (N := N) (P := P) (i := i) (a := a) hi.free.1 hcn with ⟨hfit, he⟩ | he
  · refine .inl ?_
    rw [he]
    generalize hh1 : write (st.h.setNext n none) n cur i (a.effects (st.h cur).state) ((st.h cur).cost + 1)
        ((st.h cur).priority + 1 + P.dist (a.effects (st.h cur).state)) = h1
    have hsame : h1 n = _ := hh1 ▸ write_same st.h n cur i _ _ _
    have hother : ∀ q, q ≠ n → h1 q = st.h q := fun q hq => hh1 ▸ write_ne st.h cur i _ _ _ hq
    have cong : ∀ {l : List Nat} {head}, n ∉ l → Chain st.h head l → Chain h1 head l :=
      fun hl hc => chain_congr (fun q hq => by rw [hother q (fun e => hl (e ▸ hq))]) hc
    have hcount := hi.count
    simp only [List.length_cons] at hcount
    unfold place
    rw [walk_chain (cong hno hi.opn) (by omega)]
    dsimp only
    obtain ⟨u1, f1⟩ := updateAll_spec (n := n) (h := h1) ol (h1, true) (fun _ => .inl rfl)
    have hc1 : Chain (updateAll n ol (h1, true)).1 st.close cl := chain_congr (fun q _ => (u1.keeps q).2.2) (cong hnc hi.close)
    rw [walk_chain hc1 (by omega)]
    dsimp only
    obtain ⟨u2, f2⟩ := updateAll_spec (n := n) (h := h1) cl _ u1
    rw [f1] at f2
    generalize updateAll n cl (updateAll n ol (h1, true)) = y at u2 f2
    have cong2 : ∀ {l : List Nat} {head x}, n ∉ l → Chain st.h head l → Chain (y.1.setNext n x) head l :=
      fun hl hc => chain_setNext hl (chain_congr (fun q _ => (u2.keeps q).2.2) (cong hl hc))
    obtain ⟨ln, lo⟩ := link_upd (s0 := s0) hnc hcur ha hr (hh1.symm ▸ u2)
    have hlive : ∀ {q}, q ∈ ol ++ cl → q ≠ n := by
      intro q hq e
      subst e
      rcases List.mem_append.mp hq with h | h
      · exact hno h
      · exact hnc h
    have keep : ∀ x q, q ∈ ol ++ cl → ((y.1.setNext n x) q).state = (st.h q).state ∧ ((y.1.setNext n x) q).cost = (st.h q).cost ∧
        (((y.1.setNext n x) q).priority = (st.h q).priority ∨
          ((y.1.setNext n x) q).priority = (st.h cur).priority + 1 + P.dist ((y.1.setNext n x) q).state) := by
      intro x q hq
      have hq := hlive hq
      rw [setNext_ne _ _ hq]
      have := u2.keeps q
      rw [hother q hq] at this
      refine ⟨this.1, this.2.1, ?_⟩
      rcases u2 q with h | ⟨h3, _, h⟩
      · rw [h, hother q hq]; exact .inl rfl
      · rw [hsame, hother q hq] at h3
        simp only at h3
        rw [h, hsame, hother q hq]
        simp only
        exact .inr (by rw [h3])
    have hcp : ∀ x, ((y.1.setNext n x) cur).priority = (st.h cur).priority := by
      intro x
      rw [setNext_ne _ _ (Ne.symm hcn)]
      rcases u2 cur with h | ⟨_, h, _⟩
      · rw [h, hother cur (Ne.symm hcn)]
      · rw [hsame, hother cur (Ne.symm hcn)] at h
        simp only at h
        omega
    cases hy : y.2
    · -- an old node has the state
      rw [if_neg (by simp)]
      rw [hy] at f2
      have hex : ∃ p ∈ ol ++ cl, (st.h p).state = a.effects (st.h cur).state := by
        have hall : ¬ ∀ p ∈ ol ++ cl, (st.h p).state ≠ a.effects (st.h cur).state := by
          intro hall
          have e1 : (ol.all fun p => decide ((h1 p).state ≠ (h1 n).state)) = true := by
            rw [List.all_eq_true]
            intro p hp
            rw [hsame, hother p (hlive (List.mem_append.mpr (.inl hp)))]
            simpa using hall p (List.mem_append.mpr (.inl hp))
          have e2 : (cl.all fun p => decide ((h1 p).state ≠ (h1 n).state)) = true := by
            rw [List.all_eq_true]
            intro p hp
            rw [hsame, hother p (hlive (List.mem_append.mpr (.inr hp)))]
            simpa using hall p (List.mem_append.mpr (.inr hp))
          rw [e1, e2] at f2
          cases f2
        apply Classical.byContradiction
        intro hne
        exact hall fun p hp he => hne ⟨p, hp, he⟩
      refine ⟨_, n :: fl, ol, rfl, ⟨⟨rfl, ?_⟩, cong2 hno hi.opn, cong2 hnc hi.close, hi.nodup, hi.count, ?_, ?_⟩, ?_⟩
      · rw [setNext_next]
        exact cong2 hnf hi.free.2
      · intro p hp
        exact (lo p (hlive hp) (hi.link p hp)).same (same_setNext _ _ _)
      · intro p hp q hq he
        rw [(keep _ p hp).1, (keep _ q hq).1] at he
        exact hi.distinct p hp q hq he
      · refine ⟨hcp _, fun p hp => ⟨hp, (keep _ p hp).1⟩, ?_, fun p hp => .inl ⟨hp, keep _ p hp⟩⟩
        obtain ⟨p, hp, he⟩ := hex
        exact ⟨p, hp, (keep _ p hp).1.trans he⟩
    · -- the state is new
      rw [if_pos rfl]
      rw [hy] at f2
      have f2' := f2.symm
      simp only [Bool.and_eq_true, Bool.true_and, List.all_eq_true, decide_eq_true_eq] at f2'
      have hnew : ∀ p ∈ ol ++ cl, (st.h p).state ≠ a.effects (st.h cur).state := by
        intro p hp
        have : (h1 p).state ≠ (h1 n).state := by
          rcases List.mem_append.mp hp with h | h
          · exact f2'.1 p h
          · exact f2'.2 p h
        rw [hsame, hother p (hlive hp)] at this
        exact this
      have hdata : ∀ x, ((y.1.setNext n x) n).state = a.effects (st.h cur).state ∧ ((y.1.setNext n x) n).cost = (st.h cur).cost + 1 ∧
          ((y.1.setNext n x) n).priority = (st.h cur).priority + 1 + P.dist (a.effects (st.h cur).state) := by
        intro x
        have hs := same_setNext y.1 n x n
        rw [hs.2.2.1, hs.2.1, hs.1, u2.self, hsame]
        exact ⟨rfl, rfl, rfl⟩
      refine ⟨_, fl, n :: ol, rfl, ⟨cong2 hnf hi.free.2, ⟨rfl, ?_⟩, cong2 hnc hi.close, ?_, ?_, ?_, ?_⟩, ?_⟩
      · rw [setNext_next]
        exact cong2 hno hi.opn
      · have := hi.nodup
        exact (List.perm_middle (l₁ := fl) (a := n) (l₂ := ol ++ cl)).nodup_iff.mpr this
      · simp only [List.length_cons]; omega
      · intro p hp
        rcases List.mem_cons.mp hp with rfl | hp
        · exact ln.same (same_setNext _ _ _)
        · exact (lo p (hlive hp) (hi.link p hp)).same (same_setNext _ _ _)
      · intro p hp q hq he
        replace hp := List.mem_cons.mp hp
        replace hq := List.mem_cons.mp hq
        rcases hp with rfl | hp <;> rcases hq with rfl | hq
        · rfl
        · rw [(keep _ q hq).1, (hdata _).1] at he
          exact absurd he.symm (hnew q hq)
        · rw [(keep _ p hp).1, (hdata _).1] at he
          exact absurd he (hnew p hp)
        · rw [(keep _ p hp).1, (keep _ q hq).1] at he
          exact hi.distinct p hp q hq he
      · refine ⟨hcp _, fun p hp => ⟨List.mem_cons_of_mem _ hp, (keep _ p hp).1⟩, ⟨n, List.mem_cons_self, (hdata _).1⟩, ?_⟩
        intro p hp
        rcases List.mem_cons.mp hp with rfl | hp
        · exact .inr ⟨rfl, hdata _⟩
        · exact .inl ⟨hp, keep _ p hp⟩
  · exact .inr he

end Verif.Goap
