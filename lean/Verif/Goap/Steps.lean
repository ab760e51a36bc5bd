import Verif.Goap.Inv
import Mathlib.Data.List.Perm.Subperm
import Mathlib.Data.List.Nodup

/-!
# GOAP planner: the loops
-/

namespace Verif.Goap

open Spec

variable {S : Type} [DecidableEq S] {P : Problem S} {s0 : S} {N : Nat}

/-! ## Garbage collection -/

theorem chain_cut {h : Heap S} {x : Nat} {r : List Nat} : ∀ {l : List Nat} {head : Option Nat}, x ∉ l → Chain h head (l ++ x :: r) →
    Chain (h.setNext x none) head (l ++ [x]) ∧ Chain h (h x).next r
  | [], head, _, hc => ⟨⟨hc.1, setNext_next _ _ _⟩, hc.2⟩
  | p :: l, head, hx, hc => by
    simp only [List.mem_cons, not_or] at hx
    have ih := chain_cut hx.2 hc.2
    refine ⟨⟨hc.1, ?_⟩, ih.2⟩
    rw [setNext_ne _ _ (Ne.symm hx.1)]
    exact ih.1

theorem alloc_normal {st : St S} {fl ol cl : List Nat} (hi : Normal P s0 N st fl ol cl) :
    (∃ n fl', fl = n :: fl' ∧ alloc N st = .ok (some st)) ∨ (fl = [] ∧ ol = [] ∧ alloc N st = .ok none) ∨
    (fl = [] ∧ ∃ x st', ol = [x] ∧ alloc N st = .ok (some st') ∧ Half P s0 N st' x cl ∧ st'.h = st.h) ∨
    (fl = [] ∧ ∃ l x y st', ol = l ++ [x, y] ∧ alloc N st = .ok (some st') ∧ Normal P s0 N st' [y] (l ++ [x]) cl ∧ Same st.h st'.h) := by
  unfold alloc
  cases fl with
  | cons n fl =>
    rw [hi.free.1]
    exact .inl ⟨n, fl, rfl, rfl⟩
  | nil =>
    have hfree : st.free = none := hi.free
    have hcount := hi.count
    simp only [List.length_nil] at hcount
    rw [hfree]
    dsimp only
    rw [walk_chain hi.opn (by omega)]
    dsimp only
    refine .inr ?_
    rcases List.eq_nil_or_concat ol with rfl | ⟨ol1, y, rfl⟩
    · exact .inl ⟨rfl, rfl, rfl⟩
    · rw [List.concat_eq_append] at *
      rcases List.eq_nil_or_concat ol1 with rfl | ⟨l, x, rfl⟩
      · refine .inr (.inl ⟨rfl, y, { st with free := some y }, rfl, rfl, ⟨rfl, hi.opn, hi.close, hi.nodup, ?_, hi.link⟩, rfl⟩)
        simp at hcount ⊢; omega
      · rw [List.concat_eq_append] at *
        simp only [List.reverse_append, List.reverse_cons, List.reverse_nil, List.nil_append, List.cons_append]
        refine .inr (.inr ⟨trivial, l, x, y, _, by simp, rfl, ?_, same_setNext _ _ _⟩)
        have hnd := hi.nodup
        simp only [List.nil_append, List.append_assoc, List.singleton_append] at hnd
        have hxl : x ∉ l ∧ x ≠ y ∧ x ∉ cl := by
          simp only [List.nodup_append, List.nodup_cons, List.mem_cons, not_or] at hnd
          grind
        have hopn := hi.opn
        rw [List.append_assoc, List.singleton_append] at hopn
        obtain ⟨c1, c2⟩ := chain_cut hxl.1 hopn
        have hsub : ∀ p ∈ l ++ [x] ++ cl, p ∈ l ++ [x] ++ [y] ++ cl := by
          intro p hp
          simp only [List.mem_append] at hp ⊢
          grind
        refine ⟨⟨rfl, ?_⟩, c1, chain_setNext hxl.2.2 hi.close, ?_, ?_, ?_, ?_⟩
        · show (st.h.setNext x none y).next = none
          rw [setNext_ne _ _ (Ne.symm hxl.2.1)]
          exact c2.2
        · refine (List.Perm.nodup_iff ?_).mpr hnd
          have := (List.perm_middle (l₁ := l ++ [x]) (a := y) (l₂ := cl)).symm
          simpa using this
        · simp only [List.length_append, List.length_cons, List.length_nil] at hcount ⊢
          omega
        · intro p hp
          exact (hi.link p (hsub p hp)).same (same_setNext _ _ _)
        · intro p hp q hq he
          rw [(same_setNext st.h x none p).2.2.1, (same_setNext st.h x none q).2.2.1] at he
          exact hi.distinct p (hsub p hp) q (hsub q hq) he

/-! ## After the only open node has been collected -/

theorem expand1_half {st : St S} {x : Nat} {cl : List Nat} (hi : Half P s0 N st x cl) {cur i : Nat} (hcur : cur ∈ cl) {a : Action S}
    (ha : P.acts[i]? = some a) (hr : a.canRun (st.h cur).state = true) :
    (∃ st', expand1 N P cur i a st = .ok st' ∧ Half P s0 N st' x cl) ∨ expand1 N P cur i a st = .error .overflow := by
  obtain ⟨hxc, hnd⟩ := List.nodup_cons.mp hi.nodup
  have hcn : x ≠ cur := fun e => hxc (e ▸ hcur)
  rcases expand1_eq (N := N) (P := P) (i := i) (a := a) hi.free hcn with ⟨_, he⟩ | ⟨_, he⟩
  · refine .inl ?_
    rw [he]
    generalize hh1 : write (st.h.setNext x none) x cur i (a.effects (st.h cur).state) ((st.h cur).cost + 1)
        ((st.h cur).priority + 1 + P.dist (a.effects (st.h cur).state)) = h1
    have hsame : h1 x = _ := hh1 ▸ write_same st.h x cur i _ _ _
    have hother : ∀ q, q ≠ x → h1 q = st.h q := fun q hq => hh1 ▸ write_ne st.h cur i _ _ _ hq
    have hcount := hi.count
    simp only [List.length_cons] at hcount
    have ho : Chain h1 st.opn [x] := ⟨hi.opn.1, by rw [hsame]; rfl⟩
    have hcl : Chain h1 st.close cl := chain_congr (fun q hq => by rw [hother q (fun e => hxc (e ▸ hq))]) hi.close
    unfold place
    rw [walk_chain ho (by simp only [List.length_cons, List.length_nil]; omega)]
    dsimp only
    obtain ⟨u1, f1⟩ := updateAll_spec (n := x) (h := h1) [x] (h1, true) (fun _ => .inl rfl)
    have hc1 : Chain (updateAll x [x] (h1, true)).1 st.close cl := chain_congr (fun q _ => (u1.keeps q).2.2) hcl
    rw [walk_chain hc1 (by omega)]
    dsimp only
    obtain ⟨u2, f2⟩ := updateAll_spec (n := x) (h := h1) cl _ u1
    rw [f1] at f2
    generalize updateAll x cl (updateAll x [x] (h1, true)) = y at u2 f2
    have hy : y.2 = false := by rw [f2]; simp
    rw [hy, if_neg (by simp)]
    obtain ⟨ln, lo⟩ := link_upd (s0 := s0) hxc hcur ha hr (hh1.symm ▸ u2)
    refine ⟨_, rfl, ⟨rfl, ⟨hi.opn.1, ?_⟩, chain_setNext hxc (chain_congr (fun q _ => (u2.keeps q).2.2) hcl), hi.nodup, hi.count, ?_⟩⟩
    · show ((y.1.setNext x (st.h x).next) x).next = none
      rw [setNext_next]
      exact hi.opn.2
    · intro p hp
      rcases List.mem_cons.mp hp with rfl | hp
      · exact ln.same (same_setNext _ _ _)
      · exact (lo p (fun e => hxc (e ▸ hp)) (hi.link p (List.mem_cons_of_mem _ hp))).same (same_setNext _ _ _)
  · exact .inr he

theorem place_dead {st : St S} {x : Nat} {cl : List Nat} {h1 : Heap S} (hi : Dead N st x cl) (hx : (h1 x).next = none) (ho : ∀ q, q ≠ x → h1 q = st.h q) :
    ∃ st', place N ⟨h1, (st.h x).next, st.opn, st.close⟩ x = .ok st' ∧ Dead N st' x cl := by
  have hc := hi.close
  have hcount := hi.count
  obtain ⟨hxc, hnd⟩ := List.nodup_cons.mp hi.nodup
  unfold place
  rw [hi.opn, walk_chain (l := []) (head := none) rfl (Nat.zero_le _)]
  dsimp only
  have hc1 : Chain (updateAll x [] (h1, true)).1 st.close [x] := ⟨hc.1, hx⟩
  rw [walk_chain hc1 (by simp only [List.length_cons, List.length_nil] at hcount ⊢; omega)]
  dsimp only
  obtain ⟨u2, f2⟩ := updateAll_spec (n := x) (h := h1) [x] (updateAll x [] (h1, true)) (fun _ => .inl rfl)
  generalize updateAll x [x] (updateAll x [] (h1, true)) = y at u2 f2
  have hy : y.2 = false := by rw [f2]; simp
  rw [hy, if_neg (by simp)]
  refine ⟨_, rfl, ⟨rfl, rfl, ⟨hc.1, ?_⟩, hi.nodup, hi.count⟩⟩
  rw [setNext_next]
  refine chain_setNext hxc (chain_congr (fun q hq => ?_) hc.2)
  rw [(u2.keeps q).2.2, ho q (fun e => hxc (e ▸ hq))]

theorem expand1_dead {st : St S} {x : Nat} {cl : List Nat} (hi : Dead N st x cl) {i : Nat} {a : Action S} :
    (∃ st', expand1 N P x i a st = .ok st' ∧ Dead N st' x cl) ∨ expand1 N P x i a st = .error .overflow := by
  unfold expand1
  rw [hi.free]
  simp only [popHead]
  unfold chk
  split
  · rename_i h1
    split at h1
    · cases h1
    · cases h1; exact .inr rfl
  · split
    · rename_i h1
      split at h1
      · cases h1
      · cases h1; exact .inr rfl
    · split
      · rename_i h1
        split at h1
        · cases h1
        · cases h1; exact .inr rfl
      · refine .inl (place_dead hi ?_ ?_)
        · rw [upd_same]; simp only [setNext_next]
        · intro q hq
          rw [upd_ne _ _ hq, setNext_ne _ _ hq]

/-! ## The loop over the actions -/

theorem alloc_some {st : St S} {x : Nat} (h : st.free = some x) : alloc N st = .ok (some st) := by unfold alloc; rw [h]

theorem expandAll_dead {x : Nat} {cl : List Nat} : ∀ {as : List (Action S)} {i : Nat} {st : St S}, Dead N st x cl →
    (∃ st', expandAll N P x as i st = .ok (.go st') ∧ Dead N st' x cl) ∨ expandAll N P x as i st = .error .overflow
  | [], i, st, hi => .inl ⟨st, rfl, hi⟩
  | a :: as, i, st, hi => by
    unfold expandAll
    split
    · rw [alloc_some hi.free]
      simp only
      rcases expand1_dead (P := P) (i := i) (a := a) hi with ⟨st', h1, h2⟩ | h1
      · rw [h1]; exact expandAll_dead h2
      · rw [h1]; exact .inr rfl
    · exact expandAll_dead hi

theorem expandAll_half {cur x : Nat} {cl : List Nat} (hcur : cur ∈ cl) : ∀ {as : List (Action S)} {i : Nat} {st : St S}, as = P.acts.drop i →
    Half P s0 N st x cl →
    (∃ st', expandAll N P cur as i st = .ok (.go st') ∧ Half P s0 N st' x cl) ∨ expandAll N P cur as i st = .error .overflow
  | [], i, st, _, hi => .inl ⟨st, rfl, hi⟩
  | a :: as, i, st, has, hi => by
    have ha : P.acts[i]? = some a := by
      have := congrArg (fun l : List (Action S) => l[0]?) has
      simpa using this.symm
    have has' : as = P.acts.drop (i + 1) := by
      have := congrArg List.tail has
      simpa using this
    unfold expandAll
    split
    · rename_i hr
      rw [alloc_some hi.free]
      simp only
      rcases expand1_half hi hcur ha hr with ⟨st', h1, h2⟩ | h1
      · rw [h1]; exact expandAll_half hcur has' h2
      · rw [h1]; exact .inr rfl
    · exact expandAll_half hcur has' hi

/-- The invariant between two iterations. -/
def Inv (P : Problem S) (s0 : S) (N : Nat) (st : St S) (cl : List Nat) : Prop :=
  (∃ fl ol, Normal P s0 N st fl ol cl) ∨ (∃ x, Half P s0 N st x cl)

theorem expandAll_inv {cur : Nat} {cl : List Nat} (hcur : cur ∈ cl) : ∀ {as : List (Action S)} {i : Nat} {st : St S} {fl ol}, as = P.acts.drop i →
    Normal P s0 N st fl ol cl →
    (∃ st', expandAll N P cur as i st = .ok (.go st') ∧ Inv P s0 N st' cl) ∨ expandAll N P cur as i st = .error .overflow ∨
      expandAll N P cur as i st = .ok (.done ⟨-2, []⟩)
  | [], i, st, fl, ol, _, hi => .inl ⟨st, rfl, .inl ⟨fl, ol, hi⟩⟩
  | a :: as, i, st, fl, ol, has, hi => by
    have ha : P.acts[i]? = some a := by
      have := congrArg (fun l : List (Action S) => l[0]?) has
      simpa using this.symm
    have has' : as = P.acts.drop (i + 1) := by
      have := congrArg List.tail has
      simpa using this
    unfold expandAll
    split
    · rename_i hr
      rcases alloc_normal hi with ⟨n, fl', rfl, h1⟩ | ⟨_, _, h1⟩ | ⟨_, x, st1, _, h1, h2, h3⟩ | ⟨_, l, x, y, st1, _, h1, h2, h3⟩
      · rw [h1]
        simp only
        rcases expand1_normal hi hcur ha hr with ⟨st', fl1, ol1, g1, g2, _⟩ | ⟨_, g1⟩
        · rw [g1]; exact expandAll_inv hcur has' g2
        · rw [g1]; exact .inr (.inl rfl)
      · rw [h1]; exact .inr (.inr rfl)
      · rw [h1]
        simp only
        rcases expand1_half h2 hcur ha (by rw [h3]; exact hr) with ⟨st', g1, g2⟩ | g1
        · rw [g1]
          rcases expandAll_half hcur has' g2 with ⟨st2, e1, e2⟩ | e1
          · exact .inl ⟨st2, e1, .inr ⟨x, e2⟩⟩
          · exact .inr (.inl e1)
        · rw [g1]; exact .inr (.inl rfl)
      · rw [h1]
        simp only
        rcases expand1_normal h2 hcur ha (by rw [(h3 cur).2.2.1]; exact hr) with ⟨st', fl1, ol1, g1, g2, _⟩ | ⟨_, g1⟩
        · rw [g1]; exact expandAll_inv hcur has' g2
        · rw [g1]; exact .inr (.inl rfl)
    · exact expandAll_inv hcur has' hi

/-! ## The main loop -/

/-- A result is correct. -/
def Correct (P : Problem S) (s0 : S) (pathLen : Int) (r : Result) : Prop :=
  (r.code < 0 ∧ (r.code = -1 ∨ r.code = -2)) ∨
  (r.code = r.path.length ∧ r.code ≤ pathLen ∧ ∃ s', Executes P.acts s0 r.path s' ∧ P.reached s' = true)

theorem finish_spec {pathLen : Int} {st : St S} {cur : Nat} {cl : List Nat} (hl : ∀ p ∈ cl, Link P s0 st.h cl p) (hcur : cur ∈ cl) (hc : cl.length ≤ N)
    (hr : P.reached (st.h cur).state = true) :
    ∃ r, finish N pathLen st cur = .ok r ∧ Correct P s0 pathLen r ∧ ((cl.length : Int) ≤ pathLen + 1 → 0 ≤ r.code) := by
  have hle := List.countP_le_length (p := fun q => decide ((st.h q).cost < (st.h cur).cost)) (l := cl)
  have hlt : (cl.countP fun q => decide ((st.h q).cost < (st.h cur).cost)) < cl.length := by
    obtain ⟨l1, l2, e⟩ := List.append_of_mem hcur
    rw [e]
    simp only [List.countP_append, List.countP_cons, List.length_append, List.length_cons]
    have m1 := List.countP_le_length (p := fun q => decide ((st.h q).cost < (st.h cur).cost)) (l := l1)
    have m2 := List.countP_le_length (p := fun q => decide ((st.h q).cost < (st.h cur).cost)) (l := l2)
    rw [if_neg (by simp)]
    omega
  obtain ⟨l, h1, h2, h3⟩ := ancestors_ok hl N hcur (by omega)
  unfold finish
  rw [h1]
  refine ⟨_, rfl, ?_⟩
  split
  · refine ⟨.inl ⟨by simp, .inl rfl⟩, ?_⟩
    intro hpl
    simp only
    omega
  · refine ⟨.inr ⟨by simp, by simp only; omega, _, h3, hr⟩, ?_⟩
    intro _
    simp only
    omega

theorem iter_dead {pathLen : Int} {st : St S} {x : Nat} {cl : List Nat} (hi : Dead N st x cl) : iter N P pathLen st = .ok (.done ⟨-1, []⟩) := by
  unfold iter
  rw [hi.opn]

/-- One iteration: an error, a correct result, a state in which the invariant holds with one more closed node, or the next iteration is the last one. -/
theorem iter_inv {pathLen : Int} {st : St S} {cl : List Nat} (hi : Inv P s0 N st cl) :
    iter N P pathLen st = .error .overflow ∨ iter N P pathLen st = .error .null ∨
    (∃ r, iter N P pathLen st = .ok (.done r) ∧ Correct P s0 pathLen r) ∨
    (∃ st', iter N P pathLen st = .ok (.go st') ∧ ((∃ cur, Inv P s0 N st' (cur :: cl)) ∨ ∃ x cl', Dead N st' x cl' ∧ cl'.length < N)) := by
  unfold iter
  rcases hi with ⟨fl, ol, hi⟩ | ⟨x, hi⟩
  · have hcount := hi.count
    split
    · exact .inr (.inr (.inl ⟨_, rfl, .inl ⟨by simp, .inl rfl⟩⟩))
    · have hndo : ol.Nodup := (List.nodup_append.mp (List.nodup_append.mp hi.nodup).2.1).1
      rcases priorityPop_spec (N := N) hi.opn hndo (by omega) with ⟨cur, l', h', head', h1, h2, h3, h4, h5, _⟩ | ⟨h1, _⟩
      · rw [h1]
        simp only
        have hperm : (fl ++ (l' ++ cur :: cl)).Perm (fl ++ (ol ++ cl)) := by
          refine List.Perm.append_left fl (List.perm_middle.trans ?_)
          exact (h2.symm.append_right cl)
        have hnd' := hperm.nodup_iff.mpr hi.nodup
        have hmem : ∀ p, p ∈ l' ++ cur :: cl ↔ p ∈ ol ++ cl := by
          intro p
          have : (l' ++ cur :: cl).Perm (ol ++ cl) := List.perm_middle.trans (h2.symm.append_right cl)
          exact this.mem_iff
        have hsame : Same st.h (h'.setNext cur st.close) := h4.trans (same_setNext _ _ _)
        have hnot : cur ∉ fl ∧ cur ∉ l' ∧ cur ∉ cl := by
          simp only [List.nodup_append, List.nodup_cons, List.mem_append, List.mem_cons] at hnd'
          grind
        have hdisj : ∀ q, q ∈ fl ∨ q ∈ cl → q ∉ ol := by
          have := hi.nodup
          simp only [List.nodup_append, List.mem_append] at this
          grind
        have hn : Normal P s0 N ⟨h'.setNext cur st.close, st.free, head', some cur⟩ fl l' (cur :: cl) := by
          refine ⟨?_, chain_setNext hnot.2.1 h3, ⟨rfl, ?_⟩, hnd', ?_, ?_, ?_⟩
          · exact chain_setNext hnot.1 (chain_congr (fun q hq => by rw [h5 q (hdisj q (.inl hq))]) hi.free)
          · rw [setNext_next]
            exact chain_setNext hnot.2.2 (chain_congr (fun q hq => by rw [h5 q (hdisj q (.inr hq))]) hi.close)
          · have := h2.length_eq
            simp only [List.length_cons] at this ⊢
            omega
          · intro p hp
            exact ((hi.link p ((hmem p).mp hp)).same hsame).mono (fun q hq => List.mem_cons_of_mem _ hq)
          · intro p hp q hq he
            simp only [(hsame p).2.2.1, (hsame q).2.2.1] at he
            exact hi.distinct p ((hmem p).mp hp) q ((hmem q).mp hq) he
        split
        · rename_i hr
          have hc' := hn.count
          obtain ⟨r, g1, g2, _⟩ := finish_spec (cl := cur :: cl) (N := N) (pathLen := pathLen) (fun p hp => hn.link p (List.mem_append.mpr (.inr hp))) List.mem_cons_self (by omega) hr
          rw [g1]
          exact .inr (.inr (.inl ⟨r, rfl, g2⟩))
        · rcases expandAll_inv (i := 0) (as := P.acts) List.mem_cons_self rfl hn with ⟨st', g1, g2⟩ | g1 | g1
          · exact .inr (.inr (.inr ⟨st', g1, .inl ⟨cur, g2⟩⟩))
          · exact .inl g1
          · exact .inr (.inr (.inl ⟨_, g1, .inl ⟨by simp, .inr rfl⟩⟩))
      · rw [h1]
        exact .inr (.inl rfl)
  · have hcount := hi.count
    simp only [List.length_cons] at hcount
    rw [hi.opn.1]
    simp only
    have ho := hi.opn
    rw [hi.opn.1] at ho
    rcases priorityPop_spec (N := N) ho (by simp) (by simp only [List.length_cons, List.length_nil]; omega) with ⟨cur, l', h', head', h1, h2, h3, h4, h5, _⟩ | ⟨h1, _⟩
    · rw [h1]
      simp only
      have hl' : cur = x ∧ l' = [] := by
        have hm := h2.mem_iff (a := cur)
        simp only [List.mem_singleton, List.mem_cons, true_or, iff_true, List.not_mem_nil, or_false] at hm
        have := h2.length_eq
        simp only [List.length_cons, List.length_nil] at this
        exact ⟨hm, List.eq_nil_of_length_eq_zero (by omega)⟩
      obtain ⟨rfl, rfl⟩ := hl'
      obtain ⟨hxc, hndc⟩ := List.nodup_cons.mp hi.nodup
      have hsame : Same st.h (h'.setNext cur st.close) := h4.trans (same_setNext _ _ _)
      have hcl : Chain (h'.setNext cur st.close) st.close cl :=
        chain_setNext hxc (chain_congr (fun q hq => by rw [h5 q (by simp only [List.mem_singleton]; exact fun e => hxc (e ▸ hq))]) hi.close)
      split
      · rename_i hr
        obtain ⟨r, g1, g2, _⟩ := finish_spec (P := P) (s0 := s0) (N := N) (pathLen := pathLen) (st := ⟨h'.setNext cur st.close, st.free, head', some cur⟩) (cl := cur :: cl)
          (fun p hp => ((hi.link p hp).same hsame).mono (fun q hq => List.mem_cons_of_mem _ hq)) List.mem_cons_self hi.count hr
        rw [g1]
        exact .inr (.inr (.inl ⟨r, rfl, g2⟩))
      · have hd : Dead N ⟨h'.setNext cur st.close, st.free, head', some cur⟩ cur cl :=
          ⟨hi.free, h3, ⟨rfl, by rw [setNext_next]; exact hcl⟩, hi.nodup, hi.count⟩
        rcases expandAll_dead (P := P) (as := P.acts) (i := 0) hd with ⟨st', g1, g2⟩ | g1
        · exact .inr (.inr (.inr ⟨st', g1, .inr ⟨cur, cl, g2, by omega⟩⟩))
        · exact .inl g1
    · rw [h1]
      exact .inr (.inl rfl)

theorem Inv.length {st : St S} {cl : List Nat} (h : Inv P s0 N st cl) : cl.length ≤ N := by
  rcases h with ⟨fl, ol, h⟩ | ⟨x, h⟩
  · have := h.count; omega
  · have := h.count; simp only [List.length_cons] at this; omega

/-- The loop ends after at most one iteration per node and two more. -/
theorem loop_inv {pathLen : Int} : ∀ {fuel : Nat} {st : St S} {cl : List Nat}, Inv P s0 N st cl → N + 2 ≤ fuel + cl.length →
    loop N P pathLen fuel st = .error .overflow ∨ loop N P pathLen fuel st = .error .null ∨
    (∃ r, loop N P pathLen fuel st = .ok r ∧ Correct P s0 pathLen r)
  | 0, st, cl, hi, hf => by have := hi.length; omega
  | fuel + 1, st, cl, hi, hf => by
    unfold loop
    rcases iter_inv (pathLen := pathLen) hi with h1 | h1 | ⟨r, h1, h2⟩ | ⟨st', h1, ⟨cur, h2⟩ | ⟨x, cl', h2, h3⟩⟩
    · rw [h1]; exact .inl rfl
    · rw [h1]; exact .inr (.inl rfl)
    · rw [h1]; exact .inr (.inr ⟨r, rfl, h2⟩)
    · rw [h1]
      exact loop_inv h2 (by simp only [List.length_cons]; omega)
    · rw [h1]
      simp only
      have := hi.length
      obtain ⟨f, rfl⟩ : ∃ f, fuel = f + 1 := ⟨fuel - 1, by omega⟩
      unfold loop
      rw [iter_dead h2]
      exact .inr (.inr ⟨_, rfl, .inl ⟨by simp, .inl rfl⟩⟩)

/-! ## The start -/

theorem arrayToList_chain (pool : Heap S) : ∀ (k : Nat), k ≤ N → Chain (arrayToList N pool) (if N - k < N then some (N - k) else none) (List.range' (N - k) k)
  | 0, _ => by
    rw [if_neg (by omega)]
    rfl
  | k + 1, hk => by
    rw [if_pos (by omega), List.range'_succ]
    refine ⟨rfl, ?_⟩
    have ih := arrayToList_chain pool k (by omega)
    have e : (arrayToList N pool (N - (k + 1))).next = if N - k < N then some (N - k) else none := by
      unfold arrayToList
      rw [if_pos (by omega)]
      simp only
      rw [show N - (k + 1) + 1 = N - k by omega]
    rw [e, show N - (k + 1) + 1 = N - k by omega]
    exact ih

theorem start_spec (hN : 0 < N) (pool : Heap S) (s : S) : ∃ st fl, start N pool s = .ok st ∧ Normal P s N st fl [0] [] ∧
    st.h 0 = ⟨0, 0, s, none, none, none⟩ := by
  unfold start
  rw [if_neg (by omega)]
  simp only [popHead]
  have hc := arrayToList_chain (N := N) pool N (Nat.le_refl _)
  rw [Nat.sub_self, if_pos hN] at hc
  obtain ⟨M, rfl⟩ : ∃ M, N = M + 1 := ⟨N - 1, by omega⟩
  rw [List.range'_succ] at hc
  have h0 : 0 ∉ List.range' (0 + 1) M := by simp only [List.mem_range', not_exists]; omega
  have hh : ∀ (n : VNode S), n.next = none →
      Chain (((arrayToList (M + 1) pool).setNext 0 none).upd 0 n) (arrayToList (M + 1) pool 0).next (List.range' (0 + 1) M) := by
    intro n _
    refine chain_congr (fun q hq => ?_) hc.2
    have hq0 : q ≠ 0 := fun e => h0 (e ▸ hq)
    rw [upd_ne _ _ hq0, setNext_ne _ _ hq0]
  have e0 : ((arrayToList (M + 1) pool).setNext 0 none).upd 0
      { (arrayToList (M + 1) pool).setNext 0 none 0 with state := s, cost := 0, priority := 0, parent := none, action := none } 0 = ⟨0, 0, s, none, none, none⟩ := by
    rw [upd_same]
    simp only [setNext_next]
  refine ⟨_, _, rfl, ⟨hh _ (setNext_next _ _ _), ⟨rfl, ?_⟩, rfl, ?_, ?_, ?_, ?_⟩, e0⟩
  · exact congrArg VNode.next e0
  · rw [List.append_nil]
    refine (List.perm_append_comm (l₁ := [0])).nodup_iff.mp ?_
    exact List.nodup_cons.mpr ⟨h0, List.nodup_range'⟩
  · simp
  · intro p hp
    simp only [List.append_nil, List.mem_singleton] at hp
    subst hp
    exact .inl ⟨congrArg VNode.parent e0, congrArg VNode.state e0⟩
  · intro p hp q hq _
    simp only [List.append_nil, List.mem_singleton] at hp hq
    rw [hp, hq]

end Verif.Goap
