import Verif.Raft.Agree
import Verif.Raft.Props

/-!
# Raft: what the nodes agree on

C72 is false (`different_operations`). It holds as long as leadership is handed over completely: there is one leader at a time, and a node that becomes
leader has every entry that any node has. This is the case if only one node is ever leader. Nothing is assumed on the network: messages may be lost,
duplicated, delayed and reordered, and the peers may end up in any order after sorting.
-/

namespace Verif.Raft

open Spec

variable {Op : Type} {ids : List Int}

/-- C72: two nodes that apply an entry with the same index apply the same operation. -/
theorem agreement_partial {w : World Op} {ok} (hok : ∀ w a w', ok w a w' → ToLeader w a ∧ Handover ids w w') (h : Run ids ok w) {i j : Int} (hi : i ∈ ids)
    (hj : j ∈ ids) {e e' : Entry Op} (he : e ∈ (w.nodes i).applied) (he' : e' ∈ (w.nodes j).applied) (hidx : e.index = e'.index) : e.op = e'.op := by
  obtain ⟨G, hG⟩ := run_agree hok h
  rw [numbered_eq hG.num (hG.applied i hi e he) (hG.applied j hj e' he') hidx]

/-- C72: of two logs, one is the beginning of the other. -/
theorem logs_partial {w : World Op} {ok} (hok : ∀ w a w', ok w a w' → ToLeader w a ∧ Handover ids w w') (h : Run ids ok w) {i j : Int} (hi : i ∈ ids) (hj : j ∈ ids) :
    (w.nodes i).log <+: (w.nodes j).log ∨ (w.nodes j).log <+: (w.nodes i).log := by
  obtain ⟨G, hG⟩ := run_agree hok h
  have h1 := hG.logs i hi
  have h2 := hG.logs j hj
  rcases Nat.le_total (w.nodes i).log.length (w.nodes j).log.length with hl | hl
  · exact .inl (List.prefix_of_prefix_length_le h1 h2 hl)
  · exact .inr (List.prefix_of_prefix_length_le h2 h1 hl)

/-- C72: no entry is ever removed from a log or replaced. -/
theorem logs_grow_partial {w w' : World Op} {a : Action Op} {ok} (hok : ∀ w a w', ok w a w' → ToLeader w a ∧ Handover ids w w') (h : Run ids ok w)
    (hs : Step ids w a w') (ha : ok w a w') {i : Int} (hi : i ∈ ids) : (w.nodes i).log <+: (w'.nodes i).log := by
  obtain ⟨G, hG⟩ := run_agree hok h
  obtain ⟨_, _, _, _, h1⟩ := agree_step (run_inv (fun w a w' h => (hok w a w' h).1) h) hG hs (hok _ _ _ ha).1 (hok _ _ _ ha).2
  exact h1 i hi

/-- C72: a leader has every entry that any node applied. -/
theorem leader_complete_partial {w : World Op} {ok} (hok : ∀ w a w', ok w a w' → ToLeader w a ∧ Handover ids w w') (h : Run ids ok w) {i j : Int} (hi : i ∈ ids)
    (hj : j ∈ ids) (hl : (w.nodes i).role = .leader) {e : Entry Op} (he : e ∈ (w.nodes j).applied) : e ∈ (w.nodes i).log := by
  obtain ⟨G, hG⟩ := run_agree hok h
  rw [hG.leader i hi hl]
  exact hG.applied j hj e he

theorem applied_take {w : World Op} {ok} (hok : ∀ w a w', ok w a w' → ToLeader w a ∧ Handover ids w w' ∧ CommitMono ids w w') (h : Run ids ok w) {i : Int} (hi : i ∈ ids)
    {G : List (Entry Op)} (hG : Agree ids G w) : (w.nodes i).applied = G.take (w.nodes i).commit.toNat := by
  have hidx := applied_once_partial (fun w a w' h => ⟨(hok w a w' h).1, (hok w a w' h).2.2⟩) h hi
  have hlen : (w.nodes i).applied.length = (w.nodes i).commit.toNat := by
    have := congrArg List.length hidx
    simpa [indices] using this
  have hk : ∀ k, ∀ h1 : k < (w.nodes i).applied.length, ∃ h2 : k < G.length, (w.nodes i).applied[k] = G[k] := by
    intro k h1
    have hmem := hG.applied i hi _ (List.getElem_mem h1)
    obtain ⟨j, hj, he⟩ := List.mem_iff_getElem.mp hmem
    have h2 := hG.num j hj
    have h3 : ((w.nodes i).applied.map (·.index))[k]'(by simpa using h1) = (k : Int) + 1 := by
      simp only [hidx, indices, List.getElem_map, List.getElem_range]
      omega
    rw [List.getElem_map, ← he, h2] at h3
    have : j = k := by omega
    subst this
    exact ⟨hj, he.symm⟩
  apply List.ext_getElem
  · rw [List.length_take, hlen]
    by_cases h0 : (w.nodes i).commit.toNat = 0
    · omega
    · obtain ⟨h2, _⟩ := hk ((w.nodes i).commit.toNat - 1) (by omega)
      omega
  · intro k h1 h2
    rw [List.getElem_take]
    exact (hk k h1).2

/-- C72: if also no commit index decreases, the state machines go through the same operations: of two of them, one is behind the other. -/
theorem state_machines_partial {w : World Op} {ok} (hok : ∀ w a w', ok w a w' → ToLeader w a ∧ Handover ids w w' ∧ CommitMono ids w w') (h : Run ids ok w) {i j : Int}
    (hi : i ∈ ids) (hj : j ∈ ids) (hc : (w.nodes i).commit ≤ (w.nodes j).commit) : (w.nodes i).applied <+: (w.nodes j).applied := by
  obtain ⟨G, hG⟩ := run_agree (fun w a w' h => ⟨(hok w a w' h).1, (hok w a w' h).2.1⟩) h
  rw [applied_take hok h hi hG, applied_take hok h hj hG]
  exact List.take_prefix_take_left (by omega)

/-- C72: with one leader ever, all nodes agree, and the log of that node has all entries of the others. -/
theorem single_leader_partial {w : World Op} {L : Int} (hL : L ∈ ids) {ok} (hok : ∀ w a w', ok w a w' → ToLeader w a ∧ OnlyLeader ids L w') (h : Run ids ok w) {i j : Int}
    (hi : i ∈ ids) (hj : j ∈ ids) :
    (w.nodes i).log <+: (w.nodes L).log ∧
    ∀ e ∈ (w.nodes i).applied, ∀ e' ∈ (w.nodes j).applied, e.index = e'.index → e.op = e'.op := by
  obtain ⟨h1, h2⟩ := run_single hL hok h
  exact ⟨h1.logs i hi, fun e he e' he' hidx => agreement_partial (fun w a w' h => ⟨(hok w a w' h.1).1, h.2⟩) h2 hi hj he he' hidx⟩

/-! ## An execution that meets the hypotheses -/

/-- All hypotheses of this file. If there is an `L`, no other node is leader. -/
def Orderly (ids : List Int) (L : Option Int) (w : World Op) (a : Action Op) (w' : World Op) : Prop :=
  ToLeader w a ∧ Handover ids w w' ∧ CommitMono ids w w' ∧ ∀ l ∈ L, OnlyLeader ids l w'

/-- At most one leader, which is `L` if given. -/
def AtMostOne (ids : List Int) (L : Option Int) (w : World Op) : Prop :=
  (∀ i ∈ ids, ∀ j ∈ ids, (w.nodes i).role = .leader → (w.nodes j).role = .leader → i = j) ∧ ∀ l ∈ L, OnlyLeader ids l w

instance [DecidableEq Op] (ids : List Int) (w w' : World Op) : Decidable (Handover ids w w') := by unfold Handover; infer_instance

instance (ids : List Int) (L : Int) (w : World Op) : Decidable (OnlyLeader ids L w) := by unfold OnlyLeader; infer_instance

/-- No other leader than `L`, as a computation. -/
def onlyB (ids : List Int) (L : Option Int) (w : World Op) : Bool :=
  match L with
  | some l => decide (OnlyLeader ids l w)
  | none => true

def execOrderly [DecidableEq Op] (ids : List Int) (L : Option Int) : World Op → List (Cmd Op) → Option (World Op)
  | w, [] => some w
  | w, c :: cs =>
    match exec1 ids true desc w c with
    | some w' => if Handover ids w w' ∧ CommitMono ids w w' ∧ onlyB ids L w' = true then execOrderly ids L w' cs else none
    | none => none

/-- Counting down keeps logs, roles and commit indices. -/
theorem quiet {w : World Op} {i : Int} {n : Node Op} {L : Option Int} (hone : AtMostOne ids L w)
    (hr : n.role = (w.nodes i).role) (hc : n.commit = (w.nodes i).commit) {net} : Handover ids w { w.set i n with net := net } ∧ CommitMono ids w { w.set i n with net := net } ∧
      ∀ l ∈ L, OnlyLeader ids l { w.set i n with net := net } := by
  have h : ∀ j, ((w.set i n).nodes j).role = (w.nodes j).role := by
    intro j
    simp only [World.set]
    split
    · rename_i e; subst e; exact hr
    · rfl
  refine ⟨⟨?_, ?_⟩, set_mono hc, ?_⟩
  · intro a ha b hb h1 h2
    simp only [h] at h1 h2
    exact hone.1 a ha b hb h1 h2
  · intro a ha h1 h2
    simp only [h] at h1
    exact absurd h1 h2
  · intro l hl a ha h1
    simp only [h] at h1
    exact hone.2 l hl a ha h1

theorem orderly_wait {L : Option Int} {i : Int} (hi : i ∈ ids) : ∀ (k : Nat) {w : World Op}, Run ids (Orderly ids L) w →
    AtMostOne ids L w →
    (w.nodes i).role ≠ .leader → (k : Int) ≤ (w.nodes i).election →
    Run ids (Orderly ids L) (w.set i { w.nodes i with election := (w.nodes i).election - k })
  | 0, w, h, _, _, _ => by
    have : ({ w.nodes i with election := (w.nodes i).election - ((0 : Nat) : Int) } : Node Op) = w.nodes i := by simp
    rw [this, set_self]
    exact h
  | k + 1, w, h, hone, hr, hk => by
    have ht : Raft.tick (w.nodes i) 0 = .ok ({ w.nodes i with election := (w.nodes i).election - 1 }, []) := by
      unfold Raft.tick
      rw [if_neg hr, tickElection, if_pos (by omega)]
    have hq := quiet (w := w) (i := i) (n := { w.nodes i with election := (w.nodes i).election - 1 }) (net := w.net ++ []) hone rfl rfl
    have h1 := Run.step h (Step.tick hi ht) ⟨trivial, hq⟩
    rw [List.append_nil] at h1 hq
    have hone1 : AtMostOne ids L _ := ⟨hq.1.1, hq.2.2⟩
    have h2 := orderly_wait hi k (w := w.set i { w.nodes i with election := (w.nodes i).election - 1 }) h1 hone1 (by simp only [World.set, if_true]; exact hr)
      (by simp only [World.set, if_true]; omega)
    rw [set_set] at h2
    simp only [World.set, if_true] at h2 ⊢
    rw [show (w.nodes i).election - ((k + 1 : Nat) : Int) = (w.nodes i).election - 1 - k by omega]
    exact h2

theorem orderly_beat {L : Option Int} {i : Int} (hi : i ∈ ids) : ∀ (k : Nat) {w : World Op}, Run ids (Orderly ids L) w →
    AtMostOne ids L w →
    (w.nodes i).role = .leader → (k : Int) ≤ (w.nodes i).heartbeat →
    Run ids (Orderly ids L) (w.set i { w.nodes i with heartbeat := (w.nodes i).heartbeat - k })
  | 0, w, h, _, _, _ => by
    have : ({ w.nodes i with heartbeat := (w.nodes i).heartbeat - ((0 : Nat) : Int) } : Node Op) = w.nodes i := by simp
    rw [this, set_self]
    exact h
  | k + 1, w, h, hone, hr, hk => by
    have ht : Raft.tick (w.nodes i) 0 = .ok ({ w.nodes i with heartbeat := (w.nodes i).heartbeat - 1 }, []) := by
      unfold Raft.tick
      rw [if_pos hr, tickHeartbeat, if_pos (by omega)]
    have hq := quiet (w := w) (i := i) (n := { w.nodes i with heartbeat := (w.nodes i).heartbeat - 1 }) (net := w.net ++ []) hone rfl rfl
    have h1 := Run.step h (Step.tick hi ht) ⟨trivial, hq⟩
    rw [List.append_nil] at h1 hq
    have hone1 : AtMostOne ids L _ := ⟨hq.1.1, hq.2.2⟩
    have h2 := orderly_beat hi k (w := w.set i { w.nodes i with heartbeat := (w.nodes i).heartbeat - 1 }) h1 hone1 (by simp only [World.set, if_true]; exact hr)
      (by simp only [World.set, if_true]; omega)
    rw [set_set] at h2
    simp only [World.set, if_true] at h2 ⊢
    rw [show (w.nodes i).heartbeat - ((k + 1 : Nat) : Int) = (w.nodes i).heartbeat - 1 - k by omega]
    exact h2

/-- A command that is a single step. -/
theorem exec1_step {w w' : World Op} {c : Cmd Op} (he : exec1 ids true desc w c = some w') :
    (∃ a, Step ids w a w' ∧ ToLeader w a) ∨
    (∃ i k, c = .wait i k ∧ i ∈ ids ∧ (w.nodes i).role ≠ .leader ∧ (k : Int) ≤ (w.nodes i).election ∧
      w' = w.set i { w.nodes i with election := (w.nodes i).election - k }) ∨
    ∃ i k, c = .beat i k ∧ i ∈ ids ∧ (w.nodes i).role = .leader ∧ (k : Int) ≤ (w.nodes i).heartbeat ∧
      w' = w.set i { w.nodes i with heartbeat := (w.nodes i).heartbeat - k } := by
  cases c with
  | wait i k =>
    simp only [exec1] at he
    split at he
    · rename_i hc; cases he; exact .inr (.inl ⟨i, k, rfl, hc.1, hc.2.1, hc.2.2, rfl⟩)
    · cases he
  | beat i k =>
    simp only [exec1] at he
    split at he
    · rename_i hc; cases he; exact .inr (.inr ⟨i, k, rfl, hc.1, hc.2.1, hc.2.2, rfl⟩)
    · cases he
  | tick i =>
    simp only [exec1] at he
    split at he
    · rename_i hc
      split at he
      · rename_i ht; cases he; exact .inl ⟨_, .tick hc ht, trivial⟩
      · cases he
    · cases he
  | deliver j =>
    simp only [exec1] at he
    split at he
    · cases he
    · rename_i d m hj
      split at he
      · cases he
      · split at he
        · rename_i n rep hp
          cases he
          have hnet : w.net = w.net.take j ++ (d, m) :: w.net.drop (j + 1) := by
            obtain ⟨_, hx⟩ := List.getElem?_eq_some_iff.mp hj
            rw [← hx, List.getElem_cons_drop, List.take_append_drop]
          obtain ⟨nodes, net⟩ := w
          simp only at hnet hp
          have hstep := Step.deliver (ids := ids) (pre := net.take j) (post := net.drop (j + 1)) desc_perm hp
          rw [← hnet] at hstep
          exact .inl ⟨_, hstep, trivial⟩
        · cases he
  | replicate i op =>
    simp only [exec1] at he
    split at he
    · rename_i hc
      split at he
      · rename_i n hr
        cases he
        exact .inl ⟨_, .replicate hc.1 hr, hc.2 trivial⟩
      · cases he
    · cases he

theorem execOrderly_run [DecidableEq Op] {L : Option Int} : ∀ {cs : List (Cmd Op)} {w w' : World Op}, Run ids (Orderly ids L) w →
    AtMostOne ids L w → execOrderly ids L w cs = some w' → Run ids (Orderly ids L) w'
  | [], w, w', h, _, he => by cases he; exact h
  | c :: cs, w, w', h, hone, he => by
    simp only [execOrderly] at he
    split at he
    · rename_i w1 h1
      split at he
      · rename_i hm
        have honly : ∀ l ∈ L, OnlyLeader ids l w1 := by
          intro l hl
          cases hl
          exact of_decide_eq_true hm.2.2
        refine execOrderly_run ?_ ⟨hm.1.1, honly⟩ he
        rcases exec1_step h1 with ⟨a, hs, ha⟩ | ⟨i, k, _, hi, hr, hk, rfl⟩ | ⟨i, k, _, hi, hr, hk, rfl⟩
        · exact .step h hs ⟨ha, hm.1, hm.2.1, honly⟩
        · exact orderly_wait hi k h hone hr hk
        · exact orderly_beat hi k h hone hr hk
      · cases he
    · cases he

/-- Node 1 is elected, replicates an operation to node 3 and applies it; node 3, which has everything, is elected by node 1 and brings node 1 to apply a
second operation. -/
def handover : List (Cmd Nat) :=
  elect1 ++ [.replicate 1 7, .tick 1, .deliver 2, .deliver 2, .wait 3 100, .tick 3, .deliver 2, .deliver 3, .replicate 3 8, .tick 3, .deliver 3, .deliver 4,
    .beat 3 9, .tick 3, .deliver 4]

theorem orderly_example : ∃ w : World Nat, Run three (Orderly three none) w ∧ (w.nodes 3).role = .leader ∧ (w.nodes 1).applied.map (·.op) = [7, 8] ∧
    (w.nodes 3).applied.map (·.op) = [7, 8] ∧ (w.nodes 3).log.map (·.term) = [1, 2] := by
  have h : (match execOrderly three none (World.init three) handover with
      | some w => (w.nodes 3).role == .leader && (w.nodes 1).applied.map (·.op) == [7, 8] && (w.nodes 3).applied.map (·.op) == [7, 8] &&
          (w.nodes 3).log.map (·.term) == [1, 2]
      | none => false) = true := by decide +kernel
  split at h
  · rename_i w hw
    simp only [Bool.and_eq_true, beq_iff_eq] at h
    refine ⟨w, execOrderly_run .init ?_ hw, h.1.1.1, h.1.1.2, h.1.2, h.2⟩
    exact ⟨fun i _ j _ hl => by (cases hl), by simp⟩
  · cases h

/-- Only node 1 is ever leader, and it loses an election in between. -/
theorem single_example : ∃ w : World Nat, Run three (Orderly three (some 1)) w ∧ (w.nodes 1).applied.map (·.op) = [7] ∧ (w.nodes 3).log.map (·.op) = [7] ∧
    (w.nodes 1).role = .follower ∧ (w.nodes 1).term = 2 := by
  have h : (match execOrderly three (some 1) (World.init three) (handover.take 11) with
      | some w => (w.nodes 1).applied.map (·.op) == [7] && (w.nodes 3).log.map (·.op) == [7] && (w.nodes 1).role == .follower && (w.nodes 1).term == 2
      | none => false) = true := by decide +kernel
  split at h
  · rename_i w hw
    simp only [Bool.and_eq_true, beq_iff_eq] at h
    refine ⟨w, execOrderly_run .init ?_ hw, h.1.1.1, h.1.1.2, h.1.2, h.2⟩
    exact ⟨fun i _ j _ hl => by (cases hl), fun l _ i _ hl => by (cases hl)⟩
  · cases h

end Verif.Raft
