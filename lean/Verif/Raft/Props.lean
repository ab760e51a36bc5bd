import Verif.Raft.Election
import Verif.Raft.Exec

/-!
# Raft: properties
-/

namespace Verif.Raft

open Spec

variable {Op : Type} {ids : List Int}

/-! ## One node, arbitrary messages -/

/-- C28: a node never votes for two candidates in the same term, whatever it receives. -/
theorem vote_once {id : Int} {peers : List Int} {n : Node Op} {vs : List (Int × Int)} (h : Exec (Node.init id peers) vs n) {t c c' : Int}
    (h1 : (t, c) ∈ vs) (h2 : (t, c') ∈ vs) : c = c' := (votes_inv h).2.2.2 t c c' h1 h2

/-- A node that votes for node 1 in term 1 and for node 2 in term 2; its last vote was asked for twice. -/
example : ∃ n : Node Nat, Exec (Node.init 3 [1, 2]) [(1, 1), (2, 2), (2, 2)] n :=
  ⟨_, .step (i := .recv id 0 ⟨2, 2, .voteRequest 0 0⟩) (.step (i := .recv id 0 ⟨2, 2, .voteRequest 0 0⟩)
    (.step (i := .recv id 0 ⟨1, 1, .voteRequest 0 0⟩) .refl rfl) rfl) rfl⟩

/-- C29: the term never decreases. -/
theorem term_mono {n0 n n' : Node Op} {vs vs' : List (Int × Int)} (_ : Exec n0 vs n) (h' : Exec n vs' n') : n.term ≤ n'.term :=
  (votes_inv h').2.1

/-- C29: an election takes place in a new term. -/
theorem election_new_term {n n' : Node Op} {out} (h : startElection n = .ok (n', out)) (hr : n.role ≠ .leader) :
    n'.term = n.term + 1 ∧ n'.role = .candidate ∧ ∀ x ∈ out, x.2.term = n'.term := by
  unfold startElection at h
  rw [if_neg hr] at h
  simp only [bind, Except.bind] at h
  split at h
  · cases h
  · rename_i t ht
    have := chk_ok ht
    cases h
    refine ⟨this, rfl, ?_⟩
    intro x hx
    obtain ⟨p, _, rfl⟩ := List.mem_map.mp hx
    rfl

example : ∃ n' out, startElection (Node.init 3 [1, 2] : Node Nat) = .ok (n', out) ∧ n'.term = 1 ∧ out.length = 2 := ⟨_, _, rfl, rfl, rfl⟩

/-- C29, what holds of stepping down: on an `AppendEntriesRequest` of a higher term, on a refused vote of a higher term, and when
a vote is granted. -/
theorem step_down_partial {srt : List Peer → List Peer} {r : Nat} {n n' : Node Op} {m : Msg Op} {rep} (h : process srt r n m = .ok (n', rep))
    (hm : (∃ a b c d, m.body = .appendRequest a b c d ∧ n.term < m.term) ∨
      (∃ a b, m.body = .voteRequest a b ∧ rep = some ⟨m.term, n.id, .voteReply true⟩) ∨
      (m.body = .voteReply false ∧ n.role = .candidate ∧ n.term < m.term)) :
    n'.role = .follower ∧ n'.term = m.term := by
  have hp := process_elect h
  obtain ⟨t, f, b⟩ := m
  rcases hm with ⟨a, b, c, d, hb, ht⟩ | ⟨a, b, hb, hr⟩ | ⟨hb, hr, ht⟩
  · simp only at hb; subst hb
    obtain ⟨_, _, _, hc⟩ := hp.2
    simp only at hc ht
    rcases hc with hc | hc
    · omega
    · exact ⟨hc.2.2, hc.2.1⟩
  · simp only at hb; subst hb
    rcases hp.2 with ⟨_, rfl, _⟩ | ⟨h1, _⟩
    · exact ⟨rfl, rfl⟩
    · rw [hr] at h1; cases h1
  · simp only at hb; subst hb
    obtain ⟨_, hc⟩ := hp.2
    simp only at ht
    rcases hc with rfl | ⟨_, hg, _⟩ | hc
    · exfalso
      simp only [process, onVoteReply, bind, Except.bind] at h
      rw [if_neg (by simp [hr])] at h
      simp only [Bool.false_eq_true, if_false] at h
      rw [if_pos ht] at h
      simp only [pure, Except.pure] at h
      have := congrArg (fun x => match x with | .ok (n, _) => n.role | .error _ => Role.leader) h
      simp only [resetTimer, hr] at this
      cases this
    · cases hg
    · exact ⟨hc.2.2.2.2.1, hc.2.2.2.1⟩

/-- A leader of term 1 that gets an `AppendEntriesRequest` of term 2. -/
example : ∃ n' rep, process id 0 { (Node.init 3 [1, 2] : Node Nat) with term := 1, role := .leader } ⟨2, 1, .appendRequest 0 0 0 []⟩ = .ok (n', rep) ∧
    n'.role = .follower ∧ n'.term = 2 := ⟨_, _, rfl, rfl, rfl⟩

/-! ## Elections in a cluster -/

/-- C30: if no vote is delivered to a candidate of a later term, or twice, there is at most one leader per term; any number of nodes. -/
theorem one_leader_partial (hnd : ids.Nodup) {w : World Op} {ok} (hok : ∀ w a w', ok w a w' → FreshVotes w a) (h : Run ids ok w) {i j : Int} (hi : i ∈ ids)
    (hj : j ∈ ids) (li : (w.nodes i).role = .leader) (lj : (w.nodes j).role = .leader) (ht : (w.nodes i).term = (w.nodes j).term) : i = j := by
  obtain ⟨_, _, he⟩ := run_einv hnd hok h
  exact he.leader hnd hi hj li lj ht

/-- The election is won by a majority of the cluster: `2 * vote_count ≥ peer_count` with the own vote is a strict majority. -/
theorem quorum (v p : Nat) : 2 * v ≥ p ↔ 2 * (v + 1) > p + 1 := by omega

/-! ## Logs in a cluster -/

/-- C31: logs are never longer than their capacity, numbered without gaps, and contain no term of the future. -/
theorem log_partial {w : World Op} {ok} (hok : ∀ w a w', ok w a w' → ToLeader w a) (h : Run ids ok w) {i : Int} (hi : i ∈ ids) :
    (w.nodes i).log.length ≤ 10 ∧ Numbered 0 (w.nodes i).log ∧ ∀ e ∈ (w.nodes i).log, 1 ≤ e.term ∧ e.term ≤ (w.nodes i).term :=
  let hn := (run_inv hok h).node i hi
  ⟨hn.cap, hn.num, hn.terms⟩

/-- C32: no step of a cluster reads past a log, past the peers, past the entries of a message, or a variable that was never written;
the only thing that can go wrong is an overflow of an `int`. -/
theorem no_bad_access {w : World Op} {ok} (hok : ∀ w a w', ok w a w' → ToLeader w a) (h : Run ids ok w) :
    (∀ d m, (d, m) ∈ w.net → ∀ srt : List Peer → List Peer, (∀ l, (srt l).Perm l) → ∀ r e, process srt r (w.nodes d) m = .error e → e = .overflow) ∧
    (∀ i ∈ ids, ∀ r e, tick (w.nodes i) r = .error e → e = .overflow) ∧
    (∀ i ∈ ids, (w.nodes i).role = .leader → ∀ op e, replicate (w.nodes i) op ≠ .error e) := by
  have hw := run_inv hok h
  refine ⟨?_, ?_, ?_⟩
  · intro d m hm srt hs r e he
    rcases process_good hs hw (hw.msg _ hm) r with ⟨_, _, h1, _⟩ | h1
    · simp only at h1; rw [h1] at he; cases he
    · simp only at h1; rw [h1] at he; cases he; rfl
  · intro i hi r e he
    rcases tick_good hw hi r with ⟨_, _, h1, _⟩ | h1
    · rw [h1] at he; cases he
    · rw [h1] at he; cases he; rfl
  · intro i hi hl op e he
    obtain ⟨_, h1, _⟩ := replicate_good (hw.node i hi) hl op
    rw [h1] at he; cases he

/-- C32: a step applies exactly the entries after the old commit index up to the new one, in order, from the node's own log. -/
theorem apply_step {w w' : World Op} {a : Action Op} {ok} (hok : ∀ w a w', ok w a w' → ToLeader w a) (h : Run ids ok w) (hs : Step ids w a w')
    (ha : ToLeader w a) {i : Int} (hi : i ∈ ids) :
    ∃ es, (w'.nodes i).applied = (w.nodes i).applied ++ es ∧ es.map (·.index) = indices (w.nodes i).commit (w'.nodes i).commit ∧
      ∀ e ∈ es, e ∈ (w'.nodes i).log :=
  (step_good (run_inv hok h) hs ha).2 i hi

theorem indices_append {a b c : Int} (h1 : a ≤ b) (h2 : b ≤ c) : indices a b ++ indices b c = indices a c := by
  apply List.ext_getElem
  · simp only [indices, List.length_append, List.length_map, List.length_range]; omega
  · intro k h3 h4
    simp only [indices, List.length_append, List.length_map, List.length_range] at h3 h4
    rw [List.getElem_append]
    split
    · simp only [indices, List.getElem_map, List.getElem_range]
    · rename_i h5
      simp only [indices, List.length_map, List.length_range] at h5 ⊢
      simp only [List.getElem_map, List.getElem_range]
      omega

/-- C32: as long as commit indices do not decrease, every node has applied the entries 1, 2, …, commit index, each once and in this order. -/
theorem applied_once_partial {w : World Op} {ok} (hok : ∀ w a w', ok w a w' → ToLeader w a ∧ CommitMono ids w w') (h : Run ids ok w) {i : Int} (hi : i ∈ ids) :
    (w.nodes i).applied.map (·.index) = indices 0 (w.nodes i).commit := by
  induction h with
  | init => rfl
  | step hrun hs ha ih =>
    have hl := fun w a w' h => (hok w a w' h).1
    obtain ⟨es, h1, h2, _⟩ := apply_step hl hrun hs (hok _ _ _ ha).1 hi
    have hc := ((run_inv hl hrun).node i hi).commit
    rw [h1, List.map_append, ih, h2, indices_append hc ((hok _ _ _ ha).2 i hi)]

/-! ## Commit -/

/-- The order `find_safe_index` is written for. -/
def Descending (srt : List Peer → List Peer) : Prop := ∀ l, (srt l).Perm l ∧ (srt l).Pairwise (fun p q => q.matchIndex ≤ p.matchIndex)

theorem countP_sorted : ∀ {l : List Peer}, l.Pairwise (fun p q => q.matchIndex ≤ p.matchIndex) → ∀ {k : Nat} {p : Peer}, l[k]? = some p →
    k + 1 ≤ l.countP fun q => decide (p.matchIndex ≤ q.matchIndex)
  | [], _, k, p, h => by simp at h
  | q :: l, hs, 0, p, h => by
    simp only [List.getElem?_cons_zero, Option.some.injEq] at h
    subst h
    rw [List.countP_cons]
    simp
  | q :: l, hs, k + 1, p, h => by
    rw [List.getElem?_cons_succ] at h
    obtain ⟨h1, h2⟩ := List.pairwise_cons.mp hs
    have ih := countP_sorted h2 h
    have := h1 p (List.mem_of_getElem? h)
    rw [List.countP_cons, if_pos (by simpa using this)]
    omega

/-- C33: with the peers really sorted and a cluster of odd size (or of two), a node that advances its commit index on a reply has the entry, from its
own term, and a majority of the cluster reported an index at least as large. -/
theorem commit_majority_partial {srt : List Peer → List Peer} (hsrt : Descending srt) {r : Nat} {n n' : Node Op} {m : Msg Op} {rep}
    (hp : n.peers.length % 2 = 0 ∨ n.peers.length = 1) {s : Bool} {l : Int} (hm : m.body = .appendReply s l) (h : process srt r n m = .ok (n', rep))
    (hadv : n'.commit ≠ n.commit) :
    (∃ e ∈ n'.log, e.index = n'.commit ∧ e.term = n'.term) ∧ n'.peers.length = n.peers.length ∧
    2 * (1 + n'.peers.countP fun q => decide (n'.commit ≤ q.matchIndex)) > n'.peers.length + 1 := by
  obtain ⟨t, f, b⟩ := m
  simp only at hm
  subst hm
  simp only [process, bind, Except.bind] at h
  split at h
  · cases h
  · rename_i x hx
    cases h
    unfold onAppendReply at hx
    split at hx
    · simp only [bind, Except.bind] at hx
      split at hx
      · cases hx
      · rename_i nx hnx
        split at hx
        · cases hx
        · rename_i ps hps
          split at hx
          · cases hx
          · rename_i n2 hz
            cases hx
            rw [(commitEntries_ok hz).1] at hadv ⊢
            simp only at hadv ⊢
            unfold findSafe at hps
            simp only at hps
            have hlen : (srt (n.peers.map fun p => if p.id = f then { p with matchIndex := l, nextIndex := some nx } else p)).length = n.peers.length := by
              rw [(hsrt _).1.length_eq, List.length_map]
            have hsorted := (hsrt (n.peers.map fun p => if p.id = f then { p with matchIndex := l, nextIndex := some nx } else p)).2
            generalize srt (n.peers.map fun p => if p.id = f then { p with matchIndex := l, nextIndex := some nx } else p) = qs at hps hlen hsorted
            split at hps
            · cases hps
            · rename_i p hget
              split at hps
              · rename_i hfound
                cases hps
                obtain ⟨e, he, hh⟩ := List.any_eq_true.mp hfound
                simp only [Bool.and_eq_true, beq_iff_eq] at hh
                refine ⟨⟨e, he, hh.1, hh.2⟩, hlen, ?_⟩
                have hc := countP_sorted hsorted hget
                simp only at hc ⊢
                rw [hlen] at hc ⊢
                omega
              · cases hps
                exact absurd rfl hadv
    · simp only [bind, Except.bind] at hx
      split at hx
      · cases hx
      · cases hx
        exact absurd rfl hadv

theorem insertDesc_sorted (p : Peer) : ∀ {l : List Peer}, l.Pairwise (fun p q => q.matchIndex ≤ p.matchIndex) →
    (insertDesc p l).Pairwise (fun p q => q.matchIndex ≤ p.matchIndex)
  | [], _ => by simp [insertDesc]
  | q :: l, h => by
    obtain ⟨h1, h2⟩ := List.pairwise_cons.mp h
    unfold insertDesc
    split
    · rename_i hlt
      refine List.pairwise_cons.mpr ⟨?_, h⟩
      intro x hx
      rcases List.mem_cons.mp hx with rfl | hx
      · omega
      · have := h1 x hx; omega
    · rename_i hlt
      refine List.pairwise_cons.mpr ⟨?_, insertDesc_sorted p h2⟩
      intro x hx
      rcases List.mem_cons.mp ((insertDesc_perm p l).mem_iff.mp hx) with rfl | hx
      · omega
      · exact h1 x hx

theorem desc_descending : Descending desc := by
  intro l
  refine ⟨desc_perm l, ?_⟩
  induction l with
  | nil => exact .nil
  | cons p l ih => exact insertDesc_sorted p ih

/-- The leader of three nodes that gets the first successful reply commits the entry. -/
example : ∃ n' rep, process desc 0 { (Node.init 1 [2, 3] : Node Nat) with term := 1, role := .leader, log := [⟨7, 1, 1⟩] }
    ⟨0, 3, .appendReply true 1⟩ = .ok (n', rep) ∧ n'.commit = 1 ∧ n'.applied = [⟨7, 1, 1⟩] := ⟨_, _, rfl, rfl, rfl⟩

/-! ## Executions that show what is false

No message is lost or duplicated in any of them. -/

abbrev three : List Int := [1, 2, 3]

/-- Node 1 is elected in term 1 by node 3. Messages left: request 1 → 2. -/
def elect1 : List (Cmd Nat) := [.wait 1 500, .tick 1, .deliver 1, .deliver 1]

/-- The hypotheses of `one_leader_partial`, `log_partial`, `apply_step` and `applied_once_partial` are met by an execution with a leader. -/
example : ∃ w : World Nat, Run three (Plain three true true) w ∧ (w.nodes 1).role = .leader ∧ (w.nodes 1).log.length = 2 ∧ (w.nodes 3).log.length = 1 ∧
    (w.nodes 1).applied.length = 1 := by
  obtain ⟨w, h1, h2⟩ := execB_run (Op := Nat) (ids := three) (strict := true) (mono := true) desc_perm (cs := elect1 ++ [.replicate 1 7, .tick 1, .deliver 2, .deliver 2, .replicate 1 8])
    (p := fun w => (w.nodes 1).role == .leader && (w.nodes 1).log.length == 2 && (w.nodes 3).log.length == 1 && (w.nodes 1).applied.length == 1)
    (by decide +kernel)
  simp only [Bool.and_eq_true, beq_iff_eq] at h2
  exact ⟨w, h1, h2.1.1.1, h2.1.1.2, h2.1.2, h2.2⟩

/-- C29 is false: a leader of a cluster gets a vote request of a higher term and neither steps down nor takes over the term. -/
theorem no_step_down : ∃ w : World Nat, Run three (Plain three true false) w ∧ ∃ m, (1, m) ∈ w.net ∧ (w.nodes 1).role = .leader ∧ (w.nodes 1).term < m.term ∧
    process id 0 (w.nodes 1) m = .ok (w.nodes 1, some ⟨m.term, 1, .voteReply false⟩) := by
  obtain ⟨w, h1, h2⟩ := execB_run (Op := Nat) (ids := three) (strict := true) (mono := false) desc_perm
    (cs := elect1 ++ [.replicate 1 7, .wait 2 500, .tick 2, .wait 2 100, .tick 2])
    (p := fun w => match w.net[3]? with
      | some (d, m) => d == 1 && (w.nodes 1).role == .leader && decide ((w.nodes 1).term < m.term) &&
          (match process id 0 (w.nodes 1) m with
            | .ok (n, rep) => n == w.nodes 1 && rep == some ⟨m.term, 1, .voteReply false⟩
            | .error _ => false)
      | none => false) (by decide +kernel)
  refine ⟨w, h1, ?_⟩
  split at h2
  · rename_i d m hm
    simp only [Bool.and_eq_true, beq_iff_eq, decide_eq_true_eq] at h2
    obtain ⟨⟨⟨rfl, h3⟩, h4⟩, h5⟩ := h2
    refine ⟨m, List.mem_of_getElem? hm, h3, h4, ?_⟩
    split at h5
    · rename_i n rep hp
      simp only [Bool.and_eq_true, beq_iff_eq] at h5
      rw [hp, h5.1, h5.2]
    · cases h5
  · cases h2

/-- C30 is false: a vote of an earlier election is counted, and two nodes are leader in term 2. Messages are only delayed. -/
theorem two_leaders : ∃ w : World Nat, Run three (Plain three false false) w ∧ (w.nodes 1).role = .leader ∧ (w.nodes 2).role = .leader ∧
    (w.nodes 1).term = 2 ∧ (w.nodes 2).term = 2 := by
  obtain ⟨w, h1, h2⟩ := execB_run (Op := Nat) (ids := three) (strict := false) (mono := false) desc_perm
    (cs := [.wait 1 500, .tick 1, .deliver 1, .wait 1 100, .tick 1, .wait 2 500, .tick 2, .wait 2 100, .tick 2, .deliver 7, .deliver 7, .deliver 1])
    (p := fun w => (w.nodes 1).role == .leader && (w.nodes 2).role == .leader && (w.nodes 1).term == 2 && (w.nodes 2).term == 2) (by decide +kernel)
  simp only [Bool.and_eq_true, beq_iff_eq] at h2
  exact ⟨w, h1, h2.1.1.1, h2.1.1.2, h2.1.2, h2.2⟩

/-- C31 is false: an operation submitted to a node that never had a leader gets term 0; the log of a follower then starts at index 2. -/
theorem log_gap : ∃ w : World Nat, Run three (Plain three false false) w ∧ (w.nodes 3).log.map (·.index) = [2] := by
  obtain ⟨w, h1, h2⟩ := execB_run (Op := Nat) (ids := three) (strict := false) (mono := false) desc_perm
    (cs := [.replicate 1 7, .replicate 1 8] ++ elect1 ++ [.tick 1, .deliver 2])
    (p := fun w => (w.nodes 3).log.map (·.index) == [2]) (by decide +kernel)
  exact ⟨w, h1, by simpa using h2⟩

/-- After `elect1`: node 2 is elected in term 2 by node 3, node 1 steps down but keeps its log, and is elected again in term 3 by node 3. -/
def elect3 (a b : List (Cmd Nat)) : List (Cmd Nat) :=
  elect1 ++ a ++ [.wait 2 500, .tick 2, .wait 2 100, .tick 2, .deliver 4, .deliver 4, .tick 2, .deliver 4] ++ b ++
    [.wait 1 100, .tick 1, .deliver 7, .deliver 7]

/-- C31 is false: the terms in a log can decrease. -/
theorem terms_decrease : ∃ w : World Nat, Run three (Plain three true false) w ∧ (w.nodes 2).log.map (·.term) = [2, 1] := by
  obtain ⟨w, h1, h2⟩ := execB_run (Op := Nat) (ids := three) (strict := true) (mono := false) desc_perm
    (cs := elect3 [.replicate 1 7, .replicate 1 8] [.replicate 2 9] ++ [.tick 1, .deliver 7, .deliver 8, .beat 1 9, .tick 1, .deliver 8])
    (p := fun w => (w.nodes 2).log.map (·.term) == [2, 1]) (by decide +kernel)
  exact ⟨w, h1, by simpa using h2⟩

/-- C32 is false: replies in another order make a leader apply an operation twice. -/
theorem applied_twice : ∃ w : World Nat, Run [1, 2] (Plain [1, 2] true false) w ∧ (w.nodes 1).applied.map (·.op) = [7, 8, 8] := by
  obtain ⟨w, h1, h2⟩ := execB_run (Op := Nat) (ids := [1, 2]) (strict := true) (mono := false) desc_perm
    (cs := [.wait 1 500, .tick 1, .deliver 0, .deliver 0, .replicate 1 7, .tick 1, .deliver 0, .replicate 1 8, .beat 1 9, .tick 1, .deliver 1, .deliver 1,
      .deliver 0, .beat 1 9, .tick 1, .deliver 0, .deliver 0])
    (p := fun w => (w.nodes 1).applied.map (·.op) == [7, 8, 8]) (by decide +kernel)
  exact ⟨w, h1, by simpa using h2⟩

/-- C33 is false for clusters of even size: the leader of four nodes commits what only two have, with the peers sorted as intended. -/
theorem commit_without_majority : ∃ w : World Nat, Run [1, 2, 3, 4] (Plain [1, 2, 3, 4] true false) w ∧ (w.nodes 1).commit = 1 ∧ (w.nodes 3).log = [] ∧ (w.nodes 4).log = [] := by
  obtain ⟨w, h1, h2⟩ := execB_run (Op := Nat) (ids := [1, 2, 3, 4]) (strict := true) (mono := false) desc_perm
    (cs := [.wait 1 500, .tick 1, .deliver 0, .deliver 0, .deliver 1, .deliver 1, .replicate 1 7, .tick 1, .deliver 1, .deliver 3])
    (p := fun w => (w.nodes 1).commit == 1 && (w.nodes 3).log == [] && (w.nodes 4).log == []) (by decide +kernel)
  simp only [Bool.and_eq_true, beq_iff_eq] at h2
  exact ⟨w, h1, h2.1.1, h2.1.2, h2.2⟩

/-- C33 is false when the comparator, which compares pointers, happens to leave the peers in place: five nodes, two have the entry. -/
theorem commit_unsorted : ∃ w : World Nat, Run [1, 2, 3, 4, 5] (Plain [1, 2, 3, 4, 5] true false) w ∧ (w.nodes 1).commit = 1 ∧ (w.nodes 2).log = [] ∧ (w.nodes 4).log = [] ∧ (w.nodes 5).log = [] := by
  obtain ⟨w, h1, h2⟩ := execB_run (Op := Nat) (ids := [1, 2, 3, 4, 5]) (strict := true) (mono := false) (srt := id) (fun l => .refl l)
    (cs := [.wait 1 500, .tick 1, .deliver 0, .deliver 3, .deliver 0, .deliver 2, .replicate 1 7, .tick 1, .deliver 3, .deliver 5])
    (p := fun w => (w.nodes 1).commit == 1 && (w.nodes 2).log == [] && (w.nodes 4).log == [] && (w.nodes 5).log == []) (by decide +kernel)
  simp only [Bool.and_eq_true, beq_iff_eq] at h2
  exact ⟨w, h1, h2.1.1.1, h2.1.1.2, h2.1.2, h2.2⟩

/-- C72 is false: two nodes apply different operations as the first one, although votes are fresh, peers are sorted, and no message is lost, duplicated or
reordered between two nodes: an entry is only replaced by one of a greater term. -/
theorem different_operations : ∃ w : World Nat, Run three (Plain three true false) w ∧ (w.nodes 1).applied.map (·.op) = [7, 8] ∧ (w.nodes 2).applied.map (·.op) = [9, 8] := by
  obtain ⟨w, h1, h2⟩ := execB_run (Op := Nat) (ids := three) (strict := true) (mono := false) desc_perm
    (cs := elect3 [.replicate 1 7] [.replicate 2 9] ++ [.replicate 1 8, .tick 1, .deliver 7, .deliver 8, .beat 1 9, .tick 1, .deliver 8])
    (p := fun w => (w.nodes 1).applied.map (·.op) == [7, 8] && (w.nodes 2).applied.map (·.op) == [9, 8]) (by decide +kernel)
  simp only [Bool.and_eq_true, beq_iff_eq] at h2
  exact ⟨w, h1, h2.1, h2.2⟩

/-- The time until the next election is at least the minimum and less than the maximum, and every such time is possible. -/
theorem election_time (n : Node Op) :
    (∀ r, 100 ≤ (resetTimer n r).election ∧ (resetTimer n r).election < 500) ∧
      ∀ t : Int, 100 ≤ t → t < 500 → ∃ r, (resetTimer n r).election = t := by
  unfold resetTimer timeoutMin
  refine ⟨fun r => ⟨by dsimp only; omega, by dsimp only; omega⟩, fun t h1 h2 => ⟨(t - 100).toNat, ?_⟩⟩
  dsimp only
  omega

end Verif.Raft
