import Verif.Raft.Spec

/-!
# Raft: executions given as programs

Only used to show that certain executions exist. No message is lost or duplicated.
-/

namespace Verif.Raft

open Spec

variable {Op : Type}

/-- The order the comparator of `find_safe_index` is meant to give: descending match index. -/
def insertDesc (p : Peer) : List Peer → List Peer
  | [] => [p]
  | q :: l => if q.matchIndex < p.matchIndex then p :: q :: l else q :: insertDesc p l

def desc : List Peer → List Peer
  | [] => []
  | p :: l => insertDesc p (desc l)

theorem insertDesc_perm (p : Peer) : ∀ l, (insertDesc p l).Perm (p :: l)
  | [] => .refl _
  | q :: l => by
    unfold insertDesc
    split
    · exact .refl _
    · exact ((insertDesc_perm p l).cons q).trans (.swap p q l)

theorem desc_perm : ∀ l, (desc l).Perm l
  | [] => .refl _
  | p :: l => (insertDesc_perm p _).trans ((desc_perm l).cons p)

/-- Steps. `wait` is a number of ticks that only count down. -/
inductive Cmd (Op : Type) where
  | wait (i : Int) (k : Nat)
  | tick (i : Int)
  | beat (i : Int) (k : Nat)
  | deliver (j : Nat)
  | replicate (i : Int) (op : Op)

/-- No message is lost or duplicated; in a strict execution, operations go to leaders and votes are fresh; in a monotone one no commit index
decreases. -/
def Plain (ids : List Int) (strict mono : Bool) (w : World Op) (a : Action Op) (w' : World Op) : Prop :=
  (match a with
    | .drop => False
    | .duplicate => False
    | _ => True) ∧ (strict = true → ToLeader w a ∧ FreshVotes w a) ∧ (mono = true → CommitMono ids w w')

def freshB (w : World Op) (d : Int) (m : Msg Op) : Bool :=
  match m.body with
  | .voteReply true => (w.nodes d).role != .candidate || m.term == (w.nodes d).term
  | _ => true

def exec1 (ids : List Int) (strict : Bool) (srt : List Peer → List Peer) (w : World Op) : Cmd Op → Option (World Op)
  | .wait i k =>
    if i ∈ ids ∧ (w.nodes i).role ≠ .leader ∧ (k : Int) ≤ (w.nodes i).election then
      some (w.set i { w.nodes i with election := (w.nodes i).election - k })
    else none
  | .beat i k =>
    if i ∈ ids ∧ (w.nodes i).role = .leader ∧ (k : Int) ≤ (w.nodes i).heartbeat then
      some (w.set i { w.nodes i with heartbeat := (w.nodes i).heartbeat - k })
    else none
  | .tick i =>
    if i ∈ ids then
      match Raft.tick (w.nodes i) 0 with
      | .ok (n, out) => some { w.set i n with net := w.net ++ out }
      | .error _ => none
    else none
  | .deliver j =>
    match w.net[j]? with
    | none => none
    | some (d, m) =>
      if strict && !freshB w d m then none
      else
        match process srt 0 (w.nodes d) m with
        | .ok (n, rep) => some { w.set d n with net := w.net.take j ++ w.net.drop (j + 1) ++ rep.toList.map fun x => (m.fromId, x) }
        | .error _ => none
  | .replicate i op =>
    if i ∈ ids ∧ (strict = true → (w.nodes i).role = .leader) then
      match Raft.replicate (w.nodes i) op with
      | .ok n => some (w.set i n)
      | .error _ => none
    else none

instance (ids : List Int) (w w' : World Op) : Decidable (CommitMono ids w w') := by unfold CommitMono; infer_instance

def execAll (ids : List Int) (strict mono : Bool) (srt : List Peer → List Peer) : World Op → List (Cmd Op) → Option (World Op)
  | w, [] => some w
  | w, c :: cs =>
    match exec1 ids strict srt w c with
    | some w' =>
      if mono = true → CommitMono ids w w' then execAll ids strict mono srt w' cs else none
    | none => none

theorem set_set (w : World Op) (i : Int) (a b : Node Op) : (w.set i a).set i b = w.set i b := by
  simp only [World.set, World.mk.injEq, and_true]
  funext j
  split <;> rfl

theorem set_self (w : World Op) (i : Int) : w.set i (w.nodes i) = w := by
  cases w
  simp only [World.set, World.mk.injEq, and_true]
  funext j
  split
  · rename_i e; rw [e]
  · rfl

theorem set_mono {ids : List Int} {w : World Op} {i : Int} {n : Node Op} {net} (h : n.commit = (w.nodes i).commit) :
    CommitMono ids w { w.set i n with net := net } := by
  intro j _
  simp only [World.set]
  split
  · rename_i e; subst e; omega
  · exact Int.le_refl _

theorem run_tick {ids : List Int} {strict mono : Bool} {w : World Op} (h : Run ids (Plain ids strict mono) w) {i : Int} (hi : i ∈ ids) {r : Nat} {n out} (hc : n.commit = (w.nodes i).commit)
    (ht : Raft.tick (w.nodes i) r = .ok (n, out)) : Run ids (Plain ids strict mono) { w.set i n with net := w.net ++ out } :=
  .step h (.tick hi ht) ⟨trivial, fun _ => ⟨trivial, trivial⟩, fun _ => set_mono hc⟩

theorem run_wait {ids : List Int} {strict mono : Bool} {i : Int} (hi : i ∈ ids) : ∀ (k : Nat) {w : World Op}, Run ids (Plain ids strict mono) w →
    (w.nodes i).role ≠ .leader → (k : Int) ≤ (w.nodes i).election →
    Run ids (Plain ids strict mono) (w.set i { w.nodes i with election := (w.nodes i).election - k })
  | 0, w, h, _, _ => by
    have : ({ w.nodes i with election := (w.nodes i).election - ((0 : Nat) : Int) } : Node Op) = w.nodes i := by simp
    rw [this, set_self]
    exact h
  | k + 1, w, h, hr, hk => by
    have ht : Raft.tick (w.nodes i) 0 = .ok ({ w.nodes i with election := (w.nodes i).election - 1 }, []) := by
      unfold Raft.tick
      rw [if_neg hr, tickElection, if_pos (by omega)]
    have h1 := run_tick h hi (by rfl) ht
    rw [List.append_nil] at h1
    have h2 := run_wait hi k (w := w.set i { w.nodes i with election := (w.nodes i).election - 1 }) h1 (by simp only [World.set, if_true]; exact hr)
      (by simp only [World.set, if_true]; omega)
    rw [set_set] at h2
    simp only [World.set, if_true] at h2 ⊢
    rw [show (w.nodes i).election - ((k + 1 : Nat) : Int) = (w.nodes i).election - 1 - k by omega]
    exact h2

theorem run_beat {ids : List Int} {strict mono : Bool} {i : Int} (hi : i ∈ ids) : ∀ (k : Nat) {w : World Op}, Run ids (Plain ids strict mono) w →
    (w.nodes i).role = .leader → (k : Int) ≤ (w.nodes i).heartbeat →
    Run ids (Plain ids strict mono) (w.set i { w.nodes i with heartbeat := (w.nodes i).heartbeat - k })
  | 0, w, h, _, _ => by
    have : ({ w.nodes i with heartbeat := (w.nodes i).heartbeat - ((0 : Nat) : Int) } : Node Op) = w.nodes i := by simp
    rw [this, set_self]
    exact h
  | k + 1, w, h, hr, hk => by
    have ht : Raft.tick (w.nodes i) 0 = .ok ({ w.nodes i with heartbeat := (w.nodes i).heartbeat - 1 }, []) := by
      unfold Raft.tick
      rw [if_pos hr, tickHeartbeat, if_pos (by omega)]
    have h1 := run_tick h hi (by rfl) ht
    rw [List.append_nil] at h1
    have h2 := run_beat hi k (w := w.set i { w.nodes i with heartbeat := (w.nodes i).heartbeat - 1 }) h1 (by simp only [World.set, if_true]; exact hr)
      (by simp only [World.set, if_true]; omega)
    rw [set_set] at h2
    simp only [World.set, if_true] at h2 ⊢
    rw [show (w.nodes i).heartbeat - ((k + 1 : Nat) : Int) = (w.nodes i).heartbeat - 1 - k by omega]
    exact h2

theorem exec1_run {ids : List Int} {strict mono : Bool} {srt : List Peer → List Peer} (hs : ∀ l, (srt l).Perm l) {w w' : World Op} {c : Cmd Op}
    (h : Run ids (Plain ids strict mono) w) (he : exec1 ids strict srt w c = some w') (hmono : mono = true → CommitMono ids w w') : Run ids (Plain ids strict mono) w' := by
  cases c with
  | wait i k =>
    simp only [exec1] at he
    split at he
    · rename_i hc; cases he; exact run_wait hc.1 k h hc.2.1 hc.2.2
    · cases he
  | beat i k =>
    simp only [exec1] at he
    split at he
    · rename_i hc; cases he; exact run_beat hc.1 k h hc.2.1 hc.2.2
    · cases he
  | tick i =>
    simp only [exec1] at he
    split at he
    · rename_i hc
      split at he
      · rename_i ht; cases he; exact .step h (.tick hc ht) ⟨trivial, fun _ => ⟨trivial, trivial⟩, hmono⟩
      · cases he
    · cases he
  | deliver j =>
    simp only [exec1] at he
    split at he
    · cases he
    · rename_i d m hj
      split at he
      · cases he
      · rename_i hf
        split at he
        · rename_i n rep hp
          cases he
          have hlt : j < w.net.length := by
            obtain ⟨hlt, _⟩ := List.getElem?_eq_some_iff.mp hj; exact hlt
          have hnet : w.net = w.net.take j ++ (d, m) :: w.net.drop (j + 1) := by
            have := List.getElem?_eq_some_iff.mp hj
            obtain ⟨_, hx⟩ := this
            rw [← hx, List.getElem_cons_drop, List.take_append_drop]
          have hfresh : strict = true → FreshVotes w (.deliver d m) := by
            intro hst
            subst hst
            simp only [Bool.true_and, Bool.not_eq_true', Bool.not_eq_false] at hf
            obtain ⟨t, f, b⟩ := m
            cases b with
            | voteReply g =>
              cases g
              · trivial
              · intro hr
                simp only [freshB, hr] at hf
                simpa using hf
            | voteRequest _ _ => trivial
            | appendRequest _ _ _ _ => trivial
            | appendReply _ _ => trivial
          obtain ⟨nodes, net⟩ := w
          simp only at hnet hp hlt
          have hstep := Step.deliver (ids := ids) (pre := net.take j) (post := net.drop (j + 1)) hs hp
          rw [← hnet] at hstep
          exact .step h hstep ⟨trivial, fun hst => ⟨trivial, hfresh hst⟩, hmono⟩
        · cases he
  | replicate i op =>
    simp only [exec1] at he
    split at he
    · rename_i hc
      split at he
      · rename_i n hr
        cases he
        exact .step h (.replicate hc.1 hr) ⟨trivial, fun hst => ⟨hc.2 hst, trivial⟩, hmono⟩
      · cases he
    · cases he

theorem execAll_run {ids : List Int} {strict mono : Bool} {srt : List Peer → List Peer} (hs : ∀ l, (srt l).Perm l) : ∀ {cs : List (Cmd Op)} {w w' : World Op},
    Run ids (Plain ids strict mono) w → execAll ids strict mono srt w cs = some w' → Run ids (Plain ids strict mono) w'
  | [], w, w', h, he => by cases he; exact h
  | c :: cs, w, w', h, he => by
    simp only [execAll] at he
    split at he
    · rename_i w1 h1
      split at he
      · rename_i hm
        exact execAll_run hs (exec1_run hs h h1 hm) he
      · cases he
    · cases he

/-- An execution from the start. -/
def execB (ids : List Int) (strict mono : Bool) (srt : List Peer → List Peer) (cs : List (Cmd Op)) (p : World Op → Bool) : Bool :=
  match execAll ids strict mono srt (World.init ids) cs with
  | some w => p w
  | none => false

theorem execB_run {ids : List Int} {strict mono : Bool} {srt : List Peer → List Peer} (hs : ∀ l, (srt l).Perm l) {cs : List (Cmd Op)} {p : World Op → Bool}
    (h : execB ids strict mono srt cs p = true) : ∃ w, Run ids (Plain ids strict mono) w ∧ p w = true := by
  unfold execB at h
  split at h
  · rename_i w hw
    exact ⟨w, execAll_run hs .init hw, h⟩
  · cases h

end Verif.Raft
