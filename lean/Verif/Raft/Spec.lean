import Verif.Raft.Model

/-!
# Raft: executions and what is required of them

Single nodes receive arbitrary messages. In a cluster the messages are those the nodes send, over a network that delays, reorders, loses
and duplicates them.
-/

namespace Verif.Raft.Spec

variable {Op : Type}

/-! ## One node, arbitrary messages -/

/-- What happens to a node. -/
inductive Input (Op : Type) where
  | tick (r : Nat)
  | election
  | recv (srt : List Peer → List Peer) (r : Nat) (m : Msg Op)
  | replicate (op : Op)

/-- The node afterwards, and its reply if there is one. -/
def next (n : Node Op) : Input Op → Except Err (Node Op × Option (Msg Op))
  | .tick r => (tick n r).map fun x => (x.1, none)
  | .election => (startElection n).map fun x => (x.1, none)
  | .recv srt r m => process srt r n m
  | .replicate op => (replicate n op).map fun n => (n, none)

/-- The votes (term, candidate) of a step: a granted reply is a vote for the sender of the request; a node that becomes candidate in a
new term votes for itself. -/
def votes (n n' : Node Op) (i : Input Op) (reply : Option (Msg Op)) : List (Int × Int) :=
  (match i, reply with
    | .recv _ _ m, some ⟨_, _, .voteReply true⟩ => [(m.term, m.fromId)]
    | _, _ => []) ++
  (if n'.role = .candidate ∧ n'.term ≠ n.term then [(n'.term, n'.id)] else [])

/-- `Exec n vs n'`: some inputs take `n` to `n'`, and `vs` are the votes meanwhile. -/
inductive Exec (n0 : Node Op) : List (Int × Int) → Node Op → Prop where
  | refl : Exec n0 [] n0
  | step {vs n n' i rep} : Exec n0 vs n → next n i = .ok (n', rep) → Exec n0 (vs ++ votes n n' i rep) n'

/-! ## A cluster -/

/-- All nodes, and the messages under way with their destinations. -/
structure World (Op : Type) where
  nodes : Int → Node Op
  net : List (Int × Msg Op)

/-- Every node has all others as peers. -/
def World.init (ids : List Int) : World Op := ⟨fun i => Node.init i (ids.filter (· ≠ i)), []⟩

def World.set (w : World Op) (i : Int) (n : Node Op) : World Op := { w with nodes := fun j => if j = i then n else w.nodes j }

inductive Action (Op : Type) where
  | tick (i : Int)
  | deliver (d : Int) (m : Msg Op)
  | drop
  | duplicate
  | replicate (i : Int) (op : Op)

/-- A step of a cluster of the nodes `ids`. A reply goes to the sender of the request. The peers may end up in any order
after sorting. -/
inductive Step (ids : List Int) : World Op → Action Op → World Op → Prop where
  | tick {w i r n out} : i ∈ ids → Raft.tick (w.nodes i) r = .ok (n, out) →
      Step ids w (.tick i) { w.set i n with net := w.net ++ out }
  | deliver {nodes pre post d m srt r n rep} : (∀ l, (srt l).Perm l) → process srt r (nodes d) m = .ok (n, rep) →
      Step ids ⟨nodes, pre ++ (d, m) :: post⟩ (.deliver d m)
        { World.set ⟨nodes, pre ++ post⟩ d n with net := pre ++ post ++ rep.toList.map fun x => (m.fromId, x) }
  | drop {nodes pre post x} : Step ids ⟨nodes, pre ++ x :: post⟩ .drop ⟨nodes, pre ++ post⟩
  | duplicate {nodes pre post x} : Step ids ⟨nodes, pre ++ x :: post⟩ .duplicate ⟨nodes, pre ++ x :: post ++ [x]⟩
  | replicate {w i op n} : i ∈ ids → Raft.replicate (w.nodes i) op = .ok n → Step ids w (.replicate i op) (w.set i n)

/-- Executions all of whose steps satisfy `ok`. -/
inductive Run (ids : List Int) (ok : World Op → Action Op → World Op → Prop) : World Op → Prop where
  | init : Run ids ok (World.init ids)
  | step {w a w'} : Run ids ok w → Step ids w a w' → ok w a w' → Run ids ok w'

/-- Operations are only submitted to a leader. -/
def ToLeader (w : World Op) : Action Op → Prop
  | .replicate i _ => (w.nodes i).role = .leader
  | _ => True

/-- No commit index decreases. -/
def CommitMono (ids : List Int) (w w' : World Op) : Prop := ∀ i ∈ ids, (w.nodes i).commit ≤ (w'.nodes i).commit

/-- No message is duplicated, and a candidate gets no vote of an earlier election. -/
def FreshVotes (w : World Op) : Action Op → Prop
  | .duplicate => False
  | .deliver d ⟨t, _, .voteReply true⟩ => (w.nodes d).role = .candidate → t = (w.nodes d).term
  | _ => True

/-- There is at most one leader at a time, and a node that becomes leader has every entry any node has. -/
def Handover (ids : List Int) (w w' : World Op) : Prop :=
  (∀ i ∈ ids, ∀ j ∈ ids, (w'.nodes i).role = .leader → (w'.nodes j).role = .leader → i = j) ∧
  ∀ i ∈ ids, (w'.nodes i).role = .leader → (w.nodes i).role ≠ .leader → ∀ j ∈ ids, (w'.nodes j).log <+: (w'.nodes i).log

/-- No node but `L` is leader. -/
def OnlyLeader (ids : List Int) (L : Int) (w' : World Op) : Prop := ∀ i ∈ ids, (w'.nodes i).role = .leader → i = L

/-- The entries are numbered `s + 1`, `s + 2`, … -/
def Numbered (s : Int) (l : List (Entry Op)) : Prop := ∀ i, ∀ h : i < l.length, l[i].index = s + i + 1

/-- The indices `a + 1`, …, `b`. -/
def indices (a b : Int) : List Int := (List.range (b - a).toNat).map fun k : Nat => a + k + 1

end Verif.Raft.Spec
