/-!
# Raft consensus

Model of `lib/raft/raft.hpp`, function by function. `int` is `Int` with a check where the code computes (`chk`); reading
a variable that was never written, past the log, past the peers or past the entries of a message is an error. Fields the
constructor does not initialise (`vote_count`, `next_index`) are `Option`. The log is the list of its `m_size` valid
entries. The comparator of the `qsort` in `find_safe_index` (raft.hpp:474-483) casts pointers to elements, which are `Peer**`,
to `Peer*` and compares whatever is in memory there, so the order after sorting is a parameter (`srt`); so is the
value of `std::rand()` (`r`). Debug output is not modelled. `state_machine.apply` appends to `applied`, which keeps the whole entry
for the statements; the code passes only its operation.
-/

namespace Verif.Raft

variable {Op : Type}

inductive Err where
  | overflow
  | uninit
  | pastLog
  | outOfBounds
deriving DecidableEq

/-- `int` arithmetic: signed overflow is undefined. -/
def chk (x : Int) : Except Err Int := if -2147483648 ≤ x ∧ x < 2147483648 then .ok x else .error .overflow

/-- raft.hpp:9-14 -/
def heartbeatPeriod : Int := 10
def timeoutMax : Int := 500
def timeoutMin : Int := 100
def logSize : Nat := 10

/-- raft.hpp:20-24 -/
inductive Role where
  | follower
  | candidate
  | leader
deriving DecidableEq

/-- `LogEntry`, raft.hpp:26-31 -/
structure Entry (Op : Type) where
  op : Op
  term : Int
  index : Int
deriving DecidableEq

/-! ## Log, raft.hpp:33-124 -/

/-- `append`, raft.hpp:61-72 -/
def append (log : List (Entry Op)) (e : Entry Op) : List (Entry Op) := if log.length < logSize then log ++ [e] else log

/-- `last_index`, raft.hpp:79-86 -/
def lastIndex (log : List (Entry Op)) : Int :=
  match log.getLast? with
  | some e => e.index
  | none => 0

/-- `last_term`, raft.hpp:88-95 -/
def lastTerm (log : List (Entry Op)) : Int :=
  match log.getLast? with
  | some e => e.term
  | none => 0

/-- `find_entry`, raft.hpp:97-106 (only whether it exists is used) -/
def findEntry (log : List (Entry Op)) (term index : Int) : Bool := log.any fun e => e.index == index && e.term == term

/-- `remove_conflicting_entries`, raft.hpp:38-48: keeps what is before the first entry for which a new entry has the same index and
a greater term. -/
def removeConflicting (log new : List (Entry Op)) : List (Entry Op) :=
  log.takeWhile fun e => !(new.any fun x => x.index == e.index && decide (e.term < x.term))

/-- `merge`, raft.hpp:108-117 -/
def merge (log new : List (Entry Op)) : List (Entry Op) :=
  new.foldl (fun log e => if e.index > lastIndex log then append log e else log) (removeConflicting log new)

/-! ## Messages and nodes -/

/-- The union of `Message`, raft.hpp:139-161. The entries are the first `count` ones of the array. -/
inductive Body (Op : Type) where
  | voteRequest (lastLogIndex lastLogTerm : Int)
  | voteReply (granted : Bool)
  | appendRequest (leaderCommit prevTerm prevIndex : Int) (entries : List (Entry Op))
  | appendReply (success : Bool) (lastIndex : Int)
deriving DecidableEq

/-- `Message`, raft.hpp:126-168 -/
structure Msg (Op : Type) where
  term : Int
  fromId : Int
  body : Body Op
deriving DecidableEq

/-- `Peer`, raft.hpp:170-186 -/
structure Peer where
  id : Int
  matchIndex : Int
  nextIndex : Option Int
deriving DecidableEq

/-- `State`, raft.hpp:188-205 -/
structure Node (Op : Type) where
  id : Int
  peers : List Peer
  term : Int
  voteCount : Option Int
  votedFor : Int
  role : Role
  heartbeat : Int
  election : Int
  log : List (Entry Op)
  commit : Int
  applied : List (Entry Op)
deriving DecidableEq

/-- Constructor, raft.hpp:207-223 -/
def Node.init (id : Int) (peers : List Int) : Node Op :=
  { id := id, peers := peers.map fun p => ⟨p, 0, none⟩, term := 0, voteCount := none, votedFor := 0, role := .follower, heartbeat := 0,
    election := timeoutMax, log := [], commit := 0, applied := [] }

/-- `reset_election_timer`, raft.hpp:456-462 -/
def resetTimer (n : Node Op) (r : Nat) : Node Op := { n with election := timeoutMin + (r % 400 : Nat) }

/-- `become_leader`, raft.hpp:397-404 -/
def becomeLeader (n : Node Op) : Node Op :=
  { n with role := .leader, peers := n.peers.map fun p => { p with nextIndex := some (lastIndex n.log), matchIndex := 0 } }

/-- `commit_log_entries`, raft.hpp:502-515: skips the entries up to the old index, then applies as many as the index advances. -/
def commitEntries (n : Node Op) (old new : Int) : Except Err (Node Op) :=
  let rest := n.log.dropWhile fun e => decide (e.index ≤ old)
  let count := (new - old).toNat
  if rest.length < count then .error .pastLog else .ok { n with applied := n.applied ++ rest.take count }

/-- `find_safe_index`, raft.hpp:464-500: the sorted peers and the index. -/
def findSafe (srt : List Peer → List Peer) (n : Node Op) : Except Err (List Peer × Int) :=
  let ps := srt n.peers
  match ps[max (ps.length / 2 - 1) 0]? with
  | none => .error .outOfBounds
  | some p =>
    if n.log.any fun e => e.index == p.matchIndex && e.term == n.term then .ok (ps, p.matchIndex) else .ok (ps, n.commit)

/-- `process` on a `VoteRequest`, raft.hpp:230-250 -/
def onVoteRequest (n : Node Op) (m : Msg Op) (lli llt : Int) : Node Op × Msg Op :=
  let valid := m.term > n.term ∧ lastIndex n.log ≤ lli ∧ lastTerm n.log ≤ llt
  let same := m.term = n.term ∧ m.fromId = n.votedFor
  if valid ∨ same then
    ({ n with term := m.term, votedFor := m.fromId, role := .follower }, ⟨m.term, n.id, .voteReply true⟩)
  else (n, ⟨m.term, n.id, .voteReply false⟩)

/-- `process` on a `VoteReply`, raft.hpp:252-275 -/
def onVoteReply (n : Node Op) (r : Nat) (m : Msg Op) (granted : Bool) : Except Err (Node Op) :=
  if n.role ≠ .candidate then .ok n
  else if granted then
    match n.voteCount with
    | none => .error .uninit
    | some v => do
      let v ← chk (v + 1)
      let twice ← chk (2 * v)
      let n := { n with voteCount := some v }
      pure (if twice ≥ n.peers.length then becomeLeader n else n)
  else if m.term > n.term then .ok (resetTimer { n with term := m.term, role := .follower, votedFor := 0 } r)
  else .ok n

/-- raft.hpp:278-283: timer and term -/
def stepDown (n : Node Op) (r : Nat) (m : Msg Op) : Node Op :=
  let n := resetTimer n r
  if m.term > n.term then { n with role := .follower, term := m.term } else n

/-- raft.hpp:305-315: merge and commit -/
def accept (n : Node Op) (leaderCommit : Int) (entries : List (Entry Op)) : Except Err (Node Op) :=
  if logSize < entries.length then .error .outOfBounds
  else
    let n := { n with log := merge n.log entries }
    if leaderCommit > n.commit then
      let new := min leaderCommit (lastIndex n.log)
      do
        let n' ← commitEntries n n.commit new
        pure { n' with commit := new }
    else .ok n

/-- `process` on an `AppendEntriesRequest`, raft.hpp:277-325. The reply's term is never set: it stays 0. -/
def onAppend (n : Node Op) (r : Nat) (m : Msg Op) (leaderCommit prevTerm prevIndex : Int) (entries : List (Entry Op)) :
    Except Err (Node Op × Msg Op) :=
  let n := stepDown n r m
  if m.term < n.term then .ok (n, ⟨0, n.id, .appendReply false 0⟩)
  else if prevIndex > 0 ∧ prevTerm > 0 ∧ findEntry n.log prevTerm prevIndex = false then .ok (n, ⟨0, n.id, .appendReply false 0⟩)
  else do
    let n ← accept n leaderCommit entries
    pure (n, ⟨0, n.id, .appendReply true (lastIndex n.log)⟩)

/-- `next_index--` -/
def decNext (p : Peer) : Except Err Peer :=
  match p.nextIndex with
  | none => .error .uninit
  | some x => do
    let x ← chk (x - 1)
    pure { p with nextIndex := some x }

/-- `process` on an `AppendEntriesReply`, raft.hpp:327-347 -/
def onAppendReply (srt : List Peer → List Peer) (n : Node Op) (m : Msg Op) (success : Bool) (last : Int) : Except Err (Node Op) :=
  if success then do
    let next ← chk (last + 1)
    let n := { n with peers := n.peers.map fun p => if p.id = m.fromId then { p with matchIndex := last, nextIndex := some next } else p }
    let (ps, new) ← findSafe srt n
    let n' ← commitEntries { n with peers := ps } n.commit new
    pure { n' with commit := new }
  else do
    let ps ← n.peers.mapM fun p => if p.id = m.fromId then decNext p else pure p
    pure { n with peers := ps }

/-- `process`, raft.hpp:225-351: the node and, if it returns true, the reply. -/
def process (srt : List Peer → List Peer) (r : Nat) (n : Node Op) (m : Msg Op) : Except Err (Node Op × Option (Msg Op)) :=
  match m.body with
  | .voteRequest lli llt => let x := onVoteRequest n m lli llt; .ok (x.1, some x.2)
  | .voteReply granted => do
    let n ← onVoteReply n r m granted
    pure (n, none)
  | .appendRequest lc pt pi es => do
    let x ← onAppend n r m lc pt pi es
    pure (x.1, some x.2)
  | .appendReply ok last => do
    let n ← onAppendReply srt n m ok last
    pure (n, none)

/-- `start_election`, raft.hpp:353-376: the node and the messages with their destinations. -/
def startElection (n : Node Op) : Except Err (Node Op × List (Int × Msg Op)) :=
  if n.role = .leader then .ok (n, [])
  else do
    let t ← chk (n.term + 1)
    let n := { n with role := .candidate, term := t, voteCount := some 0, votedFor := n.id }
    pure (n, n.peers.map fun p => (p.id, ⟨t, n.id, .voteRequest (lastIndex n.log) (lastTerm n.log)⟩))

/-- The message of a heartbeat, raft.hpp:414-436: the entries from `next_index` on, and the entry before them. -/
def heartbeatMsg (n : Node Op) (p : Peer) : Except Err (Int × Msg Op) :=
  match p.nextIndex with
  | none => .error .uninit
  | some next =>
    let before := n.log.takeWhile fun e => decide (e.index < next)
    let entries := n.log.dropWhile fun e => decide (e.index < next)
    if logSize < entries.length then .error .outOfBounds
    else .ok (p.id, ⟨n.term, n.id, .appendRequest n.commit (lastTerm before) (lastIndex before) entries⟩)

/-- `tick_heartbeat`, raft.hpp:407-444 -/
def tickHeartbeat (n : Node Op) : Except Err (Node Op × List (Int × Msg Op)) :=
  if n.heartbeat > 0 then .ok ({ n with heartbeat := n.heartbeat - 1 }, [])
  else do
    let ms ← n.peers.mapM (heartbeatMsg n)
    pure ({ n with heartbeat := heartbeatPeriod - 1 }, ms)

/-- `tick_election`, raft.hpp:446-454 -/
def tickElection (n : Node Op) (r : Nat) : Except Err (Node Op × List (Int × Msg Op)) :=
  if n.election > 0 then .ok ({ n with election := n.election - 1 }, [])
  else do
    let x ← startElection n
    pure (resetTimer x.1 r, x.2)

/-- `tick`, raft.hpp:378-385 -/
def tick (n : Node Op) (r : Nat) : Except Err (Node Op × List (Int × Msg Op)) :=
  if n.role = .leader then tickHeartbeat n else tickElection n r

/-- `replicate`, raft.hpp:387-395 -/
def replicate (n : Node Op) (op : Op) : Except Err (Node Op) := do
  let i ← chk (lastIndex n.log + 1)
  pure { n with log := append n.log ⟨op, n.term, i⟩ }

end Verif.Raft
