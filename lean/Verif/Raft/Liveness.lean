import Verif.Raft.Progress
import Verif.Raft.Exec
import Verif.Raft.Election
import Mathlib.Data.List.Induction

/-!
# Raft: an undisturbed cluster makes progress

A node whose timer runs out is elected, what is then submitted to it is committed and applied by every node after thirteen rounds of
heartbeats, whatever the order in which the messages are delivered.
-/

namespace Verif.Raft

namespace Spec

variable {Op : Type}

/-- A cluster at rest, in which `c` knows at least as much as the others. -/
structure Rest (ids : List Int) (c : Int) (w : World Op) : Prop where
  nodup : ids.Nodup
  mem : c ∈ ids
  two : 2 ≤ ids.length
  few : ids.length < 2^30
  net : w.net = []
  id : ∀ i ∈ ids, (w.nodes i).id = i
  peers : ((w.nodes c).peers.map (·.id)).Perm (ids.filter (· ≠ c))
  role : (w.nodes c).role ≠ .leader
  num : Numbered 0 (w.nodes c).log
  sorted : (w.nodes c).log.Pairwise fun a b => a.term ≤ b.term
  pos : ∀ e ∈ (w.nodes c).log, 0 < e.term
  term0 : 0 ≤ (w.nodes c).term
  log : ∀ i ∈ ids, (w.nodes i).log <+: (w.nodes c).log
  term : ∀ i ∈ ids, (w.nodes i).term ≤ (w.nodes c).term
  commit0 : ∀ i ∈ ids, 0 ≤ (w.nodes i).commit
  commit : ∀ i ∈ ids, (w.nodes i).commit ≤ (w.nodes i).log.length
  applied : ∀ i ∈ ids, (w.nodes i).applied = (w.nodes i).log.take (w.nodes i).commit.toNat

/-- The weight of the messages under way: a request causes a reply. -/
def weight (L : Int) (net : List (Int × Msg Op)) : Nat := (net.map fun x => if x.1 = L then 1 else 2).sum

end Spec

open Spec

variable {Op : Type} {G : List (Entry Op)} {P : List Int} {c t : Int} {b : Nat} {ids : List Int}

/-! ## The election -/

/-- What is unchanged by the election. -/
structure Stored (G : List (Entry Op)) (i : Int) (n : Node Op) : Prop where
  id : n.id = i
  log : n.log <+: G
  commit0 : 0 ≤ n.commit
  commit : n.commit ≤ n.log.length
  applied : n.applied = n.log.take n.commit.toNat

structure VInv (P : List Int) (c t : Int) (G : List (Entry Op)) (fl : Int → Option (Int × Msg Op)) (w : World Op) : Prop where
  net : w.net.Perm (P.filterMap fl)
  term : (w.nodes c).term = t
  log : (w.nodes c).log = G
  stored : Stored G c (w.nodes c)
  peers : ((w.nodes c).peers.map (·.id)).Perm P
  lead : ((w.nodes c).role = .candidate ∧ (w.nodes c).voteCount = some ((P.length : Int) - w.net.length) ∧ 2 * ((P.length : Int) - w.net.length) < P.length) ∨
    ((w.nodes c).role = .leader ∧ ∀ q ∈ (w.nodes c).peers, q.matchIndex = 0 ∧ q.nextIndex = some (G.length : Int))
  others : ∀ p ∈ P, Stored G p (w.nodes p) ∧
    ((fl p = some (p, ⟨t, c, .voteRequest (lastIndex G) (lastTerm G)⟩) ∧ (w.nodes p).term < t) ∨
     (fl p = some (c, ⟨t, p, .voteReply true⟩) ∧ (w.nodes p).term = t ∧ (w.nodes p).role = .follower) ∨
     (fl p = none ∧ (w.nodes p).term = t ∧ (w.nodes p).role = .follower))

theorem lastTerm_prefix {F : List (Entry Op)} (hF : F <+: G) (hs : G.Pairwise fun a b => a.term ≤ b.term) (hpos : ∀ e ∈ G, 0 < e.term) : lastTerm F ≤ lastTerm G := by
  obtain ⟨u, rfl⟩ := hF
  cases hu : u.getLast? with
  | none =>
    rw [List.getLast?_eq_none_iff] at hu
    subst hu
    rw [List.append_nil]
    exact Int.le_refl _
  | some e =>
    have hmem : e ∈ u := List.mem_of_getLast? hu
    have h1 : lastTerm (F ++ u) = e.term := by
      unfold lastTerm
      rw [List.getLast?_append, hu]
      rfl
    rw [h1]
    by_cases hF : F = []
    · subst hF
      have := hpos e (by simpa using hmem)
      unfold lastTerm
      simp only [List.getLast?_nil]
      omega
    · obtain ⟨e', he', h2⟩ := lastTerm_mem hF
      rw [h2]
      exact (List.pairwise_append.mp hs).2.2 e' he' e hmem

/-- Every message of the election can be delivered, with a result that keeps the invariant. -/
theorem deliver_vinv {fl : Int → Option (Int × Msg Op)} {nodes : Int → Node Op} {pre post : List (Int × Msg Op)} {d : Int} {m : Msg Op} (hnd : P.Nodup) (hcP : c ∉ P)
    (hfew : P.length < 2^30) (hG : Numbered 0 G) (hs : G.Pairwise fun a b => a.term ≤ b.term) (hpos : ∀ e ∈ G, 0 < e.term)
    (h : VInv P c t G fl ⟨nodes, pre ++ (d, m) :: post⟩) (srt : List Peer → List Peer) (r : Nat) :
    ∃ n rep, process srt r (nodes d) m = .ok (n, rep) ∧
      (∃ fl', VInv P c t G fl' { World.set ⟨nodes, pre ++ post⟩ d n with net := pre ++ post ++ rep.toList.map fun x => (m.fromId, x) }) ∧
      (rep = none ∨ ∃ x, rep = some x ∧ d ≠ c ∧ m.fromId = c) := by
  have hmem : (d, m) ∈ P.filterMap fl := h.net.mem_iff.mp (by simp)
  obtain ⟨p, hp, hfl⟩ := List.mem_filterMap.mp hmem
  have hcp : c ≠ p := fun e => hcP (e ▸ hp)
  obtain ⟨hst, hcase⟩ := h.others p hp
  rw [hfl] at hcase
  rcases hcase with ⟨hc, hlt⟩ | ⟨hc, hteq, hrole⟩ | ⟨hc, _⟩
  · -- a vote is requested
    simp only [Option.some.injEq, Prod.mk.injEq] at hc
    obtain ⟨hd, rfl⟩ := hc
    subst d
    have hlt : (nodes p).term < t := hlt
    have hlog : (nodes p).log <+: G := hst.log
    have hFn : Numbered 0 (nodes p).log := by
      obtain ⟨u, hu⟩ := hlog
      rw [← hu] at hG
      exact (numbered_append.mp hG).1
    have h1 : lastIndex (nodes p).log ≤ lastIndex G := by
      rw [lastIndex_zero hFn, lastIndex_zero hG]
      have := hlog.length_le
      omega
    have h2 := lastTerm_prefix hlog hs hpos
    have hproc : process srt r (nodes p) (⟨t, c, .voteRequest (lastIndex G) (lastTerm G)⟩ : Msg Op) =
        .ok ({ nodes p with term := t, votedFor := c, role := .follower }, some ⟨t, p, .voteReply true⟩) := by
      unfold process onVoteRequest
      simp only
      rw [if_pos (Or.inl ⟨hlt, h1, h2⟩)]
      have : (nodes p).id = p := hst.id
      simp only [this]
    refine ⟨_, _, hproc, ⟨upd fl p (some (c, ⟨t, p, .voteReply true⟩)), ?_⟩, .inr ⟨_, rfl, hcp.symm, rfl⟩⟩
    have hL : ({ World.set ⟨nodes, pre ++ post⟩ p { nodes p with term := t, votedFor := c, role := .follower } with
        net := pre ++ post ++ (some (⟨t, p, .voteReply true⟩ : Msg Op)).toList.map fun x => (c, x) } : World Op).nodes c = nodes c := by
      simp only [World.set, if_neg hcp]
    refine ⟨net_upd hnd hp hfl h.net (some (c, ⟨t, p, .voteReply true⟩)), by rw [hL]; exact h.term, by rw [hL]; exact h.log, by rw [hL]; exact h.stored, by rw [hL]; exact h.peers, ?_, ?_⟩
    · rw [hL]
      have := h.lead
      simp only [List.length_append, List.length_cons, List.length_map, Option.length_toList, Option.isSome_some, if_true] at this ⊢
      exact this
    · intro i hi
      simp only [World.set]
      by_cases e : i = p
      · rw [if_pos e, e, upd_same]
        exact ⟨⟨hst.id, hst.log, hst.commit0, hst.commit, hst.applied⟩, .inr (.inl ⟨rfl, rfl, rfl⟩)⟩
      · rw [if_neg e, upd_other _ e]
        exact h.others i hi
  · -- a vote is counted
    cases hc
    have hnet : (pre ++ (c, (⟨t, p, .voteReply true⟩ : Msg Op)) :: post).length = (pre ++ post).length + 1 := by simp; omega
    have hle : (pre ++ (c, (⟨t, p, .voteReply true⟩ : Msg Op)) :: post).length ≤ P.length := by
      have := h.net.length_eq
      simp only at this
      rw [this]
      exact List.length_filterMap_le _ _
    rw [hnet] at hle
    have key : ∃ n, process srt r (nodes c) (⟨t, p, .voteReply true⟩ : Msg Op) = .ok (n, none) ∧ n.term = t ∧ n.log = G ∧ Stored G c n ∧ (n.peers.map (·.id)).Perm P ∧
        ((n.role = .candidate ∧ n.voteCount = some ((P.length : Int) - (pre ++ post).length) ∧ 2 * ((P.length : Int) - (pre ++ post).length) < P.length) ∨
         (n.role = .leader ∧ ∀ q ∈ n.peers, q.matchIndex = 0 ∧ q.nextIndex = some (G.length : Int))) := by
      have hS : Stored G c (nodes c) := h.stored
      rcases h.lead with ⟨h1, h2, h3⟩ | ⟨h1, h2⟩
      · rw [hnet] at h2 h3
        simp only at h1 h2 h3
        have hplen : (nodes c).peers.length = P.length := by
          have := h.peers.length_eq
          rw [List.length_map] at this
          exact this
        have hc1 : chk ((P.length : Int) - ((pre ++ post).length + 1 : Nat) + 1) = .ok ((P.length : Int) - (pre ++ post).length) := by
          unfold chk
          rw [if_pos (by omega)]
          congr 1
          omega
        have hc2 : chk (2 * ((P.length : Int) - (pre ++ post).length)) = .ok (2 * ((P.length : Int) - (pre ++ post).length)) := by
          unfold chk
          rw [if_pos (by omega)]
        have hv : onVoteReply (nodes c) r (⟨t, p, .voteReply true⟩ : Msg Op) true =
            .ok (if 2 * ((P.length : Int) - (pre ++ post).length) ≥ ((nodes c).peers.length : Nat) then
              becomeLeader { nodes c with voteCount := some ((P.length : Int) - (pre ++ post).length) }
              else { nodes c with voteCount := some ((P.length : Int) - (pre ++ post).length) }) := by
          unfold onVoteReply
          rw [if_neg (by rw [h1]; simp), if_pos rfl, h2]
          simp only [hc1, bind, Except.bind, hc2, pure, Except.pure]
        have hproc : ∀ n, onVoteReply (nodes c) r (⟨t, p, .voteReply true⟩ : Msg Op) true = .ok n →
            process srt r (nodes c) (⟨t, p, .voteReply true⟩ : Msg Op) = .ok (n, none) := by
          intro n hn
          show (onVoteReply (nodes c) r (⟨t, p, .voteReply true⟩ : Msg Op) true >>= fun n => pure (n, none)) = _
          rw [hn]
          rfl
        by_cases hq : 2 * ((P.length : Int) - (pre ++ post).length) ≥ ((nodes c).peers.length : Nat)
        · rw [if_pos hq] at hv
          refine ⟨_, hproc _ hv, h.term, h.log, ⟨hS.id, hS.log, hS.commit0, hS.commit, hS.applied⟩, ?_, .inr ⟨rfl, ?_⟩⟩
          · unfold becomeLeader
            simp only [List.map_map]
            exact h.peers
          · intro q hqm
            unfold becomeLeader at hqm
            obtain ⟨q0, _, rfl⟩ := List.mem_map.mp hqm
            refine ⟨rfl, ?_⟩
            have : (nodes c).log = G := h.log
            simp only [this, lastIndex_zero hG]
        · rw [if_neg hq] at hv
          exact ⟨_, hproc _ hv, h.term, h.log, ⟨hS.id, hS.log, hS.commit0, hS.commit, hS.applied⟩, h.peers, .inl ⟨h1, rfl, by omega⟩⟩
      · refine ⟨nodes c, ?_, h.term, h.log, hS, h.peers, .inr ⟨h1, h2⟩⟩
        show (onVoteReply (nodes c) r (⟨t, p, .voteReply true⟩ : Msg Op) true >>= fun n => pure (n, none)) = _
        have : onVoteReply (nodes c) r (⟨t, p, .voteReply true⟩ : Msg Op) true = .ok (nodes c) := by
          unfold onVoteReply
          simp only at h1
          rw [if_pos (by rw [h1]; simp)]
        rw [this]
        rfl
    obtain ⟨n, k1, k2, k3, k4, k5, k6⟩ := key
    refine ⟨n, none, k1, ⟨upd fl p none, ?_⟩, .inl rfl⟩
    have hL : ({ World.set ⟨nodes, pre ++ post⟩ c n with net := pre ++ post ++ [] } : World Op).nodes c = n := by simp only [World.set, if_true]
    refine ⟨net_upd hnd hp hfl h.net none, ?_, ?_, ?_, ?_, ?_, ?_⟩
    · exact (congrArg Node.term hL).trans k2
    · exact (congrArg Node.log hL).trans k3
    · exact hL.symm ▸ k4
    · exact hL.symm ▸ k5
    · show (({ World.set ⟨nodes, pre ++ post⟩ c n with net := pre ++ post ++ [] } : World Op).nodes c).role = _ ∧ (({ World.set ⟨nodes, pre ++ post⟩ c n with net := pre ++ post ++ [] } : World Op).nodes c).voteCount = some ((P.length : Int) - (pre ++ post ++ []).length) ∧ 2 * ((P.length : Int) - (pre ++ post ++ []).length) < P.length ∨ _
      rw [hL, List.append_nil]
      exact k6
    · intro i hi
      have hic : i ≠ c := fun e => hcP (e ▸ hi)
      simp only [World.set, if_neg hic]
      by_cases e : i = p
      · rw [e, upd_same]
        exact ⟨hst, .inr (.inr ⟨rfl, hteq, hrole⟩)⟩
      · rw [upd_other _ e]
        exact h.others i hi
  · cases hc

theorem VInv.wait {fl : Int → Option (Int × Msg Op)} {w : World Op} (h : VInv P c t G fl w) (i a e : Int) :
    VInv P c t G fl { w.set i { w.nodes i with heartbeat := a, election := e } with net := w.net ++ [] } := by
  have hn : ∀ j, ∃ a' e' : Int, ({ w.set i { w.nodes i with heartbeat := a, election := e } with net := w.net ++ [] } : World Op).nodes j =
      { w.nodes j with heartbeat := a', election := e' } := by
    intro j
    simp only [World.set]
    split
    · rename_i e; subst e; exact ⟨_, _, rfl⟩
    · exact ⟨(w.nodes j).heartbeat, (w.nodes j).election, rfl⟩
  have hst : ∀ j k, Stored G k (w.nodes j) → ∀ a' e', Stored G k { w.nodes j with heartbeat := a', election := e' } :=
    fun _ _ s _ _ => ⟨s.id, s.log, s.commit0, s.commit, s.applied⟩
  obtain ⟨a1, e1, hL⟩ := hn c
  refine ⟨by rw [List.append_nil]; exact h.net, by rw [hL]; exact h.term, by rw [hL]; exact h.log, by rw [hL]; exact hst _ _ h.stored _ _, by rw [hL]; exact h.peers, ?_, ?_⟩
  · rw [hL]
    have := h.lead
    simp only [List.append_nil]
    exact this
  · intro p hp
    obtain ⟨a2, e2, hp2⟩ := hn p
    rw [hp2]
    obtain ⟨h1, h2⟩ := h.others p hp
    exact ⟨hst _ _ h1 _ _, h2⟩

theorem step_vinv {fl : Int → Option (Int × Msg Op)} {w w' : World Op} {a : Action Op} (hnd : P.Nodup) (hcP : c ∉ P)
    (hfew : P.length < 2^30) (hG : Numbered 0 G) (hsd : G.Pairwise fun a b => a.term ≤ b.term) (hpos : ∀ e ∈ G, 0 < e.term)
    (h : VInv P c t G fl w) (hs : Step ids w a w') (hc : Calm c w a) (hb : beats w a = 0) : ∃ fl', VInv P c t G fl' w' := by
  cases hs with
  | @tick _ i r n out hi ht =>
    obtain ⟨h1, h2⟩ := hc
    have hb' : ¬ ((w.nodes i).role = .leader ∧ (w.nodes i).heartbeat ≤ 0) := by
      intro hh
      simp only [beats, if_pos hh] at hb
      cases hb
    obtain ⟨rfl, a, e, rfl⟩ := tick_wait ht (fun hr => by
      have : ¬ (w.nodes i).heartbeat ≤ 0 := fun hh => hb' ⟨hr, hh⟩
      omega) h2
    exact ⟨fl, h.wait i a e⟩
  | @deliver nodes pre post d m srt r n rep hsrt hp =>
    obtain ⟨n', rep', h1, h2, _⟩ := deliver_vinv hnd hcP hfew hG hsd hpos h srt r
    rw [hp] at h1
    cases h1
    exact h2
  | drop => cases hc
  | duplicate => cases hc
  | replicate => cases hc

theorem path_vinv {fl : Int → Option (Int × Msg Op)} {w w' : World Op} {k : Nat} (hnd : P.Nodup) (hcP : c ∉ P)
    (hfew : P.length < 2^30) (hG : Numbered 0 G) (hsd : G.Pairwise fun a b => a.term ≤ b.term) (hpos : ∀ e ∈ G, 0 < e.term)
    (h : VInv P c t G fl w) (hp : Path ids c w k w') (hk : k = 0) : ∃ fl', VInv P c t G fl' w' := by
  induction hp with
  | refl => exact ⟨fl, h⟩
  | step hp hs hc ih =>
    obtain ⟨fl', h'⟩ := ih (by omega)
    exact step_vinv hnd hcP hfew hG hsd hpos h' hs hc (by omega)

theorem filter_nodup_ne (hnd : ids.Nodup) (c : Int) : (ids.filter (· ≠ c)).Nodup ∧ c ∉ ids.filter (· ≠ c) ∧ (ids.filter (· ≠ c)).length ≤ ids.length :=
  ⟨hnd.filter _, by simp, List.length_filter_le _ _⟩

/-- The timer of `c` runs out. -/
theorem start_vinv {w w' : World Op} (h : Rest ids c w) (he : (w.nodes c).election ≤ 0) (hs : Step ids w (.tick c) w') :
    ∃ fl, VInv (ids.filter (· ≠ c)) c ((w.nodes c).term + 1) (w.nodes c).log fl w' := by
  cases hs with
  | @tick _ _ r n out hi ht =>
  unfold tick at ht
  rw [if_neg h.role, tickElection, if_neg (by omega), startElection, if_neg h.role] at ht
  by_cases hchk : chk ((w.nodes c).term + 1) = .ok ((w.nodes c).term + 1)
  · rw [hchk] at ht
    cases ht
    have hid := h.id c h.mem
    let fl : Int → Option (Int × Msg Op) := fun p => some (p, ⟨(w.nodes c).term + 1, c, .voteRequest (lastIndex (w.nodes c).log) (lastTerm (w.nodes c).log)⟩)
    have hst : ∀ i ∈ ids, Stored (w.nodes c).log i (w.nodes i) := fun i hi => ⟨h.id i hi, h.log i hi, h.commit0 i hi, h.commit i hi, h.applied i hi⟩
    have hsc := hst c h.mem
    refine ⟨fl, ?_, ?_, ?_, ?_, ?_, ?_, ?_⟩
    · show (w.net ++ (w.nodes c).peers.map fun p => (p.id, (⟨(w.nodes c).term + 1, (w.nodes c).id, .voteRequest (lastIndex (w.nodes c).log) (lastTerm (w.nodes c).log)⟩ : Msg Op))).Perm _
      rw [h.net, List.nil_append, hid]
      have := h.peers.filterMap fl
      refine List.Perm.trans (.of_eq ?_) this
      rw [List.filterMap_map, ← List.filterMap_eq_map]
      rfl
    · simp only [World.set, if_true, resetTimer]
    · simp only [World.set, if_true, resetTimer]
    · simp only [World.set, if_true, resetTimer]
      exact ⟨hsc.id, hsc.log, hsc.commit0, hsc.commit, hsc.applied⟩
    · simp only [World.set, if_true, resetTimer]
      exact h.peers
    · left
      have hlen : (w.nodes c).peers.length = (ids.filter (· ≠ c)).length := by
        have := h.peers.length_eq
        rwa [List.length_map] at this
      have h2 := filter_ne_length h.nodup h.mem
      have := h.two
      refine ⟨?_, ?_, ?_⟩
      · simp only [World.set, if_true, resetTimer]
      · simp only [World.set, if_true, resetTimer, h.net, List.nil_append, List.length_map, hlen]
        congr 1
        omega
      · simp only [World.set, h.net, List.nil_append, List.length_map, hlen]
        omega
    · intro p hp
      obtain ⟨hpi, hpc⟩ := List.mem_filter.mp hp
      have hpc : p ≠ c := by simpa using hpc
      simp only [World.set, if_neg hpc]
      refine ⟨hst p hpi, .inl ⟨rfl, ?_⟩⟩
      have := h.term p hpi
      omega
  · have : chk ((w.nodes c).term + 1) = .error .overflow := by
      unfold chk at hchk ⊢
      split
      · rename_i hh
        exact absurd (if_pos hh) hchk
      · rfl
    rw [this] at ht
    cases ht

/-! ## Submission of operations -/

/-- A leader after its election, with what was submitted to it. -/
structure Elected (P : List Int) (c t : Int) (G0 G : List (Entry Op)) (w : World Op) : Prop where
  net : w.net = []
  role : (w.nodes c).role = .leader
  term : (w.nodes c).term = t
  id : (w.nodes c).id = c
  log : (w.nodes c).log = G
  peers : ((w.nodes c).peers.map (·.id)).Perm P
  commit0 : 0 ≤ (w.nodes c).commit
  commit : (w.nodes c).commit ≤ G0.length
  applied : (w.nodes c).applied = G0.take (w.nodes c).commit.toNat
  start : ∀ q ∈ (w.nodes c).peers, q.matchIndex = 0 ∧ q.nextIndex = some (G0.length : Int)
  fol : ∀ p ∈ P, Following t G0 p (w.nodes p)
  num : Numbered 0 G
  grow : G0 <+: G
  pos : ∀ e ∈ G, 0 < e.term

theorem VInv.elected {fl : Int → Option (Int × Msg Op)} {w : World Op} (h : VInv P c t G fl w) (hnet : w.net = []) (hne : P ≠ []) (hG : Numbered 0 G)
    (hpos : ∀ e ∈ G, 0 < e.term) : Elected P c t G G w := by
  have hnone : ∀ p ∈ P, fl p = none := filterMap_nil (by have := h.net; rw [hnet] at this; exact this.symm.eq_nil)
  have hlen := List.length_pos_iff.mpr hne
  rcases h.lead with ⟨_, _, h3⟩ | ⟨h1, h2⟩
  · rw [hnet, List.length_nil] at h3
    omega
  · refine ⟨hnet, h1, h.term, h.stored.id, h.log, h.peers, h.stored.commit0, ?_, ?_, h2, ?_, hG, List.prefix_rfl, hpos⟩
    · have := h.stored.commit
      rwa [h.log] at this
    · have := h.stored.applied
      rwa [h.log] at this
    · intro p hp
      obtain ⟨s, hc⟩ := h.others p hp
      rw [hnone p hp] at hc
      rcases hc with ⟨hc, _⟩ | ⟨hc, _⟩ | ⟨_, h4, h5⟩
      · cases hc
      · cases hc
      · exact ⟨s.id, by rw [h5]; simp, h4, s.log, s.commit0, s.commit, s.applied⟩

theorem submit_elected {G0 : List (Entry Op)} {w w' : World Op} {ops : List Op} (ht : 0 < t) (hcP : c ∉ P) (hcap : G0.length + ops.length ≤ logSize)
    (h : Elected P c t G0 G0 w) (hs : Submit ids c w ops w') :
    ∃ G, Elected P c t G0 G w' ∧ G.length = G0.length + ops.length ∧ G.map (·.op) = G0.map (·.op) ++ ops ∧
      (ops ≠ [] → ∃ e ∈ G, e.index = G.length ∧ e.term = t) := by
  induction hs with
  | nil => exact ⟨G0, h, by simp, by simp, fun hh => absurd rfl hh⟩
  | @snoc ops op w1 w2 _ hstep ih =>
    rw [List.length_append, List.length_singleton] at hcap
    obtain ⟨G, hE, hlen, hops, _⟩ := ih (by omega)
    cases hstep with
    | @replicate _ _ _ n hi hr =>
    have hlt : G.length < logSize := by omega
    have hr' : n = { w1.nodes c with log := G ++ [⟨op, t, G.length + 1⟩] } := by
      unfold Raft.replicate at hr
      rw [hE.log, lastIndex_zero hE.num] at hr
      cases hchk : chk ((G.length : Int) + 1) with
      | error e => rw [hchk] at hr; cases hr
      | ok i =>
        have hi := chk_ok hchk
        subst hi
        rw [hchk] at hr
        cases hr
        simp only [append, if_pos hlt, hE.term]
    subst hr'
    have hL : (w1.set c { w1.nodes c with log := G ++ [⟨op, t, G.length + 1⟩] }).nodes c = { w1.nodes c with log := G ++ [⟨op, t, G.length + 1⟩] } := by
      simp only [World.set, if_true]
    refine ⟨G ++ [⟨op, t, G.length + 1⟩], ⟨hE.net, by rw [hL]; exact hE.role, by rw [hL]; exact hE.term, by rw [hL]; exact hE.id, by rw [hL], by rw [hL]; exact hE.peers,
      by rw [hL]; exact hE.commit0, by rw [hL]; exact hE.commit, by rw [hL]; exact hE.applied, by rw [hL]; exact hE.start, ?_, ?_, hE.grow.trans (List.prefix_append _ _), ?_⟩, ?_, ?_, ?_⟩
    · intro p hp
      have hpc : p ≠ c := fun e => hcP (e ▸ hp)
      simp only [World.set, if_neg hpc]
      exact hE.fol p hp
    · refine numbered_append.mpr ⟨hE.num, ?_⟩
      rw [numbered_cons]
      exact ⟨by simp only; omega, numbered_nil⟩
    · intro e he
      rcases List.mem_append.mp he with he | he
      · exact hE.pos e he
      · rw [List.mem_singleton.mp he]; exact ht
    · rw [List.length_append, List.length_append, List.length_singleton, List.length_singleton, hlen]; omega
    · rw [List.map_append, hops, List.append_assoc]; rfl
    · intro _
      refine ⟨_, List.mem_append_right _ (List.mem_singleton.mpr rfl), ?_, rfl⟩
      rw [List.length_append, List.length_singleton]
      rfl

theorem Elected.rinv {G0 : List (Entry Op)} {w : World Op} (h : Elected P c t G0 G w) (hcap : G.length ≤ logSize) : RInv P c t G 0 (fun _ => none) w := by
  have hle := h.grow.length_le
  have hcap : G.length ≤ 10 := hcap
  have hc := h.commit
  refine ⟨?_, h.role, h.term, h.id, h.log, h.peers, h.commit0, by omega, ?_, ?_, ?_, by omega, by omega⟩
  · rw [h.net]
    have : P.filterMap (fun _ => (none : Option (Int × Msg Op))) = [] := by
      rw [List.filterMap_eq_nil_iff]; intro _ _; rfl
    rw [this]
  · rw [h.applied, List.prefix_iff_eq_take.mp h.grow, List.take_take]
    congr 1
    omega
  · intro p hp
    have := h.fol p hp
    exact ⟨this.id, this.role, this.term, this.log.trans h.grow, this.commit0, this.commit, this.applied⟩
  · intro q hq
    obtain ⟨h1, h2⟩ := h.start q hq
    refine ⟨_, h2, by omega, by omega, .inl h1, .inl ⟨rfl, .inr (by omega), by omega⟩⟩

theorem Elected.setting {G0 : List (Entry Op)} {w : World Op} (h : Elected P c t G0 G w) (hcap : G.length ≤ logSize) (hnd : P.Nodup) (hcP : c ∉ P) (hne : P ≠ [])
    (hids : ∀ i ∈ ids, i = c ∨ i ∈ P) (hlast : ∃ e ∈ G, e.index = G.length ∧ e.term = t) : Setting ids P c t G :=
  ⟨h.num, hcap, h.pos, hlast, hnd, hcP, hne, hids⟩

/-! ## Draining the network -/

theorem weight_append (L : Int) (a b : List (Int × Msg Op)) : weight L (a ++ b) = weight L a + weight L b := by
  simp [weight]

theorem weight_deliver {L d : Int} {m : Msg Op} {pre post : List (Int × Msg Op)} {rep : Option (Msg Op)}
    (h : rep = none ∨ ∃ x, rep = some x ∧ d ≠ L ∧ m.fromId = L) :
    weight L (pre ++ post ++ rep.toList.map fun x => (m.fromId, x)) < weight L (pre ++ (d, m) :: post) := by
  have h1 : weight L (pre ++ (d, m) :: post) = weight L pre + ((if d = L then 1 else 2) + weight L post) := by
    rw [weight_append]; simp [weight]
  rw [h1, weight_append, weight_append]
  rcases h with rfl | ⟨x, rfl, hd, hf⟩
  · simp only [Option.toList_none, List.map_nil]
    have : weight L ([] : List (Int × Msg Op)) = 0 := rfl
    split <;> omega
  · rw [if_neg hd]
    simp only [Option.toList_some, List.map_cons, List.map_nil]
    have : weight L [(m.fromId, x)] = 1 := by simp [weight, hf]
    omega

theorem Path.head {L : Int} {w w1 w' : World Op} {a : Action Op} {k : Nat} (hp : Path ids L w1 k w') (hs : Step ids w a w1) (hc : Calm L w a) :
    Path ids L w (beats w a + k) w' := by
  induction hp with
  | refl => rw [Nat.add_comm]; exact .step .refl hs hc
  | step _ h1 h2 ih => rw [← Nat.add_assoc]; exact .step ih h1 h2

/-- Whatever has been delivered, the rest can be delivered too, until nothing is under way. -/
theorem drain {Inv : World Op → Prop} {L : Int}
    (hd : ∀ nodes pre d m post, Inv ⟨nodes, pre ++ (d, m) :: post⟩ → ∃ n rep, process id 0 (nodes d) m = .ok (n, rep) ∧
      Inv { World.set ⟨nodes, pre ++ post⟩ d n with net := pre ++ post ++ rep.toList.map fun x => (m.fromId, x) } ∧
      (rep = none ∨ ∃ x, rep = some x ∧ d ≠ L ∧ m.fromId = L)) : ∀ (k : Nat) (w : World Op), weight L w.net ≤ k → Inv w → ∃ w', Path ids L w 0 w' ∧ w'.net = [] ∧ Inv w'
  | k, ⟨nodes, []⟩, _, h => ⟨_, .refl, rfl, h⟩
  | 0, ⟨nodes, (d, m) :: post⟩, hk, _ => by
    have : weight L ((d, m) :: post) = (if d = L then 1 else 2) + weight L post := by simp [weight]
    simp only at hk
    rw [this] at hk
    split at hk <;> omega
  | k + 1, ⟨nodes, (d, m) :: post⟩, hk, h => by
    obtain ⟨n, rep, h1, h2, h3⟩ := hd nodes [] d m post h
    have hw := weight_deliver (pre := []) (post := post) h3
    obtain ⟨w', p1, p2, p3⟩ := drain hd k _ (by simp only [List.nil_append] at hw hk ⊢; omega) h2
    have hstep : Step ids ⟨nodes, [] ++ (d, m) :: post⟩ (.deliver d m) _ := Step.deliver (srt := id) (r := 0) (fun _ => .refl _) h1
    refine ⟨w', ?_, p2, p3⟩
    have := Path.head p1 hstep trivial
    exact this

/-! ## The theorems -/

theorem others_ids (hc : c ∈ ids) : ∀ i ∈ ids, i = c ∨ i ∈ ids.filter (· ≠ c) := by
  intro i hi
  by_cases e : i = c
  · exact .inl e
  · exact .inr (List.mem_filter.mpr ⟨hi, by simpa using e⟩)

theorem rest_others {w : World Op} (h : Rest ids c w) : ids.filter (· ≠ c) ≠ [] := by
  have h1 := filter_ne_length h.nodup h.mem
  have h2 := h.two
  intro e
  rw [e, List.length_nil] at h1
  omega

/-- C117: when the timer of a node that knows at least as much as the others runs out, and nothing disturbs the election, that node is the leader once
no message is under way, whatever the order in which the messages were delivered; every other node follows it, and no log has changed. -/
theorem elected {w w1 w2 : World Op} (h : Rest ids c w) (he : (w.nodes c).election ≤ 0) (h1 : Step ids w (.tick c) w1) (h2 : Path ids c w1 0 w2) (hnet : w2.net = []) :
    (w2.nodes c).role = .leader ∧ (w2.nodes c).log = (w.nodes c).log ∧
    ∀ i ∈ ids, (w2.nodes i).term = (w.nodes c).term + 1 ∧ (i ≠ c → (w2.nodes i).role ≠ .leader ∧ (w2.nodes i).log <+: (w.nodes c).log) := by
  obtain ⟨f1, f2, f3⟩ := filter_nodup_ne h.nodup c
  obtain ⟨fl, hv⟩ := start_vinv h he h1
  obtain ⟨fl', hv'⟩ := path_vinv f1 f2 (by have := h.few; omega) h.num h.sorted h.pos hv h2 rfl
  have hE := hv'.elected hnet (rest_others h) h.num h.pos
  refine ⟨hE.role, hE.log, ?_⟩
  intro i hi
  rcases others_ids h.mem i hi with rfl | hp
  · exact ⟨hE.term, fun hh => absurd rfl hh⟩
  · have := hE.fol i hp
    exact ⟨this.term, fun _ => ⟨this.role, this.log⟩⟩

/-- C117: what is then submitted to the leader, at least one operation and no more than fit into the log, is in the log of every node, committed and applied by
every node, once, in order and after what was there before, after thirteen rounds of heartbeats; whatever the order of the deliveries and of the peers after sorting. -/
theorem progress {w w1 w2 w3 w4 : World Op} {ops : List Op} (h : Rest ids c w) (he : (w.nodes c).election ≤ 0) (h1 : Step ids w (.tick c) w1)
    (h2 : Path ids c w1 0 w2) (hnet2 : w2.net = []) (h3 : Submit ids c w2 ops w3) (hops : ops ≠ []) (hcap : (w.nodes c).log.length + ops.length ≤ 10)
    (h4 : Path ids c w3 b w4) (hb : 13 ≤ b) (hnet4 : w4.net = []) :
    ∃ G, G.map (·.op) = (w.nodes c).log.map (·.op) ++ ops ∧
      ∀ i ∈ ids, (w4.nodes i).log = G ∧ (w4.nodes i).commit = G.length ∧ (w4.nodes i).applied = G := by
  obtain ⟨f1, f2, f3⟩ := filter_nodup_ne h.nodup c
  obtain ⟨fl, hv⟩ := start_vinv h he h1
  obtain ⟨fl', hv'⟩ := path_vinv f1 f2 (by have := h.few; omega) h.num h.sorted h.pos hv h2 rfl
  have hE := hv'.elected hnet2 (rest_others h) h.num h.pos
  obtain ⟨G, hE', hlen, hmap, hlast⟩ := submit_elected (by have := h.term0; omega) f2 hcap hE h3
  have hcapG : G.length ≤ logSize := by rw [hlen]; exact hcap
  have hS := hE'.setting (ids := ids) hcapG f1 f2 (rest_others h) (others_ids h.mem) (hlast hops)
  obtain ⟨fl'', hR⟩ := path_rinv hS (hE'.rinv hcapG) h4
  exact ⟨G, hmap, hR.final hS (by omega) hnet4⟩

/-- C117: nothing gets stuck: at every moment of the election all messages under way can be delivered. -/
theorem election_drains {w w1 w2 : World Op} (h : Rest ids c w) (he : (w.nodes c).election ≤ 0) (h1 : Step ids w (.tick c) w1) (h2 : Path ids c w1 0 w2) :
    ∃ w', Path ids c w2 0 w' ∧ w'.net = [] := by
  obtain ⟨f1, f2, f3⟩ := filter_nodup_ne h.nodup c
  obtain ⟨fl, hv⟩ := start_vinv h he h1
  obtain ⟨fl', hv'⟩ := path_vinv f1 f2 (by have := h.few; omega) h.num h.sorted h.pos hv h2 rfl
  obtain ⟨w', p1, p2, _⟩ := drain (ids := ids) (Inv := fun v => ∃ fl, VInv (ids.filter (· ≠ c)) c ((w.nodes c).term + 1) (w.nodes c).log fl v) (L := c)
    (by
      rintro nodes pre d m post ⟨fl, hi⟩
      exact deliver_vinv f1 f2 (by have := h.few; omega) h.num h.sorted h.pos hi id 0) _ w2 (Nat.le_refl _) ⟨fl', hv'⟩
  exact ⟨w', p1, p2⟩

theorem rounds_drain {L : Int} {fl : Int → Option (Int × Msg Op)} {w : World Op} (hS : Setting ids P L t G) (h : RInv P L t G b fl w) :
    ∃ w', Path ids L w 0 w' ∧ w'.net = [] ∧ ∃ fl', RInv P L t G b fl' w' :=
  drain (ids := ids) (Inv := fun v => ∃ fl, RInv P L t G b fl v) (L := L)
    (by
      rintro nodes pre d m post ⟨fl, hi⟩
      obtain ⟨n, rep, h1, h2, h3⟩ := deliver_rinv hS hi (srt := id) (fun _ => .refl _) 0
      refine ⟨n, rep, h1, h2, ?_⟩
      rcases h3 with h3 | ⟨x, h3, _, h4, h5⟩
      · exact .inl h3
      · exact .inr ⟨x, h3, h4, h5⟩) _ w (Nat.le_refl _) ⟨fl, h⟩

theorem Path.trans {L : Int} {w w1 w2 : World Op} {j k : Nat} (h1 : Path ids L w j w1) (h2 : Path ids L w1 k w2) : Path ids L w (j + k) w2 := by
  induction h2 with
  | refl => exact h1
  | step _ hs hc ih => rw [← Nat.add_assoc]; exact .step ih hs hc

/-- A leader that waits for its next heartbeat sends it. -/
theorem beat_exists {L : Int} (hS : Setting ids P L t G) (hL : L ∈ ids) : ∀ (k : Nat) {fl : Int → Option (Int × Msg Op)} {w : World Op}, (w.nodes L).heartbeat.toNat ≤ k →
    RInv P L t G b fl w → w.net = [] → ∃ w', Path ids L w 1 w' ∧ w'.net = [] ∧ ∃ fl', RInv P L t G (b + 1) fl' w'
  | k, fl, w, hk, h, hnet => by
    by_cases hb : (w.nodes L).heartbeat ≤ 0
    · have hmap := mapM_request hS.num hS.cap h.log (fun q => q.nextIndex.getD 0) (ps := (w.nodes L).peers) (by
        intro q hq
        obtain ⟨x, h1, _, h3, _⟩ := h.peer q hq
        rw [h1]
        exact ⟨rfl, h3⟩)
      have ht : ∃ n out, tick (w.nodes L) 0 = .ok (n, out) := by
        unfold tick
        rw [if_pos h.role, tickHeartbeat, if_neg (by omega), hmap]
        exact ⟨_, _, rfl⟩
      obtain ⟨n, out, ht⟩ := ht
      obtain ⟨fl', h'⟩ := h.beat hS hnet hb ht
      obtain ⟨w', p1, p2, p3⟩ := rounds_drain hS h'
      have hs : Step ids w (.tick L) _ := .tick hL ht
      have := Path.head p1 hs ⟨fun _ => ⟨rfl, .inr hnet⟩, fun hr => absurd h.role hr⟩
      simp only [beats, if_pos (show (w.nodes L).role = .leader ∧ (w.nodes L).heartbeat ≤ 0 from ⟨h.role, hb⟩)] at this
      exact ⟨w', this, p2, p3⟩
    · cases k with
      | zero => omega
      | succ k =>
        have ht : tick (w.nodes L) 0 = .ok ({ w.nodes L with heartbeat := (w.nodes L).heartbeat - 1 }, []) := by
          unfold tick
          rw [if_pos h.role, tickHeartbeat, if_pos (by omega)]
        have h' := h.wait L ((w.nodes L).heartbeat - 1) (w.nodes L).election
        have hs : Step ids w (.tick L) _ := .tick hL ht
        obtain ⟨w', p1, p2, p3⟩ := beat_exists hS hL k (w := { w.set L { w.nodes L with heartbeat := (w.nodes L).heartbeat - 1 } with net := w.net ++ [] }) (by
          simp only [World.set, if_true]; omega) h' (by simp [hnet])
        have := Path.head p1 hs ⟨fun _ => ⟨rfl, .inr hnet⟩, fun hr => absurd h.role hr⟩
        rw [show beats w (.tick L) = 0 by simp only [beats]; rw [if_neg (by omega)], Nat.zero_add] at this
        exact ⟨w', this, p2, p3⟩

theorem beats_exist {L : Int} (hS : Setting ids P L t G) (hL : L ∈ ids) {fl : Int → Option (Int × Msg Op)} {w : World Op} (h : RInv P L t G b fl w) (hnet : w.net = []) :
    ∀ k : Nat, ∃ w', Path ids L w k w' ∧ w'.net = [] ∧ ∃ fl', RInv P L t G (b + k) fl' w'
  | 0 => ⟨w, .refl, hnet, fl, h⟩
  | k + 1 => by
    obtain ⟨w1, p1, p2, fl1, p3⟩ := beats_exist hS hL h hnet k
    obtain ⟨w2, q1, q2, fl2, q3⟩ := beat_exists hS hL _ (Nat.le_refl _) p3 p2
    exact ⟨w2, Path.trans p1 q1, q2, fl2, q3⟩

theorem submit_exists : ∀ (ops : List Op) (w : World Op), c ∈ ids → (w.nodes c).log.length + ops.length ≤ 10 → Numbered 0 (w.nodes c).log → ∃ w', Submit ids c w ops w' := by
  intro ops
  induction ops using List.reverseRecOn with
  | nil => intro w _ _ _; exact ⟨w, .nil⟩
  | append_singleton ops op ih =>
    intro w hc hcap hnum
    rw [List.length_append, List.length_singleton] at hcap
    obtain ⟨w', hs⟩ := ih w hc (by omega) hnum
    have hn : Numbered 0 (w'.nodes c).log ∧ (w'.nodes c).log.length = (w.nodes c).log.length + ops.length := by
      clear ih
      induction hs with
      | nil => exact ⟨hnum, by simp⟩
      | @snoc ops1 op1 w1 w2 _ hst ih1 =>
        rw [List.length_append, List.length_singleton] at hcap
        obtain ⟨i1, i2⟩ := ih1 (by omega)
        cases hst with
        | @replicate _ _ _ n hi hr =>
        have hlt : (w1.nodes c).log.length < logSize := by
          have : logSize = 10 := rfl
          omega
        have ha := append_numbered (e := ⟨op1, (w1.nodes c).term, lastIndex (w1.nodes c).log + 1⟩) i1 (by omega) (by simp only [lastIndex_zero i1]) hlt
        unfold Raft.replicate at hr
        cases hchk : chk (lastIndex (w1.nodes c).log + 1) with
        | error e => rw [hchk] at hr; cases hr
        | ok i =>
          have hi := chk_ok hchk
          subst hi
          rw [hchk] at hr
          cases hr
          simp only [World.set, if_true]
          refine ⟨ha.1, ?_⟩
          rw [ha.2, i2, List.length_append, List.length_singleton]
          omega
    have hr : ∃ n, Raft.replicate (w'.nodes c) op = .ok n := by
      unfold Raft.replicate
      rw [lastIndex_zero hn.1]
      have : chk (((w'.nodes c).log.length : Int) + 1) = .ok (((w'.nodes c).log.length : Int) + 1) := by
        unfold chk; rw [if_pos (by omega)]
      rw [this]
      exact ⟨_, rfl⟩
    obtain ⟨n, hr⟩ := hr
    exact ⟨_, .snoc hs (.replicate hc hr)⟩

/-- C117: such executions exist, for every cluster at rest, every list of operations that fits and every number of rounds: the hypotheses of `elected` and `progress` can be
met, and no step on the way is an error. -/
theorem progress_possible {w : World Op} (ops : List Op) (k : Nat) (h : Rest ids c w) (he : (w.nodes c).election ≤ 0) (ht : (w.nodes c).term < 2147483647)
    (hops : ops ≠ []) (hcap : (w.nodes c).log.length + ops.length ≤ 10) :
    ∃ w1 w2 w3 w4, Step ids w (.tick c) w1 ∧ Path ids c w1 0 w2 ∧ w2.net = [] ∧ Submit ids c w2 ops w3 ∧ Path ids c w3 k w4 ∧ w4.net = [] := by
  obtain ⟨f1, f2, f3⟩ := filter_nodup_ne h.nodup c
  have htick : ∃ n out, tick (w.nodes c) 0 = .ok (n, out) := by
    have := h.term0
    have hchk : chk ((w.nodes c).term + 1) = .ok ((w.nodes c).term + 1) := by
      unfold chk; rw [if_pos (by omega)]
    unfold tick
    rw [if_neg h.role, tickElection, if_neg (by omega), startElection, if_neg h.role, hchk]
    exact ⟨_, _, rfl⟩
  obtain ⟨n, out, htick⟩ := htick
  have h1 : Step ids w (.tick c) _ := .tick h.mem htick
  obtain ⟨w2, h2, hnet2⟩ := election_drains h he h1 .refl
  obtain ⟨fl, hv⟩ := start_vinv h he h1
  obtain ⟨fl', hv'⟩ := path_vinv f1 f2 (by have := h.few; omega) h.num h.sorted h.pos hv h2 rfl
  have hE := hv'.elected hnet2 (rest_others h) h.num h.pos
  obtain ⟨w3, h3⟩ := submit_exists (ids := ids) (c := c) ops w2 h.mem (by rw [hE.log]; exact hcap) (by rw [hE.log]; exact h.num)
  obtain ⟨G, hE', hlen, hmap, hlast⟩ := submit_elected (by have := h.term0; omega) f2 hcap hE h3
  have hcapG : G.length ≤ logSize := by rw [hlen]; exact hcap
  have hS := hE'.setting (ids := ids) hcapG f1 f2 (rest_others h) (others_ids h.mem) (hlast hops)
  obtain ⟨w4, p1, p2, _⟩ := beats_exist hS h.mem (hE'.rinv hcapG) hE'.net k
  exact ⟨_, w2, w3, w4, h1, h2, hnet2, h3, p1, p2⟩

/-- C117: a cluster that has just started is at rest, for each of its nodes. -/
theorem init_rest (hnd : ids.Nodup) (h2 : 2 ≤ ids.length) (hfew : ids.length < 2^30) (hc : c ∈ ids) : Rest ids c (World.init ids : World Op) where
  nodup := hnd
  mem := hc
  two := h2
  few := hfew
  net := rfl
  id := fun _ _ => rfl
  peers := by simp only [World.init, Node.init, List.map_map]; exact .of_eq (List.map_id _)
  role := by simp [World.init, Node.init]
  num := numbered_nil
  sorted := .nil
  pos := by simp [World.init, Node.init]
  term0 := Int.le_refl _
  log := fun _ _ => List.prefix_rfl
  term := fun _ _ => Int.le_refl _
  commit0 := fun _ _ => Int.le_refl _
  commit := fun _ _ => Int.le_refl _
  applied := fun _ _ => rfl

/-- Five nodes, the timer of the third has run out. -/
example : Rest [1, 2, 3, 4, 5] 3 ((World.init [1, 2, 3, 4, 5] : World Nat).set 3 { Node.init 3 [1, 2, 4, 5] with election := 0 }) := by
  have h := init_rest (Op := Nat) (ids := [1, 2, 3, 4, 5]) (c := 3) (by decide) (by decide) (by decide) (by decide)
  have hn : ∀ j, ∃ e : Int, ((World.init [1, 2, 3, 4, 5] : World Nat).set 3 { Node.init 3 [1, 2, 4, 5] with election := 0 }).nodes j =
      { (World.init [1, 2, 3, 4, 5] : World Nat).nodes j with election := e } := by
    intro j
    simp only [World.set]
    split
    · rename_i e; subst e; exact ⟨0, rfl⟩
    · exact ⟨_, rfl⟩
  obtain ⟨e3, h3⟩ := hn 3
  refine ⟨h.nodup, h.mem, h.two, h.few, rfl, ?_, by rw [h3]; exact h.peers, by rw [h3]; exact h.role, by rw [h3]; exact h.num, by rw [h3]; exact h.sorted, by rw [h3]; exact h.pos,
    by rw [h3]; exact h.term0, ?_, ?_, ?_, ?_, ?_⟩
  all_goals
    intro i hi
    obtain ⟨e, he⟩ := hn i
  · rw [he]; exact h.id i hi
  · rw [he, h3]; exact h.log i hi
  · rw [he, h3]; exact h.term i hi
  · rw [he]; exact h.commit0 i hi
  · rw [he]; exact h.commit i hi
  · rw [he]; exact h.applied i hi

end Verif.Raft
