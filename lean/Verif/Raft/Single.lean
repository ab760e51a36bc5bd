import Verif.Raft.Spec

/-!
# Raft: one node against arbitrary messages
-/

namespace Verif.Raft

open Spec

variable {Op : Type}

theorem chk_ok {x y : Int} (h : chk x = .ok y) : y = x := by
  unfold chk at h; split at h <;> simp_all

/-- What `commitEntries` changes. -/
theorem commitEntries_ok {n n' : Node Op} {a b : Int} (h : commitEntries n a b = .ok n') :
    n' = { n with applied := n.applied ++ (n.log.dropWhile fun e => decide (e.index ≤ a)).take (b - a).toNat } ∧
    (b - a).toNat ≤ (n.log.dropWhile fun e => decide (e.index ≤ a)).length := by
  unfold commitEntries at h
  simp only at h
  split at h
  · cases h
  · rename_i hl
    cases h
    exact ⟨rfl, by omega⟩

/-- The part of a node that matters for elections. -/
def elect (n : Node Op) : Int × Int × Role × Int × Option Int := (n.id, n.term, n.role, n.votedFor, n.voteCount)

theorem accept_elect {n n' : Node Op} {lc : Int} {es : List (Entry Op)} (h : accept n lc es = .ok n') : elect n' = elect n := by
  unfold accept at h
  split at h
  · cases h
  · simp only at h
    split at h
    · simp only [bind, Except.bind] at h
      split at h
      · cases h
      · rename_i x hx
        cases h
        rw [(commitEntries_ok hx).1]; rfl
    · cases h; rfl

theorem onAppendReply_elect {srt : List Peer → List Peer} {n n' : Node Op} {m : Msg Op} {s : Bool} {l : Int}
    (h : onAppendReply srt n m s l = .ok n') : elect n' = elect n := by
  unfold onAppendReply at h
  split at h
  · simp only [bind, Except.bind] at h
    split at h
    · cases h
    · split at h
      · cases h
      · split at h
        · cases h
        · rename_i hx
          cases h
          rw [(commitEntries_ok hx).1]; rfl
  · simp only [bind, Except.bind] at h
    split at h
    · cases h
    · cases h; rfl

theorem tick_elect {n n' : Node Op} {r : Nat} {out} (h : tick n r = .ok (n', out)) :
    elect n' = elect n ∨
      (n.role ≠ .leader ∧ n'.id = n.id ∧ n'.term = n.term + 1 ∧ n'.role = .candidate ∧ n'.votedFor = n.id ∧ n'.voteCount = some 0) := by
  unfold tick at h
  split at h
  · unfold tickHeartbeat at h
    split at h
    · cases h; exact .inl rfl
    · simp only [bind, Except.bind] at h
      split at h
      · cases h
      · cases h; exact .inl rfl
  · unfold tickElection at h
    split at h
    · cases h; exact .inl rfl
    · rename_i hr _
      unfold startElection at h
      rw [if_neg hr] at h
      simp only [bind, Except.bind] at h
      split at h
      · cases h
      · rename_i x hx
        split at hx
        · cases hx
        · rename_i t ht
          have := chk_ok ht
          cases hx; cases h
          exact .inr ⟨hr, rfl, this, rfl, rfl, rfl⟩

theorem startElection_elect {n n' : Node Op} {out} (h : startElection n = .ok (n', out)) :
    elect n' = elect n ∨
      (n.role ≠ .leader ∧ n'.id = n.id ∧ n'.term = n.term + 1 ∧ n'.role = .candidate ∧ n'.votedFor = n.id ∧ n'.voteCount = some 0) := by
  unfold startElection at h
  split at h
  · cases h; exact .inl rfl
  · rename_i hr
    simp only [bind, Except.bind] at h
    split at h
    · cases h
    · rename_i t ht
      have := chk_ok ht
      cases h
      exact .inr ⟨hr, rfl, this, rfl, rfl, rfl⟩

theorem stepDown_elect (n : Node Op) (r : Nat) (m : Msg Op) : (stepDown n r m).id = n.id ∧ (stepDown n r m).votedFor = n.votedFor ∧
    (stepDown n r m).voteCount = n.voteCount ∧
    ((m.term ≤ n.term ∧ (stepDown n r m).term = n.term ∧ (stepDown n r m).role = n.role) ∨
      (n.term < m.term ∧ (stepDown n r m).term = m.term ∧ (stepDown n r m).role = .follower)) := by
  by_cases h : m.term > n.term
  · have e : stepDown n r m = { resetTimer n r with role := .follower, term := m.term } := if_pos h
    rw [e]
    exact ⟨rfl, rfl, rfl, .inr ⟨h, rfl, rfl⟩⟩
  · have e : stepDown n r m = resetTimer n r := if_neg h
    rw [e]
    exact ⟨rfl, rfl, rfl, .inl ⟨by omega, rfl, rfl⟩⟩

theorem stepDown_peers (n : Node Op) (r : Nat) (m : Msg Op) : (stepDown n r m).peers = n.peers := by
  by_cases h : m.term > n.term
  · have e : stepDown n r m = { resetTimer n r with role := .follower, term := m.term } := if_pos h
    rw [e]; rfl
  · have e : stepDown n r m = resetTimer n r := if_neg h
    rw [e]; rfl

/-- The cases of `process` for elections. -/
theorem process_elect {srt : List Peer → List Peer} {r : Nat} {n n' : Node Op} {m : Msg Op} {rep} (h : process srt r n m = .ok (n', rep)) :
    n'.id = n.id ∧
    match m.body with
    | .voteRequest lli llt =>
      (rep = some ⟨m.term, n.id, .voteReply true⟩ ∧ n' = { n with term := m.term, votedFor := m.fromId, role := .follower } ∧
        ((n.term < m.term ∧ lastIndex n.log ≤ lli ∧ lastTerm n.log ≤ llt) ∨ (m.term = n.term ∧ m.fromId = n.votedFor))) ∨
      (rep = some ⟨m.term, n.id, .voteReply false⟩ ∧ n' = n ∧
        ¬((n.term < m.term ∧ lastIndex n.log ≤ lli ∧ lastTerm n.log ≤ llt) ∨ (m.term = n.term ∧ m.fromId = n.votedFor)))
    | .voteReply g => rep = none ∧ (n' = n ∨
        (n.role = .candidate ∧ g = true ∧ ∃ v, n.voteCount = some v ∧ n'.term = n.term ∧ n'.votedFor = n.votedFor ∧ n'.voteCount = some (v + 1) ∧ n'.log = n.log ∧
          ((2 * (v + 1) ≥ n.peers.length ∧ n'.role = .leader) ∨ (2 * (v + 1) < n.peers.length ∧ n'.role = .candidate ∧ n'.peers = n.peers))) ∨
        (n.role = .candidate ∧ g = false ∧ n.term < m.term ∧ n'.term = m.term ∧ n'.role = .follower ∧ n'.votedFor = 0 ∧ n'.log = n.log))
    | .appendRequest _ _ _ _ => (∃ s l, rep = some ⟨0, n.id, .appendReply s l⟩) ∧ n'.votedFor = n.votedFor ∧ n'.voteCount = n.voteCount ∧
        ((m.term ≤ n.term ∧ n'.term = n.term ∧ n'.role = n.role) ∨ (n.term < m.term ∧ n'.term = m.term ∧ n'.role = .follower))
    | .appendReply _ _ => rep = none ∧ elect n' = elect n := by
  obtain ⟨t, f, b⟩ := m
  cases b with
  | voteRequest lli llt =>
    simp only [process, onVoteRequest] at h
    split at h
    · rename_i hc
      cases h
      exact ⟨rfl, .inl ⟨rfl, rfl, hc⟩⟩
    · rename_i hc
      cases h
      exact ⟨rfl, .inr ⟨rfl, rfl, hc⟩⟩
  | voteReply g =>
    simp only [process, onVoteReply, bind, Except.bind] at h
    split at h
    · cases h
    · rename_i x hx
      cases h
      split at hx
      · cases hx; exact ⟨rfl, rfl, .inl rfl⟩
      · rename_i hr
        have hr : n.role = .candidate := by simpa using hr
        split at hx
        · rename_i hg
          split at hx
          · cases hx
          · rename_i v hv
            split at hx
            · cases hx
            · rename_i v1 hv1
              split at hx
              · cases hx
              · rename_i v2 hv2
                have e1 := chk_ok hv1
                have e2 := chk_ok hv2
                simp only [pure, Except.pure] at hx
                cases hx
                split
                · rename_i hm
                  refine ⟨rfl, rfl, .inr (.inl ⟨hr, hg, v, hv, rfl, rfl, by rw [← e1]; rfl, rfl, .inl ⟨by omega, rfl⟩⟩)⟩
                · rename_i hm
                  refine ⟨rfl, rfl, .inr (.inl ⟨hr, hg, v, hv, rfl, rfl, by rw [← e1], rfl, .inr ⟨by omega, hr, rfl⟩⟩)⟩
        · rename_i hg
          split at hx
          · rename_i ht
            cases hx
            exact ⟨rfl, rfl, .inr (.inr ⟨hr, by simpa using hg, ht, rfl, rfl, rfl, rfl⟩)⟩
          · cases hx; exact ⟨rfl, rfl, .inl rfl⟩
  | appendRequest lc pt pi es =>
    simp only [process, bind, Except.bind] at h
    split at h
    · cases h
    · rename_i x hx
      cases h
      have hd := stepDown_elect n r ⟨t, f, .appendRequest lc pt pi es⟩
      simp only at hd ⊢
      simp only [onAppend] at hx
      generalize stepDown n r ⟨t, f, .appendRequest lc pt pi es⟩ = n1 at hd hx
      split at hx
      · cases hx
        exact ⟨hd.1, ⟨_, _, by rw [← hd.1]⟩, hd.2.1, hd.2.2.1, hd.2.2.2⟩
      · split at hx
        · cases hx
          exact ⟨hd.1, ⟨_, _, by rw [← hd.1]⟩, hd.2.1, hd.2.2.1, hd.2.2.2⟩
        · simp only [bind, Except.bind] at hx
          split at hx
          · cases hx
          · rename_i y hy
            have hy := accept_elect hy
            simp only [elect, Prod.mk.injEq] at hy
            simp only [pure, Except.pure] at hx
            cases hx
            simp only [hy]
            exact ⟨hd.1, ⟨_, _, by rw [← hd.1]⟩, hd.2.1, hd.2.2.1, hd.2.2.2⟩
  | appendReply s l =>
    simp only [process, bind, Except.bind] at h
    split at h
    · cases h
    · rename_i x hx
      cases h
      have := onAppendReply_elect hx
      exact ⟨congrArg (·.1) this, rfl, this⟩

/-- What a step does to term, vote and role, for any input. -/
theorem next_votes {n n' : Node Op} {i : Input Op} {rep} (h : next n i = .ok (n', rep)) :
    n'.id = n.id ∧ n.term ≤ n'.term ∧ (n'.term = n.term → votes n n' i rep ≠ [] → n'.votedFor = n.votedFor) ∧
    (n'.term = n.term → n'.votedFor = n.votedFor) ∧
    ∀ t c, (t, c) ∈ votes n n' i rep → t = n'.term ∧ c = n'.votedFor := by
  have key : ∀ {n n' : Node Op}, elect n' = elect n → n'.id = n.id ∧ n.term ≤ n'.term ∧ (n'.term = n.term → n'.votedFor = n.votedFor) ∧
      ¬(n'.role = .candidate ∧ n'.term ≠ n.term) := by
    intro n n' h
    simp only [elect, Prod.mk.injEq] at h
    obtain ⟨h1, h2, h3, h4, _⟩ := h
    exact ⟨h1, by omega, fun _ => h4, fun h => h.2 h2⟩
  suffices hs : n'.id = n.id ∧ n.term ≤ n'.term ∧ (n'.term = n.term → n'.votedFor = n.votedFor) ∧
      ∀ t c, (t, c) ∈ votes n n' i rep → t = n'.term ∧ c = n'.votedFor from ⟨hs.1, hs.2.1, fun h _ => hs.2.2.1 h, hs.2.2⟩
  have el : (elect n' = elect n ∨ (n.role ≠ .leader ∧ n'.id = n.id ∧ n'.term = n.term + 1 ∧ n'.role = .candidate ∧ n'.votedFor = n.id ∧
      n'.voteCount = some 0)) → (∀ s r m, i ≠ .recv s r m) → n'.id = n.id ∧ n.term ≤ n'.term ∧ (n'.term = n.term → n'.votedFor = n.votedFor) ∧
      ∀ t c, (t, c) ∈ votes n n' i rep → t = n'.term ∧ c = n'.votedFor := by
    intro h hi
    have hv : votes n n' i rep = if n'.role = .candidate ∧ n'.term ≠ n.term then [(n'.term, n'.id)] else [] := by
      cases i <;> first | rfl | exact absurd rfl (hi _ _ _)
    rw [hv]
    rcases h with h | ⟨_, h1, h2, h3, h4, _⟩
    · obtain ⟨h1, h2, h3, h4⟩ := key h
      refine ⟨h1, h2, h3, ?_⟩
      intro t c hm
      rw [if_neg h4] at hm
      cases hm
    · refine ⟨h1, by omega, by omega, ?_⟩
      intro t c hm
      rw [if_pos ⟨h3, by omega⟩] at hm
      simp only [List.mem_singleton, Prod.mk.injEq] at hm
      exact ⟨hm.1, by rw [hm.2, h1, h4]⟩
  cases i with
  | tick r =>
    simp only [next] at h
    cases ht : tick n r with
    | error e => rw [ht] at h; cases h
    | ok x =>
      rw [ht] at h
      cases h
      exact el (tick_elect ht) (by intro _ _ _ h; cases h)
  | election =>
    simp only [next] at h
    cases ht : startElection n with
    | error e => rw [ht] at h; cases h
    | ok x =>
      rw [ht] at h
      cases h
      exact el (startElection_elect ht) (by intro _ _ _ h; cases h)
  | replicate op =>
    simp only [next, replicate, bind, Except.bind] at h
    split at h
    · rename_i x heq; rw [heq] at *; cases h
    · refine el (.inl ?_) (by intro _ _ _ h; cases h)
      simp only [pure, Except.pure, Except.map] at h
      cases h; rfl
  | recv srt r m =>
    simp only [next] at h
    have hp := process_elect h
    refine ⟨hp.1, ?_⟩
    obtain ⟨t, f, b⟩ := m
    cases b with
    | voteRequest lli llt =>
      rcases hp.2 with ⟨rfl, rfl, hc⟩ | ⟨rfl, rfl, hc⟩
      · refine ⟨by simp only at hc ⊢; omega, ?_, ?_⟩
        · intro he
          simp only at he hc ⊢
          omega
        · intro t' c' hm
          simp only [votes] at hm
          simpa using hm
      · refine ⟨Int.le_refl _, fun _ => rfl, ?_⟩
        intro t' c' hm
        simp [votes] at hm
    | voteReply g =>
      obtain ⟨rfl, hc⟩ := hp.2
      rcases hc with rfl | ⟨_, _, v, _, h1, h2, _⟩ | ⟨_, _, h1, h2, h3, h4⟩
      · exact ⟨Int.le_refl _, fun _ => rfl, by intro t' c' hm; simp [votes] at hm⟩
      · exact ⟨by omega, fun _ => h2, by intro t' c' hm; simp [votes, h1] at hm⟩
      · exact ⟨by simp only at h1 h2; omega, fun h => by simp only at h1 h2; omega, by intro t' c' hm; simp [votes, h3] at hm⟩
    | appendRequest lc pt pi es =>
      obtain ⟨⟨s, l, rfl⟩, h1, _, hc⟩ := hp.2
      refine ⟨by simp only at hc; omega, fun _ => h1, ?_⟩
      intro t' c' hm
      rcases hc with ⟨_, h2, _⟩ | ⟨_, _, h3⟩
      · simp [votes, h2] at hm
      · simp [votes, h3] at hm
    | appendReply s l =>
      obtain ⟨rfl, hc⟩ := hp.2
      obtain ⟨h1, h2, h3, h4⟩ := key hc
      refine ⟨h2, h3, ?_⟩
      intro t' c' hm
      simp only [votes, if_neg h4] at hm
      cases hm

theorem votes_inv {n0 n : Node Op} {vs : List (Int × Int)} (h : Exec n0 vs n) :
    n.id = n0.id ∧ n0.term ≤ n.term ∧ (∀ t c, (t, c) ∈ vs → n0.term ≤ t ∧ t ≤ n.term ∧ (t = n.term → c = n.votedFor)) ∧
    ∀ t c c', (t, c) ∈ vs → (t, c') ∈ vs → c = c' := by
  induction h with
  | refl => exact ⟨rfl, Int.le_refl _, by intro _ _ h; (cases h), by intro _ _ _ h; cases h⟩
  | step _ hn ih =>
    rename_i vs n n' i rep _
    obtain ⟨i1, i2, i3, i4⟩ := ih
    obtain ⟨h1, h2, _, h4, h5⟩ := next_votes hn
    refine ⟨by rw [h1, i1], by omega, ?_, ?_⟩
    · intro t c hm
      rcases List.mem_append.mp hm with hm | hm
      · obtain ⟨j1, j2, j3⟩ := i3 t c hm
        refine ⟨j1, by omega, ?_⟩
        intro he
        rw [h4 (by omega)]
        exact j3 (by omega)
      · obtain ⟨j1, j2⟩ := h5 t c hm
        exact ⟨by omega, by omega, fun _ => j2⟩
    · intro t c c' hm hm'
      rcases List.mem_append.mp hm with hm | hm <;> rcases List.mem_append.mp hm' with hm' | hm'
      · exact i4 t c c' hm hm'
      · obtain ⟨j1, j2, j3⟩ := i3 t c hm
        obtain ⟨k1, k2⟩ := h5 t c' hm'
        rw [k2, h4 (by omega)]
        exact j3 (by omega)
      · obtain ⟨j1, j2, j3⟩ := i3 t c' hm'
        obtain ⟨k1, k2⟩ := h5 t c hm
        rw [k2, h4 (by omega)]
        exact (j3 (by omega)).symm
      · rw [(h5 t c hm).2, (h5 t c' hm').2]

end Verif.Raft
