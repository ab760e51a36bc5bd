import Verif.Raft.Agree

/-!
# Raft: what a node does with the messages of an undisturbed leader
-/

namespace Verif.Raft

open Spec

variable {Op : Type} {G : List (Entry Op)}

theorem takeWhile_numbered : ∀ {s : Int} {l : List (Entry Op)}, Numbered s l → ∀ x : Int,
    l.takeWhile (fun e => decide (e.index < x)) = l.take (x - s - 1).toNat ∧
    l.dropWhile (fun e => decide (e.index < x)) = l.drop (x - s - 1).toNat
  | s, [], _, x => by simp
  | s, e :: l, h, x => by
    obtain ⟨h1, h2⟩ := numbered_cons.mp h
    by_cases hx : e.index < x
    · rw [List.takeWhile_cons_of_pos (by simpa using hx), List.dropWhile_cons_of_pos (by simpa using hx), (takeWhile_numbered h2 x).1,
        (takeWhile_numbered h2 x).2, show (x - s - 1).toNat = (x - (s + 1) - 1).toNat + 1 by omega]
      simp
    · rw [List.takeWhile_cons_of_neg (by simpa using hx), List.dropWhile_cons_of_neg (by simpa using hx), show (x - s - 1).toNat = 0 by omega]
      simp

theorem lastTerm_take {k : Nat} (hk : k < G.length) : lastTerm (G.take (k + 1)) = G[k].term := by
  unfold lastTerm
  rw [List.take_succ_eq_append_getElem hk, List.getLast?_append]
  simp

theorem stepDown_same {n : Node Op} {m : Msg Op} (h : n.term = m.term) (r : Nat) : stepDown n r m = resetTimer n r := by
  simp [stepDown, resetTimer, h]

/-- The request a leader sends to a peer whose next index is `x`. -/
def request (t L : Int) (G : List (Entry Op)) (c x : Int) : Msg Op :=
  ⟨t, L, .appendRequest c (lastTerm (G.take (x - 1).toNat)) (x - 1).toNat (G.drop (x - 1).toNat)⟩

theorem heartbeat_request (hG : Numbered 0 G) (hc : G.length ≤ logSize) {n : Node Op} (hl : n.log = G) {q : Peer} {x : Int} (hx : q.nextIndex = some x)
    (h1 : x ≤ G.length + 1) : heartbeatMsg n q = .ok (q.id, request n.term n.id G n.commit x) := by
  unfold heartbeatMsg
  rw [hx]
  obtain ⟨e1, e2⟩ := takeWhile_numbered hG x
  rw [Int.sub_zero] at e1 e2
  simp only [hl, e1, e2]
  rw [if_neg (by rw [List.length_drop]; omega), lastIndex_zero (numbered_take hG _), List.length_take, Nat.min_eq_left (by omega)]
  rfl

theorem mapM_request (hG : Numbered 0 G) (hc : G.length ≤ logSize) {n : Node Op} (hl : n.log = G) (nx : Peer → Int) : ∀ {ps : List Peer},
    (∀ q ∈ ps, q.nextIndex = some (nx q) ∧ nx q ≤ G.length + 1) →
    ps.mapM (heartbeatMsg n) = .ok (ps.map fun q => (q.id, request n.term n.id G n.commit (nx q)))
  | [], _ => rfl
  | q :: ps, h => by
    obtain ⟨h1, h2⟩ := h q List.mem_cons_self
    rw [List.mapM_cons, heartbeat_request hG hc hl h1 h2, mapM_request hG hc hl nx fun p hp => h p (List.mem_cons_of_mem _ hp)]
    rfl

theorem findEntry_take (hG : Numbered 0 G) {F : List (Entry Op)} (hF : F <+: G) {k : Nat} (hk : k < G.length) :
    findEntry F (lastTerm (G.take (k + 1))) (k + 1 : Nat) = decide (k + 1 ≤ F.length) := by
  unfold findEntry
  by_cases h : k + 1 ≤ F.length
  · rw [decide_eq_true h, List.any_eq_true]
    refine ⟨F[k], List.getElem_mem _, ?_⟩
    have he : F[k] = G[k] := hF.getElem (by omega)
    have := hG k hk
    rw [he, lastTerm_take hk]
    simp
    omega
  · rw [decide_eq_false h, List.any_eq_false]
    intro e he
    have hFn : Numbered 0 F := by
      obtain ⟨u, hu⟩ := hF
      rw [← hu] at hG
      exact (numbered_append.mp hG).1
    have := numbered_mem hFn he
    have h2 : (e.index == ((k + 1 : Nat) : Int)) = false := by
      rw [beq_eq_false_iff_ne]; omega
    rw [h2]
    simp

/-- The log and the applied entries of a node whose log is a beginning of `G`. -/
structure Following (t : Int) (G : List (Entry Op)) (i : Int) (n : Node Op) : Prop where
  id : n.id = i
  role : n.role ≠ .leader
  term : n.term = t
  log : n.log <+: G
  commit0 : 0 ≤ n.commit
  commit : n.commit ≤ n.log.length
  applied : n.applied = n.log.take n.commit.toNat

/-- A request for which the log is too short is refused. -/
theorem append_refuse (hG : Numbered 0 G) (hpos : ∀ e ∈ G, 0 < e.term) {t L i c x : Int} {n : Node Op} (h : Following t G i n) (hx : x ≤ G.length + 1)
    (hs : (n.log.length : Int) < x - 1) (srt : List Peer → List Peer) (r : Nat) :
    process srt r n (request t L G c x) = .ok (resetTimer n r, some ⟨0, i, .appendReply false 0⟩) := by
  obtain ⟨k, hk⟩ : ∃ k : Nat, (x - 1).toNat = k + 1 := ⟨(x - 1).toNat - 1, by omega⟩
  have hkG : k < G.length := by omega
  have hf : findEntry n.log (lastTerm (G.take (k + 1))) (k + 1 : Nat) = false := by
    rw [findEntry_take hG h.log hkG, decide_eq_false]; omega
  have hp : 0 < lastTerm (G.take (k + 1)) := by rw [lastTerm_take hkG]; exact hpos _ (List.getElem_mem _)
  have hsd : stepDown n r (request t L G c x) = resetTimer n r :=
    stepDown_same h.term r
  unfold process
  simp only [request, hk]
  have : onAppend n r (⟨t, L, .appendRequest c (lastTerm (G.take (k + 1))) (k + 1 : Nat) (G.drop (k + 1))⟩ : Msg Op) c (lastTerm (G.take (k + 1)))
      (k + 1 : Nat) (G.drop (k + 1)) = .ok (resetTimer n r, ⟨0, i, .appendReply false 0⟩) := by
    unfold onAppend
    have hsd' : stepDown n r (⟨t, L, .appendRequest c (lastTerm (G.take (k + 1))) (k + 1 : Nat) (G.drop (k + 1))⟩ : Msg Op) = resetTimer n r := by
      rw [← hsd, request, hk]
    simp only [hsd']
    rw [if_neg (by have := h.term; simp only [resetTimer]; omega), if_pos ⟨by omega, hp, hf⟩]
    simp only [resetTimer, h.id]
  rw [this]
  rfl

theorem take_append_take (l : List (Entry Op)) (a b : Nat) (h : a ≤ b) : l.take a ++ (l.drop a).take (b - a) = l.take b := by
  rw [← List.take_append_drop a (l.take b), List.take_take, Nat.min_eq_left h, List.drop_take]

theorem commit_take {n : Node Op} {a b : Int} (hn : Numbered 0 n.log) (ha : 0 ≤ a) (hb : b ≤ n.log.length) :
    commitEntries n a b = .ok { n with applied := n.applied ++ (n.log.drop a.toNat).take (b - a).toNat } := by
  have hd := dropWhile_numbered hn a
  rw [Int.sub_zero] at hd
  unfold commitEntries
  simp only [hd]
  rw [if_neg (by rw [List.length_drop]; omega)]

theorem merge_all (hG : Numbered 0 G) (hc : G.length ≤ logSize) {F : List (Entry Op)} (hF : F <+: G) {k : Nat} (hk : k ≤ F.length) :
    merge F (G.drop k) = G := by
  have h1 := (merge_prefix hG hc hF (List.prefix_rfl (l := G.drop k)) hk).1
  have hFn : Numbered 0 F := by
    obtain ⟨u, hu⟩ := hF
    rw [← hu] at hG
    exact (numbered_append.mp hG).1
  have hkG : k ≤ G.length := Nat.le_trans hk hF.length_le
  have hrem : (removeConflicting F (G.drop k)).length ≤ F.length := removeConflicting_prefix.length_le
  have hnum : Numbered 0 (removeConflicting F (G.drop k)) := by
    obtain ⟨t, ht⟩ := removeConflicting_prefix (l := F) (new := G.drop k)
    rw [← ht] at hFn
    exact (numbered_append.mp hFn).1
  have hnd : Numbered k (G.drop k) := by
    have := numbered_drop hG hkG
    rwa [Int.zero_add] at this
  have hle := hF.length_le
  obtain ⟨_, h2, _⟩ := merge_fold hnum (by omega) hnd (removeConflicting_length hFn hnd hk) (by rw [List.length_drop]; omega)
  have h3 : (merge F (G.drop k)).length = max (removeConflicting F (G.drop k)).length (k + (G.drop k).length) := h2
  rw [List.length_drop] at h3
  exact h1.eq_of_length (by omega)

/-- A request for which the log is long enough leaves the log equal to the leader's, and what the leader had committed is applied. -/
theorem append_take (hG : Numbered 0 G) (hcap : G.length ≤ logSize) {t L i c x : Int} {n : Node Op} (h : Following t G i n) (hx : x ≤ G.length + 1)
    (hs : x - 1 ≤ (n.log.length : Int)) (hc : c ≤ G.length) (srt : List Peer → List Peer) (r : Nat) :
    ∃ n', process srt r n (request t L G c x) = .ok (n', some ⟨0, i, .appendReply true G.length⟩) ∧ Following t G i n' ∧ n'.log = G ∧
      n'.commit = max n.commit c ∧ n'.peers = n.peers := by
  have hFG := h.log.length_le
  have hcm := h.commit
  have hc0 := h.commit0
  have hkl : (x - 1).toNat ≤ n.log.length := by omega
  have hmerge := merge_all hG hcap h.log hkl
  have hsd : stepDown n r (request t L G c x) = resetTimer n r :=
    stepDown_same h.term r
  have hcond : ¬ (((x - 1).toNat : Int) > 0 ∧ lastTerm (G.take (x - 1).toNat) > 0 ∧
      findEntry (resetTimer n r).log (lastTerm (G.take (x - 1).toNat)) (x - 1).toNat = false) := by
    rintro ⟨h1, _, h3⟩
    obtain ⟨k, hk⟩ : ∃ k : Nat, (x - 1).toNat = k + 1 := ⟨(x - 1).toNat - 1, by omega⟩
    rw [hk, show (resetTimer n r).log = n.log from rfl, findEntry_take hG h.log (by omega)] at h3
    simp only [decide_eq_false_iff_not] at h3
    omega
  have hacc : ∃ n', accept (resetTimer n r) c (G.drop (x - 1).toNat) = .ok n' ∧ Following t G i n' ∧ n'.log = G ∧ n'.commit = max n.commit c ∧ n'.peers = n.peers := by
    unfold accept
    rw [if_neg (by rw [List.length_drop]; omega)]
    simp only [show (resetTimer n r).log = n.log from rfl, hmerge, show (resetTimer n r).commit = n.commit from rfl]
    have happ : n.applied = G.take n.commit.toNat := by
      rw [h.applied, List.prefix_iff_eq_take.mp h.log, List.take_take]
      congr 1
      omega
    by_cases hcc : c > n.commit
    · rw [if_pos hcc, lastIndex_zero hG, Int.min_eq_left hc]
      simp only [bind, Except.bind]
      rw [commit_take]
      rotate_left
      · exact hG
      · exact hc0
      · exact hc
      refine ⟨_, rfl, ⟨h.id, h.role, h.term, List.prefix_rfl, by simp only; omega, hc, ?_⟩, rfl, by simp only; omega, rfl⟩
      simp only [resetTimer]
      rw [happ, show (c - n.commit).toNat = c.toNat - n.commit.toNat by omega, take_append_take _ _ _ (by omega)]
    · rw [if_neg hcc]
      refine ⟨_, rfl, ⟨h.id, h.role, h.term, List.prefix_rfl, hc0, ?_, happ⟩, rfl, by simp only [resetTimer]; omega, rfl⟩
      simp only [resetTimer]
      omega
  obtain ⟨n', a1, a2, a3, a4, a5⟩ := hacc
  refine ⟨n', ?_, a2, a3, a4, a5⟩
  have : onAppend n r (request t L G c x) c (lastTerm (G.take (x - 1).toNat)) (x - 1).toNat (G.drop (x - 1).toNat) =
      .ok (n', ⟨0, i, .appendReply true G.length⟩) := by
    unfold onAppend
    simp only [hsd]
    rw [if_neg (by have := h.term; simp only [resetTimer, request]; omega), if_neg hcond]
    simp only [a1, bind, Except.bind, pure, Except.pure, a3, a2.id, lastIndex_zero hG]
  unfold process
  show (onAppend n r (request t L G c x) c (lastTerm (G.take (x - 1).toNat)) (x - 1).toNat (G.drop (x - 1).toNat) >>= fun x => pure (x.1, some x.2)) = _
  rw [this]
  rfl

/-! ## Replies at the leader -/

/-- What a positive reply changes about the peer. -/
def matched (p last : Int) (q : Peer) : Peer := if q.id = p then { q with matchIndex := last, nextIndex := some (last + 1) } else q

def backed (p : Int) (q : Peer) : Peer := if q.id = p then { q with nextIndex := q.nextIndex.map (· - 1) } else q

theorem mapM_backed {p : Int} : ∀ {ps : List Peer}, (∀ q ∈ ps, ∃ x : Int, q.nextIndex = some x ∧ 0 ≤ x ∧ x ≤ 11) →
    (ps.mapM fun q => if q.id = p then decNext q else pure q : Except Err _) = .ok (ps.map (backed p))
  | [], _ => rfl
  | q :: ps, h => by
    obtain ⟨x, h1, h2, h3⟩ := h q List.mem_cons_self
    have hq : (if q.id = p then decNext q else pure q : Except Err _) = .ok (backed p q) := by
      unfold backed
      split
      · unfold decNext
        rw [h1]
        simp only [chk, bind, Except.bind]
        rw [if_pos (by omega)]
        rfl
      · rfl
    rw [List.mapM_cons, hq, mapM_backed fun r hr => h r (List.mem_cons_of_mem _ hr)]
    rfl

theorem reply_refused {srt : List Peer → List Peer} {n : Node Op} (r : Nat) (p : Int)
    (h : ∀ q ∈ n.peers, ∃ x : Int, q.nextIndex = some x ∧ 0 ≤ x ∧ x ≤ 11) :
    process srt r n ⟨0, p, .appendReply false 0⟩ = .ok ({ n with peers := n.peers.map (backed p) }, none) := by
  unfold process onAppendReply
  simp only [Bool.false_eq_true, if_false]
  show ((do let ps ← (n.peers.mapM fun q => if q.id = p then decNext q else pure q : Except Err _); pure { n with peers := ps } : Except Err (Node Op)) >>= fun n => pure (n, none)) = _
  rw [mapM_backed h]
  rfl

theorem reply_taken {srt : List Peer → List Peer} (hs : ∀ l, (srt l).Perm l) (hG : Numbered 0 G) (hcap : G.length ≤ logSize) {n : Node Op} (hl : n.log = G)
    (r : Nat) (p : Int) (hne : n.peers ≠ []) (hc0 : 0 ≤ n.commit) (hc : n.commit ≤ G.length) :
    ∃ new, process srt r n ⟨0, p, .appendReply true G.length⟩ = .ok ({ n with
        peers := srt (n.peers.map (matched p G.length)), commit := new,
        applied := n.applied ++ (G.drop n.commit.toNat).take (new - n.commit).toNat }, none) ∧ 0 ≤ new ∧ new ≤ G.length ∧
      ((∀ q ∈ n.peers.map (matched p G.length), q.matchIndex = 0 ∨ q.matchIndex = G.length) → n.commit ≤ new) ∧
      ((∀ q ∈ n.peers.map (matched p G.length), q.matchIndex = G.length) → (∃ e ∈ G, e.index = G.length ∧ e.term = n.term) → new = G.length) := by
  have hcap' : G.length ≤ 10 := hcap
  have hne' : n.peers.map (matched p G.length) ≠ [] := by simpa using hne
  have hfs : ∃ new, findSafe srt { n with peers := n.peers.map (matched p G.length) } = .ok (srt (n.peers.map (matched p G.length)), new) ∧ 0 ≤ new ∧ new ≤ G.length ∧
      ((∀ q ∈ n.peers.map (matched p G.length), q.matchIndex = 0 ∨ q.matchIndex = G.length) → n.commit ≤ new) ∧
      ((∀ q ∈ n.peers.map (matched p G.length), q.matchIndex = G.length) → (∃ e ∈ G, e.index = G.length ∧ e.term = n.term) → new = G.length) := by
    generalize n.peers.map (matched p G.length) = ps at hne'
    unfold findSafe
    simp only
    have hlen : 0 < (srt ps).length := by
      rw [(hs _).length_eq]; exact List.length_pos_iff.mpr hne'
    rw [List.getElem?_eq_getElem (by omega)]
    have hmem : (srt ps)[max ((srt ps).length / 2 - 1) 0]'(by omega) ∈ ps := (hs ps).mem_iff.mp (List.getElem_mem _)
    generalize (srt ps)[max ((srt ps).length / 2 - 1) 0]'(by omega) = q at hmem
    simp only
    split
    · rename_i h
      obtain ⟨e, he, hh⟩ := List.any_eq_true.mp h
      simp only [Bool.and_eq_true, beq_iff_eq] at hh
      rw [hl] at he
      have := numbered_mem hG he
      refine ⟨_, rfl, by omega, by omega, fun hall => ?_, fun hall _ => hall q hmem⟩
      have := hall q hmem
      omega
    · rename_i h
      refine ⟨_, rfl, hc0, hc, fun _ => Int.le_refl _, ?_⟩
      rintro hall ⟨e, he, h1, h2⟩
      refine absurd (List.any_eq_true.mpr ⟨e, by rw [hl]; exact he, ?_⟩) h
      simp only [Bool.and_eq_true, beq_iff_eq]
      exact ⟨by rw [h1, hall q hmem], h2⟩
  obtain ⟨new, f1, f2, f3, f4⟩ := hfs
  refine ⟨new, ?_, f2, f3, f4⟩
  have hchk : chk ((G.length : Int) + 1) = .ok ((G.length : Int) + 1) := by
    unfold chk; rw [if_pos (by omega)]
  have hcomm := commit_take (n := { n with peers := srt (n.peers.map (matched p G.length)) }) (a := n.commit) (b := new) (by rw [hl]; exact hG) hc0
    (by rw [hl]; exact f3)
  have : onAppendReply srt n (⟨0, p, .appendReply true G.length⟩ : Msg Op) true G.length = .ok { n with
      peers := srt (n.peers.map (matched p G.length)), commit := new,
      applied := n.applied ++ (G.drop n.commit.toNat).take (new - n.commit).toNat } := by
    unfold onAppendReply
    rw [if_pos rfl, hchk]
    show (findSafe srt { n with peers := n.peers.map (matched p G.length) } >>= fun x =>
      commitEntries { n with peers := x.1 } n.commit x.2 >>= fun n' => pure { n' with commit := x.2 }) = _
    rw [f1]
    show (commitEntries { n with peers := srt (n.peers.map (matched p G.length)) } n.commit new >>= fun n' => pure { n' with commit := new }) = _
    rw [hcomm]
    simp only [bind, Except.bind, pure, Except.pure, hl]
  show (onAppendReply srt n (⟨0, p, .appendReply true G.length⟩ : Msg Op) true G.length >>= fun n => pure (n, none)) = _
  rw [this]
  rfl

end Verif.Raft
