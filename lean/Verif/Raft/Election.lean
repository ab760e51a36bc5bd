import Verif.Raft.Cluster
import Mathlib.Data.List.Perm.Subperm
import Mathlib.Data.List.Nodup

/-!
# Raft: elections in a cluster
-/

namespace Verif.Raft

open Spec

variable {Op : Type} {ids : List Int}

/-- Vote request or granted reply that candidate `c` may still count for `v` in term `t`. -/
def tok (c t v : Int) (x : Int × Msg Op) : Bool :=
  match x.2.body with
  | .voteRequest _ _ => x.1 == v && x.2.fromId == c && x.2.term == t
  | .voteReply true => x.1 == c && x.2.fromId == v && x.2.term == t
  | _ => false

/-- Invariant of elections. `votes` are all votes (voter, term, candidate) ever given, `counted` those counted by their candidate. -/
structure EInv (ids : List Int) (w : World Op) (votes counted : List (Int × Int × Int)) : Prop where
  id : ∀ i ∈ ids, (w.nodes i).id = i
  peers : ∀ i ∈ ids, ((w.nodes i).peers.map (·.id)).Perm (ids.filter (· ≠ i))
  ends : ∀ x ∈ w.net, x.1 ∈ ids ∧ x.2.fromId ∈ ids ∧ x.2.fromId ≠ x.1
  bound : ∀ v t c, (v, t, c) ∈ votes → t ≤ (w.nodes v).term ∧ (t = (w.nodes v).term → c = (w.nodes v).votedFor)
  once : ∀ v t c c', (v, t, c) ∈ votes → (v, t, c') ∈ votes → c = c'
  single : ∀ c t v, w.net.countP (tok c t v) + counted.count (v, t, c) ≤ 1
  future : ∀ c ∈ ids, ∀ t v, (w.nodes c).term < t → w.net.countP (tok c t v) + counted.count (v, t, c) = 0
  granted : ∀ d t v, (d, ⟨t, v, .voteReply true⟩) ∈ w.net → (v, t, d) ∈ votes
  sub : ∀ x ∈ counted, x ∈ votes
  other : ∀ v t c, (v, t, c) ∈ counted → v ∈ ids ∧ v ≠ c
  cand : ∀ i ∈ ids, (w.nodes i).role = .candidate → (i, (w.nodes i).term, i) ∈ votes ∧
    (w.nodes i).voteCount = some ((counted.countP fun x => decide (x.2 = ((w.nodes i).term, i)) : Nat) : Int)
  lead : ∀ i ∈ ids, (w.nodes i).role = .leader → (i, (w.nodes i).term, i) ∈ votes ∧
    (w.nodes i).peers.length ≤ 2 * counted.countP fun x => decide (x.2 = ((w.nodes i).term, i))

theorem heartbeat_out {n : Node Op} : ∀ {ps : List Peer} {ms}, ps.mapM (heartbeatMsg n) = .ok ms →
    ∀ x ∈ ms, x.1 ∈ ps.map (·.id) ∧ x.2.fromId = n.id ∧ ∃ a b c d, x.2.body = .appendRequest a b c d
  | [], ms, h => by
    cases h; simp
  | p :: ps, ms, h => by
    rw [List.mapM_cons] at h
    simp only [bind, Except.bind] at h
    split at h
    · cases h
    · rename_i y hy
      split at h
      · cases h
      · rename_i ys hys
        cases h
        intro x hx
        rcases List.mem_cons.mp hx with rfl | hx
        · unfold heartbeatMsg at hy
          split at hy
          · cases hy
          · simp only at hy
            split at hy
            · cases hy
            · cases hy
              exact ⟨by simp, rfl, _, _, _, _, rfl⟩
        · have := heartbeat_out hys x hx
          exact ⟨List.mem_cons_of_mem _ this.1, this.2⟩

/-- The messages of a tick. -/
theorem tick_out {n n' : Node Op} {r : Nat} {out} (h : tick n r = .ok (n', out)) :
    n'.peers = n.peers ∧
    ((elect n' = elect n ∧ ∀ x ∈ out, x.1 ∈ n.peers.map (·.id) ∧ x.2.fromId = n.id ∧ ∃ a b c d, x.2.body = .appendRequest a b c d) ∨
      (n'.id = n.id ∧ n'.term = n.term + 1 ∧ n'.role = .candidate ∧ n'.votedFor = n.id ∧ n'.voteCount = some 0 ∧
        ∃ a b, out = n.peers.map fun p => (p.id, ⟨n.term + 1, n.id, .voteRequest a b⟩))) := by
  unfold tick at h
  split at h
  · unfold tickHeartbeat at h
    split at h
    · cases h; exact ⟨rfl, .inl ⟨rfl, by simp⟩⟩
    · simp only [bind, Except.bind] at h
      split at h
      · cases h
      · rename_i ms hms
        cases h; exact ⟨rfl, .inl ⟨rfl, heartbeat_out hms⟩⟩
  · unfold tickElection at h
    split at h
    · cases h; exact ⟨rfl, .inl ⟨rfl, by simp⟩⟩
    · rename_i hr _
      unfold startElection at h
      rw [if_neg hr] at h
      simp only [bind, Except.bind] at h
      split at h
      · cases h
      · rename_i x hx
        split at hx
        · cases hx
        · rename_i t ht
          have := chk_ok ht
          subst this
          cases hx; cases h
          exact ⟨rfl, .inr ⟨rfl, rfl, rfl, rfl, rfl, _, _, rfl⟩⟩

theorem mapM_ids {id : Int} : ∀ {ps ps' : List Peer}, (ps.mapM fun p => if p.id = id then decNext p else pure p : Except Err _) = .ok ps' →
    ps'.map (·.id) = ps.map (·.id)
  | [], ps', h => by cases h; rfl
  | p :: ps, ps', h => by
    rw [List.mapM_cons] at h
    simp only [bind, Except.bind] at h
    split at h
    · cases h
    · rename_i y hy
      split at h
      · cases h
      · rename_i ys hys
        cases h
        have : y.id = p.id := by
          split at hy
          · unfold decNext at hy
            split at hy
            · cases hy
            · simp only [bind, Except.bind] at hy
              split at hy
              · cases hy
              · cases hy; rfl
          · cases hy; rfl
        simp [this, mapM_ids hys]

/-- `process` keeps the peers, in some order. -/
theorem process_peers {srt : List Peer → List Peer} (hs : ∀ l, (srt l).Perm l) {r : Nat} {n n' : Node Op} {m : Msg Op} {rep}
    (h : process srt r n m = .ok (n', rep)) : (n'.peers.map (·.id)).Perm (n.peers.map (·.id)) := by
  obtain ⟨t, f, b⟩ := m
  cases b with
  | voteRequest lli llt =>
    simp only [process, onVoteRequest] at h
    split at h <;> (cases h; exact .refl _)
  | voteReply g =>
    simp only [process, onVoteReply, bind, Except.bind] at h
    split at h
    · cases h
    · rename_i x hx
      cases h
      split at hx
      · cases hx; exact .refl _
      · split at hx
        · split at hx
          · cases hx
          · split at hx
            · cases hx
            · split at hx
              · cases hx
              · simp only [pure, Except.pure] at hx
                cases hx
                split
                · rw [becomeLeader_ids]
                · exact .refl _
        · split at hx <;> (cases hx; exact .refl _)
  | appendRequest lc pt pi es =>
    simp only [process, bind, Except.bind] at h
    split at h
    · cases h
    · rename_i x hx
      cases h
      have hd : (stepDown n r ⟨t, f, .appendRequest lc pt pi es⟩).peers = n.peers := by
        exact stepDown_peers _ _ _
      simp only [onAppend] at hx
      generalize stepDown n r ⟨t, f, .appendRequest lc pt pi es⟩ = n1 at hd hx
      split at hx
      · cases hx; rw [hd]
      · split at hx
        · cases hx; rw [hd]
        · simp only [bind, Except.bind] at hx
          split at hx
          · cases hx
          · rename_i y hy
            simp only [pure, Except.pure] at hx
            cases hx
            unfold accept at hy
            split at hy
            · cases hy
            · simp only at hy
              split at hy
              · simp only [bind, Except.bind] at hy
                split at hy
                · cases hy
                · rename_i z hz
                  cases hy
                  rw [(commitEntries_ok hz).1, ← hd]
              · cases hy; rw [← hd]
  | appendReply s l =>
    simp only [process, bind, Except.bind] at h
    split at h
    · cases h
    · rename_i x hx
      cases h
      unfold onAppendReply at hx
      split at hx
      · simp only [bind, Except.bind] at hx
        split at hx
        · cases hx
        · rename_i nx hnx
          split at hx
          · cases hx
          · rename_i ps hps
            split at hx
            · cases hx
            · rename_i hz
              cases hx
              rw [(commitEntries_ok hz).1]
              unfold findSafe at hps
              simp only at hps
              split at hps
              · cases hps
              · have : ps.1 = srt (n.peers.map fun p => if p.id = f then { p with matchIndex := l, nextIndex := some nx } else p) := by
                  split at hps <;> (cases hps; rfl)
                simp only [this]
                refine ((hs _).map _).trans ?_
                rw [List.map_map]
                apply List.Perm.of_eq
                apply List.map_congr_left
                intro p _
                simp only [Function.comp_apply]
                split <;> rfl
      · simp only [bind, Except.bind] at hx
        split at hx
        · cases hx
        · rename_i hps
          cases hx
          rw [mapM_ids hps]

theorem EInv.init : EInv ids (World.init ids : World Op) [] [] := by
  constructor <;> simp [World.init, Node.init, Function.comp_def]

/-- A step of node `i` to `n` that does not change what matters for elections, with messages that do not matter. -/
theorem EInv.quiet {w : World Op} {votes counted} (h : EInv ids w votes counted) {i : Int} (hi : i ∈ ids) {n : Node Op} {net : List (Int × Msg Op)}
    (he : elect n = elect (w.nodes i) ∨ (n.id = (w.nodes i).id ∧ (w.nodes i).term ≤ n.term ∧ (n.term = (w.nodes i).term → n.votedFor = (w.nodes i).votedFor) ∧ n.role = .follower))
    (hp : (n.peers.map (·.id)).Perm ((w.nodes i).peers.map (·.id)))
    (hends : ∀ x ∈ net, x.1 ∈ ids ∧ x.2.fromId ∈ ids ∧ x.2.fromId ≠ x.1) (htok : ∀ c t v, net.countP (tok c t v) ≤ w.net.countP (tok c t v))
    (hg : ∀ d t v, (d, ⟨t, v, .voteReply true⟩) ∈ net → (d, ⟨t, v, .voteReply true⟩) ∈ w.net) :
    EInv ids { w.set i n with net := net } votes counted := by
  have hfacts : n.id = (w.nodes i).id ∧ (w.nodes i).term ≤ n.term ∧ (n.term = (w.nodes i).term → n.votedFor = (w.nodes i).votedFor) := by
    rcases he with he | he
    · simp only [elect, Prod.mk.injEq] at he
      exact ⟨he.1, by omega, fun _ => he.2.2.2.1⟩
    · exact ⟨he.1, he.2.1, he.2.2.1⟩
  have hnode : ∀ j, ((w.set i n).nodes j) = if j = i then n else w.nodes j := fun j => rfl
  have hterm : ∀ j, (w.nodes j).term ≤ ((w.set i n).nodes j).term := by
    intro j; rw [hnode]; split
    · rename_i e; subst e; exact hfacts.2.1
    · exact Int.le_refl _
  constructor
  · intro j hj
    simp only [hnode]; split
    · rename_i e; subst e; rw [hfacts.1]; exact h.id _ hj
    · exact h.id _ hj
  · intro j hj
    simp only [hnode]; split
    · rename_i e; subst e; exact hp.trans (h.peers _ hj)
    · exact h.peers _ hj
  · exact hends
  · intro v t c hv
    obtain ⟨h1, h2⟩ := h.bound v t c hv
    simp only [hnode]; split
    · rename_i e; subst e
      refine ⟨by omega, fun hh => ?_⟩
      rw [hfacts.2.2 (by omega)]
      exact h2 (by omega)
    · exact ⟨h1, h2⟩
  · exact h.once
  · intro c t v
    have := htok c t v
    have := h.single c t v
    show net.countP (tok c t v) + _ ≤ 1
    omega
  · intro c hc t v ht
    have h1 := hterm c
    have h2 := h.future c hc t v (by simp only at ht; omega)
    have h3 := htok c t v
    show net.countP (tok c t v) + _ = 0
    omega
  · exact fun d t v hd => h.granted d t v (hg d t v hd)
  · exact h.sub
  · exact h.other
  · intro j hj hr
    simp only [hnode] at hr ⊢
    split at hr
    · rename_i e; subst e
      simp only [if_true]
      rcases he with he | he
      · simp only [elect, Prod.mk.injEq] at he
        obtain ⟨_, h2, h3, _, h5⟩ := he
        rw [h2, h5]
        exact h.cand _ hj (by rw [← h3]; exact hr)
      · rw [he.2.2.2] at hr; cases hr
    · rename_i e
      simp only [if_neg e]
      exact h.cand _ hj hr
  · intro j hj hr
    simp only [hnode] at hr ⊢
    split at hr
    · rename_i e; subst e
      simp only [if_true]
      rcases he with he | he
      · simp only [elect, Prod.mk.injEq] at he
        obtain ⟨_, h2, h3, _, h5⟩ := he
        have hl := hp.length_eq
        rw [List.length_map, List.length_map] at hl
        rw [h2, hl]
        exact h.lead _ hj (by rw [← h3]; exact hr)
      · rw [he.2.2.2] at hr; cases hr
    · rename_i e
      simp only [if_neg e]
      exact h.lead _ hj hr

theorem tok_append {c t v : Int} {d : Int} {m : Msg Op} {a b e f} (h : m.body = .appendRequest a b e f) : tok c t v (d, m) = false := by
  simp [tok, h]

/-- Requests of an election. -/
theorem count_requests {c t v c' t' : Int} {a b : Int} : ∀ {l : List Peer},
    (l.map fun p => ((p.id, ⟨t', c', .voteRequest a b⟩) : Int × Msg Op)).countP (tok c t v) =
      if c = c' ∧ t = t' then (l.map (·.id)).count v else 0
  | [] => by simp
  | p :: l => by
    rw [List.map_cons, List.countP_cons, count_requests, List.map_cons, List.count_cons]
    have e : tok (Op := Op) c t v (p.id, ⟨t', c', .voteRequest a b⟩) = (p.id == v && c' == c && t' == t) := rfl
    by_cases h : c = c' ∧ t = t'
    · obtain ⟨rfl, rfl⟩ := h
      simp [e]
    · have : tok (Op := Op) c t v (p.id, ⟨t', c', .voteRequest a b⟩) = false := by
        rw [e, Bool.eq_false_iff]
        simp only [ne_eq, Bool.and_eq_true, beq_iff_eq]
        rintro ⟨⟨_, h1⟩, h2⟩
        exact h ⟨h1.symm, h2.symm⟩
      rw [if_neg h, if_neg h, this]
      rfl

theorem tick_einv {w : World Op} {votes counted} (hnd : ids.Nodup) (h : EInv ids w votes counted) {i : Int} (hi : i ∈ ids) {r : Nat} {n : Node Op} {out}
    (ht : tick (w.nodes i) r = .ok (n, out)) : ∃ votes', EInv ids { w.set i n with net := w.net ++ out } votes' counted := by
  obtain ⟨hpe, hcase⟩ := tick_out ht
  have hid := h.id i hi
  have hpeer : ∀ x, x ∈ (w.nodes i).peers.map (·.id) → x ∈ ids ∧ i ≠ x := by
    intro x hx
    have := (h.peers i hi).mem_iff.mp hx
    rw [List.mem_filter] at this
    exact ⟨this.1, Ne.symm (by simpa using this.2)⟩
  rcases hcase with ⟨he, hout⟩ | ⟨e1, e2, e3, e4, e5, a, b, rfl⟩
  · refine ⟨votes, h.quiet hi (.inl he) (by rw [hpe]) ?_ ?_ ?_⟩
    · intro x hx
      rcases List.mem_append.mp hx with hx | hx
      · exact h.ends x hx
      · obtain ⟨h1, h2, _⟩ := hout x hx
        rw [h2, hid]
        exact ⟨(hpeer _ h1).1, hi, (hpeer _ h1).2⟩
    · intro c t v
      rw [List.countP_append]
      have : out.countP (tok c t v) = 0 := by
        rw [List.countP_eq_zero]
        intro x hx
        obtain ⟨_, _, a, b, e, f, hb⟩ := hout x hx
        rw [show x = (x.1, x.2) from rfl, tok_append hb]
        simp
      omega
    · intro d t v hx
      rcases List.mem_append.mp hx with hx | hx
      · exact hx
      · obtain ⟨_, _, a, b, e, f, hb⟩ := hout _ hx
        cases hb
  · refine ⟨(i, n.term, i) :: votes, ?_⟩
    have hnode : ∀ j, ((w.set i n).nodes j) = if j = i then n else w.nodes j := fun j => rfl
    rw [hid]
    have hcount : ∀ v, ((w.nodes i).peers.map (·.id)).count v ≤ 1 := by
      intro v
      rw [(h.peers i hi).count_eq]
      exact List.nodup_iff_count_le_one.mp (hnd.filter _) v
    have hnet : ∀ c t v, (w.net ++ (w.nodes i).peers.map fun p => ((p.id, ⟨(w.nodes i).term + 1, i, .voteRequest a b⟩) : Int × Msg Op)).countP (tok c t v) =
        w.net.countP (tok c t v) + if c = i ∧ t = (w.nodes i).term + 1 then ((w.nodes i).peers.map (·.id)).count v else 0 := by
      intro c t v
      rw [List.countP_append, count_requests]
    have hnew : ∀ _c : Int, counted.countP (fun x => decide (x.2 = ((w.nodes i).term + 1, i))) = 0 := by
      intro _
      rw [List.countP_eq_zero]
      rintro ⟨v, t, c⟩ hx
      simp only [decide_eq_true_eq, Prod.mk.injEq, not_and]
      rintro rfl rfl
      have := h.future c hi _ v (Int.lt_succ _)
      have := List.count_pos_iff.mpr hx
      omega
    constructor
    · intro j hj
      simp only [hnode]; split
      · rename_i e; subst e; rw [e1, hid]
      · exact h.id _ hj
    · intro j hj
      simp only [hnode]; split
      · rename_i e; subst e; rw [hpe]; exact h.peers _ hj
      · exact h.peers _ hj
    · intro x hx
      rcases List.mem_append.mp hx with hx | hx
      · exact h.ends x hx
      · obtain ⟨p, hp, rfl⟩ := List.mem_map.mp hx
        have := hpeer p.id (List.mem_map_of_mem hp)
        exact ⟨this.1, hi, this.2⟩
    · intro v t c hv
      simp only [hnode]
      rcases List.mem_cons.mp hv with hv | hv
      · simp only [Prod.mk.injEq] at hv
        obtain ⟨rfl, rfl, rfl⟩ := hv
        simp only [if_true]
        exact ⟨Int.le_refl _, fun _ => by rw [e4, hid]⟩
      · obtain ⟨h1, h2⟩ := h.bound v t c hv
        split
        · rename_i e; subst e
          exact ⟨by omega, fun hh => by omega⟩
        · exact ⟨h1, h2⟩
    · intro v t c c' hv hv'
      replace hv := List.mem_cons.mp hv
      replace hv' := List.mem_cons.mp hv'
      rcases hv with hv | hv <;> rcases hv' with hv' | hv'
      · simp only [Prod.mk.injEq] at hv hv'
        rw [hv.2.2, hv'.2.2]
      · simp only [Prod.mk.injEq] at hv
        obtain ⟨rfl, rfl, rfl⟩ := hv
        have := (h.bound _ _ _ hv').1
        omega
      · simp only [Prod.mk.injEq] at hv'
        obtain ⟨rfl, rfl, rfl⟩ := hv'
        have := (h.bound _ _ _ hv).1
        omega
      · exact h.once v t c c' hv hv'
    · intro c t v
      simp only [hnet]
      split
      · rename_i hc
        obtain ⟨rfl, rfl⟩ := hc
        have h1 := h.future c hi _ v (Int.lt_succ _)
        have := hcount v
        omega
      · have := h.single c t v
        omega
    · intro c hc t v hlt
      simp only [hnet, hnode] at hlt ⊢
      split at hlt
      · rename_i e; subst e
        rw [if_neg (by omega)]
        have := h.future c hc t v (by omega)
        omega
      · rename_i e
        rw [if_neg (fun hh => e hh.1)]
        have := h.future c hc t v hlt
        omega
    · intro d t v hx
      rcases List.mem_append.mp hx with hx | hx
      · exact List.mem_cons_of_mem _ (h.granted d t v hx)
      · obtain ⟨p, _, hp⟩ := List.mem_map.mp hx
        cases hp
    · exact fun x hx => List.mem_cons_of_mem _ (h.sub x hx)
    · exact h.other
    · intro j hj hr
      simp only [hnode] at hr ⊢
      split at hr
      · rename_i e; subst e
        simp only [if_true]
        refine ⟨List.mem_cons_self, ?_⟩
        rw [e5, e2, hnew j]
        rfl
      · rename_i e
        simp only [if_neg e]
        obtain ⟨h1, h2⟩ := h.cand j hj hr
        exact ⟨List.mem_cons_of_mem _ h1, h2⟩
    · intro j hj hr
      simp only [hnode] at hr ⊢
      split at hr
      · rw [e3] at hr; cases hr
      · rename_i e
        simp only [if_neg e]
        obtain ⟨h1, h2⟩ := h.lead j hj hr
        exact ⟨List.mem_cons_of_mem _ h1, h2⟩

theorem countP_remove {α : Type} {p : α → Bool} {pre post : List α} {x : α} :
    (pre ++ x :: post).countP p = (pre ++ post).countP p + if p x then 1 else 0 := by
  rw [List.countP_append, List.countP_append, List.countP_cons]; omega

/-- A message less. -/
theorem EInv.less {nodes : Int → Node Op} {votes counted} {pre post : List (Int × Msg Op)} {x : Int × Msg Op}
    (h : EInv ids ⟨nodes, pre ++ x :: post⟩ votes counted) : EInv ids ⟨nodes, pre ++ post⟩ votes counted := by
  have hmem : ∀ y, y ∈ pre ++ post → y ∈ pre ++ x :: post := by
    intro y hy
    simp only [List.mem_append, List.mem_cons] at hy ⊢
    rcases hy with h | h
    · exact .inl h
    · exact .inr (.inr h)
  refine ⟨h.id, h.peers, fun y hy => h.ends y (hmem y hy), h.bound, h.once, ?_, ?_, fun d t v hd => h.granted d t v (hmem _ hd), h.sub, h.other, h.cand, h.lead⟩
  · intro c t v
    have := h.single c t v
    simp only [countP_remove] at this
    simp only
    omega
  · intro c hc t v ht
    have := h.future c hc t v ht
    simp only [countP_remove] at this
    simp only
    omega

theorem deliver_einv {nodes : Int → Node Op} {votes counted} {pre post : List (Int × Msg Op)} {d : Int} {m : Msg Op}
    (h : EInv ids ⟨nodes, pre ++ (d, m) :: post⟩ votes counted) {srt : List Peer → List Peer} (hs : ∀ l, (srt l).Perm l) {r : Nat} {n : Node Op} {rep}
    (hp : process srt r (nodes d) m = .ok (n, rep)) (hfresh : FreshVotes (Op := Op) ⟨nodes, pre ++ (d, m) :: post⟩ (.deliver d m)) :
    ∃ votes' counted', EInv ids { World.set ⟨nodes, pre ++ post⟩ d n with net := pre ++ post ++ rep.toList.map fun x => (m.fromId, x) } votes' counted' := by
  have hl := h.less
  obtain ⟨hd, hsrc, hne⟩ := h.ends (d, m) (by simp)
  simp only at hd hsrc hne
  have hpp := process_peers hs hp
  have hpe := process_elect hp
  have hid := h.id d hd
  simp only at hid
  obtain ⟨t, f, b⟩ := m
  simp only at hsrc hne
  have hnode : ∀ j, ((World.set ⟨nodes, pre ++ post⟩ d n).nodes j) = if j = d then n else nodes j := fun j => rfl
  cases b with
  | voteRequest lli llt =>
    rcases hpe.2 with ⟨rfl, rfl, hc⟩ | ⟨rfl, rfl, hc⟩
    · simp only at hc
      refine ⟨(d, t, f) :: votes, counted, ?_⟩
      simp only [Option.toList_some, List.map_cons, List.map_nil]
      have hnet : ∀ c t' v, (pre ++ post ++ [((f, ⟨t, (nodes d).id, .voteReply true⟩) : Int × Msg Op)]).countP (tok c t' v) =
          (pre ++ (d, ⟨t, f, .voteRequest lli llt⟩) :: post).countP (tok c t' v) := by
        intro c t' v
        rw [countP_remove (x := (d, (⟨t, f, .voteRequest lli llt⟩ : Msg Op))), List.countP_append (l₁ := pre ++ post), List.countP_cons, List.countP_nil, hid]
        have : tok (Op := Op) c t' v (f, ⟨t, d, .voteReply true⟩) = tok (Op := Op) c t' v (d, ⟨t, f, .voteRequest lli llt⟩) := by
          simp only [tok]
          rw [Bool.and_comm (f == c)]
        rw [this]; omega
      have hterm : (nodes d).term ≤ t := by omega
      constructor
      · intro j hj
        simp only [hnode]; split
        · rename_i e; subst e; exact hid
        · exact h.id _ hj
      · intro j hj
        simp only [hnode]; split
        · rename_i e; subst e; exact h.peers _ hj
        · exact h.peers _ hj
      · intro x hx
        rcases List.mem_append.mp hx with hx | hx
        · exact hl.ends x hx
        · rw [List.mem_singleton.mp hx]
          simp only [hid]
          exact ⟨hsrc, hd, Ne.symm hne⟩
      · intro v t' c hv
        simp only [hnode]
        rcases List.mem_cons.mp hv with hv | hv
        · simp only [Prod.mk.injEq] at hv
          obtain ⟨rfl, rfl, rfl⟩ := hv
          simp
        · obtain ⟨h1, h2⟩ := h.bound v t' c hv
          split
          · rename_i e; subst e
            simp only at h1 h2 ⊢
            refine ⟨by omega, fun hh => ?_⟩
            have : c = (nodes v).votedFor := h2 (by omega)
            omega
          · exact ⟨h1, h2⟩
      · intro v t' c c' hv hv'
        have key : ∀ c'', (d, t, c'') ∈ votes → c'' = f := by
          intro c'' hv
          obtain ⟨h1, h2⟩ := h.bound _ _ _ hv
          simp only at h1 h2
          have : c'' = (nodes d).votedFor := h2 (by omega)
          omega
        replace hv := List.mem_cons.mp hv
        replace hv' := List.mem_cons.mp hv'
        rcases hv with hv | hv <;> rcases hv' with hv' | hv'
        · simp only [Prod.mk.injEq] at hv hv'
          rw [hv.2.2, hv'.2.2]
        · simp only [Prod.mk.injEq] at hv
          obtain ⟨rfl, rfl, rfl⟩ := hv
          exact (key _ hv').symm
        · simp only [Prod.mk.injEq] at hv'
          obtain ⟨rfl, rfl, rfl⟩ := hv'
          exact key _ hv
        · exact h.once v t' c c' hv hv'
      · intro c t' v
        simp only [hnet]
        exact h.single c t' v
      · intro c hc' t' v hlt
        simp only [hnet, hnode] at hlt ⊢
        refine h.future c hc' t' v ?_
        simp only
        split at hlt
        · rename_i e; subst e; simp only at hlt; omega
        · exact hlt
      · intro d' t' v hx
        rcases List.mem_append.mp hx with hx | hx
        · exact List.mem_cons_of_mem _ (hl.granted d' t' v hx)
        · simp only [List.mem_singleton, Prod.mk.injEq, Msg.mk.injEq] at hx
          obtain ⟨rfl, rfl, rfl, _⟩ := hx
          rw [hid]
          exact List.mem_cons_self
      · exact fun x hx => List.mem_cons_of_mem _ (h.sub x hx)
      · exact h.other
      · intro j hj hr
        simp only [hnode] at hr ⊢
        split at hr
        · cases hr
        · rename_i e
          simp only [if_neg e]
          obtain ⟨h1, h2⟩ := h.cand j hj hr
          exact ⟨List.mem_cons_of_mem _ h1, h2⟩
      · intro j hj hr
        simp only [hnode] at hr ⊢
        split at hr
        · cases hr
        · rename_i e
          simp only [if_neg e]
          obtain ⟨h1, h2⟩ := h.lead j hj hr
          exact ⟨List.mem_cons_of_mem _ h1, h2⟩
    · refine ⟨votes, counted, hl.quiet hd (.inl rfl) (.refl _) ?_ ?_ ?_⟩
      · intro x hx
        rcases List.mem_append.mp hx with hx | hx
        · exact hl.ends x hx
        · simp only [Option.toList_some, List.map_cons, List.map_nil, List.mem_singleton] at hx
          subst hx
          simp only [hid]
          exact ⟨hsrc, hd, Ne.symm hne⟩
      · intro c t' v
        rw [List.countP_append (l₁ := pre ++ post)]
        simp [tok]
      · intro d' t' v hx
        rcases List.mem_append.mp hx with hx | hx
        · exact hx
        · simp at hx
  | voteReply g =>
    obtain ⟨rfl, hcase⟩ := hpe.2
    simp only [Option.toList_none, List.map_nil, List.append_nil]
    rcases hcase with rfl | ⟨c1, rfl, v0, c3, c4, c5, c6, c7, c8⟩ | ⟨c1, _, c3, c4, c5, c6⟩
    · exact ⟨votes, counted, hl.quiet hd (.inl rfl) (.refl _) hl.ends (fun _ _ _ => Nat.le_refl _) (fun _ _ _ hx => hx)⟩
    · have hft : t = (nodes d).term := hfresh c1
      have hvote : (f, t, d) ∈ votes := h.granted d t f (by simp)
      refine ⟨votes, (f, t, d) :: counted, ?_⟩
      have htok : ∀ c t' v, (pre ++ post).countP (tok c t' v) + ((f, t, d) :: counted).count (v, t', c) =
          (pre ++ (d, ⟨t, f, .voteReply true⟩) :: post).countP (tok c t' v) + counted.count (v, t', c) := by
        intro c t' v
        rw [countP_remove, List.count_cons]
        have : tok (Op := Op) c t' v (d, ⟨t, f, .voteReply true⟩) = ((f, t, d) == (v, t', c)) := by
          rw [Bool.eq_iff_iff]
          simp only [tok, Bool.and_eq_true, beq_iff_eq, Prod.mk.injEq]
          constructor
          · rintro ⟨⟨a, b⟩, c⟩; exact ⟨b, c, a⟩
          · rintro ⟨a, b, c⟩; exact ⟨⟨c, a⟩, b⟩
        rw [this]; omega
      have hcnt : ∀ i T, ((f, t, d) :: counted).countP (fun x => decide (x.2 = (T, i))) =
          counted.countP (fun x => decide (x.2 = (T, i))) + if i = d ∧ T = t then 1 else 0 := by
        intro i T
        rw [List.countP_cons]
        congr 1
        simp only [decide_eq_true_eq, Prod.mk.injEq]
        by_cases hh : i = d ∧ T = t
        · rw [if_pos hh, if_pos ⟨hh.2.symm, hh.1.symm⟩]
        · rw [if_neg hh, if_neg (fun h' => hh ⟨h'.2.symm, h'.1.symm⟩)]
      have hlen := hpp.length_eq
      rw [List.length_map, List.length_map] at hlen
      constructor
      · intro j hj
        simp only [hnode]; split
        · rename_i e; subst e; rw [hpe.1]; exact hid
        · exact h.id _ hj
      · intro j hj
        simp only [hnode]; split
        · rename_i e; subst e; exact hpp.trans (h.peers _ hj)
        · exact h.peers _ hj
      · exact hl.ends
      · intro v t' c hv
        obtain ⟨h1, h2⟩ := h.bound v t' c hv
        simp only [hnode]; split
        · rename_i e; subst e; rw [c4, c5]; exact ⟨h1, h2⟩
        · exact ⟨h1, h2⟩
      · exact h.once
      · intro c t' v
        simp only [htok]
        exact h.single c t' v
      · intro c hc t' v hlt
        simp only [htok, hnode] at hlt ⊢
        refine h.future c hc t' v ?_
        split at hlt
        · rename_i e; subst e; rw [c4] at hlt; exact hlt
        · exact hlt
      · exact hl.granted
      · intro x hx
        rcases List.mem_cons.mp hx with rfl | hx
        · exact hvote
        · exact h.sub x hx
      · intro v t' c hx
        rcases List.mem_cons.mp hx with hx | hx
        · cases hx; exact ⟨hsrc, hne⟩
        · exact h.other v t' c hx
      · intro j hj hr
        simp only [hnode] at hr ⊢
        simp only [hcnt]
        split at hr
        · rename_i e; subst e
          obtain ⟨h1, h2⟩ := h.cand j hj c1
          simp only at h1 h2
          simp only [if_true]
          rw [c4, c6]
          refine ⟨h1, ?_⟩
          rw [c3] at h2
          simp only [Option.some.injEq] at h2
          rw [if_pos ⟨trivial, hft.symm⟩, h2]
          simp
        · rename_i e
          simp only [if_neg e]
          obtain ⟨h1, h2⟩ := h.cand j hj hr
          refine ⟨h1, ?_⟩
          rw [if_neg (fun hh => e hh.1)]
          exact h2
      · intro j hj hr
        simp only [hnode] at hr ⊢
        simp only [hcnt]
        split at hr
        · rename_i e; subst e
          obtain ⟨h1, h2⟩ := h.cand j hj c1
          simp only at h1 h2
          simp only [if_true]
          rw [c4]
          refine ⟨h1, ?_⟩
          rw [c3] at h2
          simp only [Option.some.injEq] at h2
          rw [if_pos ⟨trivial, hft.symm⟩, hlen]
          rcases c8 with ⟨c8, _⟩ | ⟨_, c8, _⟩
          · omega
          · rw [c8] at hr; cases hr
        · rename_i e
          simp only [if_neg e]
          obtain ⟨h1, h2⟩ := h.lead j hj hr
          refine ⟨h1, ?_⟩
          rw [if_neg (fun hh => e hh.1)]
          exact h2
    · refine ⟨votes, counted, hl.quiet hd (.inr ⟨hpe.1, ?_, ?_, c5⟩) hpp hl.ends (fun _ _ _ => Nat.le_refl _) (fun _ _ _ hx => hx)⟩
      · simp only at c3 c4 ⊢; omega
      · intro hh; simp only at c3 c4 hh; omega
  | appendRequest lc pt pi es =>
    obtain ⟨⟨s, l, rfl⟩, e1, e2, e3⟩ := hpe.2
    simp only at e3
    refine ⟨votes, counted, hl.quiet hd ?_ hpp ?_ ?_ ?_⟩
    · rcases e3 with ⟨_, e4, e5⟩ | ⟨e3, e4, e5⟩
      · left; simp only [elect, hpe.1, e1, e2, e4, e5]
      · exact .inr ⟨hpe.1, by simp only; omega, fun _ => e1, e5⟩
    · intro x hx
      rcases List.mem_append.mp hx with hx | hx
      · exact hl.ends x hx
      · simp only [Option.toList_some, List.map_cons, List.map_nil, List.mem_singleton] at hx
        subst hx
        simp only [hid]
        exact ⟨hsrc, hd, Ne.symm hne⟩
    · intro c t' v
      rw [List.countP_append (l₁ := pre ++ post)]
      simp [tok]
    · intro d' t' v hx
      rcases List.mem_append.mp hx with hx | hx
      · exact hx
      · simp at hx
  | appendReply s l =>
    obtain ⟨rfl, he⟩ := hpe.2
    simp only [Option.toList_none, List.map_nil, List.append_nil]
    exact ⟨votes, counted, hl.quiet hd (.inl he) hpp hl.ends (fun _ _ _ => Nat.le_refl _) (fun _ _ _ hx => hx)⟩

theorem step_einv {w w' : World Op} {a : Action Op} {votes counted} (hnd : ids.Nodup) (h : EInv ids w votes counted) (hs : Step ids w a w')
    (hf : FreshVotes w a) : ∃ votes' counted', EInv ids w' votes' counted' := by
  cases hs with
  | tick hi ht =>
    obtain ⟨v, hv⟩ := tick_einv hnd h hi ht
    exact ⟨v, counted, hv⟩
  | deliver hsrt hp => exact deliver_einv h hsrt hp hf
  | drop => exact ⟨votes, counted, h.less⟩
  | duplicate => exact absurd hf id
  | replicate hi hr =>
    rename_i i op n
    refine ⟨votes, counted, h.quiet (net := w.net) hi (.inl ?_) ?_ h.ends (fun _ _ _ => Nat.le_refl _) (fun _ _ _ hx => hx)⟩
    · simp only [replicate, bind, Except.bind] at hr
      split at hr
      · cases hr
      · cases hr; rfl
    · simp only [replicate, bind, Except.bind] at hr
      split at hr
      · cases hr
      · cases hr; exact .refl _

theorem run_einv {w : World Op} {ok} (hnd : ids.Nodup) (hok : ∀ w a w', ok w a w' → FreshVotes w a) (h : Run ids ok w) :
    ∃ votes counted, EInv ids w votes counted := by
  induction h with
  | init => exact ⟨[], [], EInv.init⟩
  | step _ hs ha ih =>
    obtain ⟨v, c, ih⟩ := ih
    exact step_einv hnd ih hs (hok _ _ _ ha)

/-- The voters of `i` in term `t`. -/
def voters (counted : List (Int × Int × Int)) (t i : Int) : List Int :=
  i :: (counted.filter fun x => decide (x.2 = (t, i))).map (·.1)

theorem voters_nodup {w : World Op} {votes counted} (h : EInv ids w votes counted) (t i : Int) : (voters counted t i).Nodup := by
  rw [voters, List.nodup_cons]
  constructor
  · intro hm
    obtain ⟨⟨v, t', c⟩, hx, rfl⟩ := List.mem_map.mp hm
    obtain ⟨hx', hd⟩ := List.mem_filter.mp hx
    simp only [decide_eq_true_eq, Prod.mk.injEq] at hd
    obtain ⟨rfl, hc⟩ := hd
    exact (h.other _ _ _ hx').2 hc.symm
  · have hcn : counted.Nodup := by
      rw [List.nodup_iff_count_le_one]
      rintro ⟨v, t', c⟩
      have := h.single c t' v
      omega
    rw [List.nodup_map_iff_inj_on (hcn.filter _)]
    rintro ⟨v, t1, c1⟩ h1 ⟨v', t2, c2⟩ h2 rfl
    have d1 := (List.mem_filter.mp h1).2
    have d2 := (List.mem_filter.mp h2).2
    simp only [decide_eq_true_eq, Prod.mk.injEq] at d1 d2
    simp [d1, d2]

theorem voters_length (counted : List (Int × Int × Int)) (t i : Int) :
    (voters counted t i).length = 1 + counted.countP fun x => decide (x.2 = (t, i)) := by
  rw [voters, List.length_cons, List.length_map, List.countP_eq_length_filter]; omega

theorem voters_vote {w : World Op} {votes counted} (h : EInv ids w votes counted) {t i v : Int} (hi : (i, t, i) ∈ votes) (hv : v ∈ voters counted t i) :
    (v, t, i) ∈ votes := by
  rcases List.mem_cons.mp hv with rfl | hv
  · exact hi
  · obtain ⟨⟨v', t', c⟩, hx, rfl⟩ := List.mem_map.mp hv
    obtain ⟨hx', hd⟩ := List.mem_filter.mp hx
    simp only [decide_eq_true_eq, Prod.mk.injEq] at hd
    obtain ⟨rfl, rfl⟩ := hd
    exact h.sub _ hx'

theorem voters_ids {w : World Op} {votes counted} (h : EInv ids w votes counted) {t i v : Int} (hi : i ∈ ids) (hv : v ∈ voters counted t i) : v ∈ ids := by
  rcases List.mem_cons.mp hv with rfl | hv
  · exact hi
  · obtain ⟨⟨v', t', c⟩, hx, rfl⟩ := List.mem_map.mp hv
    exact (h.other _ _ _ (List.mem_filter.mp hx).1).1

theorem filter_ne_length : ∀ {l : List Int} {i : Int}, l.Nodup → i ∈ l → (l.filter (· ≠ i)).length + 1 = l.length
  | x :: l, i, hn, hi => by
    rw [List.nodup_cons] at hn
    by_cases hx : x = i
    · subst hx
      have : l.filter (· ≠ x) = l := by
        rw [List.filter_eq_self]
        intro y hy
        simp only [ne_eq, decide_eq_true_eq]
        rintro rfl
        exact hn.1 hy
      rw [List.filter_cons_of_neg (by simp), this, List.length_cons]
    · have hi' : i ∈ l := by
        rcases List.mem_cons.mp hi with h | h
        · exact absurd h.symm hx
        · exact h
      rw [List.filter_cons_of_pos (by simpa using hx), List.length_cons, List.length_cons, filter_ne_length hn.2 hi']

/-- Two leaders of the same term are the same. -/
theorem EInv.leader {w : World Op} {votes counted} (hnd : ids.Nodup) (h : EInv ids w votes counted) {i j : Int} (hi : i ∈ ids) (hj : j ∈ ids)
    (li : (w.nodes i).role = .leader) (lj : (w.nodes j).role = .leader) (ht : (w.nodes i).term = (w.nodes j).term) : i = j := by
  obtain ⟨vi, ci⟩ := h.lead i hi li
  obtain ⟨vj, cj⟩ := h.lead j hj lj
  rw [← ht] at vj cj
  generalize (w.nodes i).term = t at vi vj ci cj
  apply Classical.byContradiction
  intro hij
  have hdis : (voters counted t i ++ voters counted t j).Nodup := by
    rw [List.nodup_append]
    refine ⟨voters_nodup h t i, voters_nodup h t j, ?_⟩
    intro a ha b hb hab
    subst hab
    exact hij (h.once _ _ _ _ (voters_vote h vi ha) (voters_vote h vj hb))
  have hsub : voters counted t i ++ voters counted t j ⊆ ids := by
    intro v hv
    rcases List.mem_append.mp hv with hv | hv
    · exact voters_ids h hi hv
    · exact voters_ids h hj hv
  have hle := (List.subperm_of_subset hdis hsub).length_le
  rw [List.length_append, voters_length, voters_length] at hle
  have pi : (w.nodes i).peers.length + 1 = ids.length := by
    have := (h.peers i hi).length_eq
    rw [List.length_map] at this
    rw [this, filter_ne_length hnd hi]
  have pj : (w.nodes j).peers.length + 1 = ids.length := by
    have := (h.peers j hj).length_eq
    rw [List.length_map] at this
    rw [this, filter_ne_length hnd hj]
  omega

end Verif.Raft
