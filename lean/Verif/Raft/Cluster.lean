import Verif.Raft.Logs

/-!
# Raft: invariant of a cluster

Logs are numbered, and nothing is read that was not written.
-/

namespace Verif.Raft

open Spec

variable {Op : Type} {ids : List Int}

/-- All `next_index` were written. -/
def Ready (n : Node Op) : Prop := ∀ p ∈ n.peers, p.nextIndex ≠ none

structure NodeInv (ids : List Int) (i : Int) (n : Node Op) : Prop where
  id : n.id = i
  peers : (n.peers.map (·.id)).Perm (ids.filter (· ≠ i))
  num : Numbered 0 n.log
  cap : n.log.length ≤ logSize
  terms : ∀ e ∈ n.log, 1 ≤ e.term ∧ e.term ≤ n.term
  nonneg : 0 ≤ n.term
  pos : n.role ≠ .follower → 1 ≤ n.term
  commit : 0 ≤ n.commit
  ready : n.role = .leader → Ready n
  count : n.role = .candidate → n.voteCount ≠ none

/-- A message to `d`. -/
def BodyInv (nodes : Int → Node Op) (d : Int) (m : Msg Op) : Prop :=
  match m.body with
  | .appendRequest _ pt pi es => (∃ k : Nat, pi = k ∧ (0 < k → 0 < pt) ∧ Numbered k es ∧ k + es.length ≤ logSize) ∧
      (∀ e ∈ es, 1 ≤ e.term ∧ e.term ≤ m.term) ∧ Ready (nodes m.fromId)
  | .appendReply _ _ => Ready (nodes d)
  | _ => True

structure MsgInv (ids : List Int) (nodes : Int → Node Op) (d : Int) (m : Msg Op) : Prop where
  dst : d ∈ ids
  src : m.fromId ∈ ids
  ne : m.fromId ≠ d
  body : BodyInv nodes d m

structure WInv (ids : List Int) (w : World Op) : Prop where
  node : ∀ i ∈ ids, NodeInv ids i (w.nodes i)
  msg : ∀ x ∈ w.net, MsgInv ids w.nodes x.1 x.2

/-- What a step does to the state machine: the entries after the old commit index up to the new one are applied. -/
def Applies (n n' : Node Op) : Prop :=
  ∃ es, n'.applied = n.applied ++ es ∧ es.map (·.index) = indices n.commit n'.commit ∧ ∀ e ∈ es, e ∈ n'.log

theorem indices_self (a : Int) : indices a a = [] := by simp [indices]

theorem Applies.of_eq {n n' : Node Op} (h1 : n'.applied = n.applied) (h2 : n'.commit = n.commit) : Applies n n' :=
  ⟨[], by simp [h1], by rw [h2, indices_self]; rfl, by simp⟩

theorem WInv.init : WInv ids (World.init ids : World Op) := by
  constructor
  · intro i hi
    constructor <;> simp [World.init, Node.init, numbered_nil, Function.comp_def]
  · intro x hx
    cases hx

/-- Replace a node and the messages. -/
theorem WInv.set {w : World Op} (h : WInv ids w) {i : Int} {n : Node Op} {net : List (Int × Msg Op)} (hn : NodeInv ids i n)
    (hr : Ready (w.nodes i) → Ready n) (hnet : ∀ x ∈ net, x ∈ w.net ∨ MsgInv ids (w.set i n).nodes x.1 x.2) :
    WInv ids { w.set i n with net := net } := by
  have hready : ∀ j, Ready (w.nodes j) → Ready ((w.set i n).nodes j) := by
    intro j hj
    simp only [World.set]
    split
    · rename_i e; subst e; exact hr hj
    · exact hj
  constructor
  · intro j hj
    simp only [World.set]
    split
    · rename_i e; subst e; exact hn
    · exact h.node j hj
  · intro x hx
    rcases hnet x hx with hx | hx
    · have hm := h.msg x hx
      refine ⟨hm.dst, hm.src, hm.ne, ?_⟩
      have hb := hm.body
      revert hb
      unfold BodyInv
      split
      · exact fun hb => ⟨hb.1, hb.2.1, hready _ hb.2.2⟩
      · exact hready _
      · exact id
    · exact ⟨hx.dst, hx.src, hx.ne, hx.body⟩

theorem becomeLeader_ready (n : Node Op) : Ready (becomeLeader n) := by
  intro p hp
  simp only [becomeLeader, List.mem_map] at hp
  obtain ⟨q, _, rfl⟩ := hp
  simp

theorem becomeLeader_ids (n : Node Op) : (becomeLeader n).peers.map (·.id) = n.peers.map (·.id) := by
  simp [becomeLeader, Function.comp_def]

/-- What a step of a node must do. -/
structure Good (ids : List Int) (i : Int) (n n' : Node Op) : Prop where
  inv : NodeInv ids i n'
  ready : Ready n → Ready n'
  applies : Applies n n'

/-- Same log and same state machine. -/
theorem Good.light {i : Int} {n n' : Node Op} (h : NodeInv ids i n) (hid : n'.id = n.id) (hp : (n'.peers.map (·.id)).Perm (n.peers.map (·.id)))
    (hl : n'.log = n.log) (hc : n'.commit = n.commit) (ha : n'.applied = n.applied) (ht : n.term ≤ n'.term)
    (hpos : n'.role ≠ .follower → 1 ≤ n'.term) (hr : n'.role = .leader → Ready n') (hv : n'.role = .candidate → n'.voteCount ≠ none)
    (hrr : Ready n → Ready n') : Good ids i n n' := by
  refine ⟨⟨by rw [hid, h.id], hp.trans h.peers, by rw [hl]; exact h.num, by rw [hl]; exact h.cap, ?_, ?_, hpos, by rw [hc]; exact h.commit, hr, hv⟩, hrr,
    .of_eq ha hc⟩
  · intro e he
    rw [hl] at he
    have := h.terms e he
    omega
  · have := h.nonneg; omega

theorem voteRequest_good {i : Int} {n : Node Op} (h : NodeInv ids i n) (m : Msg Op) (lli llt : Int) :
    Good ids i n (onVoteRequest n m lli llt).1 ∧ ∃ g, (onVoteRequest n m lli llt).2 = ⟨m.term, n.id, .voteReply g⟩ := by
  unfold onVoteRequest
  simp only
  split
  · rename_i hc
    refine ⟨Good.light h rfl (.refl _) rfl rfl rfl (by simp only; omega) (fun hh => absurd rfl hh) (fun hh => by cases hh) (fun hh => by cases hh) id, _, rfl⟩
  · exact ⟨⟨h, id, .of_eq rfl rfl⟩, _, rfl⟩

theorem voteReply_good {i : Int} {n : Node Op} (h : NodeInv ids i n) (r : Nat) (m : Msg Op) (g : Bool) :
    (∃ n', onVoteReply n r m g = .ok n' ∧ Good ids i n n') ∨ onVoteReply n r m g = .error .overflow := by
  unfold onVoteReply
  split
  · exact .inl ⟨n, rfl, h, id, .of_eq rfl rfl⟩
  · rename_i hr
    have hr : n.role = .candidate := by simpa using hr
    split
    · have hv := h.count hr
      obtain ⟨v, hv⟩ := Option.ne_none_iff_exists'.mp hv
      rw [hv]
      simp only [bind, Except.bind]
      by_cases h1 : -2147483648 ≤ v + 1 ∧ v + 1 < 2147483648
      · by_cases h2 : -2147483648 ≤ 2 * (v + 1) ∧ 2 * (v + 1) < 2147483648
        · simp only [chk, if_pos h1, if_pos h2, pure, Except.pure]
          refine .inl ⟨_, rfl, ?_⟩
          split
          · exact Good.light h rfl (by rw [becomeLeader_ids]) rfl rfl rfl (Int.le_refl _) (fun _ => h.pos (by rw [hr]; decide))
              (fun _ => becomeLeader_ready _) (fun hh => by cases hh) (fun _ => becomeLeader_ready _)
          · exact Good.light h rfl (.refl _) rfl rfl rfl (Int.le_refl _) (fun _ => h.pos (by rw [hr]; decide))
              (fun hh => by rw [show n.role = Role.leader from hh] at hr; cases hr) (fun hh => by simp) id
        · simp only [chk, if_pos h1, if_neg h2]
          exact .inr trivial
      · simp only [chk, if_neg h1]
        exact .inr trivial
    · split
      · rename_i ht
        refine .inl ⟨_, rfl, Good.light h rfl (.refl _) rfl rfl rfl (by simp only [resetTimer]; omega) (fun hh => absurd rfl hh) (fun hh => by cases hh)
          (fun hh => by cases hh) id⟩
      · exact .inl ⟨n, rfl, h, id, .of_eq rfl rfl⟩

theorem stepDown_good {i : Int} {n : Node Op} (h : NodeInv ids i n) (r : Nat) (m : Msg Op) :
    Good ids i n (stepDown n r m) ∧ m.term ≤ (stepDown n r m).term ∧ (stepDown n r m).commit = n.commit ∧
    (stepDown n r m).applied = n.applied := by
  by_cases ht : m.term > n.term
  · have e : stepDown n r m = { resetTimer n r with role := .follower, term := m.term } := if_pos ht
    rw [e]
    exact ⟨Good.light h rfl (.refl _) rfl rfl rfl (by simp only; omega) (fun hh => absurd rfl hh) (fun hh => by cases hh) (fun hh => by cases hh) id,
      Int.le_refl _, rfl, rfl⟩
  · have e : stepDown n r m = resetTimer n r := if_neg ht
    rw [e]
    exact ⟨Good.light h rfl (.refl _) rfl rfl rfl (Int.le_refl _) h.pos h.ready h.count id, by simp only [resetTimer]; omega, rfl, rfl⟩

theorem accept_good {i : Int} {n : Node Op} (h : NodeInv ids i n) (lc : Int) {es : List (Entry Op)} {k : Nat} (hnum : Numbered k es)
    (hk : k ≤ n.log.length) (hc : k + es.length ≤ logSize) (ht : ∀ e ∈ es, 1 ≤ e.term ∧ e.term ≤ n.term) :
    ∃ n', accept n lc es = .ok n' ∧ Good ids i n n' := by
  obtain ⟨m1, m2, m3⟩ := merge_spec h.num h.cap hnum hk hc
  have base : ∀ (es' : List (Entry Op)) (c : Int), 0 ≤ c →
      NodeInv ids i { n with log := merge n.log es, applied := n.applied ++ es', commit := c } := by
    intro es' c hc'
    refine ⟨h.id, h.peers, m1, m2, ?_, h.nonneg, h.pos, hc', h.ready, h.count⟩
    intro e he
    rcases m3 e he with he | he
    · exact h.terms e he
    · exact ht e he
  unfold accept
  rw [if_neg (by omega)]
  simp only
  split
  · rename_i hlc
    have hlast := lastIndex_zero m1
    obtain ⟨es', h1, h2, h3⟩ := commitEntries_spec (n := { n with log := merge n.log es }) (a := n.commit) (b := min lc (lastIndex (merge n.log es))) m1
      h.commit (by simp only; omega)
    simp only [bind, Except.bind, h1, pure, Except.pure]
    have := h.commit
    exact ⟨_, rfl, base es' _ (by omega), id, es', rfl, h2, h3⟩
  · refine ⟨_, rfl, ?_, id, .of_eq rfl rfl⟩
    have := base [] n.commit h.commit
    rw [List.append_nil] at this
    exact this

theorem findEntry_length {n : Node Op} (hn : Numbered 0 n.log) {pt : Int} {k : Nat} (h : findEntry n.log pt k = true) : k ≤ n.log.length := by
  unfold findEntry at h
  obtain ⟨e, he, hh⟩ := List.any_eq_true.mp h
  have := numbered_mem hn he
  simp only [Bool.and_eq_true, beq_iff_eq] at hh
  omega

theorem onAppend_good {i : Int} {n : Node Op} (h : NodeInv ids i n) (r : Nat) (m : Msg Op) (lc pt : Int) {es : List (Entry Op)} {k : Nat}
    (hpt : 0 < k → 0 < pt) (hnum : Numbered k es) (hc : k + es.length ≤ logSize) (ht : ∀ e ∈ es, 1 ≤ e.term ∧ e.term ≤ m.term) :
    ∃ n' s l, onAppend n r m lc pt k es = .ok (n', ⟨0, i, .appendReply s l⟩) ∧ Good ids i n n' := by
  obtain ⟨g, h1, h2, h3⟩ := stepDown_good h r m
  unfold onAppend
  simp only
  generalize stepDown n r m = n1 at g h1 h2 h3
  have hid := g.inv.id
  split
  · exact ⟨n1, _, _, by rw [hid], g⟩
  · split
    · exact ⟨n1, _, _, by rw [hid], g⟩
    · rename_i hprev
      have hk : k ≤ n1.log.length := by
        by_cases hk0 : k = 0
        · omega
        · have : findEntry n1.log pt k = true := by
            by_cases hf : findEntry n1.log pt k = true
            · exact hf
            · exact absurd ⟨by omega, hpt (by omega), by simpa using hf⟩ hprev
          exact findEntry_length g.inv.num this
      obtain ⟨n', a1, a2⟩ := accept_good g.inv lc hnum hk hc (fun e he => by have := ht e he; omega)
      simp only [bind, Except.bind, a1, pure, Except.pure]
      refine ⟨n', _, _, by rw [a2.inv.id], a2.inv, fun hh => a2.ready (g.ready hh), ?_⟩
      obtain ⟨es', b1, b2, b3⟩ := a2.applies
      exact ⟨es', by rw [b1, h3], by rw [b2, h2], b3⟩

theorem mapM_dec {id : Int} : ∀ {ps : List Peer}, (∀ p ∈ ps, p.nextIndex ≠ none) →
    (∃ ps', (ps.mapM fun p => if p.id = id then decNext p else pure p : Except Err _) = .ok ps' ∧ ps'.map (·.id) = ps.map (·.id) ∧
      ∀ p ∈ ps', p.nextIndex ≠ none) ∨ (ps.mapM fun p => if p.id = id then decNext p else pure p : Except Err _) = .error .overflow
  | [], _ => .inl ⟨[], rfl, rfl, by simp⟩
  | p :: ps, h => by
    have hp : (∃ p', (if p.id = id then decNext p else pure p : Except Err _) = .ok p' ∧ p'.id = p.id ∧ p'.nextIndex ≠ none) ∨
        (if p.id = id then decNext p else pure p : Except Err _) = .error .overflow := by
      obtain ⟨x, hx⟩ := Option.ne_none_iff_exists'.mp (h p List.mem_cons_self)
      split
      · unfold decNext
        rw [hx]
        simp only [chk, bind, Except.bind]
        by_cases hh : -2147483648 ≤ x - 1 ∧ x - 1 < 2147483648
        · simp only [if_pos hh]
          exact .inl ⟨_, rfl, rfl, by simp⟩
        · simp only [if_neg hh]
          exact .inr trivial
      · exact .inl ⟨p, rfl, rfl, by rw [hx]; simp⟩
    rw [List.mapM_cons]
    rcases hp with ⟨p', h1, h2, h3⟩ | h1
    · rcases mapM_dec (id := id) (fun q hq => h q (List.mem_cons_of_mem _ hq)) with ⟨ps', i1, i2, i3⟩ | i1
      · refine .inl ⟨p' :: ps', by rw [h1, i1]; rfl, by simp [h2, i2], ?_⟩
        intro q hq
        rcases List.mem_cons.mp hq with rfl | hq
        · exact h3
        · exact i3 q hq
      · exact .inr (by rw [h1, i1]; rfl)
    · exact .inr (by rw [h1]; rfl)

theorem findSafe_spec {srt : List Peer → List Peer} (hs : ∀ l, (srt l).Perm l) {n : Node Op} (hp : n.peers ≠ []) :
    ∃ c, findSafe srt n = .ok (srt n.peers, c) ∧ (c = n.commit ∨ ∃ e ∈ n.log, e.index = c) := by
  unfold findSafe
  simp only
  have hl : 0 < (srt n.peers).length := by
    rw [(hs _).length_eq]; exact List.length_pos_iff.mpr hp
  rw [List.getElem?_eq_getElem (by omega)]
  simp only
  split
  · rename_i h
    obtain ⟨e, he, hh⟩ := List.any_eq_true.mp h
    simp only [Bool.and_eq_true, beq_iff_eq] at hh
    exact ⟨_, rfl, .inr ⟨e, he, hh.1⟩⟩
  · exact ⟨_, rfl, .inl rfl⟩

theorem onAppendReply_good {srt : List Peer → List Peer} (hs : ∀ l, (srt l).Perm l) {i : Int} {n : Node Op} (h : NodeInv ids i n) (hp : n.peers ≠ [])
    (hready : Ready n) (m : Msg Op) (s : Bool) (l : Int) :
    (∃ n', onAppendReply srt n m s l = .ok n' ∧ Good ids i n n') ∨ onAppendReply srt n m s l = .error .overflow := by
  unfold onAppendReply
  split
  · simp only [bind, Except.bind]
    by_cases hl : -2147483648 ≤ l + 1 ∧ l + 1 < 2147483648
    · simp only [chk, if_pos hl]
      have hids : (n.peers.map fun p => if p.id = m.fromId then { p with matchIndex := l, nextIndex := some (l + 1) } else p).map (·.id) =
          n.peers.map (·.id) := by
        rw [List.map_map]
        apply List.map_congr_left
        intro p _
        simp only [Function.comp_apply]
        split <;> rfl
      have hre : ∀ q ∈ (n.peers.map fun p => if p.id = m.fromId then { p with matchIndex := l, nextIndex := some (l + 1) } else p), q.nextIndex ≠ none := by
        intro q hq
        obtain ⟨p, hp, rfl⟩ := List.mem_map.mp hq
        split
        · simp
        · exact hready p hp
      have hne : (n.peers.map fun p => if p.id = m.fromId then { p with matchIndex := l, nextIndex := some (l + 1) } else p) ≠ [] := by
        simpa using hp
      generalize (n.peers.map fun p => if p.id = m.fromId then { p with matchIndex := l, nextIndex := some (l + 1) } else p) = ps at hids hre hne
      obtain ⟨c, hc, hcase⟩ := findSafe_spec hs (n := { n with peers := ps }) hne
      simp only [hc]
      have hcl : c = n.commit ∨ (1 ≤ c ∧ c ≤ n.log.length) := by
        rcases hcase with h | ⟨e, he, rfl⟩
        · exact .inl h
        · have := numbered_mem h.num he
          exact .inr (by omega)
      left
      have hinv : ∀ (es : List (Entry Op)), NodeInv ids i { n with peers := srt ps, applied := n.applied ++ es, commit := c } := by
        intro es
        have := h.commit
        refine ⟨h.id, (((hs ps).map _).trans (by rw [hids])).trans h.peers, h.num, h.cap, h.terms, h.nonneg, h.pos, by simp only; omega, ?_, h.count⟩
        intro _ q hq
        exact hre q ((hs ps).mem_iff.mp hq)
      have hready' : ∀ q ∈ srt ps, q.nextIndex ≠ none := fun q hq => hre q ((hs ps).mem_iff.mp hq)
      by_cases hcc : c = n.commit
      · subst hcc
        have h0 : commitEntries { n with peers := srt ps } n.commit n.commit = .ok { n with peers := srt ps } := by
          simp [commitEntries]
        simp only [h0, pure, Except.pure]
        have := hinv []
        rw [List.append_nil] at this
        exact ⟨_, rfl, this, fun _ => hready', .of_eq rfl rfl⟩
      · obtain ⟨es, c1, c2, c3⟩ := commitEntries_spec (n := { n with peers := srt ps }) (a := n.commit) (b := c) h.num h.commit (by simp only; omega)
        simp only [c1, pure, Except.pure]
        exact ⟨_, rfl, hinv es, fun _ => hready', es, rfl, c2, c3⟩
    · right
      simp only [chk, if_neg hl]
  · simp only [bind, Except.bind]
    rcases mapM_dec (id := m.fromId) hready with ⟨ps', h1, h2, h3⟩ | h1
    · simp only [h1]
      exact .inl ⟨_, rfl, Good.light h rfl (by rw [h2]) rfl rfl rfl (Int.le_refl _) h.pos (fun _ => h3) h.count (fun _ => h3)⟩
    · simp only [h1]
      exact .inr trivial

/-- `process` on a message of the cluster: it ends well or an `int` overflows. -/
theorem process_good {srt : List Peer → List Peer} (hs : ∀ l, (srt l).Perm l) {w : World Op} (hw : WInv ids w) {d : Int} {m : Msg Op} (hm : MsgInv ids w.nodes d m) (r : Nat) :
    (∃ n' rep, process srt r (w.nodes d) m = .ok (n', rep) ∧ Good ids d (w.nodes d) n' ∧
      ∀ x ∈ rep, MsgInv ids (w.set d n').nodes m.fromId x) ∨ process srt r (w.nodes d) m = .error .overflow := by
  have hd := hw.node d hm.dst
  have hb := hm.body
  have hset : ∀ n' : Node Op, (w.set d n').nodes m.fromId = w.nodes m.fromId := by
    intro n'; simp [World.set, hm.ne]
  obtain ⟨t, f, b⟩ := m
  cases b with
  | voteRequest lli llt =>
    obtain ⟨g, gr, hg⟩ := voteRequest_good hd ⟨t, f, .voteRequest lli llt⟩ lli llt
    refine .inl ⟨_, _, rfl, g, ?_⟩
    intro x hx
    simp only [Option.mem_def, Option.some.injEq] at hx
    subst hx
    rw [hg, hd.id]
    exact ⟨hm.src, hm.dst, Ne.symm hm.ne, trivial⟩
  | voteReply g =>
    rcases voteReply_good hd r ⟨t, f, .voteReply g⟩ g with ⟨n', h1, h2⟩ | h1
    · exact .inl ⟨n', none, by simp only [process, h1, bind, Except.bind, pure, Except.pure], h2, by simp⟩
    · exact .inr (by simp only [process, h1, bind, Except.bind])
  | appendRequest lc pt pi es =>
    obtain ⟨⟨k, rfl, k1, k2, k3⟩, h2, h3⟩ := hb
    obtain ⟨n', s, l, a1, a2⟩ := onAppend_good hd r ⟨t, f, .appendRequest lc pt k es⟩ lc pt k1 k2 k3 h2
    refine .inl ⟨n', some ⟨0, d, .appendReply s l⟩, by simp only [process, a1, bind, Except.bind, pure, Except.pure], a2, ?_⟩
    intro x hx
    simp only [Option.mem_def, Option.some.injEq] at hx
    subst hx
    refine ⟨hm.src, hm.dst, Ne.symm hm.ne, ?_⟩
    show Ready _
    rw [hset]
    exact h3
  | appendReply s l =>
    have hne : (w.nodes d).peers ≠ [] := by
      intro h0
      have := hd.peers
      rw [h0] at this
      have hf : f ∈ ids.filter (· ≠ d) := by
        rw [List.mem_filter]; exact ⟨hm.src, by simpa using hm.ne⟩
      have h0' := this.mem_iff.mpr hf
      cases h0'
    rcases onAppendReply_good hs hd hne hb ⟨t, f, .appendReply s l⟩ s l with ⟨n', h1, h2⟩ | h1
    · exact .inl ⟨n', none, by simp only [process, h1, bind, Except.bind, pure, Except.pure], h2, by simp⟩
    · exact .inr (by simp only [process, h1, bind, Except.bind])

theorem heartbeatMsg_spec {i : Int} {n : Node Op} (h : NodeInv ids i n) {p : Peer} (hp : p.nextIndex ≠ none) :
    ∃ m, heartbeatMsg n p = .ok (p.id, m) ∧ m.fromId = i ∧ m.term = n.term ∧ ∃ lc pt es, ∃ k : Nat, m.body = .appendRequest lc pt k es ∧ (0 < k → 0 < pt) ∧
      Numbered k es ∧ k + es.length ≤ logSize ∧ ∀ e ∈ es, 1 ≤ e.term ∧ e.term ≤ n.term := by
  obtain ⟨x, hx⟩ := Option.ne_none_iff_exists'.mp hp
  unfold heartbeatMsg
  rw [hx]
  simp only
  have hsplit := List.takeWhile_append_dropWhile (p := fun e : Entry Op => decide (e.index < x)) (l := n.log)
  generalize n.log.takeWhile (fun e => decide (e.index < x)) = a at hsplit
  generalize n.log.dropWhile (fun e => decide (e.index < x)) = b at hsplit
  have hnum := h.num
  have hcap := h.cap
  rw [← hsplit] at hnum hcap
  rw [List.length_append] at hcap
  obtain ⟨h1, h2⟩ := numbered_append.mp hnum
  rw [if_neg (by omega)]
  refine ⟨_, rfl, h.id, rfl, n.commit, lastTerm a, b, a.length, by rw [lastIndex_zero h1], ?_, by rw [Int.zero_add] at h2; exact h2, hcap, ?_⟩
  · intro ha
    obtain ⟨e, he, hh⟩ := lastTerm_mem (l := a) (List.length_pos_iff.mp ha)
    rw [hh]
    have := h.terms e (by rw [← hsplit]; exact List.mem_append_left _ he)
    omega
  · intro e he
    exact h.terms e (by rw [← hsplit]; exact List.mem_append_right _ he)

theorem mapM_heartbeat {i : Int} {n : Node Op} (h : NodeInv ids i n) : ∀ {ps : List Peer}, (∀ p ∈ ps, p.nextIndex ≠ none) →
    ∃ ms, ps.mapM (heartbeatMsg n) = .ok ms ∧ ∀ x ∈ ms, x.1 ∈ ps.map (·.id) ∧ x.2.fromId = i ∧ x.2.term = n.term ∧ ∃ lc pt es, ∃ k : Nat, x.2.body = .appendRequest lc pt k es ∧
      (0 < k → 0 < pt) ∧ Numbered k es ∧ k + es.length ≤ logSize ∧ ∀ e ∈ es, 1 ≤ e.term ∧ e.term ≤ n.term
  | [], _ => ⟨[], rfl, by simp⟩
  | p :: ps, hp => by
    obtain ⟨m, h1, h2⟩ := heartbeatMsg_spec h (hp p List.mem_cons_self)
    obtain ⟨ms, h3, h4⟩ := mapM_heartbeat h (fun q hq => hp q (List.mem_cons_of_mem _ hq))
    refine ⟨(p.id, m) :: ms, by rw [List.mapM_cons, h1, h3]; rfl, ?_⟩
    intro x hx
    rcases List.mem_cons.mp hx with rfl | hx
    · exact ⟨by simp, h2⟩
    · exact ⟨List.mem_cons_of_mem _ (h4 x hx).1, (h4 x hx).2⟩

theorem tick_good {w : World Op} (hw : WInv ids w) {i : Int} (hi : i ∈ ids) (r : Nat) :
    (∃ n' out, tick (w.nodes i) r = .ok (n', out) ∧ Good ids i (w.nodes i) n' ∧ ∀ x ∈ out, MsgInv ids (w.set i n').nodes x.1 x.2) ∨
    tick (w.nodes i) r = .error .overflow := by
  have h := hw.node i hi
  have hpeer : ∀ x, x ∈ (w.nodes i).peers.map (·.id) → x ∈ ids ∧ i ≠ x := by
    intro x hx
    have := h.peers.mem_iff.mp hx
    rw [List.mem_filter] at this
    exact ⟨this.1, Ne.symm (by simpa using this.2)⟩
  unfold tick
  split
  · rename_i hr
    unfold tickHeartbeat
    split
    · exact .inl ⟨_, _, rfl, Good.light h rfl (.refl _) rfl rfl rfl (Int.le_refl _) h.pos h.ready h.count id, by simp⟩
    · obtain ⟨ms, h1, h2⟩ := mapM_heartbeat h (h.ready hr)
      simp only [h1, bind, Except.bind, pure, Except.pure]
      refine .inl ⟨_, _, rfl, Good.light h rfl (.refl _) rfl rfl rfl (Int.le_refl _) h.pos h.ready h.count id, ?_⟩
      intro x hx
      obtain ⟨d, t, f, b⟩ := x
      obtain ⟨a1, a2, a3, lc, pt, es, k, a4, a5, a6, a7, a8⟩ := h2 _ hx
      simp only at a1 a2 a3 a4
      subst a2 a3 a4
      refine ⟨(hpeer _ a1).1, hi, (hpeer _ a1).2, ⟨k, rfl, a5, a6, a7⟩, a8, ?_⟩
      simp only [World.set, if_true]
      exact h.ready hr
  · rename_i hr
    unfold tickElection
    split
    · exact .inl ⟨_, _, rfl, Good.light h rfl (.refl _) rfl rfl rfl (Int.le_refl _) h.pos h.ready h.count id, by simp⟩
    · unfold startElection
      rw [if_neg hr]
      have hn := h.nonneg
      by_cases hc : -2147483648 ≤ (w.nodes i).term + 1 ∧ (w.nodes i).term + 1 < 2147483648
      · simp only [chk, if_pos hc, bind, Except.bind, pure, Except.pure]
        refine .inl ⟨_, _, rfl, Good.light h rfl (.refl _) rfl rfl rfl (by simp only [resetTimer]; omega) (fun _ => by simp only [resetTimer]; omega)
          (fun hh => by cases hh) (fun _ => by simp [resetTimer]) id, ?_⟩
        intro x hx
        obtain ⟨p, hp, rfl⟩ := List.mem_map.mp hx
        have := hpeer p.id (List.mem_map_of_mem hp)
        refine ⟨this.1, ?_, ?_, trivial⟩
        · simp only [h.id]; exact hi
        · simp only [h.id]; exact this.2
      · simp only [chk, if_neg hc, bind, Except.bind]
        exact .inr trivial

theorem replicate_good {i : Int} {n : Node Op} (h : NodeInv ids i n) (hr : n.role = .leader) (op : Op) :
    ∃ n', replicate n op = .ok n' ∧ Good ids i n n' := by
  have hl := lastIndex_zero h.num
  have hcap := h.cap
  simp only [logSize] at hcap
  unfold replicate
  rw [chk, if_pos (by omega)]
  simp only [bind, Except.bind, pure, Except.pure]
  refine ⟨_, rfl, ?_, id, .of_eq rfl rfl⟩
  by_cases hc : n.log.length < logSize
  · obtain ⟨h1, h2⟩ := append_numbered (e := ⟨op, n.term, lastIndex n.log + 1⟩) h.num h.cap (by simp only; omega) hc
    refine ⟨h.id, h.peers, h1, by simp only; omega, ?_, h.nonneg, h.pos, h.commit, h.ready, h.count⟩
    intro e he
    simp only [append, if_pos hc] at he
    rcases List.mem_append.mp he with he | he
    · exact h.terms e he
    · rw [List.mem_singleton.mp he]
      exact ⟨h.pos (by rw [hr]; decide), Int.le_refl _⟩
  · have : append n.log ⟨op, n.term, lastIndex n.log + 1⟩ = n.log := by rw [append, if_neg hc]
    rw [this]
    exact h

theorem step_good {w w' : World Op} {a : Action Op} (hw : WInv ids w) (hs : Step ids w a w') (ha : ToLeader w a) :
    WInv ids w' ∧ ∀ i ∈ ids, Applies (w.nodes i) (w'.nodes i) := by
  have happ : ∀ {w : World Op} {i : Int} {n : Node Op} {net}, Applies (w.nodes i) n → ∀ j, Applies (w.nodes j) (({ w.set i n with net := net } : World Op).nodes j) := by
    intro w i n net h j
    simp only [World.set]
    split
    · rename_i e; subst e; exact h
    · exact .of_eq rfl rfl
  cases hs with
  | tick hi ht =>
    rename_i i r n out
    rcases tick_good hw hi r with ⟨n', out', h1, h2, h3⟩ | h1
    · rw [h1] at ht; cases ht
      refine ⟨hw.set h2.inv h2.ready ?_, fun j _ => happ h2.applies j⟩
      intro x hx
      rcases List.mem_append.mp hx with hx | hx
      · exact .inl hx
      · exact .inr (h3 x hx)
    · rw [h1] at ht; cases ht
  | deliver hsrt hp =>
    rename_i nodes pre post d m srt r n rep
    have hm := hw.msg (d, m) (by simp)
    rcases process_good hsrt hw hm r with ⟨n', rep', h1, h2, h3⟩ | h1
    · simp only at h1
      rw [h1] at hp; cases hp
      refine ⟨?_, fun j _ => happ (w := ⟨nodes, pre ++ post⟩) h2.applies j⟩
      have hw1 : WInv ids ⟨nodes, pre ++ post⟩ := ⟨hw.node, fun x hx => hw.msg x (by
        simp only [List.mem_append, List.mem_cons] at hx ⊢
        rcases hx with h | h
        · exact .inl h
        · exact .inr (.inr h))⟩
      refine WInv.set hw1 h2.inv h2.ready ?_
      intro x hx
      rcases List.mem_append.mp hx with hx | hx
      · exact .inl hx
      · obtain ⟨y, hy, rfl⟩ := List.mem_map.mp hx
        exact .inr (h3 y (by simpa using hy))
    · simp only at h1
      rw [h1] at hp; cases hp
  | drop =>
    refine ⟨⟨hw.node, fun x hx => hw.msg x ?_⟩, fun _ _ => .of_eq rfl rfl⟩
    simp only [List.mem_append, List.mem_cons] at hx ⊢
    rcases hx with h | h
    · exact .inl h
    · exact .inr (.inr h)
  | duplicate =>
    refine ⟨⟨hw.node, fun x hx => hw.msg x ?_⟩, fun _ _ => .of_eq rfl rfl⟩
    simp only [List.mem_append, List.mem_cons, List.mem_singleton, List.not_mem_nil, or_false] at hx ⊢
    rcases hx with (h | h | h) | h
    · exact .inl h
    · exact .inr (.inl h)
    · exact .inr (.inr h)
    · exact .inr (.inl h)
  | replicate hi hr =>
    rename_i i op n
    obtain ⟨n', h1, h2⟩ := replicate_good (hw.node i hi) ha op
    rw [h1] at hr; cases hr
    exact ⟨hw.set h2.inv h2.ready (fun x hx => .inl hx), fun j _ => happ (net := w.net) h2.applies j⟩

theorem run_inv {w : World Op} {ok} (hok : ∀ w a w', ok w a w' → ToLeader w a) (h : Run ids ok w) : WInv ids w := by
  induction h with
  | init => exact WInv.init
  | step _ hs ha ih => exact (step_good ih hs (hok _ _ _ ha)).1

end Verif.Raft
