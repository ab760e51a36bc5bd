import Verif.Raft.Cluster

/-!
# Raft: agreement of the logs

Lemmas on what a step does to a log, and the invariant of the executions in which leadership is handed over completely.
-/

namespace Verif.Raft

open Spec

variable {Op : Type} {ids : List Int}

/-! ## Steps of a node -/

theorem commitEntries_log {n n' : Node Op} {a b : Int} (h : commitEntries n a b = .ok n') : n'.log = n.log ∧ n'.role = n.role := by
  unfold commitEntries at h
  simp only at h
  split at h
  · cases h
  · cases h; exact ⟨rfl, rfl⟩

theorem accept_log {n n' : Node Op} {lc : Int} {es : List (Entry Op)} (h : accept n lc es = .ok n') : n'.log = merge n.log es ∧ n'.role = n.role := by
  unfold accept at h
  split at h
  · cases h
  · simp only at h
    split at h
    · simp only [bind, Except.bind] at h
      split at h
      · cases h
      · rename_i n1 h1
        cases h
        exact commitEntries_log h1
    · cases h; exact ⟨rfl, rfl⟩

theorem stepDown_log (n : Node Op) (r : Nat) (m : Msg Op) : (stepDown n r m).log = n.log ∧ ((stepDown n r m).role = .leader → n.role = .leader) := by
  unfold stepDown
  simp only
  split
  · exact ⟨rfl, fun h => by cases h⟩
  · exact ⟨rfl, id⟩

/-- What a message does to the log. -/
theorem process_log {srt : List Peer → List Peer} {r : Nat} {n n' : Node Op} {m : Msg Op} {rep} (h : process srt r n m = .ok (n', rep)) :
    (n'.log = n.log ∨ ((n'.role = .leader → n.role = .leader) ∧ ∃ lc pt pi es, m.body = .appendRequest lc pt pi es ∧ n'.log = merge n.log es ∧
      (0 < pi → 0 < pt → findEntry n.log pt pi = true))) ∧
    ∀ x ∈ rep, ∀ lc pt pi es, x.body ≠ .appendRequest lc pt pi es := by
  obtain ⟨t, f, b⟩ := m
  cases b with
  | voteRequest lli llt =>
    simp only [process, onVoteRequest] at h
    split at h
    · cases h; exact ⟨.inl rfl, by rintro x ⟨⟩ _ _ _ _ ⟨⟩⟩
    · cases h; exact ⟨.inl rfl, by rintro x ⟨⟩ _ _ _ _ ⟨⟩⟩
  | voteReply g =>
    simp only [process, bind, Except.bind] at h
    split at h
    · cases h
    · rename_i n1 h1
      cases h
      refine ⟨.inl ?_, by rintro x ⟨⟩⟩
      unfold onVoteReply at h1
      split at h1
      · cases h1; rfl
      · split at h1
        · split at h1
          · cases h1
          · simp only [bind, Except.bind] at h1
            split at h1
            · cases h1
            · split at h1
              · cases h1
              · cases h1
                split <;> rfl
        · split at h1 <;> cases h1 <;> rfl
  | appendRequest lc pt pi es =>
    simp only [process, bind, Except.bind] at h
    split at h
    · cases h
    · rename_i x h1
      cases h
      obtain ⟨s1, s2⟩ := stepDown_log n r ⟨t, f, .appendRequest lc pt pi es⟩
      unfold onAppend at h1
      simp only at h1
      generalize stepDown n r _ = n1 at s1 s2 h1
      split at h1
      · cases h1; exact ⟨.inl s1, by rintro x ⟨⟩ _ _ _ _ ⟨⟩⟩
      · split at h1
        · cases h1; exact ⟨.inl s1, by rintro x ⟨⟩ _ _ _ _ ⟨⟩⟩
        · rename_i hprev
          simp only [bind, Except.bind] at h1
          split at h1
          · cases h1
          · rename_i n2 h2
            cases h1
            obtain ⟨a1, a2⟩ := accept_log h2
            refine ⟨.inr ⟨fun hh => s2 (by rw [← a2]; exact hh), lc, pt, pi, es, rfl, by rw [a1, s1], ?_⟩, by rintro x ⟨⟩ _ _ _ _ ⟨⟩⟩
            intro h3 h4
            rw [← s1]
            by_cases hf : findEntry n1.log pt pi = true
            · exact hf
            · exact absurd ⟨h3, h4, by simpa using hf⟩ hprev
  | appendReply s l =>
    simp only [process, bind, Except.bind] at h
    split at h
    · cases h
    · rename_i n1 h1
      cases h
      refine ⟨.inl ?_, by rintro x ⟨⟩⟩
      unfold onAppendReply at h1
      split at h1
      · simp only [bind, Except.bind] at h1
        split at h1
        · cases h1
        · split at h1
          · cases h1
          · split at h1
            · cases h1
            · rename_i n2 h2
              cases h1
              exact (commitEntries_log h2).1
      · simp only [bind, Except.bind] at h1
        split at h1
        · cases h1
        · cases h1; rfl

theorem takeWhile_eq_take {l : List (Entry Op)} (p : Entry Op → Bool) : l.takeWhile p = l.take (l.takeWhile p).length ∧ l.dropWhile p = l.drop (l.takeWhile p).length := by
  have h := List.takeWhile_append_dropWhile (p := p) (l := l)
  generalize ha : l.takeWhile p = a at h ⊢
  generalize hb : l.dropWhile p = b at h ⊢
  subst h
  simp

/-- The entries a heartbeat carries are the end of the log. -/
theorem heartbeatMsg_log {n : Node Op} (hn : Numbered 0 n.log) {p : Peer} {x : Int × Msg Op} (h : heartbeatMsg n p = .ok x) :
    ∃ lc pt, ∃ k : Nat, x.2.body = .appendRequest lc pt k (n.log.drop k) ∧ k ≤ n.log.length := by
  unfold heartbeatMsg at h
  split at h
  · cases h
  · rename_i next _
    simp only at h
    split at h
    · cases h
    · cases h
      obtain ⟨h1, h2⟩ := takeWhile_eq_take (l := n.log) fun e => decide (e.index < next)
      refine ⟨n.commit, lastTerm (n.log.takeWhile fun e => decide (e.index < next)), (n.log.takeWhile fun e => decide (e.index < next)).length, ?_, (List.takeWhile_prefix _).length_le⟩
      have hnum : Numbered 0 (n.log.takeWhile fun e => decide (e.index < next)) := by
        rw [h1]; exact numbered_take hn _
      rw [lastIndex_zero hnum, ← h2]

theorem mapM_heartbeat_log {n : Node Op} (hn : Numbered 0 n.log) : ∀ {ps : List Peer} {ms}, ps.mapM (heartbeatMsg n) = .ok ms →
    ∀ x ∈ ms, ∃ lc pt, ∃ k : Nat, x.2.body = .appendRequest lc pt k (n.log.drop k) ∧ k ≤ n.log.length
  | [], ms, h, x, hx => by
    cases h; cases hx
  | p :: ps, ms, h, x, hx => by
    rw [List.mapM_cons] at h
    simp only [bind, Except.bind] at h
    split at h
    · cases h
    · rename_i y h1
      split at h
      · cases h
      · rename_i ms' h2
        cases h
        rcases List.mem_cons.mp hx with rfl | hx
        · exact heartbeatMsg_log hn h1
        · exact mapM_heartbeat_log hn h2 x hx

theorem tick_log {n n' : Node Op} (hn : Numbered 0 n.log) {r : Nat} {out} (h : tick n r = .ok (n', out)) :
    n'.log = n.log ∧ (n'.role = .leader → n.role = .leader) ∧ ∀ x ∈ out, ∀ lc pt pi es, x.2.body = .appendRequest lc pt pi es →
      n.role = .leader ∧ ∃ k : Nat, pi = k ∧ k ≤ n.log.length ∧ es = n.log.drop k := by
  unfold tick at h
  split at h
  · rename_i hr
    unfold tickHeartbeat at h
    split at h
    · cases h; exact ⟨rfl, id, by simp⟩
    · simp only [bind, Except.bind] at h
      split at h
      · cases h
      · rename_i ms h1
        cases h
        refine ⟨rfl, id, ?_⟩
        intro x hx lc pt pi es hb
        obtain ⟨lc', pt', k, h2, h3⟩ := mapM_heartbeat_log hn h1 x hx
        rw [h2] at hb
        cases hb
        exact ⟨hr, k, rfl, h3, rfl⟩
  · rename_i hr
    unfold tickElection at h
    split at h
    · cases h; exact ⟨rfl, id, by simp⟩
    · unfold startElection at h
      rw [if_neg hr] at h
      simp only [bind, Except.bind] at h
      split at h
      · cases h
      · rename_i x h1
        split at h1
        · cases h1
        · cases h1
          cases h
          refine ⟨rfl, fun hh => (by cases hh), ?_⟩
          intro x hx lc pt pi es hb
          obtain ⟨p, _, rfl⟩ := List.mem_map.mp hx
          cases hb

theorem replicate_log {n n' : Node Op} {op : Op} (h : replicate n op = .ok n') : n.log <+: n'.log ∧ n'.role = n.role := by
  unfold replicate at h
  simp only [bind, Except.bind] at h
  split at h
  · cases h
  · cases h
    refine ⟨?_, rfl⟩
    simp only [append]
    split
    · exact List.prefix_append _ _
    · exact List.prefix_rfl

/-! ## Merging a part of a log into a shorter one -/

theorem numbered_eq {G : List (Entry Op)} {s : Int} (h : Numbered s G) {e e' : Entry Op} (he : e ∈ G) (he' : e' ∈ G) (hi : e.index = e'.index) : e = e' := by
  obtain ⟨i, h1, rfl⟩ := List.mem_iff_getElem.mp he
  obtain ⟨j, h2, rfl⟩ := List.mem_iff_getElem.mp he'
  have a := h i h1
  have b := h j h2
  have : i = j := by omega
  subst this
  rfl

theorem merge_fold_prefix {G : List (Entry Op)} (hG : Numbered 0 G) (hc : G.length ≤ logSize) : ∀ {es l : List (Entry Op)} {k : Nat}, l <+: G →
    es <+: G.drop k → k ≤ l.length →
    es.foldl (fun log e => if e.index > lastIndex log then append log e else log) l <+: G ∧
    l <+: es.foldl (fun log e => if e.index > lastIndex log then append log e else log) l
  | [], l, k, hl, _, _ => ⟨hl, List.prefix_rfl⟩
  | x :: es, l, k, hl, he, hk => by
    have hklt : k < G.length := by
      have := he.length_le
      rw [List.length_cons, List.length_drop] at this
      omega
    obtain ⟨t, ht⟩ := he
    rw [List.drop_eq_getElem_cons hklt, List.cons_append] at ht
    obtain ⟨hx, ht⟩ := List.cons.inj ht
    have hx1 := hG k hklt
    rw [← hx] at hx1
    have hln : Numbered 0 l := by
      obtain ⟨u, hu⟩ := hl
      rw [← hu] at hG
      exact (numbered_append.mp hG).1
    simp only [List.foldl_cons, lastIndex_zero hln]
    by_cases hi : x.index > l.length
    · rw [if_pos hi]
      have hkl : k = l.length := by omega
      have hap : append l x = l ++ [x] := by
        unfold append; rw [if_pos (by omega)]
      have hl' : l ++ [x] <+: G := by
        rw [List.prefix_iff_eq_take] at hl ⊢
        rw [List.length_append, List.length_singleton, ← hkl, List.take_succ_eq_append_getElem hklt, ← hx, hkl, ← hl]
      rw [hap]
      obtain ⟨h1, h2⟩ := merge_fold_prefix hG hc (k := k + 1) hl' ⟨t, ht⟩ (by simp; omega)
      exact ⟨h1, (List.prefix_append l [x]).trans h2⟩
    · rw [if_neg hi]
      exact merge_fold_prefix hG hc (k := k + 1) hl ⟨t, ht⟩ (by omega)

theorem takeWhile_all {p : Entry Op → Bool} : ∀ {l : List (Entry Op)}, (∀ e ∈ l, p e = true) → l.takeWhile p = l
  | [], _ => rfl
  | e :: l, h => by
    rw [List.takeWhile_cons_of_pos (h e List.mem_cons_self), takeWhile_all fun x hx => h x (List.mem_cons_of_mem _ hx)]

theorem merge_prefix {G l es : List (Entry Op)} {k : Nat} (hG : Numbered 0 G) (hc : G.length ≤ logSize) (hl : l <+: G) (he : es <+: G.drop k) (hk : k ≤ l.length) :
    merge l es <+: G ∧ l <+: merge l es := by
  have hrem : removeConflicting l es = l := by
    unfold removeConflicting
    apply takeWhile_all
    intro e hel
    simp only [Bool.not_eq_true', List.any_eq_false]
    intro x hx
    simp only [Bool.and_eq_true, beq_iff_eq, decide_eq_true_eq, not_and]
    intro hi
    have := numbered_eq hG (List.mem_of_mem_drop (he.subset hx)) (hl.subset hel) hi
    subst this
    omega
  unfold merge
  rw [hrem]
  exact merge_fold_prefix hG hc hl he hk

/-! ## The invariant -/

/-- All logs are beginnings of `G`, which a leader has whole. -/
structure Agree (ids : List Int) (G : List (Entry Op)) (w : World Op) : Prop where
  num : Numbered 0 G
  cap : G.length ≤ logSize
  logs : ∀ i ∈ ids, (w.nodes i).log <+: G
  leader : ∀ i ∈ ids, (w.nodes i).role = .leader → (w.nodes i).log = G
  holder : G = [] ∨ ∃ i ∈ ids, (w.nodes i).log = G
  applied : ∀ i ∈ ids, ∀ e ∈ (w.nodes i).applied, e ∈ G
  msg : ∀ x ∈ w.net, ∀ lc pt pi es, x.2.body = .appendRequest lc pt pi es → ∃ k : Nat, pi = k ∧ es <+: G.drop k

theorem Agree.init : Agree ids [] (World.init ids : World Op) where
  num := numbered_nil
  cap := Nat.zero_le _
  logs := fun _ _ => List.prefix_rfl
  leader := fun _ _ _ => rfl
  holder := .inl rfl
  applied := fun _ _ e he => by cases he
  msg := fun x hx => by cases hx

theorem drop_prefix {G G' es : List (Entry Op)} {k : Nat} (h : es <+: G.drop k) (hG : G <+: G') : es <+: G'.drop k := by
  obtain ⟨t, rfl⟩ := hG
  rw [List.drop_append]
  exact h.trans (List.prefix_append _ _)

theorem prefix_antisymm {a b : List (Entry Op)} (h1 : a <+: b) (h2 : b <+: a) : a = b :=
  h1.eq_of_length (Nat.le_antisymm h1.length_le h2.length_le)

/-- What a step does to the logs, if all logs agree before. -/
theorem agree_step {w w' : World Op} {a : Action Op} {G : List (Entry Op)} (hw : WInv ids w) (hA : Agree ids G w) (hs : Step ids w a w') (ha : ToLeader w a)
    (hh : Handover ids w w') :
    ∃ G', G <+: G' ∧ Agree ids G' w' ∧ (G' = G ∨ ∃ i ∈ ids, (w'.nodes i).role = .leader ∧ (w'.nodes i).log = G') ∧
      ∀ i ∈ ids, (w.nodes i).log <+: (w'.nodes i).log := by
  obtain ⟨hw', happ⟩ := step_good hw hs ha
  /- The general case: logs grow, `G'` is given. -/
  have key : ∀ G', G <+: G' → Numbered 0 G' → G'.length ≤ logSize → (∀ i ∈ ids, (w'.nodes i).log <+: G') →
      (∀ i ∈ ids, (w'.nodes i).role = .leader → (w'.nodes i).log = G') → (G' = [] ∨ ∃ i ∈ ids, (w'.nodes i).log = G') →
      (∀ x ∈ w'.net, ∀ lc pt pi es, x.2.body = .appendRequest lc pt pi es → x ∈ w.net ∨ ∃ k : Nat, pi = k ∧ es <+: G'.drop k) → Agree ids G' w' := by
    intro G' h1 h2 h3 h4 h5 h6 h7
    refine ⟨h2, h3, h4, h5, h6, ?_, ?_⟩
    · intro i hi e he
      obtain ⟨es, e1, _, e2⟩ := happ i hi
      rw [e1] at he
      rcases List.mem_append.mp he with he | he
      · exact h1.subset (hA.applied i hi e he)
      · exact (h4 i hi).subset (e2 e he)
    · intro x hx lc pt pi es hb
      rcases h7 x hx lc pt pi es hb with h | h
      · obtain ⟨k, k1, k2⟩ := hA.msg x h lc pt pi es hb
        exact ⟨k, k1, drop_prefix k2 h1⟩
      · exact h
  /- Logs unchanged, no new leader. -/
  have same : (∀ i ∈ ids, (w'.nodes i).log = (w.nodes i).log) → (∀ i ∈ ids, (w'.nodes i).role = .leader → (w.nodes i).role = .leader) →
      (∀ x ∈ w'.net, ∀ lc pt pi es, x.2.body = .appendRequest lc pt pi es → x ∈ w.net ∨ ∃ k : Nat, pi = k ∧ es <+: G.drop k) →
      ∃ G', G <+: G' ∧ Agree ids G' w' ∧ (G' = G ∨ ∃ i ∈ ids, (w'.nodes i).role = .leader ∧ (w'.nodes i).log = G') ∧
        ∀ i ∈ ids, (w.nodes i).log <+: (w'.nodes i).log := by
    intro h1 h2 h3
    refine ⟨G, List.prefix_rfl, key G List.prefix_rfl hA.num hA.cap ?_ ?_ ?_ h3, .inl rfl, ?_⟩
    · intro i hi; rw [h1 i hi]; exact hA.logs i hi
    · intro i hi hr; rw [h1 i hi]; exact hA.leader i hi (h2 i hi hr)
    · rcases hA.holder with h | ⟨i, hi, h⟩
      · exact .inl h
      · exact .inr ⟨i, hi, by rw [h1 i hi]; exact h⟩
    · intro i hi; rw [h1 i hi]
      exact List.prefix_rfl
  cases hs with
  | tick hi ht =>
    rename_i i r n out
    obtain ⟨t1, t2, t3⟩ := tick_log (hw.node i hi).num ht
    refine same ?_ ?_ ?_
    · intro j _
      simp only [World.set]
      split
      · rename_i e; subst e; exact t1
      · rfl
    · intro j _
      simp only [World.set]
      split
      · rename_i e; subst e; exact t2
      · exact id
    · intro x hx lc pt pi es hb
      rcases List.mem_append.mp hx with hx | hx
      · exact .inl hx
      · obtain ⟨h1, k, h2, _, h3⟩ := t3 x hx lc pt pi es hb
        refine .inr ⟨k, h2, ?_⟩
        rw [h3, hA.leader i hi h1]
        exact List.prefix_rfl
  | drop =>
    refine same (fun _ _ => rfl) (fun _ _ => id) ?_
    intro x hx _ _ _ _ _
    left
    simp only [List.mem_append, List.mem_cons] at hx ⊢
    rcases hx with h | h
    · exact .inl h
    · exact .inr (.inr h)
  | duplicate =>
    refine same (fun _ _ => rfl) (fun _ _ => id) ?_
    intro x hx _ _ _ _ _
    left
    simp only [List.mem_append, List.mem_cons, List.mem_singleton, List.not_mem_nil, or_false] at hx ⊢
    rcases hx with (h | h | h) | h
    · exact .inl h
    · exact .inr (.inl h)
    · exact .inr (.inr h)
    · exact .inr (.inl h)
  | replicate hi hr =>
    rename_i i op n
    obtain ⟨r1, r2⟩ := replicate_log hr
    have hn := hw'.node i hi
    have hl : (w.nodes i).role = .leader := ha
    have hG := hA.leader i hi hl
    have e1 : (w.set i n).nodes i = n := by simp [World.set]
    rw [e1] at hn
    have hgrow : ∀ j, (w.nodes j).log <+: ((w.set i n).nodes j).log := by
      intro j
      simp only [World.set]
      split
      · rename_i e; subst e; exact r1
      · exact List.prefix_rfl
    have hone := hh.1
    have hlead' : ((w.set i n).nodes i).role = .leader := by rw [e1, r2]; exact hl
    refine ⟨n.log, by rw [← hG]; exact r1, key n.log (by rw [← hG]; exact r1) hn.num hn.cap ?_ ?_ (.inr ⟨i, hi, by rw [e1]⟩) (fun x hx _ _ _ _ _ => .inl hx),
      .inr ⟨i, hi, hlead', by rw [e1]⟩, fun j _ => hgrow j⟩
    · intro j hj
      by_cases hji : j = i
      · subst hji; rw [e1]; exact List.prefix_rfl
      · have : (w.set i n).nodes j = w.nodes j := by simp [World.set, hji]
        rw [this]
        exact (hA.logs j hj).trans (by rw [← hG]; exact r1)
    · intro j hj hjl
      have := hone j hj i hi hjl hlead'
      subst this
      rw [e1]
  | deliver hsrt hp =>
    rename_i nodes pre post d m srt r n rep
    have hm := hw.msg (d, m) (by simp)
    have hd : d ∈ ids := hm.dst
    obtain ⟨hlog, hrep⟩ := process_log hp
    have hnet : ∀ G' : List (Entry Op), ∀ x ∈ pre ++ post ++ rep.toList.map (fun x => (m.fromId, x)), ∀ lc pt pi es, x.2.body = .appendRequest lc pt pi es →
        x ∈ pre ++ (d, m) :: post ∨ ∃ k : Nat, pi = k ∧ es <+: G'.drop k := by
      intro G' x hx lc pt pi es hb
      rcases List.mem_append.mp hx with hx | hx
      · left
        simp only [List.mem_append, List.mem_cons] at hx ⊢
        rcases hx with h | h
        · exact .inl h
        · exact .inr (.inr h)
      · obtain ⟨y, hy, rfl⟩ := List.mem_map.mp hx
        exact absurd hb (hrep y (by simpa using hy) lc pt pi es)
    have e1 : (World.set ⟨nodes, pre ++ post⟩ d n).nodes d = n := by simp [World.set]
    have e2 : ∀ j, j ≠ d → (World.set ⟨nodes, pre ++ post⟩ d n).nodes j = nodes j := by
      intro j hj; simp [World.set, hj]
    have hone := hh.1
    have hnew := hh.2
    simp only at hone hnew
    rcases hlog with hlog | ⟨hrole, lc, pt, pi, es, hb, hlog, hprev⟩
    · have hsame : ∀ j, ((World.set ⟨nodes, pre ++ post⟩ d n).nodes j).log = (nodes j).log := by
        intro j
        by_cases hj : j = d
        · subst hj; rw [e1]; exact hlog
        · rw [e2 j hj]
      by_cases hlead : n.role = .leader ∧ (nodes d).role ≠ .leader
      · have hpre := hnew d hd (by rw [e1]; exact hlead.1) hlead.2
        rw [e1] at hpre
        have hGn : G <+: n.log := by
          rcases hA.holder with h | ⟨i, hi, h⟩
          · rw [h]; exact List.nil_prefix
          · have := hpre i hi
            rw [hsame] at this
            simp only at h
            rwa [h] at this
        have hn := hw'.node d hd
        simp only [e1] at hn
        refine ⟨n.log, hGn, key n.log hGn hn.num hn.cap hpre ?_ (.inr ⟨d, hd, by simp only [e1]⟩) (hnet _), .inr ⟨d, hd, by simp only [e1]; exact hlead.1, by simp only [e1]⟩, ?_⟩
        · intro j hj hjl
          have := hone j hj d hd hjl (by rw [e1]; exact hlead.1)
          subst this
          simp only [e1]
        · intro j _
          simp only [hsame]
          exact List.prefix_rfl
      · refine same (fun j _ => hsame j) ?_ (hnet _)
        intro j _ hjl
        by_cases hj : j = d
        · subst hj
          simp only [e1] at hjl
          by_cases hx : (nodes j).role = .leader
          · exact hx
          · exact absurd ⟨hjl, hx⟩ hlead
        · simp only [e2 j hj] at hjl
          exact hjl
    · obtain ⟨k, rfl, hpre⟩ := hA.msg (d, m) (by simp) lc pt pi es hb
      have hbody := hm.body
      unfold BodyInv at hbody
      simp only [hb] at hbody
      obtain ⟨⟨k', hk', hpt, _, _⟩, _, _⟩ := hbody
      have hkk : k' = k := by omega
      subst hkk
      have hdlog := hA.logs d hd
      simp only at hdlog
      have hk : k' ≤ (nodes d).log.length := by
        by_cases h0 : k' = 0
        · omega
        · exact findEntry_length (hw.node d hd).num (hprev (by omega) (hpt (by omega)))
      obtain ⟨m1, m2⟩ := merge_prefix hA.num hA.cap hdlog hpre hk
      rw [← hlog] at m1 m2
      have hgrow : ∀ j, (nodes j).log <+: ((World.set ⟨nodes, pre ++ post⟩ d n).nodes j).log := by
        intro j
        by_cases hj : j = d
        · subst hj; rw [e1]; exact m2
        · rw [e2 j hj]
          exact List.prefix_rfl
      have hto : ∀ j ∈ ids, ((World.set ⟨nodes, pre ++ post⟩ d n).nodes j).log <+: G := by
        intro j hj
        by_cases hjd : j = d
        · subst hjd; rw [e1]; exact m1
        · rw [e2 j hjd]; exact hA.logs j hj
      have hfull : ∀ j ∈ ids, (nodes j).log = G → ((World.set ⟨nodes, pre ++ post⟩ d n).nodes j).log = G := by
        intro j hj h
        have := hgrow j
        rw [h] at this
        exact prefix_antisymm (hto j hj) this
      refine ⟨G, List.prefix_rfl, key G List.prefix_rfl hA.num hA.cap hto ?_ ?_ (hnet _), .inl rfl, fun j _ => hgrow j⟩
      · intro j hj hjl
        apply hfull j hj
        apply hA.leader j hj
        by_cases hjd : j = d
        · subst hjd
          simp only [e1] at hjl
          exact hrole hjl
        · simp only [e2 j hjd] at hjl
          exact hjl
      · rcases hA.holder with h | ⟨i, hi, h⟩
        · exact .inl h
        · exact .inr ⟨i, hi, hfull i hi h⟩

/-- The invariant of the executions in which leadership is handed over completely. -/
theorem run_agree {w : World Op} {ok} (hok : ∀ w a w', ok w a w' → ToLeader w a ∧ Handover ids w w') (h : Run ids ok w) : ∃ G, Agree ids G w := by
  induction h with
  | init => exact ⟨[], Agree.init⟩
  | step hrun hs ha ih =>
    obtain ⟨G, hG⟩ := ih
    obtain ⟨h1, h2⟩ := hok _ _ _ ha
    obtain ⟨G', _, h3, _⟩ := agree_step (run_inv (fun w a w' h => (hok w a w' h).1) hrun) hG hs h1 h2
    exact ⟨G', h3⟩

/-- With a single leader ever, leadership is always handed over completely, and its log has all entries. -/
theorem run_single {w : World Op} {L : Int} (hL : L ∈ ids) {ok} (hok : ∀ w a w', ok w a w' → ToLeader w a ∧ OnlyLeader ids L w') (h : Run ids ok w) :
    Agree ids (w.nodes L).log w ∧ Run ids (fun w a w' => ok w a w' ∧ Handover ids w w') w := by
  induction h with
  | init => exact ⟨Agree.init, .init⟩
  | step hrun hs ha ih =>
    rename_i w a w'
    obtain ⟨hA, hr⟩ := ih
    obtain ⟨h1, h2⟩ := hok _ _ _ ha
    have hw := run_inv (fun w a w' h => (hok w a w' h).1) hrun
    have hlogs : ∀ i ∈ ids, (w'.nodes i).role = .leader → (w.nodes i).role ≠ .leader → ∀ j ∈ ids, (w'.nodes j).log = (w.nodes j).log := by
      intro i hi hl hnl j hj
      cases hs with
      | tick hi' ht =>
        rename_i i' r n out
        obtain ⟨t1, t2, _⟩ := tick_log (hw.node i' hi').num ht
        simp only [World.set] at hl ⊢
        split
        · rename_i e; subst e; exact t1
        · rfl
      | drop => rfl
      | duplicate => rfl
      | replicate hi' hr' =>
        rename_i i' op n
        obtain ⟨_, r2⟩ := replicate_log hr'
        exfalso
        apply hnl
        simp only [World.set] at hl
        split at hl
        · rename_i e; subst e; rw [← r2]; exact hl
        · exact hl
      | deliver hsrt hp =>
        rename_i nodes pre post d m srt r n rep
        simp only [World.set] at hl ⊢
        have hid : i = d := by
          by_cases e : i = d
          · exact e
          · rw [if_neg e] at hl; exact absurd hl hnl
        subst hid
        rw [if_pos rfl] at hl
        split
        · rename_i e; subst e
          rcases (process_log hp).1 with h | ⟨h, _⟩
          · exact h
          · exact absurd (h hl) hnl
        · rfl
    have hh : Handover ids w w' := by
      refine ⟨fun i hi j hj hi' hj' => by rw [h2 i hi hi', h2 j hj hj'], ?_⟩
      intro i hi hl hnl j hj
      have := h2 i hi hl
      subst this
      rw [hlogs i hi hl hnl j hj, hlogs i hi hl hnl i hi]
      exact hA.logs j hj
    obtain ⟨G', g1, g2, g3, g4⟩ := agree_step hw hA hs h1 hh
    refine ⟨?_, .step hr hs ⟨ha, hh⟩⟩
    have : (w'.nodes L).log = G' := by
      rcases g3 with rfl | ⟨i, hi, hl, he⟩
      · exact prefix_antisymm (g2.logs L hL) (g4 L hL)
      · rw [← h2 i hi hl]; exact he
    rw [this]
    exact g2

end Verif.Raft
