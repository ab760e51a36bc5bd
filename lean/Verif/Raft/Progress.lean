import Verif.Raft.Rounds
import Mathlib.Data.List.Nodup

/-!
# Raft: invariants of an undisturbed cluster

An execution is undisturbed when no message is lost or duplicated, no follower's timer runs out, and the leader sends the next heartbeats
only when the messages of the previous ones have arrived. The order of the deliveries is free.
-/

namespace Verif.Raft

namespace Spec

variable {Op : Type}

/-- The steps of an undisturbed execution with leader `L`. -/
def Calm (L : Int) (w : World Op) : Action Op → Prop
  | .tick i => ((w.nodes i).role = .leader → i = L ∧ (0 < (w.nodes i).heartbeat ∨ w.net = [])) ∧ ((w.nodes i).role ≠ .leader → 0 < (w.nodes i).election)
  | .deliver _ _ => True
  | _ => False

/-- Whether a step sends heartbeats. -/
def beats (w : World Op) : Action Op → Nat
  | .tick i => if (w.nodes i).role = .leader ∧ (w.nodes i).heartbeat ≤ 0 then 1 else 0
  | _ => 0

/-- `Path ids L w b w'`: an undisturbed execution from `w` to `w'`, in which heartbeats are sent `b` times. -/
inductive Path (ids : List Int) (L : Int) (w : World Op) : Nat → World Op → Prop where
  | refl : Path ids L w 0 w
  | step {b a w' w''} : Path ids L w b w' → Step ids w' a w'' → Calm L w' a → Path ids L w (b + beats w' a) w''

/-- The operations are submitted to `c`, one after the other. -/
inductive Submit (ids : List Int) (c : Int) (w : World Op) : List Op → World Op → Prop where
  | nil : Submit ids c w [] w
  | snoc {ops op w' w''} : Submit ids c w ops w' → Step ids w' (.replicate c op) w'' → Submit ids c w (ops ++ [op]) w''

end Spec

open Spec

variable {Op : Type} {G : List (Entry Op)} {P : List Int} {L t : Int} {b : Nat} {ids : List Int}

/-! ## The messages under way, by peer -/

def upd (fl : Int → Option (Int × Msg Op)) (p : Int) (v : Option (Int × Msg Op)) : Int → Option (Int × Msg Op) := fun i => if i = p then v else fl i

theorem upd_same (fl : Int → Option (Int × Msg Op)) (p : Int) (v) : upd fl p v p = v := by simp [upd]

theorem upd_other (fl : Int → Option (Int × Msg Op)) {p i : Int} (h : i ≠ p) (v) : upd fl p v i = fl i := by simp [upd, h]

theorem filterMap_erase (hnd : P.Nodup) {p : Int} (hp : p ∈ P) (fl : Int → Option (Int × Msg Op)) :
    (P.filterMap fl).Perm ((fl p).toList ++ (P.erase p).filterMap fl) := by
  have h1 := (List.perm_cons_erase hp).filterMap fl
  refine h1.trans (.of_eq ?_)
  rw [List.filterMap_cons]
  cases fl p <;> rfl

theorem net_upd (hnd : P.Nodup) {fl : Int → Option (Int × Msg Op)} {p : Int} (hp : p ∈ P) {a : Int × Msg Op} {pre post : List (Int × Msg Op)}
    (hfl : fl p = some a) (h : (pre ++ a :: post).Perm (P.filterMap fl)) (v : Option (Int × Msg Op)) :
    (pre ++ post ++ v.toList).Perm (P.filterMap (upd fl p v)) := by
  have h1 := h.trans (filterMap_erase hnd hp fl)
  rw [hfl] at h1
  have h2 : (pre ++ post).Perm ((P.erase p).filterMap fl) := by
    have := (List.perm_middle (a := a) (l₁ := pre) (l₂ := post)).symm.trans h1
    exact List.Perm.cons_inv this
  have h3 := filterMap_erase hnd hp (upd fl p v)
  have h4 : (P.erase p).filterMap (upd fl p v) = (P.erase p).filterMap fl := by
    apply List.filterMap_congr
    intro i hi
    have : i ≠ p := by
      rintro rfl
      exact (List.Nodup.mem_erase_iff hnd).mp hi |>.1 rfl
    exact upd_other fl this v
  rw [upd_same, h4] at h3
  exact (List.perm_append_comm.trans (h2.append_left _)).trans h3.symm

/-! ## Rounds of heartbeats -/

/-- What is known of a peer. Until it matches, its next index goes down by one with every round; there are at most ten. -/
def PeerOk (L t : Int) (G : List (Entry Op)) (b : Nat) (fl : Option (Int × Msg Op)) (n : Node Op) (q : Peer) : Prop :=
  ∃ x : Int, q.nextIndex = some x ∧ 0 ≤ x ∧ x ≤ G.length + 1 ∧ (q.matchIndex = 0 ∨ q.matchIndex = G.length) ∧
    ((fl = none ∧ ((n.log = G ∧ q.matchIndex = G.length ∧ x = G.length + 1) ∨ x + b ≤ 10) ∧ (13 ≤ b → n.commit = G.length)) ∨
     (1 ≤ b ∧ ∃ c : Int, fl = some (q.id, request t L G c x) ∧ c ≤ G.length ∧ (13 ≤ b → c = G.length) ∧
        ((n.log = G ∧ q.matchIndex = G.length ∧ x = G.length + 1) ∨ x + b ≤ 11)) ∨
     (1 ≤ b ∧ fl = some (L, ⟨0, q.id, .appendReply true G.length⟩) ∧ n.log = G ∧ (12 ≤ b → q.matchIndex = G.length) ∧ (13 ≤ b → n.commit = G.length)) ∨
     (1 ≤ b ∧ fl = some (L, ⟨0, q.id, .appendReply false 0⟩) ∧ 2 ≤ x ∧ x + b ≤ 11))

structure RInv (P : List Int) (L t : Int) (G : List (Entry Op)) (b : Nat) (fl : Int → Option (Int × Msg Op)) (w : World Op) : Prop where
  net : w.net.Perm (P.filterMap fl)
  role : (w.nodes L).role = .leader
  term : (w.nodes L).term = t
  id : (w.nodes L).id = L
  log : (w.nodes L).log = G
  peers : ((w.nodes L).peers.map (·.id)).Perm P
  commit0 : 0 ≤ (w.nodes L).commit
  commit : (w.nodes L).commit ≤ G.length
  applied : (w.nodes L).applied = G.take (w.nodes L).commit.toNat
  fol : ∀ p ∈ P, Following t G p (w.nodes p)
  peer : ∀ q ∈ (w.nodes L).peers, PeerOk L t G b (fl q.id) (w.nodes q.id) q
  done12 : 12 ≤ b → (∃ p ∈ P, fl p = none) → (w.nodes L).commit = G.length
  done13 : 13 ≤ b → (w.nodes L).commit = G.length

/-- The setting: the leader's log and the other nodes. -/
structure Setting (ids P : List Int) (L t : Int) (G : List (Entry Op)) : Prop where
  num : Numbered 0 G
  cap : G.length ≤ logSize
  pos : ∀ e ∈ G, 0 < e.term
  last : ∃ e ∈ G, e.index = G.length ∧ e.term = t
  nodup : P.Nodup
  leader : L ∉ P
  ne : P ≠ []
  ids : ∀ i ∈ ids, i = L ∨ i ∈ P

theorem set_nodes (w : World Op) (i : Int) (n : Node Op) (j : Int) : (w.set i n).nodes j = if j = i then n else w.nodes j := rfl

theorem peer_unique {ps : List Peer} (h : (ps.map (·.id)).Nodup) {q q' : Peer} (hq : q ∈ ps) (hq' : q' ∈ ps) (e : q.id = q'.id) : q = q' :=
  List.inj_on_of_nodup_map h hq hq' e

theorem RInv.peer_mem {fl : Int → Option (Int × Msg Op)} {w : World Op} (h : RInv P L t G b fl w) {q : Peer} (hq : q ∈ (w.nodes L).peers) : q.id ∈ P :=
  h.peers.mem_iff.mp (List.mem_map_of_mem hq)

theorem RInv.peer_of {fl : Int → Option (Int × Msg Op)} {w : World Op} (h : RInv P L t G b fl w) {p : Int} (hp : p ∈ P) :
    ∃ q ∈ (w.nodes L).peers, q.id = p := by
  obtain ⟨q, h1, h2⟩ := List.mem_map.mp (h.peers.mem_iff.mpr hp)
  exact ⟨q, h1, h2⟩

/-- A change of node `p` other than its log and of the message to or from it. -/
theorem RInv.follower {fl : Int → Option (Int × Msg Op)} {nodes : Int → Node Op} {pre post : List (Int × Msg Op)} {a : Int × Msg Op} (hS : Setting ids P L t G)
    (h : RInv P L t G b fl ⟨nodes, pre ++ a :: post⟩) {p : Int} (hp : p ∈ P) (hfl : fl p = some a) {n : Node Op} {v : Int × Msg Op}
    (hn : Following t G p n) (hq : ∀ q ∈ (nodes L).peers, q.id = p → PeerOk L t G b (some v) n q) :
    RInv P L t G b (upd fl p (some v)) { World.set ⟨nodes, pre ++ post⟩ p n with net := pre ++ post ++ [v] } := by
  have hLp : L ≠ p := fun e => hS.leader (e ▸ hp)
  have hL : ({ World.set ⟨nodes, pre ++ post⟩ p n with net := pre ++ post ++ [v] } : World Op).nodes L = nodes L := by
    simp only [World.set, if_neg hLp]
  refine ⟨net_upd hS.nodup hp hfl h.net (some v), by rw [hL]; exact h.role, by rw [hL]; exact h.term, by rw [hL]; exact h.id, by rw [hL]; exact h.log,
    by rw [hL]; exact h.peers, by rw [hL]; exact h.commit0, by rw [hL]; exact h.commit, by rw [hL]; exact h.applied, ?_, ?_, ?_, by rw [hL]; exact h.done13⟩
  · intro i hi
    simp only [World.set]
    split
    · rename_i e; rw [e]; exact hn
    · exact h.fol i hi
  · rw [hL]
    intro q hqm
    simp only [World.set]
    by_cases e : q.id = p
    · rw [if_pos e, e, upd_same]
      exact hq q hqm e
    · rw [if_neg e, upd_other _ e]
      exact h.peer q hqm
  · rw [hL]
    rintro h12 ⟨i, hi, hnone⟩
    by_cases e : i = p
    · rw [e, upd_same] at hnone; cases hnone
    · rw [upd_other _ e] at hnone
      exact h.done12 h12 ⟨i, hi, hnone⟩

/-- A reply is processed by the leader. -/
theorem RInv.lead {fl : Int → Option (Int × Msg Op)} {nodes : Int → Node Op} {pre post : List (Int × Msg Op)} {a : Int × Msg Op} (hS : Setting ids P L t G)
    (h : RInv P L t G b fl ⟨nodes, pre ++ a :: post⟩) {p : Int} (hp : p ∈ P) (hfl : fl p = some a) {n : Node Op}
    (hrole : n.role = .leader) (hterm : n.term = t) (hid : n.id = L) (hlog : n.log = G) (hpeers : (n.peers.map (·.id)).Perm P)
    (hc0 : 0 ≤ n.commit) (hc : n.commit ≤ G.length) (happ : n.applied = G.take n.commit.toNat)
    (hq : ∀ q ∈ n.peers, PeerOk L t G b (upd fl p none q.id) (nodes q.id) q) (hdone : 12 ≤ b → n.commit = G.length) :
    RInv P L t G b (upd fl p none) { World.set ⟨nodes, pre ++ post⟩ L n with net := pre ++ post ++ [] } := by
  have hL : ({ World.set ⟨nodes, pre ++ post⟩ L n with net := pre ++ post ++ [] } : World Op).nodes L = n := by
    simp only [World.set, if_true]
  have hne : ∀ i ∈ P, i ≠ L := fun i hi e => hS.leader (e ▸ hi)
  refine ⟨net_upd hS.nodup hp hfl h.net none, by rw [hL]; exact hrole, by rw [hL]; exact hterm, by rw [hL]; exact hid, by rw [hL]; exact hlog,
    by rw [hL]; exact hpeers, by rw [hL]; exact hc0, by rw [hL]; exact hc, by rw [hL]; exact happ, ?_, ?_, by rw [hL]; exact fun h _ => hdone h, by rw [hL]; exact fun h => hdone (by omega)⟩
  · intro i hi
    simp only [World.set, if_neg (hne i hi)]
    exact h.fol i hi
  · rw [hL]
    intro q hqm
    simp only [World.set, if_neg (hne q.id (hpeers.mem_iff.mp (List.mem_map_of_mem hqm)))]
    exact hq q hqm

theorem backed_id (p : Int) (q : Peer) : (backed p q).id = q.id := by unfold backed; split <;> rfl

theorem matched_id (p l : Int) (q : Peer) : (matched p l q).id = q.id := by unfold matched; split <;> rfl

theorem map_id_map (f : Peer → Peer) (hf : ∀ q, (f q).id = q.id) (ps : List Peer) : (ps.map f).map (·.id) = ps.map (·.id) := by
  rw [List.map_map]
  apply List.map_congr_left
  intro q _
  exact hf q

/-- Every message under way can be delivered, with a result that keeps the invariant; it is the only result. -/
theorem deliver_rinv {fl : Int → Option (Int × Msg Op)} {nodes : Int → Node Op} {pre post : List (Int × Msg Op)} {d : Int} {m : Msg Op} (hS : Setting ids P L t G)
    (h : RInv P L t G b fl ⟨nodes, pre ++ (d, m) :: post⟩) {srt : List Peer → List Peer} (hs : ∀ l, (srt l).Perm l) (r : Nat) :
    ∃ n rep, process srt r (nodes d) m = .ok (n, rep) ∧
      (∃ fl', RInv P L t G b fl'
        { World.set ⟨nodes, pre ++ post⟩ d n with net := pre ++ post ++ rep.toList.map fun x => (m.fromId, x) }) ∧
      (rep = none ∨ ∃ x, rep = some x ∧ m.body ≠ x.body ∧ d ≠ L ∧ m.fromId = L) := by
  have hmem : (d, m) ∈ P.filterMap fl := h.net.mem_iff.mp (by simp)
  obtain ⟨p, hp, hfl⟩ := List.mem_filterMap.mp hmem
  obtain ⟨q, hqm, hqid⟩ := h.peer_of hp
  subst hqid
  have hLp : L ≠ q.id := fun e => hS.leader (e ▸ hp)
  have hnd : ((nodes L).peers.map (·.id)).Nodup := h.peers.nodup_iff.mpr hS.nodup
  have hun : ∀ q' ∈ (nodes L).peers, q'.id = q.id → q' = q := fun q' hq' e => peer_unique hnd hq' hqm e
  have hok := h.peer q hqm
  rw [hfl] at hok
  obtain ⟨x, hx, hx0, hx1, hmi, hcase⟩ := hok
  have hfol : Following t G q.id (nodes q.id) := h.fol _ hp
  have hcap : G.length ≤ 10 := hS.cap
  have hpne : (nodes L).peers ≠ [] := List.ne_nil_of_mem hqm
  rcases hcase with ⟨hc, _⟩ | ⟨hb, c, hc, hcG, hc13, hm⟩ | ⟨hb, hc, hlog, hm12, hm13⟩ | ⟨hb, hc, hx2, hxb⟩
  · cases hc
  · -- a request arrives at the follower
    cases hc
    by_cases hsh : ((nodes q.id).log.length : Int) < x - 1
    · refine ⟨_, _, append_refuse hS.num hS.pos hfol hx1 hsh srt r, ?_, .inr ⟨_, rfl, by simp [request], hLp.symm, rfl⟩⟩
      refine ⟨_, RInv.follower hS h hp hfl (v := (L, ⟨0, q.id, .appendReply false 0⟩)) ⟨hfol.id, hfol.role, hfol.term, hfol.log, hfol.commit0, hfol.commit, hfol.applied⟩ ?_⟩
      intro q' hq' e
      rw [hun q' hq' e]
      refine ⟨x, hx, hx0, hx1, hmi, .inr (.inr (.inr ⟨hb, rfl, by omega, ?_⟩))⟩
      rcases hm with ⟨h1, h2, h3⟩ | h1
      · have : (nodes q.id).log.length = G.length := by rw [h1]
        omega
      · exact h1
    · obtain ⟨n', h1, h2, h3, h4, h5⟩ := append_take hS.num hS.cap (L := L) hfol hx1 (by omega) hcG srt r
      refine ⟨_, _, h1, ?_, .inr ⟨_, rfl, by simp [request], hLp.symm, rfl⟩⟩
      refine ⟨_, RInv.follower hS h hp hfl (v := (L, ⟨0, q.id, .appendReply true G.length⟩)) h2 ?_⟩
      intro q' hq' e
      rw [hun q' hq' e]
      refine ⟨x, hx, hx0, hx1, hmi, .inr (.inr (.inl ⟨hb, rfl, h3, ?_, ?_⟩))⟩
      · intro h12
        rcases hm with ⟨_, h, _⟩ | h
        · exact h
        · omega
      · intro h13
        have hcl := hfol.commit
        have := hfol.log.length_le
        have := hc13 h13
        rw [h4]
        omega
  · -- a positive reply arrives at the leader
    cases hc
    obtain ⟨new, h1, h2, h3, h4', h4⟩ := reply_taken hs hS.num hS.cap h.log r q.id hpne h.commit0 h.commit
    refine ⟨_, _, h1, ?_, .inl rfl⟩
    refine ⟨_, RInv.lead hS h hp hfl h.role h.term h.id h.log ?_ h2 h3 ?_ ?_ ?_⟩
    · exact ((hs _).map _).trans (by rw [map_id_map _ (matched_id q.id _)]; exact h.peers)
    · have hle : (nodes L).commit ≤ new := by
        apply h4'
        intro q' hq'
        obtain ⟨q0, hq0, rfl⟩ := List.mem_map.mp hq'
        by_cases e : q0.id = q.id
        · simp [matched, e]
        · rw [show matched q.id G.length q0 = q0 by simp [matched, e]]
          obtain ⟨_, _, _, _, hh, _⟩ := h.peer q0 hq0
          exact hh
      have := h.commit0
      simp only at this ⊢
      rw [h.applied]
      simp only
      rw [show (new - (nodes L).commit).toNat = new.toNat - (nodes L).commit.toNat by omega, take_append_take _ _ _ (by omega)]
    · intro q' hq'
      obtain ⟨q0, hq0, rfl⟩ := List.mem_map.mp ((hs _).mem_iff.mp hq')
      rw [matched_id]
      by_cases e : q0.id = q.id
      · rw [e, upd_same]
        refine ⟨G.length + 1, by simp [matched, e], by omega, by omega, by simp [matched, e], .inl ⟨rfl, .inl ⟨?_, by simp [matched, e], rfl⟩, ?_⟩⟩
        · exact hlog
        · exact hm13
      · rw [upd_other _ e, show matched q.id G.length q0 = q0 by simp [matched, e]]
        exact h.peer q0 hq0
    · intro h12
      refine h4 ?_ ?_
      · intro q' hq'
        obtain ⟨q0, hq0, rfl⟩ := List.mem_map.mp hq'
        by_cases e : q0.id = q.id
        · simp [matched, e]
        · rw [show matched q.id G.length q0 = q0 by simp [matched, e]]
          obtain ⟨y, _, hy0, _, _, hcs⟩ := h.peer q0 hq0
          rcases hcs with ⟨_, hh | hh, _⟩ | ⟨_, c, _, _, _, hh | hh⟩ | ⟨_, _, _, hh, _⟩ | ⟨_, _, _, hh⟩
          · exact hh.2.1
          · omega
          · exact hh.2.1
          · omega
          · exact hh h12
          · omega
      · obtain ⟨e, he, h5, h6⟩ := hS.last
        exact ⟨e, he, h5, by rw [h6]; exact h.term.symm⟩
  · -- a negative reply arrives at the leader
    cases hc
    have hall : ∀ q' ∈ (nodes L).peers, ∃ y : Int, q'.nextIndex = some y ∧ 0 ≤ y ∧ y ≤ 11 := by
      intro q' hq'
      obtain ⟨y, hy, hy0, hy1, _, _⟩ := h.peer q' hq'
      exact ⟨y, hy, hy0, by omega⟩
    refine ⟨_, _, reply_refused r q.id hall, ?_, .inl rfl⟩
    refine ⟨_, RInv.lead hS h hp hfl h.role h.term h.id h.log ?_ h.commit0 h.commit h.applied ?_ ?_⟩
    · show (((nodes L).peers.map (backed q.id)).map (·.id)).Perm P
      rw [map_id_map _ (backed_id q.id)]; exact h.peers
    · intro q' hq'
      obtain ⟨q0, hq0, rfl⟩ := List.mem_map.mp hq'
      rw [backed_id]
      by_cases e : q0.id = q.id
      · have := hun q0 hq0 e
        subst this
        rw [e, upd_same]
        refine ⟨x - 1, by simp [backed, e, hx], by omega, by omega, by simpa [backed, e] using hmi, .inl ⟨rfl, .inr (by omega), by omega⟩⟩
      · rw [upd_other _ e, show backed q.id q0 = q0 by simp [backed, e]]
        exact h.peer q0 hq0
    · omega

theorem tick_wait {n n' : Node Op} {r : Nat} {out} (h : tick n r = .ok (n', out)) (h1 : n.role = .leader → 0 < n.heartbeat)
    (h2 : n.role ≠ .leader → 0 < n.election) : out = [] ∧ ∃ a e : Int, n' = { n with heartbeat := a, election := e } := by
  unfold tick at h
  by_cases hr : n.role = .leader
  · rw [if_pos hr, tickHeartbeat, if_pos (h1 hr)] at h
    cases h
    exact ⟨rfl, _, _, rfl⟩
  · rw [if_neg hr, tickElection, if_pos (h2 hr)] at h
    cases h
    exact ⟨rfl, _, _, rfl⟩

theorem RInv.wait {fl : Int → Option (Int × Msg Op)} {w : World Op} (h : RInv P L t G b fl w) (i a e : Int) :
    RInv P L t G b fl { w.set i { w.nodes i with heartbeat := a, election := e } with net := w.net ++ [] } := by
  have hn : ∀ j, ∃ a' e' : Int, ({ w.set i { w.nodes i with heartbeat := a, election := e } with net := w.net ++ [] } : World Op).nodes j =
      { w.nodes j with heartbeat := a', election := e' } := by
    intro j
    simp only [World.set]
    split
    · rename_i e; subst e; exact ⟨_, _, rfl⟩
    · exact ⟨(w.nodes j).heartbeat, (w.nodes j).election, rfl⟩
  obtain ⟨a1, e1, hL⟩ := hn L
  refine ⟨by rw [List.append_nil]; exact h.net, by rw [hL]; exact h.role, by rw [hL]; exact h.term, by rw [hL]; exact h.id, by rw [hL]; exact h.log,
    by rw [hL]; exact h.peers, by rw [hL]; exact h.commit0, by rw [hL]; exact h.commit, by rw [hL]; exact h.applied, ?_, ?_,
    by rw [hL]; exact h.done12, by rw [hL]; exact h.done13⟩
  · intro p hp
    obtain ⟨a2, e2, hp2⟩ := hn p
    rw [hp2]
    have := h.fol p hp
    exact ⟨this.id, this.role, this.term, this.log, this.commit0, this.commit, this.applied⟩
  · rw [hL]
    intro q hq
    obtain ⟨a2, e2, hp2⟩ := hn q.id
    rw [hp2]
    exact h.peer q hq

theorem filterMap_nil {fl : Int → Option (Int × Msg Op)} (h : P.filterMap fl = []) : ∀ p ∈ P, fl p = none := by
  intro p hp
  rw [List.filterMap_eq_nil_iff] at h
  exact h p hp

/-- The leader sends the heartbeats of the next round. -/
theorem RInv.beat {fl : Int → Option (Int × Msg Op)} {w : World Op} (hS : Setting ids P L t G) (h : RInv P L t G b fl w) (hnet : w.net = [])
    {r : Nat} {n : Node Op} {out} (hhb : (w.nodes L).heartbeat ≤ 0) (ht : tick (w.nodes L) r = .ok (n, out)) :
    ∃ fl', RInv P L t G (b + 1) fl' { w.set L n with net := w.net ++ out } := by
  have hnone : ∀ p ∈ P, fl p = none := filterMap_nil (by have := h.net; rw [hnet] at this; exact this.symm.eq_nil)
  have hidle : ∀ q ∈ (w.nodes L).peers, ∃ x : Int, q.nextIndex = some x ∧ 0 ≤ x ∧ x ≤ G.length + 1 ∧ (q.matchIndex = 0 ∨ q.matchIndex = G.length) ∧
      (((w.nodes q.id).log = G ∧ q.matchIndex = G.length ∧ x = G.length + 1) ∨ x + b ≤ 10) ∧ (13 ≤ b → (w.nodes q.id).commit = G.length) := by
    intro q hq
    obtain ⟨x, h1, h2, h3, hmi, hc⟩ := h.peer q hq
    rw [hnone q.id (h.peer_mem hq)] at hc
    rcases hc with ⟨_, hc⟩ | ⟨_, c, hc, _⟩ | ⟨_, hc, _⟩ | ⟨_, hc, _⟩
    · exact ⟨x, h1, h2, h3, hmi, hc⟩
    all_goals cases hc
  have hmap := mapM_request hS.num hS.cap h.log (fun q => q.nextIndex.getD 0) (ps := (w.nodes L).peers) (by
    intro q hq
    obtain ⟨x, h1, _, h3, _⟩ := hidle q hq
    rw [h1]
    exact ⟨rfl, h3⟩)
  unfold tick at ht
  rw [if_pos h.role, tickHeartbeat, if_neg (by omega), hmap] at ht
  cases ht
  have hnd : ((w.nodes L).peers.map (·.id)).Nodup := h.peers.nodup_iff.mpr hS.nodup
  let send : Peer → Int × Msg Op := fun q => (q.id, request (w.nodes L).term (w.nodes L).id G (w.nodes L).commit (q.nextIndex.getD 0))
  let fl' : Int → Option (Int × Msg Op) := fun p => ((w.nodes L).peers.find? (fun q => q.id == p)).map send
  have hfl' : ∀ q ∈ (w.nodes L).peers, fl' q.id = some (send q) := by
    intro q hq
    show ((w.nodes L).peers.find? (fun q' => q'.id == q.id)).map send = _
    cases hf : (w.nodes L).peers.find? (fun q' => q'.id == q.id) with
    | none =>
      have := List.find?_eq_none.mp hf q hq
      simp at this
    | some q' =>
      have h1 := List.find?_some hf
      have h2 := List.mem_of_find?_eq_some hf
      rw [peer_unique hnd h2 hq (by simpa using h1)]
      rfl
  have hne : ∀ i ∈ P, i ≠ L := fun i hi e => hS.leader (e ▸ hi)
  refine ⟨fl', ?_⟩
  have hL : ({ w.set L { w.nodes L with heartbeat := heartbeatPeriod - 1 } with net := w.net ++ (w.nodes L).peers.map send } : World Op).nodes L =
      { w.nodes L with heartbeat := heartbeatPeriod - 1 } := by simp only [World.set, if_true]
  have hcommit : 13 ≤ b + 1 → (w.nodes L).commit = G.length := by
    intro h13
    obtain ⟨p, hp⟩ := List.exists_mem_of_ne_nil _ hS.ne
    exact h.done12 (by omega) ⟨p, hp, hnone p hp⟩
  show RInv P L t G (b + 1) fl' ({ w.set L { w.nodes L with heartbeat := heartbeatPeriod - 1 } with net := w.net ++ (w.nodes L).peers.map send } : World Op)
  refine ⟨?_, by rw [hL]; exact h.role, by rw [hL]; exact h.term, by rw [hL]; exact h.id, by rw [hL]; exact h.log,
    by rw [hL]; exact h.peers, by rw [hL]; exact h.commit0, by rw [hL]; exact h.commit, by rw [hL]; exact h.applied, ?_, ?_, ?_, by rw [hL]; exact hcommit⟩
  · show (w.net ++ (w.nodes L).peers.map send).Perm _
    rw [hnet, List.nil_append]
    refine List.Perm.trans (.of_eq ?_) (h.peers.filterMap fl')
    rw [List.filterMap_map]
    clear hnd hmap
    rw [← List.filterMap_eq_map]
    apply List.filterMap_congr
    intro q hq
    exact (hfl' q hq).symm
  · intro i hi
    simp only [World.set, if_neg (hne i hi)]
    exact h.fol i hi
  · rw [hL]
    intro q hq
    have hq : q ∈ (w.nodes L).peers := hq
    simp only [World.set, if_neg (hne q.id (h.peer_mem hq))]
    rw [hfl' q hq]
    obtain ⟨x, h1, h2, h3, hmi, h4, h5⟩ := hidle q hq
    refine ⟨x, h1, h2, h3, hmi, .inr (.inl ⟨by omega, (w.nodes L).commit, ?_, h.commit, hcommit, ?_⟩)⟩
    · show some (q.id, request (w.nodes L).term (w.nodes L).id G (w.nodes L).commit (q.nextIndex.getD 0)) = _
      rw [h1, h.term, h.id]
      rfl
    · rcases h4 with h4 | h4
      · exact .inl h4
      · exact .inr (by omega)
  · rintro _ ⟨p, hp, hn⟩
    obtain ⟨q, hq, rfl⟩ := h.peer_of hp
    rw [hfl' q hq] at hn
    cases hn

theorem step_rinv {fl : Int → Option (Int × Msg Op)} {w w' : World Op} {a : Action Op} (hS : Setting ids P L t G) (h : RInv P L t G b fl w)
    (hs : Step ids w a w') (hc : Calm L w a) : ∃ fl', RInv P L t G (b + beats w a) fl' w' := by
  cases hs with
  | @tick _ i r n out hi ht =>
    obtain ⟨h1, h2⟩ := hc
    by_cases hb : (w.nodes i).role = .leader ∧ (w.nodes i).heartbeat ≤ 0
    · obtain ⟨rfl, hnet⟩ := h1 hb.1
      have hnet : w.net = [] := by
        rcases hnet with h | h
        · omega
        · exact h
      simp only [beats, if_pos hb]
      exact h.beat hS hnet hb.2 ht
    · simp only [beats, if_neg hb]
      obtain ⟨rfl, a, e, rfl⟩ := tick_wait ht (fun hr => by
        have : ¬ (w.nodes i).heartbeat ≤ 0 := fun hh => hb ⟨hr, hh⟩
        omega) h2
      exact ⟨fl, h.wait i a e⟩
  | @deliver nodes pre post d m srt r n rep hsrt hp =>
    obtain ⟨n', rep', h1, h2, _⟩ := deliver_rinv hS h hsrt r
    rw [hp] at h1
    cases h1
    exact h2
  | drop => cases hc
  | duplicate => cases hc
  | replicate => cases hc

theorem path_rinv {fl : Int → Option (Int × Msg Op)} {w w' : World Op} {k : Nat} (hS : Setting ids P L t G) (h : RInv P L t G b fl w)
    (hp : Path ids L w k w') : ∃ fl', RInv P L t G (b + k) fl' w' := by
  induction hp with
  | refl => exact ⟨fl, h⟩
  | step hp hs hc ih =>
    obtain ⟨fl', h'⟩ := ih
    rw [← Nat.add_assoc]
    exact step_rinv hS h' hs hc

/-- After thirteen rounds everything has arrived everywhere. -/
theorem RInv.final {fl : Int → Option (Int × Msg Op)} {w : World Op} (hS : Setting ids P L t G) (h : RInv P L t G b fl w) (hb : 13 ≤ b) (hnet : w.net = []) :
    ∀ i ∈ ids, (w.nodes i).log = G ∧ (w.nodes i).commit = G.length ∧ (w.nodes i).applied = G := by
  have hnone : ∀ p ∈ P, fl p = none := filterMap_nil (by have := h.net; rw [hnet] at this; exact this.symm.eq_nil)
  intro i hi
  rcases hS.ids i hi with rfl | hp
  · refine ⟨h.log, h.done13 hb, ?_⟩
    rw [h.applied, h.done13 hb, Int.toNat_natCast, List.take_length]
  · obtain ⟨q, hq, rfl⟩ := h.peer_of hp
    obtain ⟨x, h1, h2, h3, _, hc⟩ := h.peer q hq
    rw [hnone q.id hp] at hc
    rcases hc with ⟨_, hc, hc13⟩ | ⟨_, c, hc, _⟩ | ⟨_, hc, _⟩ | ⟨_, hc, _⟩
    · have hlog : (w.nodes q.id).log = G := by
        rcases hc with hc | hc
        · exact hc.1
        · omega
      refine ⟨hlog, hc13 hb, ?_⟩
      rw [(h.fol _ hp).applied, hlog, hc13 hb, Int.toNat_natCast, List.take_length]
    all_goals cases hc

end Verif.Raft
