import Verif.Chain.Props

/-!
# Motor commands from the master to the motor boards: commands arrive, silence stops (C114)
-/

namespace Verif.Chain

open Motors (F Msg)
open BusEnum (assoc)

variable {val : F → ℚ}

/-! ## What the master sends to a node -/

theorem known_ids_nodup (cap : Nat) (es : List Ev) : ((known cap es).ids.map Prod.snd).Nodup := by
  induction es using List.reverseRecOn with
  | nil => exact List.nodup_nil
  | append_singleton es e ih =>
    by_cases ho : ∃ x, e = .op x
    · obtain ⟨x, rfl⟩ := ho
      rw [known_op]
      cases x with
      | announce n id =>
        simp only [Motors.Spec.step]
        split
        · rename_i h
          simp only [List.map_append, List.map_cons, List.map_nil]
          rw [List.nodup_append]
          refine ⟨ih, List.nodup_singleton _, ?_⟩
          intro a ha b hb
          rw [List.mem_singleton.mp hb]
          intro e
          exact h.1 (e ▸ ha)
        · exact ih
      | create n => simp only [Motors.Spec.step]; split <;> exact ih
      | _ => exact ih
    · rw [known_other cap es fun x hx => ho ⟨x, hx⟩]
      exact ih

/-- Motor `k` of the master keeps its command. -/
def Keeps (k : Nat) (n : BusEnum.Name) (es : List Ev) : Prop := .op (.disable k) ∉ es ∧ ∀ m v, .op (.set n m v) ∉ es

theorem keeps_step {cap k : Nat} {σ : Motors.Spec} {n : BusEnum.Name} {mode : Motors.Mode} {v : F} {x : Motors.Op} (h : σ.motors[k]? = some (n, mode, v))
    (h1 : x ≠ .disable k) (h2 : ∀ m v, x ≠ .set n m v) : (σ.step cap x).1.motors[k]? = some (n, mode, v) := by
  have hk : k < σ.motors.length := (List.getElem?_eq_some_iff.mp h).1
  cases x with
  | create a =>
    simp only [Motors.Spec.step]
    split
    · exact h
    · rw [List.getElem?_append_left hk]; exact h
  | set a m w =>
    have hn : n ≠ a := fun e => h2 m w (by rw [e])
    simp [Motors.Spec.step, h, hn]
  | disable j =>
    have hj : j ≠ k := fun e => h1 (by rw [e])
    simp [Motors.Spec.step, List.getElem?_modify, hj, h]
  | announce a id => simp only [Motors.Spec.step]; split <;> exact h
  | _ => exact h

theorem assoc_append_some {n : BusEnum.Name} {id : BitVec 8} {l m : List (BusEnum.Name × BitVec 8)} (h : assoc n l = some id) : assoc n (l ++ m) = some id := by
  induction l with
  | nil => cases h
  | cons p l ih =>
    simp only [List.cons_append, assoc] at h ⊢
    split at h
    · rename_i hp; rw [if_pos hp]; exact h
    · rename_i hp; rw [if_neg hp]; exact ih h

theorem ids_step {cap : Nat} {σ : Motors.Spec} {n : BusEnum.Name} {id : BitVec 8} (x : Motors.Op) (h : assoc n σ.ids = some id) : assoc n (σ.step cap x).1.ids = some id := by
  cases x with
  | create a => simp only [Motors.Spec.step]; split <;> exact h
  | announce a i =>
    simp only [Motors.Spec.step]
    split
    · exact assoc_append_some h
    · exact h
  | _ => exact h

theorem known_names_nodup {cap enCap : Nat} (h2 : enCap < 65536) {es : List Ev} (hok : MasterOk cap enCap es) : (known cap es).names.Nodup := by
  obtain ⟨m, β, -, -, h⟩ := Motors.run_ok (masterOps es) (Motors.init_rel (cap := cap) h2) hok
  exact h.names_nodup

/-- What a motor's node gets at a tick: its command and nothing else -/
theorem tick_msgs {σ : Motors.Spec} (hn : σ.names.Nodup) (hi : (σ.ids.map Prod.snd).Nodup) {k : Nat} {n : BusEnum.Name} {mode : Motors.Mode} {v : F} {id : BitVec 8}
    (hk : σ.motors[k]? = some (n, mode, v)) (ha : assoc n σ.ids = some id) {m : Msg} {cap : Nat} {x : Motors.Op} (hm : m ∈ (σ.step cap x).2) (hnode : m.node = id.toNat) :
    m = ⟨mode, id.toNat, v⟩ ∧ mode ≠ .disabled := by
  obtain ⟨-, n', id', v', mode', h1, h3, rfl, h4⟩ := step_msgs cap σ x hm
  have hid : id' = id := BitVec.eq_of_toNat_eq hnode
  subst hid
  have hname : n' = n := by
    have a := BusEnum.assoc_some ha
    have b := BusEnum.assoc_some h3
    have := List.inj_on_of_nodup_map hi a b rfl
    exact (congrArg Prod.fst this).symm
  subst hname
  have hmem : (n', mode, v) ∈ σ.motors := List.mem_iff_getElem?.mpr ⟨k, hk⟩
  have := List.inj_on_of_nodup_map hn h1 hmem rfl
  cases this
  exact ⟨rfl, h4⟩

theorem sent_extra {cap enCap : Nat} (h2 : enCap < 65536) {es1 es2 : List Ev} (hok : MasterOk cap enCap (es1 ++ es2)) {k : Nat} {n : BusEnum.Name} {mode : Motors.Mode} {v : F}
    {id : BitVec 8} (hk : (known cap es1).motors[k]? = some (n, mode, v)) (ha : assoc n (known cap es1).ids = some id) (hkeep : Keeps k n es2) :
    (known cap (es1 ++ es2)).motors[k]? = some (n, mode, v) ∧ assoc n (known cap (es1 ++ es2)).ids = some id ∧
    ∃ extra, sent cap (es1 ++ es2) = sent cap es1 ++ extra ∧ ∀ m ∈ extra, m.node = id.toNat → m = ⟨mode, id.toNat, v⟩ ∧ mode ≠ .disabled := by
  induction es2 using List.reverseRecOn with
  | nil => rw [List.append_nil]; exact ⟨hk, ha, [], by simp, by simp⟩
  | append_singleton es e ih =>
    rw [← List.append_assoc] at hok ⊢
    obtain ⟨i1, i2, extra, i3, i4⟩ := ih (masterOk_prefix hok) ⟨fun hm => hkeep.1 (List.mem_append_left _ hm), fun m w hm => hkeep.2 m w (List.mem_append_left _ hm)⟩
    by_cases ho : ∃ x, e = .op x
    · obtain ⟨x, rfl⟩ := ho
      rw [known_op, sent_op]
      refine ⟨keeps_step i1 ?_ ?_, ids_step x i2, extra ++ ((known cap (es1 ++ es)).step cap x).2, by rw [i3, List.append_assoc], ?_⟩
      · intro hx; exact hkeep.1 (by rw [hx]; simp)
      · intro m w hx; exact hkeep.2 m w (by rw [hx]; simp)
      · intro m hm hnode
        rcases List.mem_append.mp hm with hm | hm
        · exact i4 m hm hnode
        · exact tick_msgs (known_names_nodup h2 (masterOk_prefix hok)) (known_ids_nodup cap _) i1 i2 hm hnode
    · have ho : ∀ x, e ≠ .op x := fun x hx => ho ⟨x, hx⟩
      rw [known_other cap _ ho, sent_other cap _ ho]
      exact ⟨i1, i2, extra, i3, i4⟩

/-! ## Without loss -/

theorem moves_exact {i now : Nat} {b b2 : Board} {l : Prop} {fs : List Frame} {o2 : List Obs} (hm : Moves val i now l b fs b2 o2) (hl : ¬ l)
    (hr : b.run = .app) (hp : ∀ f ∈ b.inbox, ∃ m, f = .set m ∧ m.mode ≠ .disabled) :
    ∃ t : List Msg, takes i o2 = t.map Frame.set ∧ t ++ own b2.node b2.inbox = own b.node b.inbox ++ own b.node fs := by
  cases hm with
  | hear =>
    unfold Board.hear
    rw [if_pos hr]
    exact ⟨[], rfl, by simp [own_append]⟩
  | handle f fs hin =>
    obtain ⟨m, rfl, hmode⟩ := hp f (by rw [hin]; exact List.mem_cons_self)
    rw [hin]
    by_cases hn : m.node = b.node
    · have hh : Board.handle val now { b with inbox := fs } (.set m) = (Board.setpoint val { b with inbox := fs } now m.mode m.value, true) := by
        simp only [Board.handle]; rw [if_pos ⟨hn, hmode⟩]
      have hst : (Board.setpoint val { b with inbox := fs } now m.mode m.value).inbox = fs ∧
          (Board.setpoint val { b with inbox := fs } now m.mode m.value).node = b.node := by
        unfold Board.setpoint
        cases hmm : m.mode with
        | disabled => exact absurd hmm hmode
        | _ => exact ⟨rfl, rfl⟩
      simp only [hh, if_true]
      exact ⟨[m], by simp [takes], by simp [hst, own, hn]⟩
    · have hh : Board.handle val now { b with inbox := fs } (.set m) = ({ b with inbox := fs }, false) := by
        simp only [Board.handle]; rw [if_neg fun h => hn h.1]
      simp only [hh]
      exact ⟨[], rfl, by simp [own, hn]⟩
  | lose h => exact absurd h hl
  | measure p v per ip iv => exact ⟨[], rfl, by simp [own]⟩
  | param th => exact ⟨[], rfl, by simp [own]⟩
  | boot hb => rw [hr] at hb; cases hb

/-- One event on the bus, as the master's specification sees it -/
theorem onBus_sent {cap enCap : Nat} {es : List Ev} {s : Sys} {e : Ev} {o : List Obs} (hc : Common cap enCap es s o) (hok : MasterOk cap enCap (es ++ [e])) (hl : LowIds (es ++ [e]))
    (ha : Alone (es ++ [e])) : ∃ new, onBus s e = new.map wire ∧ sent cap (es ++ [e]) = sent cap es ++ new ∧ ∀ m ∈ new, m.node ≤ 127 := by
  by_cases ho : ∃ x, e = .op x
  · obtain ⟨x, rfl⟩ := ho
    obtain ⟨-, hax⟩ := masterOk_op hok
    obtain ⟨β, hβ⟩ := hc.master
    obtain ⟨m', β', e1, -⟩ := Motors.step_ok hβ x (by rw [hc.hcap, hc.henCap]; exact hax)
    rw [hc.hcap] at e1
    refine ⟨((known cap es).step cap x).2, by simp only [onBus, e1], sent_op cap es x, ?_⟩
    intro m hm
    obtain ⟨-, n, id, v, mode, -, h2, rfl, -⟩ := step_msgs cap _ _ hm
    exact known_low cap es (fun n id hm => hl n id (List.mem_append_left _ hm)) (n, id) (BusEnum.assoc_some h2)
  · have ho : ∀ x, e ≠ .op x := fun x hx => ho ⟨x, hx⟩
    refine ⟨[], ?_, by rw [sent_other cap es ho, List.append_nil], by simp⟩
    cases e with
    | op x => exact absurd rfl (ho x)
    | frame f => exact absurd (by simp) (ha f)
    | _ => rfl

/-- C114: without loss, a board takes exactly what waited for it and what the master sends to its node, in order; what it has not taken waits. -/
theorem takes_exact {cap enCap t0 : Nat} {ids : List (Nat × Nat)} (h2 : enCap < 65536) {es1 es2 : List Ev} {s1 s2 : Sys} {o1 o2 : List Obs}
    (h1 : run val (start cap enCap t0 ids) es1 = .ok (s1, o1)) (hr : run val s1 es2 = .ok (s2, o2))
    (hok : MasterOk cap enCap (es1 ++ es2)) (hl : LowIds (es1 ++ es2)) (ha : Alone (es1 ++ es2)) {i : Nat} {b1 : Board} (hb : s1.boards[i]? = some b1) (hlose : .lose i ∉ es2) :
    ∃ (b2 : Board) (t extra : List Msg), s2.boards[i]? = some b2 ∧ b2.run = .app ∧ b2.node = b1.node ∧ takes i o2 = t.map Frame.set ∧ sent cap (es1 ++ es2) = sent cap es1 ++ extra ∧
      t ++ own b1.node b2.inbox = own b1.node b1.inbox ++ extra.filter (·.node = b1.node) := by
  refine (run_inv (s := s1) (P := fun es s2 o2 => run val s1 es = .ok (s2, o2) ∧ (MasterOk cap enCap (es1 ++ es) → LowIds (es1 ++ es) → Alone (es1 ++ es) → .lose i ∉ es →
    ∃ (b2 : Board) (t extra : List Msg), s2.boards[i]? = some b2 ∧ b2.run = .app ∧ b2.node = b1.node ∧ takes i o2 = t.map Frame.set ∧ sent cap (es1 ++ es) = sent cap es1 ++ extra ∧
      t ++ own b1.node b2.inbox = own b1.node b1.inbox ++ extra.filter (·.node = b1.node))) ⟨rfl, ?_⟩ ?_ es2 hr).2 hok hl ha hlose
  · intro hok hl ha _
    have hc := common h2 h1 (by simpa using hok) (by simpa using hl) (by simpa using ha)
    exact ⟨b1, [], [], hb, (hc.plain i b1 hb).1, rfl, rfl, by simp, by simp⟩
  · intro es s o e s' o' ⟨hrun, ih⟩ hs
    refine ⟨run_append_ok hrun (run_single.mpr hs), fun hok hl ha hlose => ?_⟩
    rw [← List.append_assoc] at hok hl ha ⊢
    obtain ⟨b, t, extra, i1, i2, i3, i4, i5, i6⟩ := ih (masterOk_prefix hok) (lowIds_prefix hl) (alone_prefix ha) fun hm => hlose (List.mem_append_left _ hm)
    have hc := common h2 (run_append_ok h1 hrun) (masterOk_prefix hok) (lowIds_prefix hl) (alone_prefix ha)
    have hc2 := common_step hc hs hok hl ha
    obtain ⟨b', hb', hmv⟩ := step_moves hs i1
    obtain ⟨new, hn1, hn2, hn3⟩ := onBus_sent hc hok hl ha
    obtain ⟨t', ht1, ht2⟩ := moves_exact hmv (fun hx => hlose (by rw [hx]; simp)) i2 (hc.plain i b i1).2
    rw [hn1, own_wire hn3] at ht2
    have hnode := (moves_node hmv).1
    refine ⟨b', t ++ t', extra ++ new, hb', (hc2.plain i b' hb').1, hnode.trans i3, ?_, ?_, ?_⟩
    · rw [takes_append, i4, ← takes_filter i o', ht1, List.map_append]
    · rw [hn2, i5, List.append_assoc]
    · rw [hnode, i3] at ht2
      rw [List.append_assoc, ht2, ← List.append_assoc, i6, List.filter_append, List.append_assoc]

/-! ## Commands arrive -/

theorem latest_of_takes {i : Nat} {o1 o2 : List Obs} {l : List Frame} {f : Frame} (h : takes i o2 = l ++ [f]) (hb : ∀ t, Obs.booted i t ∉ o2) : latest i (o1 ++ o2) = some f := by
  induction o2 using List.reverseRecOn generalizing l f with
  | nil => simp [takes] at h
  | append_singleton os x ih =>
    rw [← List.append_assoc, latest_append]
    rw [takes_append] at h
    cases x with
    | took j t g =>
      by_cases hj : j = i
      · simp only [takes, hj, if_true] at h
        have := (List.append_inj_right' h rfl)
        simp only [List.cons.injEq, and_true] at this
        simp [hj, this]
      · simp only [takes, hj, if_false, List.append_nil] at h
        simp only [List.foldl_cons, List.foldl_nil, hj, if_false]
        exact ih h fun t hm => hb t (List.mem_append_left _ hm)
    | booted j t =>
      have hj : j ≠ i := fun e => hb t (by simp [e])
      simp only [takes, List.append_nil] at h
      simp only [List.foldl_cons, List.foldl_nil, hj, if_false]
      exact ih h fun t hm => hb t (List.mem_append_left _ hm)

/-- While only the master sends, no board starts anew. -/
theorem no_boot {cap enCap t0 : Nat} {ids : List (Nat × Nat)} (h2 : enCap < 65536) {es : List Ev} {s : Sys} {o : List Obs} (h : run val (start cap enCap t0 ids) es = .ok (s, o))
    (hok : MasterOk cap enCap es) (hl : LowIds es) (ha : Alone es) (i t : Nat) : Obs.booted i t ∉ o := by
  refine (run_inv (P := fun es s o => run val (start cap enCap t0 ids) es = .ok (s, o) ∧ (MasterOk cap enCap es → LowIds es → Alone es → ∀ i t, Obs.booted i t ∉ o)) ⟨rfl, by simp⟩ ?_ es h).2
    hok hl ha i t
  intro es s o e s' o' ⟨hrun, ih⟩ hs
  refine ⟨run_append_ok hrun (run_single.mpr hs), fun hok hl ha i t hm => ?_⟩
  rcases List.mem_append.mp hm with hm | hm
  · exact ih (masterOk_prefix hok) (lowIds_prefix hl) (alone_prefix ha) i t hm
  · have hc := common h2 hrun (masterOk_prefix hok) (lowIds_prefix hl) (alone_prefix ha)
    cases e with
    | boot j =>
      simp only [step, boot, Except.ok.injEq] at hs
      cases hj : s.boards[j]? with
      | none => rw [hj] at hs; cases hs; cases hm
      | some c =>
        rw [hj] at hs
        simp only at hs
        have := (hc.plain j c hj).1
        rw [if_neg (by rw [this]; simp)] at hs
        cases hs
        cases hm
    | deliver j =>
      simp only [step, deliver, Except.ok.injEq] at hs
      cases hj : s.boards[j]? with
      | none => rw [hj] at hs; cases hs; cases hm
      | some c =>
        rw [hj] at hs
        simp only at hs
        cases hin : c.inbox with
        | nil => rw [hin] at hs; cases hs; cases hm
        | cons f fs =>
          rw [hin] at hs
          cases hs
          split at hm <;> simp at hm
    | op x =>
      simp only [step] at hs
      cases hm' : Motors.step s.mgr x with
      | error e => rw [hm'] at hs; cases hs
      | ok p => rw [hm'] at hs; cases hs; cases hm
    | _ => cases hs; cases hm

/-- C114: a command arrives. From any point of any execution: at a tick of the timer motor `k` of the master has a command; afterwards it is not changed, and no frame of the board
with the motor's node id is lost; when nothing waits for the board any more, it pursues the command, whatever it was doing before, and whatever the delays and the other motors'
commands. -/
theorem command_arrives {cap enCap t0 : Nat} {ids : List (Nat × Nat)} (h2 : enCap < 65536) {es1 es2 : List Ev} {s1 s2 : Sys} {o1 o2 : List Obs}
    (h1 : run val (start cap enCap t0 ids) es1 = .ok (s1, o1)) (hr : run val s1 (.op .timer :: es2) = .ok (s2, o2))
    (hok : MasterOk cap enCap (es1 ++ .op .timer :: es2)) (hl : LowIds (es1 ++ .op .timer :: es2)) (ha : Alone (es1 ++ .op .timer :: es2))
    {k : Nat} {n : BusEnum.Name} {mode : Motors.Mode} {v : F} {id : BitVec 8} (hk : (known cap es1).motors[k]? = some (n, mode, v)) (hid : assoc n (known cap es1).ids = some id)
    (hmode : mode ≠ .disabled) (hkeep : Keeps k n es2) {i : Nat} {b : Board} (hb : s2.boards[i]? = some b) (hnode : b.node = id.toNat) (hlose : .lose i ∉ es2)
    (hempty : own b.node b.inbox = []) : b.run = .app ∧ Shows val b.ip (some (.set ⟨mode, b.node, v⟩)) := by
  have hi : i < s1.boards.length := by
    have : s2.boards.length = s1.boards.length := by
      refine run_inv (P := fun _ s _ => s.boards.length = s1.boards.length) rfl ?_ _ hr
      intro es s1 o1 e s2 o2 hp hs
      rw [step_length hs, hp]
    rw [← this]; exact (List.getElem?_eq_some_iff.mp hb).1
  obtain ⟨b', t, extra, q1, q2, q3, q4, q5, q6⟩ := takes_exact h2 h1 hr hok hl ha (List.getElem?_eq_getElem hi) (by
    intro hm
    rcases List.mem_cons.mp hm with hm | hm
    · cases hm
    · exact hlose hm)
  rw [hb] at q1
  cases q1
  obtain ⟨-, -, extra', e1, e2⟩ := sent_extra h2 hok hk hid ⟨by
      intro hm
      rcases List.mem_cons.mp hm with hm | hm
      · cases hm
      · exact hkeep.1 hm, by
      intro m w hm
      rcases List.mem_cons.mp hm with hm | hm
      · cases hm
      · exact hkeep.2 m w hm⟩
  rw [q5] at e1
  have := List.append_cancel_left e1
  subst this
  -- the tick sent the command
  have hmem : (⟨mode, id.toNat, v⟩ : Msg) ∈ extra := by
    have happ : es1 ++ .op .timer :: es2 = (es1 ++ [.op .timer]) ++ es2 := by simp
    have hpre : ∃ more, sent cap (es1 ++ .op .timer :: es2) = sent cap (es1 ++ [.op .timer]) ++ more := by
      rw [happ]
      unfold sent
      rw [masterOps_append, specRun_append]
      exact ⟨_, rfl⟩
    obtain ⟨more, hmore⟩ := hpre
    rw [sent_op, q5, List.append_assoc] at hmore
    rw [List.append_cancel_left hmore]
    apply List.mem_append_left
    refine List.mem_flatMap.mpr ⟨(n, mode, v), List.mem_iff_getElem?.mpr ⟨k, hk⟩, ?_⟩
    unfold Motors.Spec.msgs
    rw [hid]
    simp [hmode]
  rw [← q3, hempty, List.append_nil] at q6
  have hfil : ∃ l, extra.filter (·.node = b.node) = l ++ [⟨mode, b.node, v⟩] := by
    have hne : extra.filter (·.node = b.node) ≠ [] := by
      intro he
      have : (⟨mode, id.toNat, v⟩ : Msg) ∈ extra.filter (·.node = b.node) := List.mem_filter.mpr ⟨hmem, by simp [hnode]⟩
      rw [he] at this
      cases this
    refine ⟨(extra.filter (·.node = b.node)).dropLast, ?_⟩
    conv_lhs => rw [← List.dropLast_append_getLast hne]
    congr 2
    have hin := List.getLast_mem hne
    obtain ⟨m1, m2⟩ := List.mem_filter.mp hin
    have := (e2 _ m1 (by simpa [hnode] using m2)).1
    rw [this, hnode]
  obtain ⟨l, hl'⟩ := hfil
  have htake : takes i o2 = (own b.node s1.boards[i].inbox ++ l).map Frame.set ++ [.set ⟨mode, b.node, v⟩] := by
    rw [q4, q6, hl', ← List.append_assoc, List.map_append]; rfl
  have hrun := run_append_ok h1 hr
  have hlat := latest_of_takes (o1 := o1) htake (fun t hm => no_boot h2 hrun hok hl ha i t (List.mem_append_right _ hm))
  have := pursues_last hrun hb q2
  rw [hlat] at this
  exact ⟨q2, this⟩

/-! ## Silence stops -/

/-- C114: a motor whose driver is disabled stops. From any point of any execution at which motor `k` of the master is disabled and nothing waits for the board with its node id:
as long as it is not commanded again, whatever else happens, 0.3 s later the board's motor is cut and stays so (up to 2^31 us after its last setpoint). -/
theorem disabled_stops {cap enCap t0 : Nat} {ids : List (Nat × Nat)} (h2 : enCap < 65536) {es1 es2 : List Ev} {s1 s2 : Sys} {o1 o2 : List Obs}
    (h1 : run val (start cap enCap t0 ids) es1 = .ok (s1, o1)) (hr : run val s1 es2 = .ok (s2, o2))
    (hok : MasterOk cap enCap (es1 ++ es2)) (hl : LowIds (es1 ++ es2)) (ha : Alone (es1 ++ es2))
    {k : Nat} {n : BusEnum.Name} {v : F} {id : BitVec 8} (hk : (known cap es1).motors[k]? = some (n, .disabled, v)) (hid : assoc n (known cap es1).ids = some id)
    (hkeep : Keeps k n es2) {i : Nat} {b1 b : Board} (hb1 : s1.boards[i]? = some b1) (hnode : b1.node = id.toNat) (hempty : own b1.node b1.inbox = [])
    (hb : s2.boards[i]? = some b) (ht : s1.now + 300000 < s2.now) (hw : s2.now < since i t0 o1 + 2^31) (batt cascade : ℚ) (hbatt : batt ≠ 0) :
    ∃ out, b.drive s2.now batt cascade = some out ∧ out.volt = 0 ∧ out.pwm = some 0 := by
  have hrun := run_append_ok h1 hr
  have hc1 := common h2 h1 (masterOk_prefix hok) (lowIds_prefix hl) (alone_prefix ha)
  have hc2 := common h2 hrun hok hl ha
  -- nothing is taken
  have hnone : takes i o2 = [] := by
    refine (run_inv (s := s1) (P := fun es s2 o2 => run val s1 es = .ok (s2, o2) ∧ (MasterOk cap enCap (es1 ++ es) → LowIds (es1 ++ es) → Alone (es1 ++ es) → Keeps k n es →
      takes i o2 = [] ∧ ∃ b2 : Board, s2.boards[i]? = some b2 ∧ b2.node = id.toNat ∧ own b2.node b2.inbox = [])) ⟨rfl, fun _ _ _ _ => ⟨rfl, b1, hb1, hnode, hempty⟩⟩ ?_ es2 hr).2
      hok hl ha hkeep |>.1
    intro es s o e s' o' ⟨hrun, ih⟩ hs
    refine ⟨run_append_ok hrun (run_single.mpr hs), fun hok hl ha hkeep => ?_⟩
    rw [← List.append_assoc] at hok hl ha
    have hkeep' : Keeps k n es := ⟨fun hm => hkeep.1 (List.mem_append_left _ hm), fun m w hm => hkeep.2 m w (List.mem_append_left _ hm)⟩
    obtain ⟨i1, b2, i2, i3, i4⟩ := ih (masterOk_prefix hok) (lowIds_prefix hl) (alone_prefix ha) hkeep'
    have hc := common h2 (run_append_ok h1 hrun) (masterOk_prefix hok) (lowIds_prefix hl) (alone_prefix ha)
    obtain ⟨j1, j2, -⟩ := sent_extra h2 (masterOk_prefix hok) hk hid hkeep'
    obtain ⟨b3, hb3, hmv⟩ := step_moves hs i2
    obtain ⟨new, hn1, hn2, hn3⟩ := onBus_sent hc hok hl ha
    have hnew : own b2.node (new.map wire) = [] := by
      rw [own_wire hn3, List.filter_eq_nil_iff]
      intro m hm hmn
      simp only [decide_eq_true_eq] at hmn
      by_cases ho : ∃ x, e = .op x
      · obtain ⟨x, rfl⟩ := ho
        rw [sent_op] at hn2
        have := List.append_cancel_left hn2
        rw [← this] at hm
        exact (tick_msgs (known_names_nodup h2 (masterOk_prefix hok)) (known_ids_nodup cap _) j1 j2 hm (hmn.trans i3)).2 rfl
      · rw [sent_other cap _ fun x hx => ho ⟨x, hx⟩] at hn2
        have : new = [] := by
          have := congrArg List.length hn2
          simp at this
          exact this
        rw [this] at hm
        cases hm
    rw [hn1] at hmv
    obtain ⟨-, t, ht1, ht2⟩ := moves_common hmv (hc.plain i b2 i2).1 (hc.plain i b2 i2).2 (by
      intro f hf
      have := hc.plain
      obtain ⟨m, hm, rfl⟩ := List.mem_map.mp hf
      refine ⟨_, rfl, ?_⟩
      by_cases ho : ∃ x, e = .op x
      · obtain ⟨x, rfl⟩ := ho
        rw [sent_op] at hn2
        have := List.append_cancel_left hn2
        rw [← this] at hm
        obtain ⟨-, _, _, _, _, -, -, rfl, h4⟩ := step_msgs cap _ _ hm
        exact h4
      · rw [sent_other cap _ fun x hx => ho ⟨x, hx⟩] at hn2
        have : new = [] := by
          have := congrArg List.length hn2
          simp at this
          exact this
        rw [this] at hm
        cases hm) hnew (taken := []) (sent := []) (by rw [i4]; exact List.Sublist.refl _)
    have hnil := List.sublist_nil.mp ht2
    simp only [List.nil_append, List.append_eq_nil_iff] at hnil
    refine ⟨by rw [takes_append, i1, ← takes_filter i o', ht1, hnil.1]; rfl, b3, hb3, (moves_node hmv).1.trans i3, hnil.2⟩
  have hboot := fun t (hm : Obs.booted i t ∈ o2) => no_boot h2 hrun hok hl ha i t (List.mem_append_right _ hm)
  have hsince : since i t0 (o1 ++ o2) = since i t0 o1 := by
    rw [since_append]
    generalize since i t0 o1 = t1
    clear hrun hr hc2
    induction o2 with
    | nil => rfl
    | cons x os ih =>
      cases x with
      | took j t f =>
        have hj : j ≠ i := by
          intro e
          simp [takes, e] at hnone
        simp only [takes, hj, if_false] at hnone
        simp only [since, List.foldl_cons, hj, if_false]
        exact ih hnone fun t hm => hboot t (List.mem_cons_of_mem _ hm)
      | booted j t =>
        have hj : j ≠ i := fun e => hboot t (by simp [e])
        simp only [takes] at hnone
        simp only [since, List.foldl_cons, hj, if_false]
        exact ih hnone fun t hm => hboot t (List.mem_cons_of_mem _ hm)
  obtain ⟨out, d1, d2, d3, d4⟩ := cut_iff hrun hb (hc2.plain i b hb).1 batt cascade
  have hpast := (remembers h1 hb1).past
  rw [hsince] at d3
  have hmod : (s2.now - since i t0 o1) % 2^32 = s2.now - since i t0 o1 := Nat.mod_eq_of_lt (by omega)
  have hreset : out.reset = true := d3.mpr (.inr (by rw [hmod]; omega))
  exact ⟨out, d1, by rw [d2, hreset]; rfl, d4 hreset hbatt⟩

/-! ## Regular commands keep the motor alive -/

/-- The last setpoint of a board is the latest in time. -/
theorem since_mono {cap enCap t0 : Nat} {ids : List (Nat × Nat)} {es : List Ev} {s : Sys} {o : List Obs} (h : run val (start cap enCap t0 ids) es = .ok (s, o))
    {i : Nat} {b : Board} (hb : s.boards[i]? = some b) {t : Nat} {f : Frame} (ht : Obs.took i t f ∈ o) : t ≤ since i t0 o := by
  refine (board_inv (P := fun i now _ o => since i t0 o ≤ now ∧ ∀ t f, Obs.took i t f ∈ o → t ≤ since i t0 o) ?_ ?_ ?_ ?_ es h i b hb).2 t f ht
  · intro i b hb; exact ⟨Nat.le_refl _, by simp⟩
  · intro i now now' b o hn h; exact ⟨h.1.trans hn, h.2⟩
  · intro i now b o l fs b2 o2 h hm
    have key : o2 = [] ∨ (∃ f, o2 = [.took i now f]) ∨ o2 = [.booted i now] := by
      cases hm with
      | handle f fs hin => split <;> simp
      | boot hr => simp
      | _ => simp
    rcases key with rfl | ⟨g, rfl⟩ | rfl
    · simpa using h
    · have hsince : since i t0 (o ++ [.took i now g]) = now := by rw [since_append]; simp [since]
      rw [hsince]
      refine ⟨Nat.le_refl _, fun t f hm => ?_⟩
      rcases List.mem_append.mp hm with hm | hm
      · exact (h.2 t f hm).trans h.1
      · simp only [List.mem_singleton, Obs.took.injEq] at hm; omega
    · have hsince : since i t0 (o ++ [.booted i now]) = now := by rw [since_append]; simp [since]
      rw [hsince]
      refine ⟨Nat.le_refl _, fun t f hm => ?_⟩
      rcases List.mem_append.mp hm with hm | hm
      · exact (h.2 t f hm).trans h.1
      · simp at hm
  · intro i now b o o2 h
    have e : since i t0 (o ++ o2.filter (About i)) = since i t0 (o ++ o2) := by rw [since_append, since_append, since_filter]
    refine ⟨e ▸ h.1, fun t f hm => ?_⟩
    rw [← e]
    refine h.2 t f ?_
    rcases List.mem_append.mp hm with hm | hm
    · exact List.mem_append_left _ hm
    · exact List.mem_append_right _ (List.mem_filter.mpr ⟨hm, by simp [about_took]⟩)

/-- C114: while commands come regularly, the motor is not cut. Ticks at most `P` apart, at least one of any `K` successive ones taken by the board within `D` of the tick, and
`K P + D ≤ 0.3 s`: from the first `K P + D` on the control loop drives the motor, if the battery is good. With the 50 ms of the master, four of five frames may be lost. -/
theorem kept_alive {cap enCap t0 : Nat} {ids : List (Nat × Nat)} {es : List Ev} {s : Sys} {o : List Obs} (h : run val (start cap enCap t0 ids) es = .ok (s, o))
    {i : Nat} {b : Board} (hb : s.boards[i]? = some b) (hr : b.run = .app) (batt cascade : ℚ) (hbatt : b.lowBatt ≤ batt)
    (tick : Nat → Nat) (P D K : Nat) (hK : 0 < K) (hlim : K * P + D ≤ 300000) (h1 : ∀ j, tick j < tick (j + 1)) (h2 : ∀ j, tick (j + 1) ≤ tick j + P)
    (h3 : ∀ j, tick (j + (K - 1)) + D ≤ s.now → ∃ j', j ≤ j' ∧ j' < j + K ∧ ∃ t f, Obs.took i t f ∈ o ∧ tick j' ≤ t ∧ t ≤ tick j' + D)
    (h4 : tick 0 + K * P + D ≤ s.now) :
    ∃ out, b.drive s.now batt cascade = some out ∧ out.reset = false ∧ out.volt = if b.ip.mode = .volt then b.ip.voltage else cascade := by
  obtain ⟨out, d1, d2, d3, -⟩ := cut_iff h hb hr batt cascade
  have hmono : ∀ d j, tick j ≤ tick (j + d) := by
    intro d
    induction d with
    | zero => intro j; exact Nat.le_refl _
    | succ d ih => intro j; exact (ih j).trans (h1 (j + d)).le
  have hgrow : ∀ j, j ≤ tick j := by
    intro j
    induction j with
    | zero => exact Nat.zero_le _
    | succ j ih => have := h1 j; omega
  have hstep : ∀ d j, tick (j + d) ≤ tick j + d * P := by
    intro d
    induction d with
    | zero => intro j; simp
    | succ d ih =>
      intro j
      have a := ih j
      have c := h2 (j + d)
      have e : (d + 1) * P = d * P + P := by rw [Nat.add_mul, Nat.one_mul]
      rw [show j + (d + 1) = j + d + 1 from rfl]
      omega
  -- a tick between `K P + D` and `(K - 1) P + D` ago
  have hfind : ∃ j, s.now - (K * P + D) ≤ tick j ∧ tick j ≤ s.now - (K * P + D) + P := by
    have hex : ∃ j, s.now - (K * P + D) ≤ tick j := ⟨_, hgrow _⟩
    classical
    refine ⟨Nat.find hex, Nat.find_spec hex, ?_⟩
    cases hj : Nat.find hex with
    | zero => omega
    | succ j =>
      have hmin := Nat.find_min hex (m := j) (by omega)
      have := h2 j
      omega
  obtain ⟨j, j1, j2⟩ := hfind
  have hKP : (K - 1) * P + P = K * P := by
    obtain ⟨k, rfl⟩ : ∃ k, K = k + 1 := ⟨K - 1, by omega⟩
    simp [Nat.add_mul]
  have hs := hstep (K - 1) j
  obtain ⟨j', a1, a2, t, f, a3, a4, a5⟩ := h3 j (by omega)
  have hm := hmono (j' - j) j
  rw [show j + (j' - j) = j' by omega] at hm
  have hsince := since_mono h hb a3
  have hreset : out.reset = false := by
    cases hx : out.reset with
    | false => rfl
    | true =>
      rcases d3.mp hx with hl | ⟨hc, -⟩
      · exact absurd hbatt (not_le.mpr hl)
      · have := Nat.mod_le (s.now - since i t0 o) (2^32)
        omega
  exact ⟨out, d1, hreset, by rw [d2, hreset]; rfl⟩

/-! ## Emergency stop -/

/-- C114: once a board has handled an emergency stop, nothing drives its motor, whatever follows on the bus. -/
theorem emergency_stop {s s2 : Sys} {o : List Obs} {i : Nat} {b : Board} {fs : List Frame} (hb : s.boards[i]? = some b) (hin : b.inbox = .stop :: fs) (es : List Ev)
    (hr : run val s (.deliver i :: es) = .ok (s2, o)) : ∃ b2, s2.boards[i]? = some b2 ∧ ∀ now batt cascade, b2.drive now batt cascade = none := by
  obtain ⟨s1, o1, o2, r1, r2, -⟩ := run_append (a := [.deliver i]) hr
  rw [run_single] at r1
  have hi : i < s.boards.length := (List.getElem?_eq_some_iff.mp hb).1
  have hstop : ∃ b1, s1.boards[i]? = some b1 ∧ b1.run = .loader false ∧ b1.inbox = [] := by
    simp only [step, deliver, hb, hin, Except.ok.injEq] at r1
    cases r1
    exact ⟨_, by simp [hi]; rfl, rfl, rfl⟩
  obtain ⟨b2, q1, q2, -⟩ := run_inv (s := s1) (P := fun _ s _ => ∃ b1, s.boards[i]? = some b1 ∧ b1.run = .loader false ∧ b1.inbox = []) hstop (by
    intro es s1 o1 e s2 o2 ⟨b1, h1, h2, h3⟩ hs
    obtain ⟨b2, q1, hm⟩ := step_moves hs h1
    refine ⟨b2, q1, ?_⟩
    generalize onBus s1 e = w at hm
    generalize o2.filter (About i) = w2 at hm
    cases hm with
    | hear => unfold Board.hear; rw [if_neg (by rw [h2]; simp)]; exact ⟨h2, h3⟩
    | handle f fs hin => rw [h3] at hin; cases hin
    | lose => exact ⟨h2, by simp [h3]⟩
    | measure => exact ⟨h2, h3⟩
    | param => exact ⟨h2, h3⟩
    | boot hb => rw [h2] at hb; cases hb) es r2
  refine ⟨b2, q1, fun now batt cascade => ?_⟩
  unfold Board.drive
  rw [if_neg (by rw [q2]; simp)]

/-! ## An execution -/

/-- Two motors, two boards, one frame lost, one motor disabled in the end -/
def exampleEvs : List Ev :=
  [.op (.create [1]), .op (.create [2]), .op (.announce [1] 11), .op (.announce [2] 12), .op (.set [1] .voltage 5), .op (.set [2] .velocity 6), .op .timer, .lose 0, .advance 50000,
    .op (.set [1] .voltage 7), .op .timer, .advance 100, .deliver 1, .deliver 1, .deliver 0, .deliver 0, .deliver 0, .deliver 1, .deliver 1, .op (.disable 0), .advance 300001]

example : MasterOk 20 21 exampleEvs ∧ LowIds exampleEvs ∧ Alone exampleEvs := by
  refine ⟨?_, ?_, ?_⟩
  · unfold MasterOk masterOps exampleEvs
    simp [Motors.AllAllowed, Motors.Allowed, Motors.Spec.step, Motors.Spec.names]
  · intro n id hm
    simp [exampleEvs] at hm
    rcases hm with ⟨-, rfl⟩ | ⟨-, rfl⟩ <;> decide
  · intro f hm
    simp [exampleEvs] at hm

/-- The frames taken in the example, with their times -/
def exampleObs : Option (List Obs) :=
  match run (fun v => (v.toNat : ℚ)) (start 20 21 0 [(11, 3), (12, 4)]) exampleEvs with
  | .ok (_, o) => some o
  | .error _ => none

example : exampleObs = some [.took 1 50100 (.set ⟨.velocity, 12, 6⟩), .took 0 50100 (.set ⟨.voltage, 11, 7⟩), .took 1 50100 (.set ⟨.velocity, 12, 6⟩)] := by decide +kernel

example : (known 20 exampleEvs).motors[0]? = some ([1], .disabled, 7) ∧ (known 20 exampleEvs).motors[1]? = some ([2], .velocity, 6) ∧
    assoc [1] (known 20 exampleEvs).ids = some 11 := by decide +kernel

end Verif.Chain
