import Verif.Chain.Lemmas

/-!
# Motor commands from the master to the motor boards: properties (C114)
-/

namespace Verif.Chain

open Motors (F Msg)
open BusEnum (assoc)

variable {val : F → ℚ}

/-! ## One board -/

theorem handle_cases (now : Nat) (b : Board) (f : Frame) :
    ((b.handle val now f).2 = false ∧ ((b.handle val now f).1 = b ∨ ∃ auto, (b.handle val now f).1 = b.reboot auto)) ∨
    ((b.handle val now f).2 = true ∧ ∃ ip, (b.handle val now f).1 = b.store now ip ∧ Shows val ip (some f)) := by
  cases f with
  | set m =>
    obtain ⟨mode, node, v⟩ := m
    simp only [Board.handle]
    by_cases h : node = b.node ∧ mode ≠ .disabled
    · rw [if_pos h]
      refine .inr ⟨rfl, ?_⟩
      cases mode with
      | disabled => exact absurd rfl h.2
      | _ => exact ⟨_, rfl, rfl, rfl⟩
    · rw [if_neg h]; exact .inl ⟨rfl, .inl rfl⟩
  | traj n p v a t =>
    simp only [Board.handle]
    by_cases h : n = b.node
    · rw [if_pos h]; exact .inr ⟨rfl, _, rfl, rfl, rfl, rfl⟩
    · rw [if_neg h]; exact .inl ⟨rfl, .inl rfl⟩
  | stop => exact .inl ⟨rfl, .inr ⟨_, rfl⟩⟩
  | reboot k =>
    simp only [Board.handle]
    split
    · exact .inl ⟨rfl, .inr ⟨_, rfl⟩⟩
    · split
      · exact .inl ⟨rfl, .inr ⟨_, rfl⟩⟩
      · split
        · exact .inl ⟨rfl, .inr ⟨_, rfl⟩⟩
        · exact .inl ⟨rfl, .inl rfl⟩

theorem hear_run (b : Board) (fs : List Frame) :
    (b.hear fs).run = b.run ∧ (b.hear fs).ip = b.ip ∧ (b.hear fs).last = b.last ∧ (b.hear fs).node = b.node ∧ (b.hear fs).off = b.off ∧ (b.hear fs).lowBatt = b.lowBatt := by
  unfold Board.hear; split <;> simp

theorem handle_node (now : Nat) (b : Board) (f : Frame) :
    (b.handle val now f).1.node = b.node ∧ (b.handle val now f).1.off = b.off ∧ (b.handle val now f).1.lowBatt = b.lowBatt := by
  rcases handle_cases (val := val) now b f with ⟨-, h | ⟨auto, h⟩⟩ | ⟨-, ip, h, -⟩ <;> rw [h]
  · exact ⟨rfl, rfl, rfl⟩
  · exact ⟨rfl, rfl, rfl⟩
  · exact ⟨rfl, rfl, rfl⟩

theorem moves_node {i now : Nat} {b b2 : Board} {l : Prop} {fs : List Frame} {o : List Obs} (h : Moves val i now l b fs b2 o) : b2.node = b.node ∧ b2.off = b.off := by
  cases h with
  | hear => exact ⟨(hear_run b fs).2.2.2.1, (hear_run b fs).2.2.2.2.1⟩
  | handle f fs hin => exact ⟨(handle_node now { b with inbox := fs } f).1, (handle_node now { b with inbox := fs } f).2.1⟩
  | _ => exact ⟨rfl, rfl⟩

/-- What each board remembers: when its last setpoint came, and the setpoint -/
structure Remembers (val : F → ℚ) (t0 i now : Nat) (b : Board) (o : List Obs) : Prop where
  last : b.last = MotorCtl.stampAt (since i t0 o + b.off)
  past : since i t0 o ≤ now
  ip : b.run = .app → Shows val b.ip (latest i o)

theorem shows_interp {ip : Drive.Ip} {f : Option Frame} (p v : ℚ) (h : Shows val ip f) : Shows val { ip with pos := p, vel := v } f := by
  unfold Shows at *
  split at h <;> simp_all

theorem remembers_moves {t0 i now : Nat} {b b2 : Board} {o o2 : List Obs} {l : Prop} {fs : List Frame} (h : Remembers val t0 i now b o) (hm : Moves val i now l b fs b2 o2) :
    Remembers val t0 i now b2 (o ++ o2) := by
  cases hm with
  | hear =>
    obtain ⟨h1, h2, h3, -, h5, -⟩ := hear_run b fs
    rw [List.append_nil]
    exact ⟨by rw [h3, h5]; exact h.last, h.past, by rw [h1, h2]; exact h.ip⟩
  | handle f fs hin =>
    rcases handle_cases (val := val) now { b with inbox := fs } f with ⟨e, h' | ⟨auto, h'⟩⟩ | ⟨e, ip, h', hs⟩
    · rw [h', e]; simpa using ⟨h.last, h.past, h.ip⟩
    · rw [h', e]
      rw [if_neg (by simp), List.append_nil]
      exact ⟨h.last, h.past, fun hr => by cases hr⟩
    · rw [h', e, if_pos rfl]
      have hsince : since i t0 (o ++ [.took i now f]) = now := by rw [since_append]; simp [since]
      have hlatest : latest i (o ++ [.took i now f]) = some f := by rw [latest_append]; simp
      exact ⟨by rw [hsince]; rfl, by rw [hsince], fun _ => by rw [hlatest]; exact hs⟩
  | lose => rw [List.append_nil]; exact ⟨h.last, h.past, h.ip⟩
  | measure p v per ip iv => rw [List.append_nil]; exact ⟨h.last, h.past, fun hr => shows_interp _ _ (h.ip hr)⟩
  | param th => rw [List.append_nil]; exact ⟨h.last, h.past, h.ip⟩
  | boot hr =>
    have hsince : since i t0 (o ++ [.booted i now]) = now := by rw [since_append]; simp [since]
    have hlatest : latest i (o ++ [.booted i now]) = none := by rw [latest_append]; simp
    exact ⟨by rw [hsince]; rfl, by rw [hsince], fun _ => by rw [hlatest]; exact ⟨rfl, rfl⟩⟩

theorem start_board {cap enCap now i : Nat} {ids : List (Nat × Nat)} {b : Board} (h : (start cap enCap now ids).boards[i]? = some b) :
    ids[i]? = some (b.node, b.off) ∧ b.run = .app ∧ b.inbox = [] ∧ b.last = MotorCtl.stampAt (now + b.off) ∧ b.ip.mode = .torque ∧ b.ip.torque = 0 := by
  simp only [start, List.getElem?_map, Option.map_eq_some_iff] at h
  obtain ⟨p, hp, rfl⟩ := h
  exact ⟨hp, rfl, rfl, rfl, rfl, rfl⟩

theorem remembers {cap enCap t0 : Nat} {ids : List (Nat × Nat)} {es : List Ev} {s : Sys} {o : List Obs} (h : run val (start cap enCap t0 ids) es = .ok (s, o))
    {i : Nat} {b : Board} (hb : s.boards[i]? = some b) : Remembers val t0 i s.now b o := by
  refine board_inv (P := fun i now b o => Remembers val t0 i now b o) ?_ ?_ ?_ ?_ es h i b hb
  · intro i b hb
    obtain ⟨-, -, -, h4, h5⟩ := start_board hb
    exact ⟨h4, le_refl _, fun _ => h5⟩
  · intro i now now' b o hn h
    exact ⟨h.last, h.past.trans hn, h.ip⟩
  · intro i now b o l fs b2 o2 h hm
    exact remembers_moves h hm
  · intro i now b o o2 h
    have e : since i t0 (o ++ o2.filter (About i)) = since i t0 (o ++ o2) := by rw [since_append, since_append, since_filter]
    have e2 := latest_filter i o o2
    exact ⟨e ▸ h.last, e ▸ h.past, e2 ▸ h.ip⟩

/-- C114: whatever happens on the bus, a board that runs pursues exactly the last setpoint it took since it started, and torque zero before the first. -/
theorem pursues_last {cap enCap t0 : Nat} {ids : List (Nat × Nat)} {es : List Ev} {s : Sys} {o : List Obs} (h : run val (start cap enCap t0 ids) es = .ok (s, o))
    {i : Nat} {b : Board} (hb : s.boards[i]? = some b) (hr : b.run = .app) : Shows val b.ip (latest i o) := (remembers h hb).ip hr

/-- C114: the motor of a running board is cut exactly if the battery is low or more than 0.3 s have passed since it took its last setpoint or started (modulo 2^32 us, up to
2^31). -/
theorem cut_iff {cap enCap t0 : Nat} {ids : List (Nat × Nat)} {es : List Ev} {s : Sys} {o : List Obs} (h : run val (start cap enCap t0 ids) es = .ok (s, o))
    {i : Nat} {b : Board} (hb : s.boards[i]? = some b) (hr : b.run = .app) (batt cascade : ℚ) :
    ∃ out, b.drive s.now batt cascade = some out ∧ out.volt = (if out.reset then 0 else if b.ip.mode = .volt then b.ip.voltage else cascade) ∧
      (out.reset = true ↔ batt < b.lowBatt ∨ (300000 < (s.now - since i t0 o) % 2^32 ∧ (s.now - since i t0 o) % 2^32 < 2^31)) ∧
      (out.reset = true → batt ≠ 0 → out.pwm = some 0) := by
  have hm := remembers h hb
  obtain ⟨d, hd⟩ := Nat.exists_eq_add_of_le hm.past
  refine ⟨_, by unfold Board.drive; rw [if_pos hr], ?_, ?_, ?_⟩
  · unfold MotorCtl.loop
    simp only
    split
    · simp
    · by_cases hv : b.ip.mode = .volt <;> simp [hv]
  · have e : s.now + b.off = (since i t0 o + b.off) + d := by omega
    have e2 : s.now - since i t0 o = d := by omega
    unfold MotorCtl.loop
    simp only [hm.last, e, e2, MotorCtl.timeout_iff]
    split <;> simp_all
  · intro hreset hb0
    exact (MotorCtl.loop_reset_zero _ _ _ hreset hb0).2

/-! ## The master -/

theorem specRun_append (cap : Nat) (σ : Motors.Spec) (a b : List Motors.Op) :
    Motors.Spec.run cap σ (a ++ b) = ((Motors.Spec.run cap (Motors.Spec.run cap σ a).1 b).1, (Motors.Spec.run cap σ a).2 ++ (Motors.Spec.run cap (Motors.Spec.run cap σ a).1 b).2) := by
  induction a generalizing σ with
  | nil => rfl
  | cons x a ih => simp only [List.cons_append, Motors.Spec.run, ih, List.append_assoc]

theorem allAllowed_append (cap enCap : Nat) (σ : Motors.Spec) (a b : List Motors.Op) :
    Motors.AllAllowed cap enCap σ (a ++ b) ↔ Motors.AllAllowed cap enCap σ a ∧ Motors.AllAllowed cap enCap (Motors.Spec.run cap σ a).1 b := by
  induction a generalizing σ with
  | nil => simp [Motors.AllAllowed, Motors.Spec.run]
  | cons x a ih => simp only [List.cons_append, Motors.AllAllowed, Motors.Spec.run, ih, and_assoc]

theorem masterOps_op (es : List Ev) (x : Motors.Op) : masterOps (es ++ [.op x]) = masterOps es ++ [x] := masterOps_append _ _

theorem masterOps_other (es : List Ev) {e : Ev} (h : ∀ x, e ≠ .op x) : masterOps (es ++ [e]) = masterOps es := by
  rw [masterOps_append]
  cases e with
  | op x => exact absurd rfl (h x)
  | _ => simp [masterOps]

theorem known_op (cap : Nat) (es : List Ev) (x : Motors.Op) : known cap (es ++ [.op x]) = ((known cap es).step cap x).1 := by
  unfold known; rw [masterOps_op, specRun_append]; rfl

theorem sent_op (cap : Nat) (es : List Ev) (x : Motors.Op) : sent cap (es ++ [.op x]) = sent cap es ++ ((known cap es).step cap x).2 := by
  unfold known sent; rw [masterOps_op, specRun_append]; simp [Motors.Spec.run]

theorem known_other (cap : Nat) (es : List Ev) {e : Ev} (h : ∀ x, e ≠ .op x) : known cap (es ++ [e]) = known cap es := by
  unfold known; rw [masterOps_other es h]

theorem sent_other (cap : Nat) (es : List Ev) {e : Ev} (h : ∀ x, e ≠ .op x) : sent cap (es ++ [e]) = sent cap es := by
  unfold sent; rw [masterOps_other es h]

theorem masterOk_op {cap enCap : Nat} {es : List Ev} {x : Motors.Op} (h : MasterOk cap enCap (es ++ [.op x])) :
    MasterOk cap enCap es ∧ Motors.Allowed cap enCap (known cap es) x := by
  unfold MasterOk at *
  rw [masterOps_op, allAllowed_append] at h
  exact ⟨h.1, h.2.1⟩

theorem masterOk_prefix {cap enCap : Nat} {a b : List Ev} (h : MasterOk cap enCap (a ++ b)) : MasterOk cap enCap a := by
  unfold MasterOk at *
  rw [masterOps_append, allAllowed_append] at h
  exact h.1

/-- The ids the master knows are ids of the bus. -/
theorem known_low (cap : Nat) (es : List Ev) (h : LowIds es) : ∀ p ∈ (known cap es).ids, p.2.toNat ≤ 127 := by
  induction es using List.reverseRecOn with
  | nil => intro p hp; cases hp
  | append_singleton es e ih =>
    have ih := ih fun n id hm => h n id (List.mem_append_left _ hm)
    by_cases ho : ∃ x, e = .op x
    · obtain ⟨x, rfl⟩ := ho
      rw [known_op]
      cases x with
      | announce n id =>
        have hid := h n id (by simp)
        simp only [Motors.Spec.step]
        split
        · intro p hp
          rcases List.mem_append.mp hp with hp | hp
          · exact ih p hp
          · cases List.mem_singleton.mp hp; exact hid
        · exact ih
      | create n => simp only [Motors.Spec.step]; split <;> exact ih
      | _ => exact ih
    · rw [known_other cap es fun x hx => ho ⟨x, hx⟩]
      exact ih

theorem msgs_node {ids : List (BusEnum.Name × BitVec 8)} {p : BusEnum.Name × Motors.Mode × F} {m : Msg} (h : m ∈ Motors.Spec.msgs ids p) :
    ∃ id, assoc p.1 ids = some id ∧ m = ⟨p.2.1, id.toNat, p.2.2⟩ ∧ p.2.1 ≠ .disabled := by
  unfold Motors.Spec.msgs at h
  cases ha : assoc p.1 ids with
  | none => rw [ha] at h; cases h
  | some id =>
    rw [ha] at h
    simp only at h
    split at h
    · cases h
    · exact ⟨id, rfl, List.mem_singleton.mp h, ‹_›⟩

theorem step_msgs (cap : Nat) (σ : Motors.Spec) (x : Motors.Op) {m : Msg} (h : m ∈ (σ.step cap x).2) :
    x = .timer ∧ ∃ n id v mode, (n, mode, v) ∈ σ.motors ∧ assoc n σ.ids = some id ∧ m = ⟨mode, id.toNat, v⟩ ∧ mode ≠ .disabled := by
  cases x with
  | timer =>
    obtain ⟨p, hp, hm⟩ := List.mem_flatMap.mp h
    obtain ⟨id, h1, h2, h3⟩ := msgs_node hm
    exact ⟨rfl, p.1, id, p.2.2, p.2.1, hp, h1, h2, h3⟩
  | create n => simp only [Motors.Spec.step] at h; cases h
  | announce n id => simp only [Motors.Spec.step] at h; cases h
  | _ => cases h

theorem own_wire {n : Nat} {ms : List Msg} (h : ∀ m ∈ ms, m.node ≤ 127) : own n (ms.map wire) = ms.filter (·.node = n) := by
  induction ms with
  | nil => rfl
  | cons m ms ih =>
    have hm : min m.node 127 = m.node := Nat.min_eq_left (h m List.mem_cons_self)
    have := ih fun m hm => h m (List.mem_cons_of_mem _ hm)
    simp only [List.map_cons, wire, hm, own, this, List.filter_cons, decide_eq_true_eq]

/-! ## Master and boards -/

/-- What the master and the boards have in common -/
structure Common (cap enCap : Nat) (es : List Ev) (s : Sys) (o : List Obs) : Prop where
  master : ∃ β, Motors.Rel s.mgr (known cap es) β
  hcap : s.mgr.cap = cap
  henCap : s.mgr.en.cap = enCap
  /-- what a board took and what waits for it, in order, is part of what was sent to it -/
  boards : ∀ (i : Nat) (b : Board), s.boards[i]? = some b →
    ∃ taken : List Msg, takes i o = taken.map Frame.set ∧ (taken ++ own b.node b.inbox).Sublist ((sent cap es).filter (·.node = b.node))
  plain : ∀ (i : Nat) (b : Board), s.boards[i]? = some b → b.run = .app ∧ ∀ f ∈ b.inbox, ∃ m, f = .set m ∧ m.mode ≠ .disabled

theorem moves_common {i now : Nat} {b b2 : Board} {l : Prop} {fs : List Frame} {o2 : List Obs} (hm : Moves val i now l b fs b2 o2) {taken sent new : List Msg}
    (hr : b.run = .app) (hp : ∀ f ∈ b.inbox, ∃ m, f = .set m ∧ m.mode ≠ .disabled) (hfs : ∀ f ∈ fs, ∃ m, f = .set m ∧ m.mode ≠ .disabled)
    (hnew : own b.node fs = new) (hs : (taken ++ own b.node b.inbox).Sublist sent) :
    (b2.run = .app ∧ ∀ f ∈ b2.inbox, ∃ m, f = .set m ∧ m.mode ≠ .disabled) ∧
    ∃ t2, takes i o2 = t2.map Frame.set ∧ (taken ++ t2 ++ own b2.node b2.inbox).Sublist (sent ++ new) := by
  have hw : ∀ l, (taken ++ own b.node l).Sublist sent → (taken ++ own b.node l).Sublist (sent ++ own b.node fs) :=
    fun l h => h.trans (List.sublist_append_left _ _)
  subst hnew
  cases hm with
  | hear =>
    unfold Board.hear
    rw [if_pos hr]
    refine ⟨⟨hr, fun f hf => ?_⟩, [], rfl, ?_⟩
    · rcases List.mem_append.mp hf with hf | hf
      · exact hp f hf
      · exact hfs f hf
    · simp only [own_append, List.append_nil]
      rw [← List.append_assoc]
      exact hs.append_right _
  | handle f fs hin =>
    obtain ⟨m, rfl, hmode⟩ := hp f (by rw [hin]; exact List.mem_cons_self)
    rw [hin] at hs hp
    have hp' : ∀ f ∈ fs, ∃ m, f = .set m ∧ m.mode ≠ .disabled := fun f hf => hp f (List.mem_cons_of_mem _ hf)
    simp only [own] at hs
    by_cases hn : m.node = b.node
    · have hh : Board.handle val now { b with inbox := fs } (.set m) = (Board.setpoint val { b with inbox := fs } now m.mode m.value, true) := by
        simp only [Board.handle]; rw [if_pos ⟨hn, hmode⟩]
      simp only [hh, if_true]
      rw [if_pos hn] at hs
      have hst : (Board.setpoint val { b with inbox := fs } now m.mode m.value).run = .app ∧
          (Board.setpoint val { b with inbox := fs } now m.mode m.value).inbox = fs ∧
          (Board.setpoint val { b with inbox := fs } now m.mode m.value).node = b.node := by
        unfold Board.setpoint
        cases hmm : m.mode with
        | disabled => exact absurd hmm hmode
        | _ => exact ⟨hr, rfl, rfl⟩
      refine ⟨⟨hst.1, by simp only [hst.2.1]; exact hp'⟩, [m], by simp [takes], ?_⟩
      simp only [hst.2.1, hst.2.2, List.append_assoc, List.singleton_append, own, List.append_nil]
      exact hs
    · have hh : Board.handle val now { b with inbox := fs } (.set m) = ({ b with inbox := fs }, false) := by
        simp only [Board.handle]; rw [if_neg fun h => hn h.1]
      simp only [hh]
      rw [if_neg hn] at hs
      refine ⟨⟨hr, hp'⟩, [], rfl, ?_⟩
      simpa [own] using hs
  | lose =>
    refine ⟨⟨hr, fun f hf => hp f (List.mem_of_mem_tail hf)⟩, [], rfl, ?_⟩
    have : (own b.node b.inbox.tail).Sublist (own b.node b.inbox) := by
      cases hin : b.inbox with
      | nil => exact List.Sublist.refl _
      | cons f fs =>
        cases f with
        | set m =>
          simp only [List.tail_cons, own]
          split
          · exact List.sublist_cons_self _ _
          · exact List.Sublist.refl _
        | _ => exact List.Sublist.refl _
    simp only [own, List.append_nil]
    exact (List.Sublist.append_left this taken).trans hs
  | measure p v per ip iv => exact ⟨⟨hr, hp⟩, [], rfl, by simpa [own] using hs⟩
  | param th => exact ⟨⟨hr, hp⟩, [], rfl, by simpa [own] using hs⟩
  | boot hb => rw [hr] at hb; cases hb

theorem common_step {cap enCap : Nat} {es : List Ev} {s s2 : Sys} {e : Ev} {o o2 : List Obs} (hc : Common cap enCap es s o) (hs : step val s e = .ok (s2, o2))
    (hok : MasterOk cap enCap (es ++ [e])) (hl : LowIds (es ++ [e])) (ha : Alone (es ++ [e])) : Common cap enCap (es ++ [e]) s2 (o ++ o2) := by
  have hbus : ∃ new, (∀ m ∈ new, m.node ≤ 127 ∧ m.mode ≠ .disabled) ∧ onBus s e = new.map wire ∧ sent cap (es ++ [e]) = sent cap es ++ new ∧
      (∃ β, Motors.Rel s2.mgr (known cap (es ++ [e])) β) ∧ s2.mgr.cap = cap ∧ s2.mgr.en.cap = enCap := by
    by_cases ho : ∃ x, e = .op x
    · obtain ⟨x, rfl⟩ := ho
      obtain ⟨-, hax⟩ := masterOk_op hok
      obtain ⟨β, hβ⟩ := hc.master
      obtain ⟨m', β', e1, c1, c2, h1⟩ := Motors.step_ok hβ x (by rw [hc.hcap, hc.henCap]; exact hax)
      rw [hc.hcap] at e1 h1 c1
      refine ⟨((known cap es).step cap x).2, ?_, by simp only [onBus, e1], sent_op cap es x, ?_⟩
      · intro m hm
        obtain ⟨-, n, id, v, mode, -, h2, rfl, h4⟩ := step_msgs cap _ _ hm
        have hlow := known_low cap es (fun n id hm => hl n id (List.mem_append_left _ hm)) (n, id) (BusEnum.assoc_some h2)
        exact ⟨hlow, h4⟩
      · simp only [step, e1] at hs
        cases hs
        exact ⟨⟨β', by rw [known_op]; exact h1⟩, c1, c2.trans hc.henCap⟩
    · have ho : ∀ x, e ≠ .op x := fun x hx => ho ⟨x, hx⟩
      refine ⟨[], by simp, ?_, by rw [sent_other cap es ho, List.append_nil], ?_⟩
      · cases e with
        | op x => exact absurd rfl (ho x)
        | frame f => exact absurd (by simp) (ha f)
        | _ => rfl
      · have hmgr : s2.mgr = s.mgr := by
          cases e with
          | op x => exact absurd rfl (ho x)
          | deliver j =>
            simp only [step, deliver, Except.ok.injEq] at hs
            cases hj : s.boards[j]? with
            | none => rw [hj] at hs; cases hs; rfl
            | some c =>
              rw [hj] at hs
              simp only at hs
              cases hin : c.inbox with
              | nil => rw [hin] at hs; cases hs; rfl
              | cons f fs => rw [hin] at hs; cases hs; rfl
          | boot j =>
            simp only [step, boot, Except.ok.injEq] at hs
            cases hj : s.boards[j]? with
            | none => rw [hj] at hs; cases hs; rfl
            | some c =>
              rw [hj] at hs
              simp only at hs
              split at hs <;> cases hs <;> rfl
          | _ => cases hs; rfl
        rw [hmgr, known_other cap es ho]
        exact ⟨hc.master, hc.hcap, hc.henCap⟩
  obtain ⟨new, hnew, hb1, hb2, hb3, hb4, hb5⟩ := hbus
  have key : ∀ i b2, s2.boards[i]? = some b2 → (b2.run = .app ∧ ∀ f ∈ b2.inbox, ∃ m, f = .set m ∧ m.mode ≠ .disabled) ∧
      ∃ taken : List Msg, takes i (o ++ o2) = taken.map Frame.set ∧ (taken ++ own b2.node b2.inbox).Sublist ((sent cap (es ++ [e])).filter (·.node = b2.node)) := by
    intro i b2 hb2'
    have hlen := step_length hs
    have hi : i < s.boards.length := by rw [← hlen]; exact (List.getElem?_eq_some_iff.mp hb2').1
    have hbi := List.getElem?_eq_getElem hi
    obtain ⟨b3, hb3', hmv⟩ := step_moves hs hbi
    rw [hb2'] at hb3'
    cases hb3'
    obtain ⟨taken, t1, t2⟩ := hc.boards i _ hbi
    obtain ⟨p1, p2⟩ := hc.plain i _ hbi
    have hnode := (moves_node hmv).1
    rw [hb1] at hmv
    obtain ⟨q1, t3, q2, q3⟩ := moves_common hmv p1 p2 (by
      intro f hf
      obtain ⟨m, hm, rfl⟩ := List.mem_map.mp hf
      exact ⟨_, rfl, (hnew m hm).2⟩) (own_wire fun m hm => (hnew m hm).1) t2
    refine ⟨q1, taken ++ t3, ?_, ?_⟩
    · rw [takes_append, t1, ← takes_filter i o2, q2, List.map_append]
    · rw [hb2, List.filter_append, hnode]
      rw [hnode] at q3
      exact q3
  exact ⟨hb3, hb4, hb5, fun i b h => (key i b h).2, fun i b h => (key i b h).1⟩

theorem lowIds_prefix {a b : List Ev} (h : LowIds (a ++ b)) : LowIds a := fun n id hm => h n id (List.mem_append_left _ hm)
theorem alone_prefix {a b : List Ev} (h : Alone (a ++ b)) : Alone a := fun f hm => h f (List.mem_append_left _ hm)

theorem start_common {cap enCap t0 : Nat} (ids : List (Nat × Nat)) (h2 : enCap < 65536) : Common cap enCap [] (start cap enCap t0 ids) [] where
  master := ⟨_, Motors.init_rel h2⟩
  hcap := rfl
  henCap := rfl
  boards := by
    intro i b hb
    obtain ⟨-, -, h3, -⟩ := start_board hb
    exact ⟨[], rfl, by rw [h3]; exact List.nil_sublist _⟩
  plain := by
    intro i b hb
    obtain ⟨-, h1, h3, -⟩ := start_board hb
    exact ⟨h1, by rw [h3]; simp⟩

theorem common {cap enCap t0 : Nat} {ids : List (Nat × Nat)} (h2 : enCap < 65536) {es : List Ev} {s : Sys} {o : List Obs}
    (h : run val (start cap enCap t0 ids) es = .ok (s, o)) (hok : MasterOk cap enCap es) (hl : LowIds es) (ha : Alone es) : Common cap enCap es s o := by
  refine run_inv (P := fun es s o => MasterOk cap enCap es → LowIds es → Alone es → Common cap enCap es s o) (fun _ _ _ => start_common ids h2) ?_ es h hok hl ha
  intro es s1 o1 e s2 o2 hp hs hok hl ha
  exact common_step (hp (masterOk_prefix hok) (lowIds_prefix hl) (alone_prefix ha)) hs hok hl ha

/-- C114: with the master's operations within its limits, nothing undefined happens, whatever the order of events. -/
theorem run_defined {cap enCap t0 : Nat} (ids : List (Nat × Nat)) (h2 : enCap < 65536) (es : List Ev) (hok : MasterOk cap enCap es) (hl : LowIds es) (ha : Alone es) :
    ∃ s o, run val (start cap enCap t0 ids) es = .ok (s, o) := by
  induction es using List.reverseRecOn with
  | nil => exact ⟨_, _, rfl⟩
  | append_singleton es e ih =>
    obtain ⟨s, o, h⟩ := ih (masterOk_prefix hok) (lowIds_prefix hl) (alone_prefix ha)
    have hc := common h2 h (masterOk_prefix hok) (lowIds_prefix hl) (alone_prefix ha)
    have : ∃ s2 o2, step val s e = .ok (s2, o2) := by
      cases e with
      | op x =>
        obtain ⟨-, hax⟩ := masterOk_op hok
        obtain ⟨β, hβ⟩ := hc.master
        obtain ⟨m', β', e1, -⟩ := Motors.step_ok hβ x (by rw [hc.hcap, hc.henCap]; exact hax)
        exact ⟨_, _, by simp only [step, e1]; rfl⟩
      | _ => exact ⟨_, _, rfl⟩
    obtain ⟨s2, o2, hs⟩ := this
    exact ⟨s2, _, run_append_ok h (run_single.mpr hs)⟩

/-- C114: what a board takes is, in order, a part of what the master sent to its node: nothing is invented, exchanged or taken from another motor, whatever is delayed or lost. -/
theorem takes_sent {cap enCap t0 : Nat} {ids : List (Nat × Nat)} (h2 : enCap < 65536) {es : List Ev} {s : Sys} {o : List Obs}
    (h : run val (start cap enCap t0 ids) es = .ok (s, o)) (hok : MasterOk cap enCap es) (hl : LowIds es) (ha : Alone es) {i : Nat} {p : Nat × Nat} (hi : ids[i]? = some p) :
    ∃ taken : List Msg, takes i o = taken.map Frame.set ∧ taken.Sublist ((sent cap es).filter (·.node = p.1)) := by
  have hc := common h2 h hok hl ha
  have hnodes : ∀ (i : Nat) (b : Board), s.boards[i]? = some b → ids[i]? = some (b.node, b.off) := by
    refine board_inv (P := fun i _ b _ => ids[i]? = some (b.node, b.off)) ?_ ?_ ?_ ?_ es h
    · intro i b hb; exact (start_board hb).1
    · intro _ _ _ _ _ _ h; exact h
    · intro i now b o l fs b2 o2 h hm; rw [(moves_node hm).1, (moves_node hm).2]; exact h
    · intro _ _ _ _ _ h; exact h
  have hlen : s.boards.length = ids.length := by
    refine run_inv (P := fun _ s _ => s.boards.length = ids.length) (by simp [start]) ?_ es h
    intro es s1 o1 e s2 o2 hp hs
    rw [step_length hs, hp]
  have hi' : i < s.boards.length := by rw [hlen]; exact (List.getElem?_eq_some_iff.mp hi).1
  obtain ⟨taken, t1, t2⟩ := hc.boards i _ (List.getElem?_eq_getElem hi')
  have := hnodes i _ (List.getElem?_eq_getElem hi')
  rw [hi] at this
  cases this
  exact ⟨taken, t1, (List.sublist_append_left _ _).trans t2⟩

end Verif.Chain
