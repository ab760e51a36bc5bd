import Verif.Chain.Model
import Verif.Motors.Props
import Verif.MotorCtl.Props

/-!
# Motor commands from the master to the motor boards: specification and lemmas
-/

namespace Verif.Chain

open Motors (F Msg)

/-! ## Specification, from what was observed and from the operations of the master alone -/

/-- The setpoints board `i` took -/
def takes (i : Nat) : List Obs → List Frame
  | [] => []
  | .took j _ f :: os => if j = i then f :: takes i os else takes i os
  | .booted _ _ :: os => takes i os

/-- The last time board `i` took a setpoint or started, `t0` at first -/
def since (i t0 : Nat) (os : List Obs) : Nat :=
  os.foldl (fun t o => match o with
    | .took j u _ => if j = i then u else t
    | .booted j u => if j = i then u else t) t0

/-- The last setpoint board `i` took since it started -/
def latest (i : Nat) (os : List Obs) : Option Frame :=
  os.foldl (fun f o => match o with
    | .took j _ g => if j = i then some g else f
    | .booted j _ => if j = i then none else f) none

/-- The interpolator pursues a setpoint; none is torque zero. -/
def Shows (val : F → ℚ) (ip : Drive.Ip) : Option Frame → Prop
  | none => ip.mode = .torque ∧ ip.torque = 0
  | some (.set ⟨.velocity, _, v⟩) => ip.mode = .vel ∧ ip.targetVel = val v
  | some (.set ⟨.position, _, v⟩) => ip.mode = .pos ∧ ip.targetPos = val v
  | some (.set ⟨.torque, _, v⟩) => ip.mode = .torque ∧ ip.torque = val v
  | some (.set ⟨.voltage, _, v⟩) => ip.mode = .volt ∧ ip.voltage = val v
  | some (.traj _ _ _ acc torque) => ip.mode = .traj ∧ ip.trajAcc = acc ∧ ip.torque = torque
  | _ => False

def masterOps (es : List Ev) : List Motors.Op := es.filterMap fun e => match e with
  | .op o => some o
  | _ => none

/-- What the master knows and what it sent, after a history -/
def known (cap : Nat) (es : List Ev) : Motors.Spec := (Motors.Spec.run cap ⟨[], [], []⟩ (masterOps es)).1
def sent (cap : Nat) (es : List Ev) : List Msg := (Motors.Spec.run cap ⟨[], [], []⟩ (masterOps es)).2

/-- No node but the master sends. -/
def Alone (es : List Ev) : Prop := ∀ f, .frame f ∉ es

/-- Node ids of the bus -/
def LowIds (es : List Ev) : Prop := ∀ n id, .op (.announce n id) ∈ es → id.toNat ≤ 127

/-- The master's operations are within the limits of `Motors`. -/
def MasterOk (cap enCap : Nat) (es : List Ev) : Prop := Motors.AllAllowed cap enCap ⟨[], [], []⟩ (masterOps es)

/-- The setpoint messages in a list of frames for node `n` -/
def own (n : Nat) : List Frame → List Msg
  | [] => []
  | .set m :: fs => if m.node = n then m :: own n fs else own n fs
  | _ :: fs => own n fs

/-! ## Lists -/

theorem takes_append (i : Nat) (a b : List Obs) : takes i (a ++ b) = takes i a ++ takes i b := by
  induction a with
  | nil => rfl
  | cons o a ih => cases o <;> simp only [List.cons_append, takes, ih] <;> split <;> simp

theorem own_append (n : Nat) (a b : List Frame) : own n (a ++ b) = own n a ++ own n b := by
  induction a with
  | nil => rfl
  | cons f a ih => cases f <;> simp only [List.cons_append, own, ih] <;> split <;> simp

theorem since_append (i t0 : Nat) (a b : List Obs) : since i t0 (a ++ b) = since i (since i t0 a) b := by
  unfold since; rw [List.foldl_append]

theorem latest_append (i : Nat) (a b : List Obs) : latest i (a ++ b) = b.foldl (fun f o => match o with
    | .took j _ g => if j = i then some g else f
    | .booted j _ => if j = i then none else f) (latest i a) := by
  unfold latest; rw [List.foldl_append]

theorem masterOps_append (a b : List Ev) : masterOps (a ++ b) = masterOps a ++ masterOps b := by
  unfold masterOps; rw [List.filterMap_append]

/-! ## Runs -/

variable {val : F → ℚ}

theorem run_append {s : Sys} {a b : List Ev} {s2 : Sys} {o : List Obs} (h : run val s (a ++ b) = .ok (s2, o)) :
    ∃ s1 o1 o2, run val s a = .ok (s1, o1) ∧ run val s1 b = .ok (s2, o2) ∧ o = o1 ++ o2 := by
  induction a generalizing s o with
  | nil => exact ⟨s, [], o, rfl, h, rfl⟩
  | cons e a ih =>
    simp only [List.cons_append, run] at h
    cases hs : step val s e with
    | error x => rw [hs] at h; cases h
    | ok p =>
      obtain ⟨s1, u⟩ := p
      rw [hs] at h
      simp only at h
      cases hr : run val s1 (a ++ b) with
      | error x => rw [hr] at h; cases h
      | ok q =>
        obtain ⟨s3, w⟩ := q
        rw [hr] at h
        cases h
        obtain ⟨s4, o1, o2, h1, h2, h3⟩ := ih hr
        refine ⟨s4, u ++ o1, o2, ?_, h2, by rw [h3, List.append_assoc]⟩
        simp only [run, hs, h1]

theorem run_append_ok {s : Sys} {a b : List Ev} {s1 s2 : Sys} {o1 o2 : List Obs} (h1 : run val s a = .ok (s1, o1)) (h2 : run val s1 b = .ok (s2, o2)) :
    run val s (a ++ b) = .ok (s2, o1 ++ o2) := by
  induction a generalizing s o1 with
  | nil => cases h1; exact h2
  | cons e a ih =>
    simp only [List.cons_append, run] at h1 ⊢
    cases hs : step val s e with
    | error x => rw [hs] at h1; cases h1
    | ok p =>
      obtain ⟨s3, u⟩ := p
      rw [hs] at h1
      simp only at h1 ⊢
      cases hr : run val s3 a with
      | error x => rw [hr] at h1; cases h1
      | ok q =>
        obtain ⟨s4, w⟩ := q
        rw [hr] at h1
        cases h1
        rw [ih hr]
        simp

theorem run_single {s s2 : Sys} {e : Ev} {o : List Obs} : run val s [e] = .ok (s2, o) ↔ step val s e = .ok (s2, o) := by
  simp only [run]
  cases step val s e with
  | error x => simp
  | ok p => simp

/-- Induction over executions -/
theorem run_inv {P : List Ev → Sys → List Obs → Prop} {s : Sys} (h0 : P [] s [])
    (hs : ∀ es s1 o1 e s2 o2, P es s1 o1 → step val s1 e = .ok (s2, o2) → P (es ++ [e]) s2 (o1 ++ o2))
    (es : List Ev) {s' : Sys} {o : List Obs} (h : run val s es = .ok (s', o)) : P es s' o := by
  have gen : ∀ es pre s1 o1, P pre s1 o1 → ∀ s' o, run val s1 es = .ok (s', o) → P (pre ++ es) s' (o1 ++ o) := by
    intro es
    induction es with
    | nil => intro pre s1 o1 hp s' o h; cases h; simpa using hp
    | cons e es ih =>
      intro pre s1 o1 hp s' o h
      obtain ⟨s2, a, b, h1, h2, rfl⟩ := run_append (a := [e]) (b := es) h
      have := ih (pre ++ [e]) s2 (o1 ++ a) (hs _ _ _ _ _ _ hp (run_single.mp h1)) s' b h2
      simpa using this
  have := gen es [] s [] h0 s' o h
  simpa using this

/-! ## One board -/

/-- The frames an event puts on the bus -/
def onBus (s : Sys) : Ev → List Frame
  | .op o => match Motors.step s.mgr o with
    | .ok (_, ms) => ms.map wire
    | .error _ => []
  | .frame f => [f]
  | _ => []

/-- What can happen to one board; losing frames only if `lossy` -/
inductive Moves (val : F → ℚ) (i now : Nat) (lossy : Prop) (b : Board) : List Frame → Board → List Obs → Prop
  | hear (fs : List Frame) : Moves val i now lossy b fs (b.hear fs) []
  | handle (f : Frame) (fs : List Frame) : b.inbox = f :: fs →
      Moves val i now lossy b [] ({ b with inbox := fs }.handle val now f).1 (if ({ b with inbox := fs }.handle val now f).2 then [.took i now f] else [])
  | lose : lossy → Moves val i now lossy b [] { b with inbox := b.inbox.tail } []
  | measure (p v : ℚ) (per : Bool) (ip iv : ℚ) : Moves val i now lossy b [] { b with pos := p, vel := v, periodic := per, ip := { b.ip with pos := ip, vel := iv } } []
  | param (th : ℚ) : Moves val i now lossy b [] { b with lowBatt := th } []
  | boot : b.run = .loader true → Moves val i now lossy b [] (b.boot now) [.booted i now]

theorem hear_nil (b : Board) : b.hear [] = b := by
  unfold Board.hear; split <;> simp

theorem still {i now : Nat} {l : Prop} (b : Board) : Moves val i now l b [] b [] := by
  have := Moves.hear (val := val) (i := i) (now := now) (lossy := l) (b := b) []
  rwa [hear_nil] at this

/-- Observations about other boards do not count. -/
def About (i : Nat) : Obs → Bool
  | .took j _ _ => decide (j = i)
  | .booted j _ => decide (j = i)

theorem about_took (i j t : Nat) (f : Frame) : About i (.took j t f) = decide (j = i) := rfl
theorem about_booted (i j t : Nat) : About i (.booted j t) = decide (j = i) := rfl

theorem takes_filter (i : Nat) (os : List Obs) : takes i (os.filter (About i)) = takes i os := by
  induction os with
  | nil => rfl
  | cons o os ih =>
    cases o with
    | took j t f => by_cases h : j = i <;> simp [List.filter_cons, about_took, about_booted, takes, h, ih]
    | booted j t => by_cases h : j = i <;> simp [List.filter_cons, about_took, about_booted, takes, h, ih]

theorem since_filter (i t0 : Nat) (os : List Obs) : since i t0 (os.filter (About i)) = since i t0 os := by
  unfold since
  induction os generalizing t0 with
  | nil => rfl
  | cons o os ih =>
    cases o with
    | took j t f => by_cases h : j = i <;> simp [List.filter_cons, about_took, about_booted, h, ih]
    | booted j t => by_cases h : j = i <;> simp [List.filter_cons, about_took, about_booted, h, ih]

theorem latest_filter (i : Nat) (a : List Obs) (os : List Obs) : latest i (a ++ os.filter (About i)) = latest i (a ++ os) := by
  rw [latest_append, latest_append]
  generalize latest i a = f0
  induction os generalizing f0 with
  | nil => rfl
  | cons o os ih =>
    cases o with
    | took j t f => by_cases h : j = i <;> simp [List.filter_cons, about_took, about_booted, h, ih]
    | booted j t => by_cases h : j = i <;> simp [List.filter_cons, about_took, about_booted, h, ih]

theorem step_moves {s s2 : Sys} {e : Ev} {o : List Obs} {i : Nat} {b : Board} (h : step val s e = .ok (s2, o)) (hb : s.boards[i]? = some b) :
    ∃ b2, s2.boards[i]? = some b2 ∧ Moves val i s.now (e = .lose i) b (onBus s e) b2 (o.filter (About i)) := by
  have hi : i < s.boards.length := (List.getElem?_eq_some_iff.mp hb).1
  cases e with
  | advance us => cases h; exact ⟨b, hb, still b⟩
  | op x =>
    simp only [step, onBus] at h ⊢
    cases hm : Motors.step s.mgr x with
    | error e => rw [hm] at h; cases h
    | ok p =>
      obtain ⟨m, ms⟩ := p
      rw [hm] at h
      cases h
      refine ⟨b.hear (ms.map wire), by simp [hb], ?_⟩
      exact Moves.hear _
  | frame f =>
    cases h
    exact ⟨b.hear [f], by simp [hb], Moves.hear _⟩
  | deliver j =>
    simp only [step, deliver, Except.ok.injEq] at h
    cases hj : s.boards[j]? with
    | none =>
      rw [hj] at h; cases h
      exact ⟨b, hb, still b⟩
    | some c =>
      rw [hj] at h
      simp only at h
      cases hin : c.inbox with
      | nil =>
        rw [hin] at h; cases h
        exact ⟨b, hb, still b⟩
      | cons f fs =>
        rw [hin] at h
        simp only [Prod.mk.injEq] at h
        obtain ⟨h1, h2⟩ := h
        subst h1 h2
        by_cases hij : j = i
        · subst hij
          rw [hb] at hj
          cases hj
          refine ⟨_, by simp [hi]; rfl, ?_⟩
          have := Moves.handle (val := val) (i := j) (now := s.now) (lossy := Ev.deliver j = .lose j) (b := b) f fs hin
          convert this using 1
          · rfl
          split <;> simp [about_took, about_booted]
        · refine ⟨b, by simp [List.getElem?_set, hij, hb], ?_⟩
          have := still (val := val) (i := i) (now := s.now) (l := Ev.deliver j = .lose i) b
          convert this using 1
          · rfl
          split <;> simp [about_took, about_booted, hij]
  | lose j =>
    cases h
    by_cases hij : j = i
    · subst hij
      exact ⟨_, by simp [List.getElem?_modify, hb], Moves.lose rfl⟩
    · refine ⟨b, by simp [List.getElem?_modify, hij, hb], ?_⟩
      exact still b
  | measure j p v per ip iv =>
    cases h
    by_cases hij : j = i
    · subst hij
      exact ⟨_, by simp [List.getElem?_modify, hb], Moves.measure p v per ip iv⟩
    · refine ⟨b, by simp [List.getElem?_modify, hij, hb], ?_⟩
      exact still b
  | param j th =>
    cases h
    by_cases hij : j = i
    · subst hij
      exact ⟨_, by simp [List.getElem?_modify, hb], Moves.param th⟩
    · refine ⟨b, by simp [List.getElem?_modify, hij, hb], ?_⟩
      exact still b
  | boot j =>
    simp only [step, boot, Except.ok.injEq] at h
    cases hj : s.boards[j]? with
    | none =>
      rw [hj] at h; cases h
      exact ⟨b, hb, still b⟩
    | some c =>
      rw [hj] at h
      simp only at h
      by_cases hr : c.run = .loader true
      · rw [if_pos hr] at h
        cases h
        by_cases hij : j = i
        · subst hij
          rw [hb] at hj
          cases hj
          refine ⟨_, by simp [hi]; rfl, ?_⟩
          have e : [Obs.booted j s.now].filter (About j) = [Obs.booted j s.now] := by simp [about_booted]
          rw [e]
          exact Moves.boot hr
        · refine ⟨b, by simp [List.getElem?_set, hij, hb], ?_⟩
          have e : [Obs.booted j s.now].filter (About i) = [] := by simp [about_booted, hij]
          rw [e]
          exact still b
      · rw [if_neg hr] at h
        cases h
        exact ⟨b, hb, still b⟩

theorem step_length {s s2 : Sys} {e : Ev} {o : List Obs} (h : step val s e = .ok (s2, o)) : s2.boards.length = s.boards.length := by
  cases e with
  | op x =>
    simp only [step] at h
    cases hm : Motors.step s.mgr x with
    | error e => rw [hm] at h; cases h
    | ok p => rw [hm] at h; cases h; simp
  | deliver j =>
    simp only [step, deliver, Except.ok.injEq] at h
    cases hj : s.boards[j]? with
    | none => rw [hj] at h; cases h; rfl
    | some c =>
      rw [hj] at h
      simp only at h
      cases hin : c.inbox with
      | nil => rw [hin] at h; cases h; rfl
      | cons f fs => rw [hin] at h; cases h; simp
  | boot j =>
    simp only [step, boot, Except.ok.injEq] at h
    cases hj : s.boards[j]? with
    | none => rw [hj] at h; cases h; rfl
    | some c =>
      rw [hj] at h
      simp only at h
      split at h <;> cases h <;> simp
  | _ => cases h; simp

theorem step_now {s s2 : Sys} {e : Ev} {o : List Obs} (h : step val s e = .ok (s2, o)) : s.now ≤ s2.now := by
  cases e with
  | advance us => cases h; simp
  | op x =>
    simp only [step] at h
    cases hm : Motors.step s.mgr x with
    | error e => rw [hm] at h; cases h
    | ok p => rw [hm] at h; cases h; simp
  | deliver j =>
    simp only [step, deliver, Except.ok.injEq] at h
    cases hj : s.boards[j]? with
    | none => rw [hj] at h; cases h; simp
    | some c =>
      rw [hj] at h
      simp only at h
      cases hin : c.inbox with
      | nil => rw [hin] at h; cases h; simp
      | cons f fs => rw [hin] at h; cases h; simp
  | boot j =>
    simp only [step, boot, Except.ok.injEq] at h
    cases hj : s.boards[j]? with
    | none => rw [hj] at h; cases h; simp
    | some c =>
      rw [hj] at h
      simp only at h
      split at h <;> cases h <;> simp
  | _ => cases h; simp

/-- An invariant of one board, by what can happen to it -/
theorem board_inv {P : Nat → Nat → Board → List Obs → Prop} {s : Sys}
    (h0 : ∀ i b, s.boards[i]? = some b → P i s.now b [])
    (ht : ∀ i now now' b o, now ≤ now' → P i now b o → P i now' b o)
    (hm : ∀ i now b o l fs b2 o2, P i now b o → Moves val i now l b fs b2 o2 → P i now b2 (o ++ o2))
    (hf : ∀ i now b o o2, P i now b (o ++ o2.filter (About i)) → P i now b (o ++ o2))
    (es : List Ev) {s' : Sys} {o : List Obs} (h : run val s es = .ok (s', o)) : ∀ i b, s'.boards[i]? = some b → P i s'.now b o := by
  refine run_inv (P := fun _ s o => ∀ i b, s.boards[i]? = some b → P i s.now b o) h0 ?_ es h
  intro es s1 o1 e s2 o2 hp hs i b2 hb2
  have hl := step_length hs
  have hi : i < s1.boards.length := by rw [← hl]; exact (List.getElem?_eq_some_iff.mp hb2).1
  obtain ⟨b3, hb3, hmv⟩ := step_moves hs (List.getElem?_eq_getElem hi)
  rw [hb2] at hb3
  cases hb3
  exact hf _ _ _ _ _ (ht _ _ _ _ _ (step_now hs) (hm _ _ _ _ _ _ _ _ (hp i _ (List.getElem?_eq_getElem hi)) hmv))

end Verif.Chain
