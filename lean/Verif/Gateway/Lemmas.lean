import Verif.Motors.Props
import Verif.MsgBus.BusProps
import Verif.Gateway.Model

/-!
# Gateway: specification and lemmas
-/

namespace Verif.Gateway

open BusEnum (Name)
open HeapList (upd)

@[simp] theorem bind_ok {α β : Type} (a : α) (f : α → Except Err β) : ((Except.ok a : Except Err α) >>= f) = f a := rfl
@[simp] theorem pure_eq {α : Type} (a : α) : (pure a : Except Err α) = .ok a := rfl
@[simp] theorem liftM_ok {α : Type} (a : α) : liftM (.ok a) = .ok a := rfl
@[simp] theorem liftB_ok {α : Type} (a : α) : liftB (.ok a) = .ok a := rfl

/-! ## Specification -/

/-- What should be known: motors, actuators and ids discovered; the messages from known boards, with the name of the board, newest first; the topics of others; the last wheel
positions; for each motor and stream the last value and whether it is new; for each motor the last index count -/
structure Spec where
  dev : Motors.Spec
  heard : List (Proxy × Name × Payload)
  others : List Name
  wheels : Option Payload
  val : Nat → Nat → F
  new : Nat → Nat → Bool
  count : Nat → BitVec 32

def Spec.init : Spec := ⟨⟨[], [], []⟩, [], [], none, fun _ _ => 0, fun _ _ => false, fun _ => 0⟩

/-- The board with a given id -/
def Spec.board (σ : Spec) (id : BitVec 8) : Option Name := (σ.dev.ids.find? fun p => p.2 = id).map (·.1)

/-- The place of a motor in the list of motors -/
def indexOf (n : Name) : List Name → Option Nat
  | [] => none
  | m :: l => if m = n then some 0 else (indexOf n l).map (· + 1)

/-- The motor with a given id -/
def Spec.motor (σ : Spec) (id : BitVec 8) : Option Nat := (σ.board id).bind fun n => indexOf n σ.dev.names

/-- What a CAN message says, for the message bus: a distance in metres; two pressures and an input -/
def Can.content : Can → Proxy × Payload
  | .distance mm _ => (.range, .range ((mm.toNat : ℚ) / 1000))
  | .feedback p0 p1 _ _ inp => (.act, .feedback p0 p1 inp)

/-- The value that a motor feedback message has for a stream: 0 current, 1 current setpoint, 2 voltage, 3 velocity, 4 velocity setpoint, 5 position, 6 position setpoint, 7 index,
9 torque -/
def Feedback.value : Feedback → Nat → Option F
  | .current _ c _, 0 => some c
  | .current sp _ _, 1 => some sp
  | .current _ _ v, 2 => some v
  | .velocity _ v, 3 => some v
  | .velocity sp _, 4 => some sp
  | .position _ p, 5 => some p
  | .position sp _, 6 => some sp
  | .index p _, 7 => some p
  | .motorPos p _, 5 => some p
  | .motorPos _ v, 3 => some v
  | .torque t _, 9 => some t
  | .torque _ p, 5 => some p
  | _, _ => none

def Feedback.counts : Feedback → Option (BitVec 32)
  | .index _ c => some c
  | _ => none

def Spec.step (cap : Nat) (σ : Spec) : Op → Spec
  | .dev op => { σ with dev := (σ.dev.step cap op).1 }
  | .can src m =>
    match σ.board src with
    | none => σ
    | some b => { σ with heard := (m.content.1, b, m.content.2) :: σ.heard }
  | .wheels l r => { σ with wheels := some (.wheels l r) }
  | .other n => { σ with others := n :: σ.others }
  | .motor src f =>
    match σ.motor src with
    | none => σ
    | some i =>
      { σ with
        val := fun j s => if j = i then (f.value s).getD (σ.val j s) else σ.val j s
        new := fun j s => if j = i ∧ (f.value s).isSome then true else σ.new j s
        count := fun j => if j = i then f.counts.getD (σ.count j) else σ.count j }
  | .take i s => { σ with new := fun j r => if j = i ∧ r = s.toNat then false else σ.new j r }

def Spec.run (cap : Nat) (σ : Spec) (ops : List Op) : Spec := ops.foldl (Spec.step cap) σ

/-- The last message of board `b` for proxy `p` -/
def Spec.last (σ : Spec) (p : Proxy) (b : Name) : Option Payload := (σ.heard.find? fun e => e.1 = p ∧ e.2.1 = b).map (·.2.2)

/-- The operations of the motor manager are within its limits, and no actuator board sends motor feedback. -/
def Allowed (cap enCap : Nat) (σ : Spec) : Op → Prop
  | .dev op => Motors.Allowed cap enCap σ.dev op
  | .motor src _ => ∀ b, σ.board src = some b → b ∉ σ.dev.acts
  | _ => True

def AllAllowed (cap enCap : Nat) : Spec → List Op → Prop
  | _, [] => True
  | σ, op :: ops => Allowed cap enCap σ op ∧ AllAllowed cap enCap (σ.step cap op) ops

/-! ## Ids -/

theorem step_ids_nodup (cap : Nat) (σ : Motors.Spec) (op : Motors.Op) (h : (σ.ids.map Prod.snd).Nodup) : ((σ.step cap op).1.ids.map Prod.snd).Nodup := by
  cases op with
  | announce n id =>
    simp only [Motors.Spec.step]
    split
    · rename_i hc
      simp only [List.map_append, List.map_cons, List.map_nil]
      rw [List.nodup_append]
      refine ⟨h, by simp, ?_⟩
      intro a ha b hb
      rw [List.mem_singleton.mp hb]
      rintro rfl
      exact hc.1 ha
    · exact h
  | create n => simp only [Motors.Spec.step]; split <;> exact h
  | actuator n j => exact h
  | set n m v => exact h
  | disable i => exact h
  | timer => exact h

theorem board_eq {σ : Spec} (h : (σ.dev.ids.map Prod.snd).Nodup) {n : Name} {id : BitVec 8} (hm : (n, id) ∈ σ.dev.ids) : σ.board id = some n := by
  unfold Spec.board
  have : ∀ l : List (Name × BitVec 8), (l.map Prod.snd).Nodup → (n, id) ∈ l → (l.find? fun p => p.2 = id) = some (n, id) := by
    intro l
    induction l with
    | nil => intro _ h; cases h
    | cons a l ih =>
      intro hd hm
      simp only [List.map_cons, List.nodup_cons] at hd
      by_cases e : a.2 = id
      · rw [List.find?_cons_of_pos (by simpa using e)]
        rcases List.mem_cons.mp hm with hm | hm
        · rw [hm]
        · exact absurd (List.mem_map.mpr ⟨_, hm, rfl⟩) (e ▸ hd.1)
      · rw [List.find?_cons_of_neg (by simpa using e)]
        rcases List.mem_cons.mp hm with hm | hm
        · rw [← hm] at e; exact absurd rfl e
        · exact ih hd.2 hm
  rw [this _ h hm]
  rfl

theorem board_mem {σ : Spec} {n : Name} {id : BitVec 8} (h : σ.board id = some n) : (n, id) ∈ σ.dev.ids := by
  unfold Spec.board at h
  cases hf : σ.dev.ids.find? (fun p => p.2 = id) with
  | none => rw [hf] at h; cases h
  | some p =>
    rw [hf] at h
    simp only [Option.map_some, Option.some.injEq] at h
    have h1 := List.mem_of_find?_eq_some hf
    have h2 := List.find?_some hf
    simp only [decide_eq_true_eq] at h2
    rw [← h, ← h2]
    exact h1

theorem board_none {σ : Spec} {id : BitVec 8} (h : ∀ n, (n, id) ∉ σ.dev.ids) : σ.board id = none := by
  cases hb : σ.board id with
  | none => rfl
  | some n => exact absurd (board_mem hb) (h n)

theorem indexOf_eq {l : List Name} (hd : l.Nodup) {n : Name} {i : Nat} (h : l[i]? = some n) : indexOf n l = some i := by
  induction l generalizing i with
  | nil => cases h
  | cons a l ih =>
    simp only [List.nodup_cons] at hd
    unfold indexOf
    cases i with
    | zero =>
      simp only [List.getElem?_cons_zero, Option.some.injEq] at h
      rw [if_pos h]
    | succ i =>
      simp only [List.getElem?_cons_succ] at h
      have hne : ¬ a = n := by
        rintro rfl
        exact hd.1 (List.mem_of_getElem? h)
      rw [if_neg hne, ih hd.2 h]
      rfl

theorem indexOf_none {l : List Name} {n : Name} (h : n ∉ l) : indexOf n l = none := by
  induction l with
  | nil => rfl
  | cons a l ih =>
    simp only [List.mem_cons, not_or] at h
    unfold indexOf
    rw [if_neg (fun e => h.1 e.symm), ih h.2]
    rfl

/-! ## Streams are not touched by the manager -/

def core (d : Motors.Driver) : (Nat → F) × BitVec 32 := (d.values, d.status)

theorem updateCanId_core {en : BusEnum.En} {d d' : Motors.Driver} (h : Motors.updateCanId en d = .ok d') : core d' = core d := by
  unfold Motors.updateCanId at h
  split at h
  · cases hg : Motors.lift (BusEnum.getCanId en d.id) with
    | error e => rw [hg] at h; cases h
    | ok id =>
      rw [hg] at h
      simp only [Motors.bind_ok, Motors.pure_eq] at h
      split at h <;> cases h <;> rfl
  · cases h; rfl

theorem updateConfig_core {en : BusEnum.En} (ds : List Motors.Driver) : ∀ {ds'}, Motors.updateConfig en ds = .ok ds' → ds'.map core = ds.map core := by
  induction ds with
  | nil => intro ds' h; cases h; rfl
  | cons d ds ih =>
    intro ds' h
    unfold Motors.updateConfig at h
    cases hu : Motors.updateCanId en d with
    | error e => rw [hu] at h; cases h
    | ok d1 =>
      rw [hu] at h
      simp only [Motors.bind_ok] at h
      have hc := updateCanId_core hu
      split at h
      · cases hr : Motors.updateConfig en ds with
        | error e => rw [hr] at h; cases h
        | ok ds1 =>
          rw [hr] at h
          cases h
          simp only [List.map_cons, hc, ih hr]
      · cases h
        simp only [List.map_cons, hc]

theorem sendAll_core {en : BusEnum.En} (ds : List Motors.Driver) : ∀ {ds' ms}, Motors.sendAll en ds = .ok (ds', ms) → ds'.map core = ds.map core := by
  induction ds with
  | nil => intro ds' ms h; cases h; rfl
  | cons d ds ih =>
    intro ds' ms h
    unfold Motors.sendAll Motors.sendSetpoint at h
    cases hu : Motors.updateCanId en d with
    | error e => rw [hu] at h; cases h
    | ok d1 =>
      have hc := updateCanId_core hu
      rw [hu] at h
      simp only [Motors.bind_ok, Motors.pure_eq] at h
      cases hr : Motors.sendAll en ds with
      | error e => rw [hr] at h; split at h <;> cases h
      | ok q =>
        obtain ⟨ds1, ms1⟩ := q
        rw [hr] at h
        split at h <;> (cases h; simp only [List.map_cons, hc, ih hr])

/-- Streams keep their values; a driver that is made has zeros. -/
theorem step_core {m m' : Motors.Mgr} {op : Motors.Op} {ms : List Motors.Msg} (h : Motors.step m op = .ok (m', ms)) :
    m'.drivers.map core = m.drivers.map core ∨ m'.drivers.map core = m.drivers.map core ++ [(fun _ => 0, 0)] := by
  cases op with
  | create n =>
    simp only [Motors.step, Motors.create] at h
    cases hg : Motors.lift (BusEnum.getCanId m.en n) with
    | error e => rw [hg] at h; cases h
    | ok id =>
      rw [hg] at h
      simp only [Motors.bind_ok, Motors.pure_eq] at h
      by_cases h1 : id ≠ BusEnum.notFound
      · rw [if_pos h1] at h; cases h; exact .inl rfl
      · rw [if_neg h1] at h
        by_cases h2 : m.drivers.length < m.cap
        · rw [if_pos h2] at h
          cases ha : Motors.lift (BusEnum.addNode m.en (Motors.Driver.init n).id (2 * m.drivers.length)) with
          | error e => rw [ha] at h; cases h
          | ok en =>
            rw [ha] at h
            cases h
            right
            rw [List.map_append]
            rfl
        · rw [if_neg h2] at h; cases h; exact .inl rfl
  | actuator n j =>
    unfold Motors.step Motors.addActuator at h
    cases ha : Motors.lift (BusEnum.addNode m.en n (2 * j + 1)) with
    | error e => simp only [ha] at h; cases h
    | ok en => simp only [ha] at h; cases h; exact .inl rfl
  | set n mode v =>
    unfold Motors.step Motors.setByName at h
    cases ha : Motors.lift (BusEnum.getDriver m.en n) with
    | error e => simp only [ha] at h; cases h
    | ok o =>
      simp only [ha, Motors.bind_ok, Motors.pure_eq] at h
      cases o with
      | none => cases h; exact .inl rfl
      | some p =>
        simp only at h
        by_cases h1 : p % 2 = 0
        · rw [if_pos h1] at h
          cases h
          exact .inl (Motors.map_modify_id _ _ _ _ (fun a => rfl))
        · rw [if_neg h1] at h; cases h
  | disable i =>
    cases h
    exact .inl (Motors.map_modify_id _ _ _ _ (fun a => rfl))
  | announce n id =>
    unfold Motors.step Motors.announce at h
    cases ha : Motors.lift (BusEnum.getStrId m.en id) with
    | error e => simp only [ha] at h; cases h
    | ok o =>
      simp only [ha, Motors.bind_ok, Motors.pure_eq] at h
      cases o with
      | some s => cases h; exact .inl rfl
      | none =>
        simp only at h
        cases hb : Motors.lift (BusEnum.updateNode m.en n id) with
        | error e => rw [hb] at h; cases h
        | ok en => rw [hb] at h; cases h; exact .inl rfl
  | timer =>
    simp only [Motors.step, Motors.timer] at h
    cases ha : Motors.updateConfig m.en m.drivers with
    | error e => rw [ha] at h; cases h
    | ok ds =>
      rw [ha] at h
      simp only [Motors.bind_ok, Motors.pure_eq] at h
      cases hb : Motors.sendAll m.en ds with
      | error e => rw [hb] at h; cases h
      | ok q =>
        obtain ⟨ds1, ms1⟩ := q
        rw [hb] at h
        cases h
        exact .inl ((sendAll_core _ hb).trans (updateConfig_core _ ha))

/-! ## Feedback -/

theorem set_two (d : Motors.Driver) (a : BitVec 32) (x : F) (ha : a.toNat < 10) (s : Nat) (hs : s < 10) :
    (d.setStream a x).values s = (if s = a.toNat then x else d.values s) ∧ (d.setStream a x).status.getLsbD s = (decide (s = a.toNat) || d.status.getLsbD s) :=
  ⟨((Motors.stream_spec d a x).2 ha).2.1 s, ((Motors.stream_spec d a x).2 ha).1 s (by omega)⟩

theorem apply_spec (f : Feedback) (d : Motors.Driver) (s : Nat) (hs : s < 10) :
    (f.apply d).values s = (f.value s).getD (d.values s) ∧ (f.apply d).status.getLsbD s = ((f.value s).isSome || d.status.getLsbD s) := by
  have h : s = 0 ∨ s = 1 ∨ s = 2 ∨ s = 3 ∨ s = 4 ∨ s = 5 ∨ s = 6 ∨ s = 7 ∨ s = 8 ∨ s = 9 := by omega
  cases f <;>
    (simp only [Feedback.apply]
     rw [(set_two _ _ _ (by decide) s hs).1, (set_two _ _ _ (by decide) s hs).2]
     try rw [(set_two _ _ _ (by decide) s hs).1, (set_two _ _ _ (by decide) s hs).2]
     try rw [(set_two _ _ _ (by decide) s hs).1, (set_two _ _ _ (by decide) s hs).2]
     rcases h with h | h | h | h | h | h | h | h | h | h <;> subst h <;> simp [Feedback.value])

theorem apply_view (f : Feedback) (d : Motors.Driver) : (f.apply d).view = d.view ∧ (f.apply d).id = d.id ∧ (f.apply d).canId = d.canId := by
  have h : ∀ (d : Motors.Driver) (a : BitVec 32) (x : F), (d.setStream a x).view = d.view ∧ (d.setStream a x).id = d.id ∧ (d.setStream a x).canId = d.canId := by
    intro d a x
    unfold Motors.Driver.setStream
    split <;> exact ⟨rfl, rfl, rfl⟩
  cases f <;> simp only [Feedback.apply, h, and_self]

end Verif.Gateway
