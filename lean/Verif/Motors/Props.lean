import Verif.BusEnum.Props
import Verif.Motors.Model

/-!
# Motor drivers and motor manager: properties (C61, C62)
-/

namespace Verif.Motors

open BusEnum (Name En assoc)

@[simp] theorem bind_ok {α β : Type} (a : α) (f : α → Except Err β) : ((Except.ok a : Except Err α) >>= f) = f a := rfl
@[simp] theorem pure_eq {α : Type} (a : α) : (pure a : Except Err α) = .ok a := rfl
@[simp] theorem lift_ok {α : Type} (a : α) : lift (.ok a) = .ok a := rfl

/-! ## Specification -/

/-- What should be known: the motors in the order of their creation with their last command, the names of the other registered nodes, and the ids discovered -/
structure Spec where
  motors : List (Name × Mode × F)
  acts : List Name
  ids : List (Name × BitVec 8)

def Spec.names (σ : Spec) : List Name := σ.motors.map (·.1)

/-- The message a motor gets at each tick of the timer -/
def Spec.msgs (ids : List (Name × BitVec 8)) (p : Name × Mode × F) : List Msg :=
  match assoc p.1 ids with
  | none => []
  | some id => if p.2.1 = .disabled then [] else [⟨p.2.1, id.toNat, p.2.2⟩]

def Spec.step (cap : Nat) (σ : Spec) : Op → Spec × List Msg
  | .create n => (if n ∈ σ.names ∨ n ∈ σ.acts ∨ cap ≤ σ.motors.length then σ else { σ with motors := σ.motors ++ [(n, .disabled, 0)] }, [])
  | .actuator n _ => ({ σ with acts := σ.acts ++ [n] }, [])
  | .set n m v => ({ σ with motors := σ.motors.map fun p => if p.1 = n then (n, m, v) else p }, [])
  | .disable i => ({ σ with motors := σ.motors.modify i fun p => (p.1, .disabled, p.2.2) }, [])
  | .announce n id =>
    (if id ∉ σ.ids.map Prod.snd ∧ (n ∈ σ.names ∨ n ∈ σ.acts) ∧ n ∉ σ.ids.map Prod.fst then { σ with ids := σ.ids ++ [(n, id)] } else σ, [])
  | .timer => (σ, σ.motors.flatMap (Spec.msgs σ.ids))

def Spec.run (cap : Nat) (σ : Spec) : List Op → Spec × List Msg
  | [] => (σ, [])
  | op :: ops =>
    let (σ, a) := σ.step cap op
    let (σ, b) := Spec.run cap σ ops
    (σ, a ++ b)

/-- What the operations have to satisfy: names of motors of at most 24 characters, distinct names of actuators and room in the enumerator for each driver that is made, no motor
command for an actuator, and no node with one of the ids 254 and 255 (the bus has at most 127). -/
def Allowed (cap enCap : Nat) (σ : Spec) : Op → Prop
  | .create n => n.length ≤ 24 ∧ (n ∈ σ.names ∨ n ∈ σ.acts ∨ cap ≤ σ.motors.length ∨ σ.motors.length + σ.acts.length < enCap)
  | .actuator n _ => n ∉ σ.names ∧ n ∉ σ.acts ∧ σ.motors.length + σ.acts.length < enCap
  | .set n m _ => n ∉ σ.acts ∧ m ≠ .disabled
  | .disable _ => True
  | .announce _ id => id ≠ 0xFE ∧ id ≠ 0xFF
  | .timer => True

def AllAllowed (cap enCap : Nat) : Spec → List Op → Prop
  | _, [] => True
  | σ, op :: ops => Allowed cap enCap σ op ∧ AllAllowed cap enCap (σ.step cap op).1 ops

/-! ## The relation -/

def Driver.view (d : Driver) : Name × Mode × F := (d.id, d.mode, d.setpt)

/-- The driver's id is not set, or is the one discovered for its name. -/
def KnownId (ids : List (Name × BitVec 8)) (d : Driver) : Prop :=
  d.canId = CAN_NOT_SET ∨ ∃ id, assoc d.id ids = some id ∧ d.canId = id.toNat

structure Rel (m : Mgr) (σ : Spec) (β : BusEnum.Spec) : Prop where
  en : BusEnum.Rel m.en β
  ids : β.ids = σ.ids
  motor : ∀ n i, (n, 2 * i) ∈ β.nodes ↔ σ.names[i]? = some n
  act : ∀ n, (∃ j, (n, 2 * j + 1) ∈ β.nodes) ↔ n ∈ σ.acts
  len : β.nodes.length = σ.motors.length + σ.acts.length
  cap : σ.motors.length ≤ m.cap
  drivers : m.drivers.map Driver.view = σ.motors
  known : ∀ d ∈ m.drivers, KnownId σ.ids d
  noFE : ∀ p ∈ σ.ids, p.2 ≠ 0xFE

section
variable {m : Mgr} {σ : Spec} {β : BusEnum.Spec}

theorem Rel.registered (h : Rel m σ β) (n : Name) : n ∈ β.nodes.map Prod.fst ↔ n ∈ σ.names ∨ n ∈ σ.acts := by
  constructor
  · intro hn
    obtain ⟨⟨n', p⟩, hp, rfl⟩ := List.mem_map.mp hn
    rcases Nat.mod_two_eq_zero_or_one p with h0 | h0
    · left
      have : p = 2 * (p / 2) := by omega
      rw [this] at hp
      exact List.mem_of_getElem? ((h.motor _ _).mp hp)
    · right
      have : p = 2 * (p / 2) + 1 := by omega
      rw [this] at hp
      exact (h.act _).mp ⟨_, hp⟩
  · rintro (hn | hn)
    · obtain ⟨i, hi⟩ := List.mem_iff_getElem?.mp hn
      exact List.mem_map.mpr ⟨(n, 2 * i), (h.motor n i).mpr hi, rfl⟩
    · obtain ⟨j, hj⟩ := (h.act n).mpr hn
      exact List.mem_map.mpr ⟨(n, 2 * j + 1), hj, rfl⟩

theorem Rel.names_nodup (h : Rel m σ β) : σ.names.Nodup := by
  rw [List.nodup_iff_getElem?_ne_getElem?]
  intro i j hij hj he
  obtain ⟨n, hn⟩ : ∃ n, σ.names[j]? = some n := ⟨_, List.getElem?_eq_getElem hj⟩
  have h1 := (h.motor n j).mpr hn
  have h2 := (h.motor n i).mpr (he.trans hn)
  have e1 := BusEnum.assoc_of_mem h.en.nodup h1
  have e2 := BusEnum.assoc_of_mem h.en.nodup h2
  rw [e1] at e2
  simp only [Option.some.injEq] at e2
  omega

theorem Rel.driver_names (h : Rel m σ β) : m.drivers.map Driver.id = σ.names := by
  unfold Spec.names
  rw [← h.drivers, List.map_map]
  rfl

theorem Rel.length (h : Rel m σ β) : m.drivers.length = σ.motors.length := by
  rw [← h.drivers, List.length_map]

/-- The id reported for a name -/
theorem Rel.canId (h : Rel m σ β) (n : Name) :
    BusEnum.getCanId m.en n = .ok (if n ∈ σ.names ∨ n ∈ σ.acts then (assoc n σ.ids).getD BusEnum.notSet else BusEnum.notFound) := by
  rw [h.en.getCanId]
  by_cases hn : n ∈ σ.names ∨ n ∈ σ.acts
  · have := (h.registered n).mpr hn
    cases ha : assoc n β.nodes with
    | none => exact absurd this (BusEnum.assoc_none.mp ha)
    | some d => rw [if_pos hn, h.ids]
  · have : assoc n β.nodes = none := BusEnum.assoc_none.mpr (fun hm => hn ((h.registered n).mp hm))
    rw [this, if_neg hn]

theorem assoc_ne_FE (h : Rel m σ β) (n : Name) : (assoc n σ.ids).getD BusEnum.notSet ≠ BusEnum.notFound := by
  cases ha : assoc n σ.ids with
  | none => decide
  | some v =>
    have := h.noFE _ (BusEnum.assoc_some ha)
    exact this

/-! ## Each operation -/

theorem init_rel {cap enCap : Nat} (h2 : enCap < 65536) : Rel (init cap enCap) ⟨[], [], []⟩ ⟨[], []⟩ where
  en := ⟨BusEnum.init_inv enCap h2, List.Perm.refl _, by simp, by simp, by simp, by simp⟩
  ids := rfl
  motor := by intro n i; simp [Spec.names]
  act := by intro n; simp
  len := rfl
  cap := Nat.zero_le _
  drivers := rfl
  known := by intro d hd; cases hd
  noFE := by simp

/-- Adding a node with a new name -/
theorem add_ok (h : Rel m σ β) {n : Name} (p : Nat) (hn : n ∉ σ.names) (ha : n ∉ σ.acts) (hr : β.nodes.length < m.en.cap) :
    ∃ en', BusEnum.addNode m.en n p = .ok en' ∧ en'.cap = m.en.cap ∧ BusEnum.Rel en' { β with nodes := β.nodes ++ [(n, p)] } := by
  obtain ⟨en', h1, h2, h3⟩ := BusEnum.step_rel h.en (.add n p) (by intro s hs; cases hs) (by
    intro s d e
    cases e
    intro hm
    rcases (h.registered n).mp hm with hm | hm
    · exact hn hm
    · exact ha hm)
  refine ⟨en', h1, h2, ?_⟩
  simp only [BusEnum.Spec.step, if_pos hr] at h3
  exact h3

/-- C62: what `motor_manager_create_driver` does. -/
theorem create_ok (h : Rel m σ β) {n : Name} (hl : n.length ≤ 24)
    (hr : n ∈ σ.names ∨ n ∈ σ.acts ∨ m.cap ≤ σ.motors.length ∨ σ.motors.length + σ.acts.length < m.en.cap) :
    (∃ m' β', create m n = .ok (m', some m.drivers.length) ∧ n ∉ σ.names ∧ n ∉ σ.acts ∧ m.drivers.length < m.cap ∧
      m'.drivers = m.drivers ++ [Driver.init n] ∧ m'.cap = m.cap ∧ m'.en.cap = m.en.cap ∧
      Rel m' { σ with motors := σ.motors ++ [(n, .disabled, 0)] } β') ∨
    (create m n = .ok (m, none) ∧ (n ∈ σ.names ∨ n ∈ σ.acts ∨ m.drivers.length = m.cap)) := by
  unfold create
  rw [h.canId n]
  by_cases hn : n ∈ σ.names ∨ n ∈ σ.acts
  · right
    rw [if_pos hn]
    simp only [lift_ok, bind_ok]
    rw [if_pos (assoc_ne_FE h n)]
    refine ⟨rfl, ?_⟩
    rcases hn with hn | hn
    · exact .inl hn
    · exact .inr (.inl hn)
  · rw [if_neg hn]
    simp only [lift_ok, bind_ok]
    rw [if_neg (by simp)]
    have hcap := h.cap
    have hlen := h.length
    by_cases hc : m.drivers.length < m.cap
    · left
      rw [if_pos hc]
      have hn1 : n ∉ σ.names := fun hm => hn (.inl hm)
      have hn2 : n ∉ σ.acts := fun hm => hn (.inr hm)
      have hid : (Driver.init n).id = n := by
        show n.take ID_MAX = n
        exact List.take_of_length_le (by unfold ID_MAX; exact hl)
      have hroom : σ.motors.length + σ.acts.length < m.en.cap := by
        rcases hr with hr | hr | hr | hr
        · exact absurd hr hn1
        · exact absurd hr hn2
        · omega
        · exact hr
      obtain ⟨en', h1, h2, h3⟩ := add_ok h (2 * m.drivers.length) hn1 hn2 (by rw [h.len]; omega)
      rw [hid, h1]
      simp only [lift_ok, bind_ok, pure_eq]
      refine ⟨_, { β with nodes := β.nodes ++ [(n, 2 * m.drivers.length)] }, rfl, hn1, hn2, hc, rfl, rfl, h2, ?_⟩
      refine ⟨h3, h.ids, ?_, ?_, ?_, ?_, ?_, ?_, h.noFE⟩
      · intro n' i
        have hnames : ({ σ with motors := σ.motors ++ [(n, Mode.disabled, (0 : F))] } : Spec).names = σ.names ++ [n] := by simp [Spec.names]
        have hnl : σ.names.length = m.drivers.length := by simp [Spec.names, hlen]
        rw [hnames, List.getElem?_append]
        simp only [List.mem_append, List.mem_singleton, Prod.mk.injEq]
        by_cases hi : i < σ.names.length
        · rw [if_pos hi, ← h.motor]
          constructor
          · rintro (e | ⟨-, e⟩)
            · exact e
            · omega
          · exact .inl
        · rw [if_neg hi]
          constructor
          · rintro (e | ⟨rfl, e⟩)
            · have := (h.motor n' i).mp e
              rw [List.getElem?_eq_none (by omega)] at this
              cases this
            · rw [show i - σ.names.length = 0 by omega]; rfl
          · intro e
            right
            have h0 : i - σ.names.length = 0 := by
              refine Classical.byContradiction fun hne => ?_
              rw [List.getElem?_eq_none (by simp; omega)] at e
              cases e
            rw [h0] at e
            simp only [List.getElem?_cons_zero, Option.some.injEq] at e
            exact ⟨e.symm, by omega⟩
      · intro n'
        rw [← h.act]
        simp only [List.mem_append, List.mem_singleton, Prod.mk.injEq]
        constructor
        · rintro ⟨j, e | ⟨-, e⟩⟩
          · exact ⟨j, e⟩
          · omega
        · rintro ⟨j, e⟩; exact ⟨j, .inl e⟩
      · simp only [List.length_append, List.length_singleton, h.len]; omega
      · simp only [List.length_append, List.length_singleton]; omega
      · rw [List.map_append, h.drivers]
        simp only [List.map_cons, List.map_nil, Driver.view, hid]
        rfl
      · intro d hd
        rcases List.mem_append.mp hd with hd | hd
        · exact h.known d hd
        · rw [List.mem_singleton.mp hd]; exact .inl rfl
    · right
      rw [if_neg hc]
      exact ⟨rfl, .inr (.inr (by omega))⟩

theorem actuator_ok (h : Rel m σ β) {n : Name} (j : Nat) (hn : n ∉ σ.names) (ha : n ∉ σ.acts) (hr : σ.motors.length + σ.acts.length < m.en.cap) :
    ∃ m' β', addActuator m n j = .ok m' ∧ m'.drivers = m.drivers ∧ m'.cap = m.cap ∧ m'.en.cap = m.en.cap ∧ Rel m' { σ with acts := σ.acts ++ [n] } β' := by
  have hcap := h.cap
  obtain ⟨en', h1, h2, h3⟩ := add_ok h (2 * j + 1) hn ha (by rw [h.len]; omega)
  unfold addActuator
  rw [h1]
  simp only [lift_ok, bind_ok, pure_eq]
  refine ⟨_, { β with nodes := β.nodes ++ [(n, 2 * j + 1)] }, rfl, rfl, rfl, h2, ?_⟩
  refine ⟨h3, h.ids, ?_, ?_, ?_, h.cap, h.drivers, h.known, h.noFE⟩
  · intro n' i
    show _ ↔ σ.names[i]? = some n'
    rw [← h.motor]
    simp only [List.mem_append, List.mem_singleton, Prod.mk.injEq]
    constructor
    · rintro (e | ⟨-, e⟩)
      · exact e
      · omega
    · exact .inl
  · intro n'
    simp only [List.mem_append, List.mem_singleton, Prod.mk.injEq]
    rw [← h.act]
    constructor
    · rintro ⟨k, e | ⟨e, -⟩⟩
      · exact .inl ⟨k, e⟩
      · exact .inr e
    · rintro (⟨k, e⟩ | e)
      · exact ⟨k, .inl e⟩
      · exact ⟨j, .inr ⟨e, rfl⟩⟩
  · simp only [List.length_append, List.length_singleton, h.len]; omega

/-- Changing mode and setpoint of some drivers keeps the relation. -/
theorem rel_drivers (h : Rel m σ β) {ds : List Driver} {ms : List (Name × Mode × F)} (hv : ds.map Driver.view = ms) (hn : ms.map (·.1) = σ.names)
    (hk : ∀ d ∈ ds, KnownId σ.ids d) : Rel { m with drivers := ds } { σ with motors := ms } β := by
  have hl : ms.length = σ.motors.length := by
    have := congrArg List.length hn
    simpa [Spec.names] using this
  refine ⟨h.en, h.ids, ?_, h.act, ?_, ?_, hv, hk, h.noFE⟩
  · intro n i
    rw [h.motor, ← hn]
    rfl
  · rw [h.len]; simp only [hl]
  · simp only [hl]; exact h.cap

theorem modify_known {ids : List (Name × BitVec 8)} {f : Driver → Driver} (hf : ∀ d, (f d).id = d.id ∧ (f d).canId = d.canId) {ds : List Driver} (i : Nat)
    (hk : ∀ d ∈ ds, KnownId ids d) : ∀ d ∈ ds.modify i f, KnownId ids d := by
  intro d hd
  obtain ⟨k, hk'⟩ := List.mem_iff_getElem?.mp hd
  rw [List.getElem?_modify] at hk'
  cases he : ds[k]? with
  | none => rw [he] at hk'; cases hk'
  | some d0 =>
    rw [he] at hk'
    have h0 := hk d0 (List.mem_of_getElem? he)
    simp only [Option.map_eq_map, Option.map_some, Option.some.injEq] at hk'
    subst hk'
    by_cases e : i = k
    · rw [if_pos e]
      unfold KnownId at h0 ⊢
      rw [(hf d0).1, (hf d0).2]
      exact h0
    · rw [if_neg e]; exact h0

theorem map_modify {α β : Type} (l : List α) (i : Nat) (f : α → α) (g : α → β) (f' : β → β) (h : ∀ a, g (f a) = f' (g a)) : (l.modify i f).map g = (l.map g).modify i f' := by
  apply List.ext_getElem?
  intro k
  rw [List.getElem?_map, List.getElem?_modify, List.getElem?_modify, List.getElem?_map]
  cases l[k]? with
  | none => rfl
  | some a =>
    simp only [Option.map_eq_map, Option.map_some]
    by_cases e : i = k
    · rw [if_pos e, if_pos e, h]
    · rw [if_neg e, if_neg e]

theorem map_modify_id {α β : Type} (l : List α) (i : Nat) (f : α → α) (g : α → β) (h : ∀ a, g (f a) = g a) : (l.modify i f).map g = l.map g := by
  rw [map_modify l i f g id (by intro a; rw [h]; rfl), List.modify_id]

/-- C62: a command by name reaches the driver created for that name. -/
theorem set_ok (h : Rel m σ β) {n : Name} (hn : n ∉ σ.acts) (mode : Mode) (v : F) :
    ∃ m', setByName m n mode v = .ok m' ∧ m'.drivers.map Driver.view = σ.motors.map (fun p => if p.1 = n then (n, mode, v) else p) ∧
      m'.cap = m.cap ∧ m'.en = m.en ∧ Rel m' { σ with motors := σ.motors.map fun p => if p.1 = n then (n, mode, v) else p } β := by
  unfold setByName
  rw [h.en.getDriver]
  simp only [lift_ok, bind_ok]
  have hnames : (σ.motors.map fun p => if p.1 = n then (n, mode, v) else p).map (·.1) = σ.names := by
    unfold Spec.names
    rw [List.map_map]
    refine List.map_congr_left fun p _ => ?_
    simp only [Function.comp]
    by_cases e : p.1 = n
    · rw [if_pos e, e]
    · rw [if_neg e]
  cases ha : assoc n β.nodes with
  | none =>
    have hnn : n ∉ σ.names := fun hm => (BusEnum.assoc_none.mp ha) ((h.registered n).mpr (.inl hm))
    have hid : (σ.motors.map fun p => if p.1 = n then (n, mode, v) else p) = σ.motors := by
      conv => rhs; rw [← List.map_id σ.motors]
      refine List.map_congr_left fun p hp => ?_
      rw [if_neg (fun (e : p.1 = n) => hnn (by rw [← e]; exact List.mem_map_of_mem hp))]
      rfl
    refine ⟨m, rfl, by rw [hid]; exact h.drivers, rfl, rfl, ?_⟩
    rw [hid]
    exact h
  | some p =>
    have hp := BusEnum.assoc_some ha
    have heven : p % 2 = 0 := by
      refine Classical.byContradiction fun hne => hn ?_
      have : p = 2 * (p / 2) + 1 := by omega
      rw [this] at hp
      exact (h.act n).mp ⟨_, hp⟩
    simp only [if_pos heven]
    have hp2 : p = 2 * (p / 2) := by omega
    rw [hp2] at hp
    have hi := (h.motor _ _).mp hp
    have hview : (m.drivers.modify (p / 2) (fun d => d.set mode v)).map Driver.view = σ.motors.map (fun q => if q.1 = n then (n, mode, v) else q) := by
      rw [map_modify _ _ _ Driver.view (fun q => (q.1, mode, v)) (fun a => rfl), h.drivers]
      apply List.ext_getElem?
      intro k
      rw [List.getElem?_modify, List.getElem?_map]
      cases hk : σ.motors[k]? with
      | none => rfl
      | some q =>
        have hqk : σ.names[k]? = some q.1 := by
          unfold Spec.names
          rw [List.getElem?_map, hk]
          rfl
        simp only [Option.map_eq_map, Option.map_some, Option.some.injEq]
        by_cases e : p / 2 = k
        · rw [if_pos e]
          rw [e, hqk] at hi
          simp only [Option.some.injEq] at hi
          rw [if_pos hi, hi]
        · rw [if_neg e]
          rw [if_neg]
          intro e2
          rw [e2] at hqk
          have hk1 := (h.motor n k).mpr hqk
          have a1 := BusEnum.assoc_of_mem h.en.nodup hk1
          rw [ha] at a1
          simp only [Option.some.injEq] at a1
          omega
    refine ⟨_, rfl, hview, rfl, rfl, ?_⟩
    exact rel_drivers h hview hnames (modify_known (f := fun d => d.set mode v) (fun d => ⟨rfl, rfl⟩) _ h.known)

theorem disable_ok (h : Rel m σ β) (i : Nat) :
    Rel { m with drivers := m.drivers.modify i Driver.disable } { σ with motors := σ.motors.modify i fun p => (p.1, .disabled, p.2.2) } β := by
  refine rel_drivers h ?_ ?_ (modify_known (f := Driver.disable) (fun d => ⟨rfl, rfl⟩) _ h.known)
  · rw [← h.drivers]
    exact map_modify _ _ _ Driver.view _ (fun a => rfl)
  · exact map_modify_id _ _ _ _ (fun a => rfl)

theorem announce_ok (h : Rel m σ β) (n : Name) {id : BitVec 8} (h1 : id ≠ 0xFE) (h2 : id ≠ 0xFF) :
    ∃ m' β', announce m n id = .ok m' ∧ m'.drivers = m.drivers ∧ m'.cap = m.cap ∧ m'.en.cap = m.en.cap ∧
      Rel m' (if id ∉ σ.ids.map Prod.snd ∧ (n ∈ σ.names ∨ n ∈ σ.acts) ∧ n ∉ σ.ids.map Prod.fst then { σ with ids := σ.ids ++ [(n, id)] } else σ) β' := by
  unfold announce
  rcases h.en.byId id with ⟨s, d, hs, e, -, -⟩ | ⟨hs, e, -⟩
  · rw [e]
    simp only [lift_ok, bind_ok, pure_eq]
    refine ⟨m, β, rfl, rfl, rfl, rfl, ?_⟩
    rw [if_neg]
    · exact h
    · rintro ⟨hid, -, -⟩
      rw [h.ids] at hs
      exact hid (List.mem_map.mpr ⟨(s, id), hs, rfl⟩)
  · rw [e]
    simp only [lift_ok, bind_ok, pure_eq]
    have hid : id ∉ σ.ids.map Prod.snd := by
      intro hm
      obtain ⟨⟨s, _⟩, hp, rfl⟩ := List.mem_map.mp hm
      rw [← h.ids] at hp
      exact hs s hp
    obtain ⟨en', e1, e2, e3⟩ := BusEnum.step_rel h.en (.update n id) (by
      intro s hs'
      cases hs'
      exact h2 rfl) (by intro s d hh; cases hh)
    have e1' : BusEnum.updateNode m.en n id = .ok en' := e1
    rw [e1']
    simp only [lift_ok, bind_ok]
    simp only [BusEnum.Spec.step] at e3
    by_cases hc : n ∈ β.nodes.map Prod.fst ∧ n ∉ β.ids.map Prod.fst
    · rw [if_pos hc] at e3
      have hc' : id ∉ σ.ids.map Prod.snd ∧ (n ∈ σ.names ∨ n ∈ σ.acts) ∧ n ∉ σ.ids.map Prod.fst :=
        ⟨hid, (h.registered n).mp hc.1, h.ids ▸ hc.2⟩
      rw [if_pos hc']
      refine ⟨_, { β with ids := β.ids ++ [(n, id)] }, rfl, rfl, rfl, e2, ?_⟩
      refine ⟨e3, ?_, h.motor, h.act, h.len, h.cap, h.drivers, ?_, ?_⟩
      · simp only [h.ids]
      · intro d hd
        rcases h.known d hd with hk | ⟨v, hk1, hk2⟩
        · exact .inl hk
        · refine .inr ⟨v, ?_, hk2⟩
          rw [BusEnum.assoc_append_ne]
          · exact hk1
          · intro e'
            rw [← e'] at hk1
            exact hc'.2.2 (List.mem_map.mpr ⟨_, BusEnum.assoc_some hk1, rfl⟩)
      · intro p hp
        rcases List.mem_append.mp hp with hp | hp
        · exact h.noFE p hp
        · rw [List.mem_singleton.mp hp]; exact h1
    · rw [if_neg hc] at e3
      have hc' : ¬(id ∉ σ.ids.map Prod.snd ∧ (n ∈ σ.names ∨ n ∈ σ.acts) ∧ n ∉ σ.ids.map Prod.fst) := by
        rintro ⟨-, a, b⟩
        exact hc ⟨(h.registered n).mpr a, h.ids ▸ b⟩
      rw [if_neg hc']
      refine ⟨_, β, rfl, rfl, rfl, e2, ?_⟩
      exact ⟨e3, h.ids, h.motor, h.act, h.len, h.cap, h.drivers, h.known, h.noFE⟩

/-! ## The timer -/

/-- A driver with its id looked up -/
def Driver.upd (ids : List (Name × BitVec 8)) (d : Driver) : Driver :=
  { d with canId := match assoc d.id ids with | none => d.canId | some id => id.toNat }

theorem updateCanId_ok (h : Rel m σ β) {d : Driver} (hd : d.id ∈ σ.names) (hk : KnownId σ.ids d) : updateCanId m.en d = .ok (d.upd σ.ids) := by
  unfold updateCanId Driver.upd
  by_cases hc : d.canId = CAN_NOT_SET
  · rw [if_pos hc, h.canId, if_pos (.inl hd)]
    simp only [lift_ok, bind_ok, pure_eq]
    cases ha : assoc d.id σ.ids with
    | none => simp
    | some id =>
      have h1 := h.noFE _ (BusEnum.assoc_some ha)
      have h2 := h.en.idsSet _ (by rw [h.ids]; exact BusEnum.assoc_some ha)
      simp only [Option.getD_some]
      rw [if_pos ⟨h2, h1⟩]
  · rw [if_neg hc]
    rcases hk with hk | ⟨id, hk, hk2⟩
    · exact absurd hk hc
    · rw [hk]
      simp only [pure_eq]
      rw [← hk2]

theorem upd_known {ids : List (Name × BitVec 8)} {d : Driver} (hk : KnownId ids d) : KnownId ids (d.upd ids) := by
  unfold Driver.upd KnownId
  cases ha : assoc d.id ids with
  | none =>
    rcases hk with hk | ⟨id, hk, -⟩
    · exact .inl hk
    · rw [ha] at hk; cases hk
  | some id => exact .inr ⟨id, rfl, rfl⟩

theorem upd_upd (ids : List (Name × BitVec 8)) (d : Driver) : (d.upd ids).upd ids = d.upd ids := by
  unfold Driver.upd
  cases ha : assoc d.id ids <;> simp [ha]

theorem updateConfig_ok (h : Rel m σ β) (ds : List Driver) (hd : ∀ d ∈ ds, d.id ∈ σ.names ∧ KnownId σ.ids d) :
    ∃ ds', updateConfig m.en ds = .ok ds' ∧ ds'.map (Driver.upd σ.ids) = ds.map (Driver.upd σ.ids) ∧ ∀ d ∈ ds', d.id ∈ σ.names ∧ KnownId σ.ids d := by
  induction ds with
  | nil => exact ⟨[], rfl, rfl, fun d hd => by cases hd⟩
  | cons d ds ih =>
    obtain ⟨h1, h2⟩ := hd d List.mem_cons_self
    have hrest : ∀ d ∈ ds, d.id ∈ σ.names ∧ KnownId σ.ids d := fun d' hd' => hd d' (List.mem_cons_of_mem _ hd')
    unfold updateConfig
    rw [updateCanId_ok h h1 h2]
    simp only [bind_ok]
    have hu : (d.upd σ.ids).id ∈ σ.names ∧ KnownId σ.ids (d.upd σ.ids) := ⟨h1, upd_known h2⟩
    by_cases hc : (d.upd σ.ids).canId = CAN_NOT_SET
    · rw [if_pos hc]
      obtain ⟨ds', e1, e2, e3⟩ := ih hrest
      rw [e1]
      refine ⟨d.upd σ.ids :: ds', rfl, by rw [List.map_cons, List.map_cons, upd_upd, e2], ?_⟩
      intro d' hd'
      rcases List.mem_cons.mp hd' with rfl | hd'
      · exact hu
      · exact e3 d' hd'
    · rw [if_neg hc]
      refine ⟨d.upd σ.ids :: ds, rfl, by rw [List.map_cons, List.map_cons, upd_upd], ?_⟩
      intro d' hd'
      rcases List.mem_cons.mp hd' with rfl | hd'
      · exact hu
      · exact hrest d' hd'

theorem sendSetpoint_ok (h : Rel m σ β) {d : Driver} (hd : d.id ∈ σ.names) (hk : KnownId σ.ids d) :
    sendSetpoint m.en d = .ok (d.upd σ.ids, Spec.msgs σ.ids d.view) := by
  unfold sendSetpoint
  rw [updateCanId_ok h hd hk]
  simp only [bind_ok, pure_eq]
  cases ha : assoc d.id σ.ids with
  | none =>
    have hc : (d.upd σ.ids).canId = CAN_NOT_SET := by
      unfold Driver.upd
      rw [ha]
      rcases hk with hk | ⟨id, hk, -⟩
      · exact hk
      · rw [ha] at hk; cases hk
    rw [if_pos hc]
    have : Spec.msgs σ.ids d.view = [] := by
      unfold Spec.msgs Driver.view
      simp only [ha]
    rw [this]
  | some id =>
    have hcan : (d.upd σ.ids).canId = id.toNat := by unfold Driver.upd; rw [ha]
    have hm : (d.upd σ.ids).mode = d.mode := rfl
    have hs : (d.upd σ.ids).setpt = d.setpt := rfl
    rw [if_neg (by rw [hcan]; have := id.isLt; unfold CAN_NOT_SET; omega), hcan, hm]
    have : Spec.msgs σ.ids d.view = if d.mode = .disabled then [] else [⟨d.mode, id.toNat, d.setpt⟩] := by
      unfold Spec.msgs Driver.view
      simp only [ha]
    rw [this]
    cases hmode : d.mode <;> simp [Driver.get, hs]

theorem sendAll_ok (h : Rel m σ β) (ds : List Driver) (hd : ∀ d ∈ ds, d.id ∈ σ.names ∧ KnownId σ.ids d) :
    sendAll m.en ds = .ok (ds.map (Driver.upd σ.ids), ds.flatMap fun d => Spec.msgs σ.ids d.view) := by
  induction ds with
  | nil => rfl
  | cons d ds ih =>
    obtain ⟨h1, h2⟩ := hd d List.mem_cons_self
    unfold sendAll
    rw [sendSetpoint_ok h h1 h2, ih (fun d' hd' => hd d' (List.mem_cons_of_mem _ hd'))]
    rfl

theorem timer_ok (h : Rel m σ β) :
    ∃ m', timer m = .ok (m', σ.motors.flatMap (Spec.msgs σ.ids)) ∧ m'.cap = m.cap ∧ m'.en = m.en ∧ Rel m' σ β := by
  have hd : ∀ d ∈ m.drivers, d.id ∈ σ.names ∧ KnownId σ.ids d := fun d hd =>
    ⟨by rw [← h.driver_names]; exact List.mem_map_of_mem hd, h.known d hd⟩
  obtain ⟨ds', e1, e2, e3⟩ := updateConfig_ok h m.drivers hd
  unfold timer
  rw [e1]
  simp only [bind_ok]
  rw [sendAll_ok h ds' e3]
  simp only [bind_ok, pure_eq]
  have hview : ds'.map Driver.view = σ.motors := by
    have : ∀ l : List Driver, l.map Driver.view = (l.map (Driver.upd σ.ids)).map Driver.view := by
      intro l
      rw [List.map_map]
      rfl
    rw [this, e2, ← this, h.drivers]
  refine ⟨{ m with drivers := ds'.map (Driver.upd σ.ids) }, ?_, rfl, rfl, ?_⟩
  · have : ds'.flatMap (fun d => Spec.msgs σ.ids d.view) = σ.motors.flatMap (Spec.msgs σ.ids) := by
      rw [← hview, List.flatMap_map]
    rw [this]
  · have hv2 : (ds'.map (Driver.upd σ.ids)).map Driver.view = σ.motors := by
      rw [List.map_map]
      exact hview
    exact rel_drivers h hv2 rfl (by
      intro d hd'
      obtain ⟨d0, h0, rfl⟩ := List.mem_map.mp hd'
      exact upd_known (e3 d0 h0).2)

end

/-! ## The machine -/

theorem step_ok {m : Mgr} {σ : Spec} {β : BusEnum.Spec} (h : Rel m σ β) (op : Op) (ha : Allowed m.cap m.en.cap σ op) :
    ∃ m' β', step m op = .ok (m', (σ.step m.cap op).2) ∧ m'.cap = m.cap ∧ m'.en.cap = m.en.cap ∧ Rel m' (σ.step m.cap op).1 β' := by
  cases op with
  | create n =>
    have hlen := h.length
    have hcap := h.cap
    rcases create_ok h ha.1 ha.2 with ⟨m', β', e, h1, h2, h3, -, h5, h6, h7⟩ | ⟨e, hc⟩
    · refine ⟨m', β', ?_, h5, h6, ?_⟩
      · simp only [step, e]; rfl
      · simp only [Spec.step]
        rw [if_neg (by rintro (hh | hh | hh); exacts [h1 hh, h2 hh, by omega])]
        exact h7
    · refine ⟨m, β, ?_, rfl, rfl, ?_⟩
      · simp only [step, e]; rfl
      · simp only [Spec.step]
        rw [if_pos (by rcases hc with hc | hc | hc; exacts [.inl hc, .inr (.inl hc), .inr (.inr (by omega))])]
        exact h
  | actuator n j =>
    obtain ⟨m', β', e, -, h2, h3, h4⟩ := actuator_ok h j ha.1 ha.2.1 ha.2.2
    refine ⟨m', β', ?_, h2, h3, h4⟩
    simp only [step, e]; rfl
  | set n mode v =>
    obtain ⟨m', e, -, h2, h3, h4⟩ := set_ok h ha.1 mode v
    refine ⟨m', β, ?_, h2, by rw [h3], h4⟩
    simp only [step, e]; rfl
  | disable i => exact ⟨_, β, rfl, rfl, rfl, disable_ok h i⟩
  | announce n id =>
    obtain ⟨m', β', e, -, h2, h3, h4⟩ := announce_ok h n ha.1 ha.2
    refine ⟨m', β', ?_, h2, h3, h4⟩
    simp only [step, e]; rfl
  | timer =>
    obtain ⟨m', e, h2, h3, h4⟩ := timer_ok h
    exact ⟨m', β, e, h2, by rw [h3], h4⟩

theorem run_ok (ops : List Op) {m : Mgr} {σ : Spec} {β : BusEnum.Spec} (h : Rel m σ β) (ha : AllAllowed m.cap m.en.cap σ ops) :
    ∃ m' β', run m ops = .ok (m', (Spec.run m.cap σ ops).2) ∧ m'.cap = m.cap ∧ Rel m' (Spec.run m.cap σ ops).1 β' := by
  induction ops generalizing m σ β with
  | nil => exact ⟨m, β, rfl, rfl, h⟩
  | cons op ops ih =>
    obtain ⟨m1, β1, e1, c1, c2, h1⟩ := step_ok h op ha.1
    obtain ⟨m2, β2, e2, c3, h2⟩ := ih h1 (by rw [c1, c2]; exact ha.2)
    rw [c1] at e2 h2
    refine ⟨m2, β2, ?_, c3.trans c1, h2⟩
    unfold run
    rw [e1]
    simp only [bind_ok]
    rw [e2]
    rfl

/-- C61, C62: for every sequence of creations, commands, discoveries and ticks of the timer within the limits, nothing undefined happens, the drivers are the motors created, in
order and with their last command, and the messages sent are: at each tick, for each motor whose node is known and that is not disabled, its last setpoint, in its mode, to
its node. Missing: long names, a full enumerator and actuators named by motor commands (`long_name_twice`, `enumerator_full`, `actuator_as_motor`). -/
theorem run_spec_partial {cap enCap : Nat} (h2 : enCap < 65536) (ops : List Op) (ha : AllAllowed cap enCap ⟨[], [], []⟩ ops) :
    ∃ m, run (init cap enCap) ops = .ok (m, (Spec.run cap ⟨[], [], []⟩ ops).2) ∧
      m.drivers.map (fun d => (d.id, d.mode, d.setpt)) = (Spec.run cap ⟨[], [], []⟩ ops).1.motors ∧
      (m.drivers.map Driver.id).Nodup ∧ m.drivers.length ≤ cap := by
  obtain ⟨m, β, e, hc, h⟩ := run_ok ops (init_rel h2) ha
  refine ⟨m, e, h.drivers, ?_, ?_⟩
  · rw [h.driver_names]; exact h.names_nodup
  · rw [h.length]
    have := h.cap
    rw [hc] at this
    exact this

/-! ## Consequences, about the specification alone -/

/-- C62: drivers never move or disappear: what was created stays at its place. -/
theorem spec_names_step (cap : Nat) (σ : Spec) (op : Op) : ∃ l, (σ.step cap op).1.names = σ.names ++ l := by
  cases op with
  | create n =>
    unfold Spec.step
    simp only
    split
    · exact ⟨[], by simp⟩
    · exact ⟨[n], by simp [Spec.names]⟩
  | actuator n j => exact ⟨[], by simp [Spec.step, Spec.names]⟩
  | set n m v =>
    refine ⟨[], ?_⟩
    unfold Spec.step Spec.names
    simp only [List.map_map, List.append_nil]
    refine List.map_congr_left fun p _ => ?_
    simp only [Function.comp]
    by_cases e : p.1 = n
    · rw [if_pos e, e]
    · rw [if_neg e]
  | disable i =>
    refine ⟨[], ?_⟩
    unfold Spec.step Spec.names
    rw [List.append_nil]
    exact map_modify_id _ _ _ _ (fun a => rfl)
  | announce n id =>
    refine ⟨[], ?_⟩
    unfold Spec.step
    simp only
    split <;> simp [Spec.names]
  | timer => exact ⟨[], by simp [Spec.step]⟩

theorem spec_names_run (cap : Nat) (σ : Spec) (ops : List Op) : ∃ l, (Spec.run cap σ ops).1.names = σ.names ++ l := by
  induction ops generalizing σ with
  | nil => exact ⟨[], by simp [Spec.run]⟩
  | cons op ops ih =>
    obtain ⟨l1, h1⟩ := spec_names_step cap σ op
    obtain ⟨l2, h2⟩ := ih (σ.step cap op).1
    exact ⟨l1 ++ l2, by simp only [Spec.run]; rw [h2, h1, List.append_assoc]⟩

/-- C62: for any two points of an execution, the drivers of the first are the first drivers of the second. -/
theorem drivers_stay {cap enCap : Nat} (h2 : enCap < 65536) (ops more : List Op) (ha : AllAllowed cap enCap ⟨[], [], []⟩ (ops ++ more)) :
    ∃ m m' l l' new, run (init cap enCap) ops = .ok (m, l) ∧ run (init cap enCap) (ops ++ more) = .ok (m', l') ∧ m'.drivers.map Driver.id = m.drivers.map Driver.id ++ new := by
  have happ : ∀ (ops : List Op) (σ : Spec), (Spec.run cap σ (ops ++ more)).1 = (Spec.run cap (Spec.run cap σ ops).1 more).1 := by
    intro ops
    induction ops with
    | nil => intro σ; rfl
    | cons op ops ih => intro σ; simp only [List.cons_append, Spec.run]; rw [ih]
  have hall : ∀ (ops : List Op) (σ : Spec), AllAllowed cap enCap σ (ops ++ more) → AllAllowed cap enCap σ ops := by
    intro ops
    induction ops with
    | nil => intro σ _; trivial
    | cons op ops ih => intro σ h; exact ⟨h.1, ih _ h.2⟩
  obtain ⟨m, e, hv, -⟩ := run_spec_partial h2 ops (hall ops _ ha)
  obtain ⟨m', e', hv', -⟩ := run_spec_partial h2 (ops ++ more) ha
  obtain ⟨l, hl⟩ := spec_names_run cap (Spec.run cap ⟨[], [], []⟩ ops).1 more
  refine ⟨m, m', _, _, l, e, e', ?_⟩
  have a1 : m.drivers.map Driver.id = (Spec.run cap ⟨[], [], []⟩ ops).1.names := by unfold Spec.names; rw [← hv, List.map_map]; rfl
  have a2 : m'.drivers.map Driver.id = (Spec.run cap ⟨[], [], []⟩ (ops ++ more)).1.names := by unfold Spec.names; rw [← hv', List.map_map]; rfl
  rw [a1, a2, happ, hl]

/-- C61: a disabled motor gets no message. -/
theorem disabled_silent (ids : List (Name × BitVec 8)) (n : Name) (v : F) : Spec.msgs ids (n, .disabled, v) = [] := by
  unfold Spec.msgs
  split
  · rfl
  · rfl

/-- C61: after a command the driver holds exactly that setpoint in that mode, and reading it signals no error. -/
theorem set_get (d : Driver) (m : Mode) (v : F) : (d.set m v).get m = (v, false) := by
  unfold Driver.set Driver.get
  simp

/-- C61: the full statement wants that a setpoint read in another mode gives an error instead of a reinterpreted value. The code does signal the error, always and only
then, but the value is returned all the same: see `wrong_mode_value`. -/
theorem wrong_mode_partial (d : Driver) (m : Mode) : (d.get m).2 = true ↔ d.mode ≠ m := by
  unfold Driver.get
  simp

/-- Finding: a voltage read as a position is returned. -/
theorem wrong_mode_value (d : Driver) (v : F) : ((d.set .voltage v).get .position).1 = v := rfl

/-- C61: `n` commands, of which the last counts -/
theorem last_command (d : Driver) (cs : List (Mode × F)) (m : Mode) (v : F) :
    ((cs ++ [(m, v)]).foldl (fun d c => d.set c.1 c.2) d).get m = (v, false) := by
  rw [List.foldl_append]
  exact set_get _ m v

/-- Limits of the robot, main.h:13-14, two motors, an actuator, a discovery and commands -/
def exampleOps : List Op :=
  [.create [1], .create [2], .create [1], .actuator [3] 0, .announce [1] 11, .set [1] .voltage 5, .set [2] .velocity 6, .timer, .announce [2] 12,
    .set [1] .position 7, .timer, .disable 0, .timer]

example : AllAllowed 20 21 ⟨[], [], []⟩ exampleOps := by
  unfold exampleOps
  simp [AllAllowed, Allowed, Spec.step, Spec.names]

example : (Spec.run 20 ⟨[], [], []⟩ exampleOps).2 = [⟨.voltage, 11, 5⟩, ⟨.position, 11, 7⟩, ⟨.velocity, 12, 6⟩, ⟨.velocity, 12, 6⟩] := by decide +kernel

/-! ## Findings -/

/-- Finding: names of more than 24 characters are cut in the driver but not in the question whether they exist, so asking twice gives two drivers of the same name. -/
theorem long_name_twice : ∃ m l, run (init 20 21) [.create (List.replicate 25 1), .create (List.replicate 25 1)] = .ok (m, l) ∧
    m.drivers.map Driver.id = [List.replicate 24 1, List.replicate 24 1] := by
  refine ⟨_, _, rfl, ?_⟩
  decide +kernel

/-- Finding: when the enumerator is full (21 entries for 20 motors and, in the robot, 6 actuators) a driver is created but not registered: commands by name do not reach it, it
never gets an id, and asking again creates another one. -/
theorem enumerator_full : ∃ m l, run (init 20 1) [.actuator [3] 0, .create [1], .create [1], .set [1] .voltage 5] = .ok (m, l) ∧
    m.drivers.map Driver.view = [([1], .disabled, 0), ([1], .disabled, 0)] := by
  refine ⟨_, _, rfl, ?_⟩
  decide +kernel

/-- Finding: a motor command with the name of an actuator uses the actuator's driver as a motor driver. -/
theorem actuator_as_motor : run (init 20 21) [.actuator [3] 0, .set [3] .voltage 5] = .error .confusion := by rfl

/-! ## Streams -/

/-- C61: a value written to a stream is marked as changed, is what is read, and reading unmarks it; other streams are untouched; a stream that does not exist changes nothing. -/
theorem stream_spec (d : Driver) (s : BitVec 32) (v : F) :
    (10 ≤ s.toNat → d.setStream s v = d ∧ (d.takeStream s).1 = d ∧ (d.takeStream s).2 = 0) ∧
    (s.toNat < 10 →
      (∀ i, i < 32 → (d.setStream s v).status.getLsbD i = (decide (i = s.toNat) || d.status.getLsbD i)) ∧
      (∀ i, (d.setStream s v).values i = if i = s.toNat then v else d.values i) ∧
      (∀ i, i < 32 → (d.takeStream s).1.status.getLsbD i = (decide (i ≠ s.toNat) && d.status.getLsbD i)) ∧
      (d.takeStream s).1.values = d.values ∧ (d.takeStream s).2 = d.values s.toNat ∧
      (d.setStream s v).view = d.view ∧ (d.takeStream s).1.view = d.view) := by
  constructor
  · intro h
    have : ¬ s.toNat < STREAMS := by unfold STREAMS; omega
    unfold Driver.setStream Driver.takeStream
    rw [if_neg this, if_neg this]
    exact ⟨rfl, rfl, rfl⟩
  · intro h
    have h' : s.toNat < STREAMS := by unfold STREAMS; omega
    have bit : ∀ i, i < 32 → (1#32 <<< s.toNat).getLsbD i = decide (i = s.toNat) := by
      intro i hi
      rw [BitVec.getLsbD_shiftLeft, BitVec.getLsbD_one]
      by_cases e : i = s.toNat
      · subst e; simp [hi]
      · simp only [e, decide_false]
        by_cases e2 : i < s.toNat
        · simp [e2]
        · have : ¬ (i - s.toNat = 0) := by omega
          simp [this]
    unfold Driver.setStream Driver.takeStream
    rw [if_pos h', if_pos h']
    refine ⟨?_, fun i => rfl, ?_, rfl, rfl, rfl, rfl⟩
    · intro i hi
      simp only [BitVec.getLsbD_or, bit i hi]
      rw [Bool.or_comm]
    · intro i hi
      simp only [BitVec.getLsbD_and, BitVec.getLsbD_not, bit i hi, hi]
      by_cases e : i = s.toNat <;> simp [e]

/-- Stream operations -/
inductive SOp where
  | write (s : BitVec 32) (v : F)
  | take (s : BitVec 32)

def SOp.apply (d : Driver) : SOp → Driver
  | .write s v => d.setStream s v
  | .take s => (d.takeStream s).1

/-- Value last written to stream `i`, and whether since it was last read -/
def lastWrite (i : Nat) : F × Bool → SOp → F × Bool
  | a, .write s v => if s.toNat = i then (v, true) else a
  | a, .take s => if s.toNat = i then (a.1, false) else a

/-- C61: after any sequence of writes and reads, a stream is marked as changed if and only if it was written since it was last read, and holds the last value written. -/
theorem streams_spec (ops : List SOp) (d : Driver) (i : Nat) (hi : i < 10) :
    let d' := ops.foldl SOp.apply d
    (d'.values i, d'.status.getLsbD i) = ops.foldl (lastWrite i) (d.values i, d.status.getLsbD i) := by
  induction ops generalizing d with
  | nil => rfl
  | cons op ops ih =>
    simp only [List.foldl_cons]
    have := ih (SOp.apply d op)
    simp only at this
    rw [this]
    congr 1
    cases op with
    | write s v =>
      simp only [SOp.apply, lastWrite]
      by_cases h : s.toNat < 10
      · have hs := (stream_spec d s v).2 h
        rw [hs.1 i (by omega), hs.2.1 i]
        by_cases e : s.toNat = i
        · simp [e]
        · have e' : ¬ i = s.toNat := fun x => e x.symm
          simp [e, e']
      · rw [((stream_spec d s v).1 (by omega)).1, if_neg (by omega)]
    | take s =>
      simp only [SOp.apply, lastWrite]
      by_cases h : s.toNat < 10
      · have hs := (stream_spec d s 0).2 h
        rw [hs.2.2.1 i (by omega), hs.2.2.2.1]
        by_cases e : s.toNat = i
        · simp [e]
        · have e' : ¬ i = s.toNat := fun x => e x.symm
          simp [e, e']
      · rw [((stream_spec d s 0).1 (by omega)).2.1, if_neg (by omega)]

/-! ## Actuators -/

/-- C62: an actuator's command is sent only to a node of the bus (ids up to 127) discovered under its name; pumps run with the configured duty cycle exactly while on, together with
their solenoid, and the servo gets the duty cycle of the position. -/
theorem prepare_spec {m : Mgr} {σ : Spec} {β : BusEnum.Spec} (h : Rel m σ β) (a : Actuator) (hn : a.name ∈ σ.acts) :
    a.prepare m.en = .ok (match assoc a.name σ.ids with
      | none => none
      | some id =>
        if id.toNat ≤ 127 then
          some ⟨id.toNat, (if a.on.1 then a.pump else 0, if a.on.2 then a.pump else 0), a.on,
            if a.pos = .high then a.high else if a.pos = .reef then a.reef else a.table⟩
        else none) := by
  unfold Actuator.prepare
  rw [h.canId, if_pos (.inr hn)]
  simp only [lift_ok, bind_ok, pure_eq]
  cases ha : assoc a.name σ.ids with
  | none => rfl
  | some id =>
    simp only [Option.getD_some]
    by_cases hid : id.toNat ≤ 127
    · rw [if_neg (by omega), if_pos hid]
      have mul : ∀ x : Bool, a.pump * (if x then 1 else 0) = if x then a.pump else 0 := by
        intro x
        cases x
        · simp only [Bool.false_eq_true, if_false]; exact Rat.mul_zero _
        · simp only [if_true]; exact Rat.mul_one _
      rw [mul, mul]
      cases a.pos <;> rfl
    · rw [if_pos (by omega), if_neg hid]

/-- C62: switching one pump leaves the other and the position alone, moving the arm leaves the pumps alone. -/
theorem actuator_set (a : Actuator) (on : Bool) (p : ArmPos) :
    (a.setPump false on).on = (on, a.on.2) ∧ (a.setPump true on).on = (a.on.1, on) ∧ (∀ f, (a.setPump f on).pos = a.pos) ∧ (a.setPos p).pos = p ∧ (a.setPos p).on = a.on :=
  ⟨rfl, rfl, fun _ => rfl, rfl, rfl⟩

example : (Actuator.setPump (Actuator.setPos (Actuator.init [3]) .reef) true true).prepare ⟨[⟨[3], 5, 1⟩], [⟨[3], 5, 1⟩], 21⟩ =
    .ok (some ⟨5, (0, 3 / 10), (false, true), 2 / 1000⟩) := by decide +kernel

/-- Finding: an actuator with a name of more than 32 characters is registered with the whole name and looked up with the cut one, so it is never commanded. -/
theorem actuator_long_name : ∃ m, run (init 20 21) [.actuator (List.replicate 33 1) 0, .announce (List.replicate 33 1) 5] = .ok m ∧
    (Actuator.init (List.replicate 33 1)).prepare m.1.en = .ok none := by
  refine ⟨_, rfl, ?_⟩
  decide +kernel

end Verif.Motors
