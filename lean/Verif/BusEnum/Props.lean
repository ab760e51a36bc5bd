import Verif.BusEnum.Lemmas
import Mathlib.Data.List.Nodup
import Mathlib.Data.List.Lookmap

/-!
# Bus enumerator properties (C10, C11)
-/

namespace Verif.BusEnum

inductive Op where
  | add (s : Name) (driver : Nat)
  | update (s : Name) (id : BitVec 8)
deriving DecidableEq, Repr

def step (en : En) : Op → Except Err En
  | .add s d => addNode en s d
  | .update s id => updateNode en s id

def run (en : En) : List Op → Except Err En
  | [] => .ok en
  | op :: ops => do
    let en ← step en op
    run en ops

/-! ## Specification -/

/-- The nodes registered and the discoveries made, in order. -/
structure Spec where
  nodes : List (Name × Nat)
  ids : List (Name × BitVec 8)

/-- A registration counts while there is room; a discovery counts if the name is registered and has
not been discovered before. -/
def Spec.step (cap : Nat) (σ : Spec) : Op → Spec
  | .add s d => if σ.nodes.length < cap then { σ with nodes := σ.nodes ++ [(s, d)] } else σ
  | .update s id =>
    if s ∈ σ.nodes.map Prod.fst ∧ s ∉ σ.ids.map Prod.fst then { σ with ids := σ.ids ++ [(s, id)] } else σ

def Spec.run (cap : Nat) (ops : List Op) : Spec := ops.foldl (Spec.step cap) ⟨[], []⟩

/-- Value associated with a key. -/
def assoc {β : Type} (s : Name) : List (Name × β) → Option β
  | [] => none
  | (k, v) :: l => if k = s then some v else assoc s l

/-- Names registered by the operations. -/
def added : List Op → List Name
  | [] => []
  | .add s _ :: l => s :: added l
  | .update _ _ :: l => added l

/-- No discovery uses the id reserved for "not set". -/
def NoReserved (ops : List Op) : Prop := ∀ s, Op.update s notSet ∉ ops

/-! ## C11 -/

theorem step_inv {en : En} (h : Inv en) (op : Op) (hr : ∀ s, op ≠ .update s notSet) :
    ∃ en', step en op = .ok en' ∧ Inv en' ∧ en'.cap = en.cap := by
  cases op with
  | add s d =>
    rcases addNode_spec h s d with ⟨_, p, h1, h2⟩ | ⟨_, h1⟩
    · exact ⟨_, h1, h2, rfl⟩
    · exact ⟨_, h1, h, rfl⟩
  | update s id =>
    have hid : id ≠ notSet := by rintro rfl; exact hr s rfl
    rcases updateNode_spec h s id hid with ⟨h1, _⟩ | ⟨a, b, d, p, _, h1, h2⟩
    · exact ⟨_, h1, h, rfl⟩
    · exact ⟨_, h1, h2, rfl⟩

theorem run_inv (ops : List Op) : ∀ {en : En}, Inv en → NoReserved ops →
    ∃ en', run en ops = .ok en' ∧ Inv en' ∧ en'.cap = en.cap := by
  induction ops with
  | nil => intro en h _; exact ⟨en, rfl, h, rfl⟩
  | cons op ops ih =>
    intro en h hr
    obtain ⟨e1, h1, h2, h3⟩ := step_inv h op (fun s hs => hr s (by simp [hs]))
    obtain ⟨e2, h4, h5, h6⟩ := ih h2 (fun s hs => hr s (by simp [hs]))
    exact ⟨e2, by simp only [run, h1]; exact h4, h5, h6.trans h3⟩

/-- C11: for any sequence of calls without the reserved id 0xFF, no access is out of bounds, both
tables hold at most `cap` entries and stay sorted. The full statement also allows 0xFF; it is false,
see `reserved_id_overflows`. -/
theorem bounded_and_sorted_partial (cap : Nat) (hcap : cap < 65536) (ops : List Op) (hr : NoReserved ops) :
    ∃ en, run (init cap) ops = .ok en ∧ en.str.length ≤ cap ∧ en.can.length ≤ cap ∧
      en.str.Pairwise (fun a b => strcmp a.name b.name ≤ 0) ∧
      en.can.Pairwise (fun a b => a.can.toNat ≤ b.can.toNat) := by
  obtain ⟨en, h1, h2, h3⟩ := run_inv ops (init_inv cap hcap) hr
  have h4 := h2.strLe
  have h5 := h2.canLe
  rw [h3] at h4
  exact ⟨en, h1, h4, Nat.le_trans h5 h4, h2.sortedStr, h2.sortedCan⟩

/-- C11: adding to a full table changes nothing. -/
theorem add_full (en : En) (h : en.cap ≤ en.str.length) (s : Name) (d : Nat) : addNode en s d = .ok en := by
  unfold addNode
  rw [if_neg (by omega)]

/-- Finding: a discovery with id 0xFF never marks the node as discovered, so each repetition inserts
another entry, and the table of CAN ids overruns its buffer. -/
theorem reserved_id_overflows (k : Nat) (s : Name) (d : Nat) :
    run (init (k + 1)) (.add s d :: List.replicate (k + 2) (.update s notSet)) = .error .overflow := by
  have hz : strcmp s s = 0 := (strcmp_eq_zero s s).mpr rfl
  have hne : (0 : Nat) ≠ indexNotFound := by decide
  have hadd : addNode (init (k + 1)) s d = .ok ⟨[⟨s, notSet, d⟩], [], k + 1⟩ := by
    unfold addNode init insertLoop insertAt; rfl
  have hidx : ∀ can cap, indexByStr ⟨[⟨s, notSet, d⟩], can, cap⟩ s = .ok 0 := by
    intro can cap
    simp [indexByStr, findLoop, midpoint, cmpStr, hz]
  have hins : ∀ (can : List Entry), (∀ e ∈ can, e = ⟨s, notSet, d⟩) →
      ∃ p, insertLoop can (cmpCan notSet) can.length 0 can.length = .ok p := by
    intro can hc
    obtain ⟨p, hp, _⟩ := insertLoop_spec can (cmpCan notSet)
      ⟨fun i j hi hj _ h => by
        rw [hc _ (List.getElem_mem hj)]; rw [hc _ (List.getElem_mem hi)] at h; exact h,
       fun i j hi hj _ h => by
        rw [hc _ (List.getElem_mem hi)]; rw [hc _ (List.getElem_mem hj)] at h; exact h⟩
      can.length 0 can.length (by omega) (by omega) (by omega) (by omega) (by omega)
    exact ⟨p, hp⟩
  have hupd : ∀ (can : List Entry), (∀ e ∈ can, e = ⟨s, notSet, d⟩) →
      (can.length < k + 1 → ∃ can', (∀ e ∈ can', e = ⟨s, notSet, d⟩) ∧ can'.length = can.length + 1 ∧
        updateNode ⟨[⟨s, notSet, d⟩], can, k + 1⟩ s notSet = .ok ⟨[⟨s, notSet, d⟩], can', k + 1⟩) ∧
      (k + 1 ≤ can.length → updateNode ⟨[⟨s, notSet, d⟩], can, k + 1⟩ s notSet = .error .overflow) := by
    intro can hc
    obtain ⟨p, hp⟩ := hins can hc
    constructor
    · intro hl
      refine ⟨can.take p ++ ⟨s, notSet, d⟩ :: can.drop p, ?_, insert_length _ _ _, ?_⟩
      · intro e he
        rcases insert_mem.mp he with h | h
        · exact h
        · exact hc e h
      · simp only [updateNode, hidx, bind, Except.bind, if_pos hne, List.getElem?_cons_zero, if_true, hp,
          insertAt, if_pos hl, List.set_cons_zero]
        rfl
    · intro hl
      simp only [updateNode, hidx, bind, Except.bind, if_pos hne, List.getElem?_cons_zero, if_true, hp,
        insertAt, if_neg (show ¬ can.length < k + 1 by omega)]
  have key : ∀ (n : Nat) (can : List Entry), (∀ e ∈ can, e = ⟨s, notSet, d⟩) → can.length ≤ k + 1 →
      k + 1 < n + can.length →
      run ⟨[⟨s, notSet, d⟩], can, k + 1⟩ (List.replicate n (.update s notSet)) = .error .overflow := by
    intro n
    induction n with
    | zero => intro can _ h1 h2; omega
    | succ n ih =>
      intro can hc h1 h2
      rw [List.replicate_succ]
      simp only [run, step]
      by_cases hl : can.length < k + 1
      · obtain ⟨can', h3, h4, h5⟩ := (hupd can hc).1 hl
        rw [h5]
        exact ih can' h3 (by omega) (by omega)
      · rw [(hupd can hc).2 (by omega)]
        rfl
  simp only [run, step, hadd]
  exact key (k + 2) [] (by simp) (by simp) (by simp)

/-! ## C10 -/

theorem assoc_some {β : Type} {s : Name} {l : List (Name × β)} {v : β} (h : assoc s l = some v) :
    (s, v) ∈ l := by
  induction l with
  | nil => simp [assoc] at h
  | cons p l ih =>
    obtain ⟨k, w⟩ := p
    simp only [assoc] at h
    by_cases hk : k = s
    · rw [if_pos hk] at h; injection h with h; subst hk h; simp
    · rw [if_neg hk] at h; simp [ih h]

theorem assoc_none {β : Type} {s : Name} {l : List (Name × β)} : assoc s l = none ↔ s ∉ l.map Prod.fst := by
  induction l with
  | nil => simp [assoc]
  | cons p l ih =>
    obtain ⟨k, w⟩ := p
    simp only [assoc]
    by_cases hk : k = s
    · simp [hk]
    · rw [if_neg hk, ih]; simp [Ne.symm hk]

theorem assoc_of_mem {β : Type} {s : Name} {l : List (Name × β)} {v : β} (hn : (l.map Prod.fst).Nodup)
    (h : (s, v) ∈ l) : assoc s l = some v := by
  induction l with
  | nil => simp at h
  | cons p l ih =>
    obtain ⟨k, w⟩ := p
    simp only [assoc]
    simp only [List.map_cons, List.nodup_cons] at hn
    rcases List.mem_cons.mp h with h | h
    · injection h with h1 h2; rw [if_pos h1.symm, h2]
    · rw [if_neg, ih hn.2 h]
      rintro rfl
      exact hn.1 (List.mem_map.mpr ⟨_, h, rfl⟩)

theorem assoc_append {β : Type} {s : Name} {l m : List (Name × β)} (h : assoc s l = none) :
    assoc s (l ++ m) = assoc s m := by
  induction l with
  | nil => rfl
  | cons p l ih =>
    obtain ⟨k, w⟩ := p
    simp only [assoc, List.cons_append] at h ⊢
    split at h
    · cases h
    · rename_i hk; rw [if_neg hk]; exact ih h

theorem assoc_append_ne {β : Type} {s t : Name} {v : β} {l : List (Name × β)} (h : t ≠ s) :
    assoc s (l ++ [(t, v)]) = assoc s l := by
  induction l with
  | nil => simp [assoc, h]
  | cons p l ih =>
    obtain ⟨k, w⟩ := p
    simp only [assoc, List.cons_append, ih]

/-- The entry a registered node should have. -/
def entryOf (ids : List (Name × BitVec 8)) (p : Name × Nat) : Entry :=
  ⟨p.1, (assoc p.1 ids).getD notSet, p.2⟩

structure Rel (en : En) (σ : Spec) : Prop where
  inv : Inv en
  perm : en.str.Perm (σ.nodes.map (entryOf σ.ids))
  nodup : (σ.nodes.map Prod.fst).Nodup
  idsNodup : (σ.ids.map Prod.fst).Nodup
  idsSub : ∀ p ∈ σ.ids, p.1 ∈ σ.nodes.map Prod.fst
  idsSet : ∀ p ∈ σ.ids, p.2 ≠ notSet

theorem Rel.name {en : En} {σ : Spec} (h : Rel en σ) (s : Name) :
    (∃ e ∈ en.str, e.name = s) ↔ s ∈ σ.nodes.map Prod.fst := by
  constructor
  · rintro ⟨e, he, rfl⟩
    obtain ⟨p, hp, rfl⟩ := List.mem_map.mp (h.perm.mem_iff.mp he)
    exact List.mem_map.mpr ⟨p, hp, rfl⟩
  · intro hs
    obtain ⟨p, hp, rfl⟩ := List.mem_map.mp hs
    exact ⟨entryOf σ.ids p, h.perm.mem_iff.mpr (List.mem_map_of_mem hp), rfl⟩

theorem step_rel {en : En} {σ : Spec} (h : Rel en σ) (op : Op) (hr : ∀ s, op ≠ .update s notSet)
    (hd : ∀ s d, op = .add s d → s ∉ σ.nodes.map Prod.fst) :
    ∃ en', step en op = .ok en' ∧ en'.cap = en.cap ∧ Rel en' (σ.step en.cap op) := by
  have hlen : en.str.length = σ.nodes.length := by rw [h.perm.length_eq, List.length_map]
  cases op with
  | add s d =>
    have hs := hd s d rfl
    rcases addNode_spec h.inv s d with ⟨hl, p, h1, h2⟩ | ⟨hl, h1⟩
    · refine ⟨_, h1, rfl, ?_⟩
      simp only [Spec.step]
      rw [if_pos (by omega)]
      have hnone : assoc s σ.ids = none := by
        rw [assoc_none]
        intro hm
        obtain ⟨p, hp, rfl⟩ := List.mem_map.mp hm
        exact hs (h.idsSub p hp)
      refine ⟨h2, ?_, ?_, h.idsNodup, ?_, h.idsSet⟩
      · simp only [List.map_append, List.map_cons, List.map_nil]
        refine (insert_perm _ _ _).trans ?_
        have : entryOf σ.ids (s, d) = ⟨s, notSet, d⟩ := by simp [entryOf, hnone]
        rw [this]
        refine List.Perm.trans (List.Perm.cons _ h.perm) ?_
        exact (List.perm_append_singleton _ _).symm
      · simp only [List.map_append, List.map_cons, List.map_nil]
        rw [List.nodup_append]
        refine ⟨h.nodup, by simp, ?_⟩
        intro a ha b hb
        simp only [List.mem_singleton] at hb
        rintro rfl
        exact hs (hb ▸ ha)
      · intro q hq
        simp only [List.map_append, List.mem_append]
        exact Or.inl (h.idsSub q hq)
    · refine ⟨_, h1, rfl, ?_⟩
      simp only [Spec.step]
      rw [if_neg (by omega)]
      exact h
  | update s id =>
    have hid : id ≠ notSet := by rintro rfl; exact hr s rfl
    rcases updateNode_spec h.inv s id hid with ⟨h1, hno⟩ | ⟨a, b, d, p, hsplit, h1, h2⟩
    · refine ⟨_, h1, rfl, ?_⟩
      simp only [Spec.step]
      rw [if_neg]
      · exact h
      · rintro ⟨h3, h4⟩
        obtain ⟨e, he, hes⟩ := (h.name s).mpr h3
        rcases hno with hno | ⟨e', he', hn, hc⟩
        · exact hno e he hes
        · obtain ⟨q, hq, rfl⟩ := List.mem_map.mp (h.perm.mem_iff.mp he')
          simp only [entryOf] at hn hc
          subst hn
          rw [assoc_none.mpr h4] at hc
          exact hc rfl
    · refine ⟨_, h1, rfl, ?_⟩
      have hmem : (⟨s, notSet, d⟩ : Entry) ∈ en.str := by rw [hsplit]; simp
      obtain ⟨q, hq, hqe⟩ := List.mem_map.mp (h.perm.mem_iff.mp hmem)
      have hq1 : q = (s, d) := by
        unfold entryOf at hqe
        injection hqe with e1 e2 e3
        exact Prod.ext e1 e3
      subst hq1
      have hnone : assoc s σ.ids = none := by
        cases ha : assoc s σ.ids with
        | none => rfl
        | some v =>
          unfold entryOf at hqe
          injection hqe with _ e2 _
          simp only [ha, Option.getD_some] at e2
          exact absurd e2 (h.idsSet _ (assoc_some ha))
      have hs : s ∈ σ.nodes.map Prod.fst := List.mem_map.mpr ⟨_, hq, rfl⟩
      simp only [Spec.step]
      rw [if_pos ⟨hs, assoc_none.mp hnone⟩]
      refine ⟨h2, ?_, h.nodup, ?_, ?_, ?_⟩
      · obtain ⟨x, y, hxy⟩ := List.append_of_mem hq
        have hperm := h.perm
        have hnd := h.nodup
        rw [hsplit, hxy, List.map_append, List.map_cons, hqe] at hperm
        have hcancel : (a ++ b).Perm (x.map (entryOf σ.ids) ++ y.map (entryOf σ.ids)) := by
          have := (List.perm_middle.symm.trans hperm).trans List.perm_middle
          exact this.cons_inv
        rw [hxy, List.map_append, List.map_cons] at hnd
        have hsx : ∀ r ∈ x, r.1 ≠ s := by
          intro r hr he
          exact (List.nodup_append.mp hnd).2.2 r.1 (List.mem_map_of_mem hr) s (by simp) he
        have hsy : ∀ r ∈ y, r.1 ≠ s := by
          intro r hr he
          have := (List.nodup_cons.mp (List.nodup_append.mp hnd).2.1).1
          exact this (List.mem_map.mpr ⟨r, hr, he⟩)
        have hf : ∀ r : Name × Nat, r.1 ≠ s → entryOf (σ.ids ++ [(s, id)]) r = entryOf σ.ids r := by
          intro r hr
          simp only [entryOf, assoc_append_ne (Ne.symm hr)]
        have hfs : entryOf (σ.ids ++ [(s, id)]) (s, d) = ⟨s, id, d⟩ := by
          simp only [entryOf, assoc_append hnone, assoc, if_true, Option.getD_some]
        simp only
        rw [hxy, List.map_append, List.map_cons, hfs,
          List.map_congr_left (fun r hr => hf r (hsx r hr)), List.map_congr_left (fun r hr => hf r (hsy r hr))]
        exact (List.perm_middle.trans (List.Perm.cons _ hcancel)).trans List.perm_middle.symm
      · simp only [List.map_append, List.map_cons, List.map_nil]
        rw [List.nodup_append]
        refine ⟨h.idsNodup, by simp, ?_⟩
        intro a' ha b' hb
        simp only [List.mem_singleton] at hb
        rintro rfl
        exact assoc_none.mp hnone (hb ▸ ha)
      · intro q' hq'
        rcases List.mem_append.mp hq' with hq' | hq'
        · exact h.idsSub q' hq'
        · rw [List.mem_singleton.mp hq']; exact hs
      · intro q' hq'
        rcases List.mem_append.mp hq' with hq' | hq'
        · exact h.idsSet q' hq'
        · rw [List.mem_singleton.mp hq']; exact hid

theorem run_rel (ops : List Op) : ∀ {en : En} {σ : Spec}, Rel en σ → NoReserved ops →
    (added ops).Nodup → (∀ s ∈ added ops, s ∉ σ.nodes.map Prod.fst) →
    ∃ en', run en ops = .ok en' ∧ Rel en' (ops.foldl (Spec.step en.cap) σ) := by
  induction ops with
  | nil => intro en σ h _ _ _; exact ⟨en, rfl, h⟩
  | cons op ops ih =>
    intro en σ h hr hn hd
    obtain ⟨e1, h1, h2, h3⟩ := step_rel h op (fun s hs => hr s (by simp [hs])) (by
      rintro s d rfl
      exact hd s (by simp [added]))
    have hn' : (added ops).Nodup := by
      cases op with
      | add s d => exact (List.nodup_cons.mp hn).2
      | update s id => exact hn
    have hd' : ∀ s ∈ added ops, s ∉ (σ.step en.cap op).nodes.map Prod.fst := by
      intro s hs
      cases op with
      | add t d =>
        simp only [added] at hn hd
        have h4 := hd s (List.mem_cons_of_mem _ hs)
        have h5 : s ≠ t := by rintro rfl; exact (List.nodup_cons.mp hn).1 hs
        simp only [Spec.step]
        split
        · simp only [List.map_append, List.mem_append, not_or]
          exact ⟨h4, by simpa using h5⟩
        · exact h4
      | update t id =>
        have h4 := hd s hs
        simp only [Spec.step]
        split <;> exact h4
    obtain ⟨e2, h4, h5⟩ := ih h3 (fun s hs => hr s (by simp [hs])) hn' hd'
    rw [h2] at h5
    exact ⟨e2, by simp only [run, h1]; exact h4, h5⟩

theorem foldl_count (t : List Entry) : ∀ n, t.foldl (fun cnt e => if e.can ≠ notSet then cnt + 1 else cnt) n =
    n + (t.filter fun e => e.can ≠ notSet).length := by
  induction t with
  | nil => intro n; rfl
  | cons e t ih =>
    intro n
    rw [List.foldl_cons, ih]
    by_cases h : e.can ≠ notSet
    · rw [if_pos h, List.filter_cons_of_pos (by simpa using h), List.length_cons]; omega
    · rw [if_neg h, List.filter_cons_of_neg (by simpa using h)]

theorem Rel.str_entry {en : En} {σ : Spec} (h : Rel en σ) {e : Entry} (he : e ∈ en.str) :
    assoc e.name σ.nodes = some e.driver ∧ e.can = (assoc e.name σ.ids).getD notSet := by
  obtain ⟨q, hq, rfl⟩ := List.mem_map.mp (h.perm.mem_iff.mp he)
  exact ⟨assoc_of_mem h.nodup hq, rfl⟩

theorem Rel.can_entry {en : En} {σ : Spec} (h : Rel en σ) {e : Entry} (he : e ∈ en.can) :
    assoc e.name σ.nodes = some e.driver ∧ (e.name, e.can) ∈ σ.ids := by
  have h1 := h.inv.perm.mem_iff.mp he
  rw [List.mem_filter] at h1
  obtain ⟨h2, h3⟩ := h.str_entry h1.1
  refine ⟨h2, ?_⟩
  have h4 : e.can ≠ notSet := by simpa using h1.2
  cases ha : assoc e.name σ.ids with
  | none => rw [ha] at h3; exact absurd h3 h4
  | some v => rw [ha, Option.getD_some] at h3; rw [h3]; exact assoc_some ha

theorem Rel.can_of_id {en : En} {σ : Spec} (h : Rel en σ) {s : Name} {id : BitVec 8} (hm : (s, id) ∈ σ.ids) :
    ∃ e ∈ en.can, e.can = id ∧ e.name = s := by
  obtain ⟨e, he, rfl⟩ := (h.name s).mpr (h.idsSub _ hm)
  have h1 := (h.str_entry he).2
  rw [assoc_of_mem h.idsNodup hm, Option.getD_some] at h1
  refine ⟨e, h.inv.perm.mem_iff.mpr ?_, h1, rfl⟩
  rw [List.mem_filter]
  refine ⟨he, ?_⟩
  have := h.idsSet _ hm
  rw [h1]; simpa using this

theorem Rel.getCanId {en : En} {σ : Spec} (h : Rel en σ) (s : Name) :
    BusEnum.getCanId en s = .ok (match assoc s σ.nodes with
      | none => notFound
      | some _ => (assoc s σ.ids).getD notSet) := by
  unfold BusEnum.getCanId
  rcases indexByStr_spec h.inv s with ⟨i, hi, h2, h3, h4⟩ | ⟨h2, h3⟩
  · have h5 := h.str_entry (List.getElem_mem hi)
    rw [h4] at h5
    rw [h2, h5.1]
    show (if i ≠ indexNotFound then _ else _) = _
    rw [if_pos h3]
    simp only [List.getElem?_eq_getElem hi, h5.2]
    rfl
  · have h5 : assoc s σ.nodes = none := by
      rw [assoc_none, ← h.name s]
      rintro ⟨e, he, hn⟩
      exact h3 e he hn
    rw [h2, h5]; rfl

theorem Rel.getDriver {en : En} {σ : Spec} (h : Rel en σ) (s : Name) : BusEnum.getDriver en s = .ok (assoc s σ.nodes) := by
  unfold BusEnum.getDriver
  rcases indexByStr_spec h.inv s with ⟨i, hi, h2, h3, h4⟩ | ⟨h2, h3⟩
  · have h5 := h.str_entry (List.getElem_mem hi)
    rw [h4] at h5
    rw [h2, h5.1]
    show (if i ≠ indexNotFound then _ else _) = _
    rw [if_pos h3]
    simp only [List.getElem?_eq_getElem hi]
    rfl
  · have h5 : assoc s σ.nodes = none := by
      rw [assoc_none, ← h.name s]
      rintro ⟨e, he, hn⟩
      exact h3 e he hn
    rw [h2, h5]; rfl

theorem Rel.byId {en : En} {σ : Spec} (h : Rel en σ) (id : BitVec 8) :
    (∃ s d, (s, id) ∈ σ.ids ∧ getStrId en id = .ok (some s) ∧ getDriverByCan en id = .ok (some d) ∧ assoc s σ.nodes = some d) ∨
      ((∀ s, (s, id) ∉ σ.ids) ∧ getStrId en id = .ok none ∧ getDriverByCan en id = .ok none) := by
  rcases indexByCan_spec h.inv id with ⟨i, hi, h2, h3, h4⟩ | ⟨h2, h3⟩
  · left
    obtain ⟨h5, h6⟩ := h.can_entry (List.getElem_mem hi)
    rw [h4] at h6
    refine ⟨en.can[i].name, en.can[i].driver, h6, ?_, ?_, h5⟩
    · unfold getStrId
      rw [h2]
      show (if i ≠ indexNotFound then _ else _) = _
      rw [if_pos h3]
      simp only [List.getElem?_eq_getElem hi]
      rfl
    · unfold getDriverByCan
      rw [h2]
      show (if i ≠ indexNotFound then _ else _) = _
      rw [if_pos h3]
      simp only [List.getElem?_eq_getElem hi]
      rfl
  · right
    refine ⟨?_, ?_, ?_⟩
    · intro s hs
      obtain ⟨e, he, h4, _⟩ := h.can_of_id hs
      exact h3 e he h4
    · unfold getStrId; rw [h2]; rfl
    · unfold getDriverByCan; rw [h2]; rfl

/-- C10: registrations of distinct names interleaved in any way with discoveries (ids other than the
reserved 0xFF). Queries by name return what was registered and the first discovery; queries by id
return a name (and its driver) discovered with that id, if there is one; counts are right. -/
theorem lookups_correct (cap : Nat) (hcap : cap < 65536) (ops : List Op) (hr : NoReserved ops)
    (hd : (added ops).Nodup) :
    ∃ en, run (init cap) ops = .ok en ∧
      (∀ s, getCanId en s = .ok (match assoc s (Spec.run cap ops).nodes with
        | none => notFound
        | some _ => (assoc s (Spec.run cap ops).ids).getD notSet)) ∧
      (∀ s, getDriver en s = .ok (assoc s (Spec.run cap ops).nodes)) ∧
      (∀ id, (∃ s d, (s, id) ∈ (Spec.run cap ops).ids ∧ getStrId en id = .ok (some s) ∧
          getDriverByCan en id = .ok (some d) ∧ assoc s (Spec.run cap ops).nodes = some d) ∨
        ((∀ s, (s, id) ∉ (Spec.run cap ops).ids) ∧ getStrId en id = .ok none ∧ getDriverByCan en id = .ok none)) ∧
      totalNodes en = (Spec.run cap ops).nodes.length ∧
      discoveredNodes en = (Spec.run cap ops).ids.length := by
  have h0 : Rel (init cap) ⟨[], []⟩ :=
    ⟨init_inv cap hcap, List.Perm.refl _, by simp, by simp, by simp, by simp⟩
  obtain ⟨en, h1, h⟩ := run_rel ops h0 hr hd (by simp)
  have hσ : ops.foldl (Spec.step (init cap).cap) ⟨[], []⟩ = Spec.run cap ops := rfl
  rw [hσ] at h
  refine ⟨en, h1, ?_, ?_, ?_, ?_, ?_⟩
  · exact h.getCanId
  · exact h.getDriver
  · exact h.byId
  · unfold totalNodes; rw [h.perm.length_eq, List.length_map]
  · unfold discoveredNodes
    rw [foldl_count, ← h.inv.perm.length_eq, Nat.zero_add]
    -- the discovered entries are exactly the recorded ids
    have hp : (en.can.map Entry.name).Perm ((Spec.run cap ops).ids.map Prod.fst) := by
      have hn : (en.can.map Entry.name).Nodup := by
        have h2 : (en.str.map Entry.name).Nodup := by
          rw [(h.perm.map Entry.name).nodup_iff, List.map_map]
          exact h.nodup
        have h3 := (h.inv.perm.map Entry.name).nodup_iff
        rw [h3]
        exact h2.sublist ((List.filter_sublist).map _)
      apply (List.perm_ext_iff_of_nodup hn h.idsNodup).mpr
      intro s
      constructor
      · intro hs
        obtain ⟨e, he, rfl⟩ := List.mem_map.mp hs
        exact List.mem_map.mpr ⟨_, (h.can_entry he).2, rfl⟩
      · intro hs
        obtain ⟨⟨s', id⟩, hq, rfl⟩ := List.mem_map.mp hs
        obtain ⟨e, he, _, hn⟩ := h.can_of_id hq
        exact List.mem_map.mpr ⟨e, he, hn⟩
    have := hp.length_eq
    simpa using this

/-- C10: the first id discovered for a name is never overwritten. -/
theorem first_id_kept (cap : Nat) (ops more : List Op) (s : Name) (id : BitVec 8)
    (h : assoc s (Spec.run cap ops).ids = some id) : assoc s (Spec.run cap (ops ++ more)).ids = some id := by
  unfold Spec.run at *
  rw [List.foldl_append]
  generalize ops.foldl (Spec.step cap) ⟨[], []⟩ = σ at h
  induction more generalizing σ with
  | nil => exact h
  | cons op more ih =>
    rw [List.foldl_cons]
    apply ih
    cases op with
    | add t d => simp only [Spec.step]; split <;> exact h
    | update t i =>
      simp only [Spec.step]
      split
      · rename_i hc
        have hne : t ≠ s := by
          rintro rfl
          exact hc.2 (List.mem_map.mpr ⟨_, assoc_some h, rfl⟩)
        simp only [assoc_append_ne hne, h]
      · exact h

/-- Three nodes registered out of order, one of them discovered twice. -/
example : NoReserved [.add [99] 3, .add [97] 1, .update [97] 42, .add [98, 1] 2, .update [97] 43, .update [98] 7] ∧
    (added [.add [99] 3, .add [97] 1, .update [97] 42, .add [98, 1] 2, .update [97] 43, .update [98] 7]).Nodup ∧
    (Spec.run 21 [.add [99] 3, .add [97] 1, .update [97] 42, .add [98, 1] 2, .update [97] 43, .update [98] 7]).ids =
      [([97], 42)] := by
  refine ⟨?_, by decide, by decide⟩
  intro s hs
  simp [notSet] at hs

/-- Findings: a node discovered with id 0xFE cannot be told from an unknown name. -/
theorem id_fe_ambiguous (s : Name) (d : Nat) :
    ∃ en, run (init 21) [.add s d, .update s 0xFE] = .ok en ∧ getCanId en s = .ok notFound := by
  obtain ⟨en, h1, h2, _⟩ := lookups_correct 21 (by decide) [.add s d, .update s 0xFE]
    (by intro t ht; simp [notSet] at ht) (by simp [added])
  refine ⟨en, h1, ?_⟩
  rw [h2 s]
  simp [Spec.run, Spec.step, assoc, notFound]

/-- With the same name registered twice the second driver may be returned, and discovery stops at the
first entry found: registering `s` twice leaves one entry that can never be discovered. -/
theorem duplicate_name (s : Name) (id : BitVec 8) (hid : id ≠ notSet) :
    ∃ en, run (init 21) [.add s 1, .add s 2, .update s id, .update s id, .update s id] = .ok en ∧
      discoveredNodes en = 1 ∧ totalNodes en = 2 := by
  have hz : strcmp s s = 0 := (strcmp_eq_zero s s).mpr rfl
  refine ⟨⟨[⟨s, notSet, 2⟩, ⟨s, id, 1⟩], [⟨s, id, 1⟩], 21⟩, ?_, ?_, rfl⟩
  · have e1 : addNode (init 21) s 1 = .ok ⟨[⟨s, notSet, 1⟩], [], 21⟩ := by
      unfold addNode init insertLoop insertAt; rfl
    have e2 : addNode ⟨[⟨s, notSet, 1⟩], [], 21⟩ s 2 = .ok ⟨[⟨s, notSet, 2⟩, ⟨s, notSet, 1⟩], [], 21⟩ := by
      simp [addNode, insertLoop, insertAt, midpoint, cmpStr, hz]
      rfl
    have e3 : updateNode ⟨[⟨s, notSet, 2⟩, ⟨s, notSet, 1⟩], [], 21⟩ s id =
        .ok ⟨[⟨s, notSet, 2⟩, ⟨s, id, 1⟩], [⟨s, id, 1⟩], 21⟩ := by
      simp [updateNode, indexByStr, findLoop, midpoint, cmpStr, hz, indexNotFound, insertLoop, insertAt, bind, Except.bind]
      rfl
    have e4 : updateNode ⟨[⟨s, notSet, 2⟩, ⟨s, id, 1⟩], [⟨s, id, 1⟩], 21⟩ s id =
        .ok ⟨[⟨s, notSet, 2⟩, ⟨s, id, 1⟩], [⟨s, id, 1⟩], 21⟩ := by
      simp [updateNode, indexByStr, findLoop, midpoint, cmpStr, hz, indexNotFound, bind, Except.bind, hid]
      rfl
    simp only [run, step, e1, e2, e3, e4, bind, Except.bind]
  · simp [discoveredNodes, hid]

end Verif.BusEnum
