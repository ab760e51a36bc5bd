import Verif.ParamServer.Props
import Verif.Upload.Spec

/-! # Uploading a configuration: lemmas -/

namespace Verif.Upload

open Verif.Param Verif.ParamServer

/-! ## Histories continued with accesses -/

theorem accesses_decl {ch base : List Op} (ha : Accesses ch) (p : Nat) : declOf p (ch ++ base) = declOf p base := by
  induction ch with
  | nil => rfl
  | cons op ch ih =>
    have ih := ih (fun o ho => ha o (List.mem_cons_of_mem _ ho))
    rcases ha op List.mem_cons_self with ⟨q, v, rfl⟩ | ⟨q, rfl⟩ <;> exact ih

/-- What a request adds to the history of a board. -/
def effect (l : List Op) (root : Nat) (name : Str) (value : Value) : List Op :=
  match walkPar l root (components name) with
  | none => []
  | some p =>
    match declOf p l with
    | none => []
    | some d =>
      match meant d value with
      | none => []
      | some a => [.set p a]

theorem effect_accesses {l : List Op} {root : Nat} {name : Str} {value : Value} : Accesses (effect l root name value) := by
  intro op hop
  unfold effect at hop
  split at hop
  · cases hop
  · split at hop
    · cases hop
    · split at hop
      · cases hop
      · simp only [List.mem_singleton] at hop
        exact Or.inl ⟨_, _, hop⟩

theorem accesses_append {a b : List Op} (ha : Accesses a) (hb : Accesses b) : Accesses (a ++ b) := by
  intro op hop
  rcases List.mem_append.mp hop with h | h
  · exact ha op h
  · exact hb op h

theorem effect_same {ch l : List Op} (ha : Accesses ch) {root : Nat} {name : Str} {value : Value} :
    effect (ch ++ l) root name value = effect l root name value := by
  unfold effect
  rw [walkPar_accesses ha]
  simp only [accesses_decl ha]

theorem mem_effect {l : List Op} {root p : Nat} {name : Str} {value : Value} {a : AVal} :
    Op.set p a ∈ effect l root name value ↔
      walkPar l root (components name) = some p ∧ ∃ d, declOf p l = some d ∧ meant d value = some a := by
  unfold effect
  cases walkPar l root (components name) with
  | none => simp
  | some q =>
    cases hq : declOf q l with
    | none =>
      simp only [hq, List.not_mem_nil, false_iff]
      rintro ⟨h, d, hd, _⟩
      cases h; rw [hq] at hd; cases hd
    | some d =>
      cases hm : meant d value with
      | none =>
        simp only [hq, hm, List.not_mem_nil, false_iff]
        rintro ⟨h, d', hd, h2⟩
        cases h; rw [hq] at hd; cases hd; rw [hm] at h2; cases h2
      | some b =>
        simp only [hq, hm, List.mem_singleton, Op.set.injEq, Option.some.injEq]
        constructor
        · rintro ⟨rfl, rfl⟩; exact ⟨rfl, d, hq, hm⟩
        · rintro ⟨rfl, d', hd, h2⟩
          rw [hq] at hd; cases hd; rw [hm] at h2; cases h2; exact ⟨rfl, rfl⟩

theorem effect_length {l : List Op} {root : Nat} {name : Str} {value : Value} : (effect l root name value).length ≤ 1 := by
  unfold effect
  split
  · simp
  · split
    · simp
    · split <;> simp

/-- No value that the tool sends is a string. -/
theorem encode_string {v : Leaf} {value : Value} (h : encode v = some value) : ∀ s, value ≠ .string s := by
  intro s e; subst e
  cases v <;> simp only [encode] at h <;> try (cases h; done)
  split at h <;> cases h

theorem encode_nonempty {v : Leaf} {value : Value} (h : encode v = some value) : value ≠ .empty := by
  intro e; subst e
  cases v <;> simp only [encode] at h <;> try (cases h; done)
  split at h <;> cases h

theorem meant_fits {d : Decl} {value : Value} {a : AVal} (h : meant d value = some a) (hs : ∀ s, value ≠ .string s) : Fits d a := by
  cases d <;> cases value <;> simp only [meant] at h <;> try (cases h; done)
  · cases h; exact True.intro
  · split at h <;> cases h; exact True.intro
  · cases h; exact True.intro
  · exact absurd rfl (hs _)

/-- One request: the board's history continues with its effect. -/
theorem getSet_spec {fuel root : Nat} {h0 h : Heap} {l : List Op} (hp : Proper l) (hf : l.length + 1 ≤ fuel)
    (hr : run fuel h0 l = .ok h) (hroot : root ∈ nss l) {name : Str} (hn : 0 ∉ name) {value : Value}
    (hs : ∀ s, value ≠ .string s) :
    ∃ h' known, getSet fuel root h name value = .ok (h', known) ∧ Proper (effect l root name value ++ l) ∧
      run fuel h0 (effect l root name value ++ l) = .ok h' ∧
      (known = true ↔ ∃ p, walkPar l root (components name) = some p ∧
        shown .empty (valueOf p (effect l root name value ++ l)) ≠ .empty) := by
  have hfind := parFind_spec hp (by omega) hr hroot (cStr_nul name)
  rw [cStr_self hn] at hfind
  have hfind' : parFind fuel h root (cStr name) = .ok (walkPar l root (components name)) := by rw [cStr_self hn]; exact hfind
  -- after the assignment
  have key : ∃ h', assignValue fuel h root name value = .ok h' ∧ Proper (effect l root name value ++ l) ∧
      run fuel h0 (effect l root name value ++ l) = .ok h' := by
    cases hw : walkPar l root (components name) with
    | none =>
      refine ⟨h, assign_unknown (by rw [hfind', hw]) value, ?_, ?_⟩ <;> simp only [effect, hw, List.nil_append]
      · exact hp
      · exact hr
    | some p =>
      rw [hw] at hfind'
      obtain ⟨r, hr1, hr2⟩ := find_eq hp (by omega) hr hroot name
      have hm : p ∈ pars l := by
        apply hr2; rw [hfind'] at hr1; injection hr1 with hr1; exact hr1.symm
      obtain ⟨d, hd⟩ := pars_declOf hm
      cases hv : meant d value with
      | none =>
        refine ⟨h, assign_ignored hp (by omega) hr hfind' hd hv, ?_, ?_⟩ <;> simp only [effect, hw, hd, hv, List.nil_append]
        · exact hp
        · exact hr
      | some a =>
        obtain ⟨h', h1, h2, h3⟩ := assign_sets hp hf hr hfind' hd hv (meant_fits hv hs)
        refine ⟨h', h1, ?_, ?_⟩ <;> simp only [effect, hw, hd, hv, List.singleton_append]
        · exact h2
        · exact h3
  obtain ⟨h', h1, h2, h3⟩ := key
  have hlen : (effect l root name value ++ l).length ≤ fuel := by
    have := effect_length (l := l) (root := root) (name := name) (value := value)
    rw [List.length_append]; omega
  have hroot' : root ∈ nss (effect l root name value ++ l) := by rw [(accesses_same effect_accesses).1]; exact hroot
  have hfind2 : parFind fuel h' root (cStr name) = .ok (walkPar l root (components name)) := by
    rw [parFind_spec h2 hlen h3 hroot' (cStr_nul name), walkPar_accesses effect_accesses, cStr_self hn]
  have hread : readValue fuel h' root name .empty = .ok (match walkPar l root (components name) with
      | none => .empty
      | some p => shown .empty (valueOf p (effect l root name value ++ l))) := by
    cases hw : walkPar l root (components name) with
    | none => rw [hw] at hfind2; exact read_unknown hfind2 .empty
    | some p =>
      rw [hw] at hfind2
      obtain ⟨r, hr1, hr2⟩ := find_eq h2 hlen h3 hroot' name
      have hm : p ∈ pars (effect l root name value ++ l) := by
        apply hr2; rw [hfind2] at hr1; injection hr1 with hr1; exact hr1.symm
      exact read_shows h2 hlen h3 hm hfind2 .empty
  refine ⟨h', decide ((match walkPar l root (components name) with
      | none => Value.empty
      | some p => shown .empty (valueOf p (effect l root name value ++ l))) ≠ .empty), ?_, h2, h3, ?_⟩
  · unfold getSet
    rw [h1]
    show (readValue fuel h' root name .empty >>= _) = _
    rw [hread]; rfl
  · rw [decide_eq_true_iff]
    cases walkPar l root (components name) with
    | none => simp
    | some p => simp

/-! ## All requests -/

/-- The history of node `k` after some requests, all of them answered from the declarations in `l`. -/
def sets (l : List Op) (root k : Nat) : List Req → List Op
  | [] => []
  | r :: rs =>
    sets l root k rs ++
      (if r.node = k then (match encode r.leaf with
        | none => []
        | some v => effect l root r.name v) else [])

theorem sets_accesses {l : List Op} {root k : Nat} : ∀ {rs : List Req}, Accesses (sets l root k rs)
  | [] => by intro op h; cases h
  | r :: rs => by
    unfold sets
    refine accesses_append sets_accesses ?_
    split
    · split
      · intro op h; cases h
      · exact effect_accesses
    · intro op h; cases h

theorem mem_sets {l : List Op} {root k p : Nat} {a : AVal} : ∀ {rs : List Req}, Op.set p a ∈ sets l root k rs ↔
    ∃ r ∈ rs, r.node = k ∧ ∃ v, encode r.leaf = some v ∧ walkPar l root (components r.name) = some p ∧
      ∃ d, declOf p l = some d ∧ meant d v = some a
  | [] => by simp [sets]
  | r :: rs => by
    unfold sets
    rw [List.mem_append, mem_sets]
    constructor
    · rintro (⟨q, hq, h⟩ | h)
      · exact ⟨q, List.mem_cons_of_mem _ hq, h⟩
      · split at h
        · rename_i hk
          cases he : encode r.leaf with
          | none => simp [he] at h
          | some v =>
            simp only [he] at h
            exact ⟨r, List.mem_cons_self, hk, v, he, mem_effect.mp h⟩
        · cases h
    · rintro ⟨q, hq, hk, v, hv, h⟩
      rcases List.mem_cons.mp hq with rfl | hq
      · refine Or.inr ?_
        rw [if_pos hk]
        simp only [hv]
        exact mem_effect.mpr h
      · exact Or.inl ⟨q, hq, hk, v, hv, h⟩

/-- The last set of a parameter counts; accesses without a set of it do not change it. -/
theorem valueOf_unset {ch l : List Op} {p : Nat} (ha : Accesses ch) (h : ∀ a, Op.set p a ∉ ch) : valueOf p (ch ++ l) = valueOf p l := by
  induction ch with
  | nil => rfl
  | cons op ch ih =>
    have ih := ih (fun o ho => ha o (List.mem_cons_of_mem _ ho)) (fun a hm => h a (List.mem_cons_of_mem _ hm))
    rcases ha op List.mem_cons_self with ⟨q, v, rfl⟩ | ⟨q, rfl⟩
    · have : q ≠ p := fun e => h v (by rw [e]; exact List.mem_cons_self)
      show (if q = p then _ else _) = _
      rw [if_neg this]; exact ih
    · exact ih

theorem valueOf_set {ch l : List Op} {p : Nat} {a : AVal} (ha : Accesses ch) (h : Op.set p a ∈ ch)
    (hu : ∀ b, Op.set p b ∈ ch → b = a) : valueOf p (ch ++ l) = some a := by
  induction ch with
  | nil => cases h
  | cons op ch ih =>
    rcases ha op List.mem_cons_self with ⟨q, v, rfl⟩ | ⟨q, rfl⟩
    · show (if q = p then _ else _) = _
      by_cases e : q = p
      · rw [if_pos e]
        exact congrArg some (hu v (by rw [e]; exact List.mem_cons_self))
      · rw [if_neg e]
        refine ih (fun o ho => ha o (List.mem_cons_of_mem _ ho)) ?_ (fun b hb => hu b (List.mem_cons_of_mem _ hb))
        rcases List.mem_cons.mp h with h | h
        · cases h; exact absurd rfl e
        · exact h
    · refine ih (fun o ho => ha o (List.mem_cons_of_mem _ ho)) ?_ (fun b hb => hu b (List.mem_cons_of_mem _ hb))
      rcases List.mem_cons.mp h with h | h
      · cases h
      · exact h

theorem Boards.step {fuel root N : Nat} {h0 : Nat → Heap} {l : Nat → List Op} {w : World} (hB : Boards fuel root (N + 1) h0 l w)
    {k : Nat} {name : Str} {value : Value} {h' : Heap} (hp : Proper (effect (l k) root name value ++ l k))
    (hr : run fuel (h0 k) (effect (l k) root name value ++ l k) = .ok h') :
    Boards fuel root N h0 (fun j => if j = k then effect (l k) root name value ++ l k else l j) (w.set k h') where
  proper j := by
    by_cases e : j = k
    · simp only [if_pos e]; exact hp
    · simp only [if_neg e]; exact hB.proper j
  root j := by
    by_cases e : j = k
    · simp only [if_pos e]; rw [(accesses_same effect_accesses).1]; exact hB.root k
    · simp only [if_neg e]; exact hB.root j
  ran j := by
    by_cases e : j = k
    · subst e; simp only [World.set, if_true]; exact hr
    · simp only [World.set, if_neg e]; exact hB.ran j
  room j := by
    by_cases e : j = k
    · simp only [if_pos e, List.length_append]
      have := effect_length (l := l k) (root := root) (name := name) (value := value)
      have := hB.room k; omega
    · simp only [if_neg e]; have := hB.room j; omega

/-- What a request must meet to be answered with a name. -/
def Known (l : List Op) (root : Nat) (r : Req) : Prop :=
  ∃ v p, encode r.leaf = some v ∧ walkPar l root (components r.name) = some p

theorem sendAll_spec {fuel root : Nat} {h0 : Nat → Heap} : ∀ {rs : List Req} {net : Nat → Net} {l : Nat → List Op} {w : World},
    Boards fuel root rs.length h0 l w → (∀ r ∈ rs, 0 ∉ r.name) →
    ∃ s w', sendAll fuel root net w rs = .ok (s, w') ∧ (s = .done →
      (∀ r ∈ rs, Known (l r.node) root r ∧ r.name.length ≤ 92) ∧
      ∀ k, Proper (sets (l k) root k rs ++ l k) ∧ run fuel (h0 k) (sets (l k) root k rs ++ l k) = .ok (w' k))
  | [], net, l, w, hB, _ => ⟨.done, w, rfl, fun _ => ⟨fun r h => (by cases h), fun k => ⟨hB.proper k, hB.ran k⟩⟩⟩
  | r :: rs, net, l, w, hB, hn => by
    unfold sendAll
    by_cases hlen : 92 < r.name.length
    · rw [if_pos hlen]; exact ⟨_, _, rfl, fun h => by cases h⟩
    rw [if_neg hlen]
    cases he : encode r.leaf with
    | none => exact ⟨_, _, rfl, fun h => by cases h⟩
    | some v =>
      obtain ⟨h', known, h1, h2, h3, h4⟩ := getSet_spec (hB.proper r.node) (by have := hB.room r.node; simp only [List.length_cons] at this; omega)
        (hB.ran r.node) (hB.root r.node) (hn r List.mem_cons_self) (encode_string he)
      cases hnet : net 0 with
      | requestLost => exact ⟨_, _, rfl, fun h => by cases h⟩
      | answerLost =>
        refine ⟨.stuck, w.set r.node h', ?_, fun h => by cases h⟩
        show (getSet fuel root (w r.node) r.name v >>= _) = _
        rw [h1]; rfl
      | arrives =>
        cases known with
        | false =>
          refine ⟨.stuck, w.set r.node h', ?_, fun h => by cases h⟩
          show (getSet fuel root (w r.node) r.name v >>= _) = _
          rw [h1]; rfl
        | true =>
          obtain ⟨s, w', hs, hd⟩ := sendAll_spec (net := fun i => net (i + 1)) (hB.step h2 h3)
            (fun q hq => hn q (List.mem_cons_of_mem _ hq))
          refine ⟨s, w', ?_, fun hdone => ?_⟩
          · show (getSet fuel root (w r.node) r.name v >>= _) = _
            rw [h1]; exact hs
          · obtain ⟨hk, hall⟩ := hd hdone
            refine ⟨?_, fun k => ?_⟩
            · intro q hq
              rcases List.mem_cons.mp hq with rfl | hq
              · obtain ⟨p, hp, _⟩ := h4.mp rfl
                exact ⟨⟨v, p, he, hp⟩, by omega⟩
              · obtain ⟨⟨v', p, hv', hp⟩, hle⟩ := hk q hq
                refine ⟨⟨v', p, hv', ?_⟩, hle⟩
                by_cases e : q.node = r.node
                · simp only [if_pos e] at hp
                  rw [walkPar_accesses effect_accesses, ← e] at hp; exact hp
                · simp only [if_neg e] at hp; exact hp
            · have hk := hall k
              by_cases e : k = r.node
              · subst e
                simp only [if_true] at hk
                have hsame : ∀ {rs : List Req}, sets (effect (l r.node) root r.name v ++ l r.node) root r.node rs =
                    sets (l r.node) root r.node rs := by
                  intro rs
                  induction rs with
                  | nil => rfl
                  | cons q rs ih =>
                    unfold sets
                    rw [ih]
                    simp only [effect_same effect_accesses]
                rw [hsame] at hk
                unfold sets
                rw [if_pos rfl]
                simp only [he, List.append_assoc]
                exact hk
              · simp only [if_neg e] at hk
                unfold sets
                rw [if_neg (fun x => e x.symm), List.append_nil]
                exact hk

/-- The request will be answered with a name. -/
def Ready (l : List Op) (root : Nat) (r : Req) : Prop :=
  ∃ v p, encode r.leaf = some v ∧ walkPar l root (components r.name) = some p ∧
    ((∃ d a, declOf p l = some d ∧ meant d v = some a) ∨ shown .empty (valueOf p l) ≠ .empty)

theorem shown_meant {d : Decl} {v : Value} {a : AVal} (h : meant d v = some a) : shown .empty (some a) ≠ .empty := by
  cases d <;> cases v <;> simp only [meant] at h <;> try (cases h; done)
  · cases h; simp [shown]
  · split at h <;> cases h; simp [shown]
  · cases h; simp [shown]
  · cases h; simp [shown]

theorem shown_effect {l : List Op} {root p : Nat} {name : Str} {v : Value} (h : shown .empty (valueOf p l) ≠ .empty) :
    shown .empty (valueOf p (effect l root name v ++ l)) ≠ .empty := by
  by_cases hm : ∃ a, Op.set p a ∈ effect l root name v
  · obtain ⟨a, ha⟩ := hm
    obtain ⟨h1, d, hd, h2⟩ := mem_effect.mp ha
    rw [valueOf_set effect_accesses ha (fun b hb => ?_)]
    · exact shown_meant h2
    · obtain ⟨_, d', hd', h3⟩ := mem_effect.mp hb
      rw [hd] at hd'; cases hd'; rw [h2] at h3; cases h3; rfl
  · rw [valueOf_unset effect_accesses (fun a ha => hm ⟨a, ha⟩)]; exact h

theorem Ready.answered {l : List Op} {root : Nat} {r : Req} {v : Value} (h : Ready l root r) (hv : encode r.leaf = some v) :
    ∃ p, walkPar l root (components r.name) = some p ∧ shown .empty (valueOf p (effect l root r.name v ++ l)) ≠ .empty := by
  obtain ⟨v', p, hv', hp, h⟩ := h
  rw [hv] at hv'; cases hv'
  refine ⟨p, hp, ?_⟩
  rcases h with ⟨d, a, hd, ha⟩ | h
  · have hmem : Op.set p a ∈ effect l root r.name v := mem_effect.mpr ⟨hp, d, hd, ha⟩
    rw [valueOf_set effect_accesses hmem (fun b hb => ?_)]
    · exact shown_meant ha
    · obtain ⟨_, d', hd', h3⟩ := mem_effect.mp hb
      rw [hd] at hd'; cases hd'; rw [ha] at h3; cases h3; rfl
  · exact shown_effect h

theorem Ready.keep {l : List Op} {root : Nat} {r : Req} {name : Str} {v : Value} (h : Ready l root r) :
    Ready (effect l root name v ++ l) root r := by
  obtain ⟨v', p, hv', hp, h⟩ := h
  refine ⟨v', p, hv', by rw [walkPar_accesses effect_accesses]; exact hp, ?_⟩
  rcases h with ⟨d, a, hd, ha⟩ | h
  · exact Or.inl ⟨d, a, by rw [accesses_decl effect_accesses]; exact hd, ha⟩
  · exact Or.inr (shown_effect h)

theorem sendAll_done {fuel root : Nat} {h0 : Nat → Heap} : ∀ {rs : List Req} {net : Nat → Net} {l : Nat → List Op} {w : World},
    Boards fuel root rs.length h0 l w → (∀ i, net i = .arrives) →
    (∀ r ∈ rs, 0 ∉ r.name ∧ r.name.length ≤ 92 ∧ Ready (l r.node) root r) → ∃ w', sendAll fuel root net w rs = .ok (.done, w')
  | [], net, l, w, _, _, _ => ⟨w, rfl⟩
  | r :: rs, net, l, w, hB, hnet, hok => by
    obtain ⟨hn, hlen, hready⟩ := hok r List.mem_cons_self
    obtain ⟨v, p, he, _, _⟩ := id hready
    obtain ⟨h', known, h1, h2, h3, h4⟩ := getSet_spec (hB.proper r.node)
      (by have := hB.room r.node; simp only [List.length_cons] at this; omega)
      (hB.ran r.node) (hB.root r.node) hn (encode_string he)
    have hk : known = true := h4.mpr (hready.answered he)
    subst hk
    obtain ⟨w', hs⟩ := sendAll_done (net := fun i => net (i + 1)) (hB.step h2 h3) (fun i => hnet (i + 1)) (fun q hq => by
      obtain ⟨a, b, c⟩ := hok q (List.mem_cons_of_mem _ hq)
      refine ⟨a, b, ?_⟩
      by_cases e : q.node = r.node
      · simp only [if_pos e]; rw [e] at c; exact c.keep
      · simp only [if_neg e]; exact c)
    refine ⟨w', ?_⟩
    unfold sendAll
    rw [if_neg (by omega)]
    simp only [he, hnet 0]
    rw [h1]; exact hs

/-! ## Paths -/

/-- The text of a path. -/
def url : List Str → Str
  | [] => []
  | k :: ks => slash :: k ++ url ks

/-! ### The entries of a configuration, with their paths -/
mutual
def paths : Items → List (List Str × Leaf)
  | .nil => []
  | .cons key c rest => (pathsIn c).map (fun x => (key :: x.1, x.2)) ++ paths rest
def pathsIn : Cfg → List (List Str × Leaf)
  | .leaf v => [([], v)]
  | .dict items => paths items
end

mutual
theorem paramsOf_paths (pre : Str) : ∀ items : Items, paramsOf pre items = (paths items).map (fun x => (pre ++ url x.1, x.2))
  | .nil => rfl
  | .cons key c rest => by
    unfold paramsOf paths
    rw [entry_paths (pre ++ [slash] ++ key) c, paramsOf_paths pre rest, List.map_append, List.map_map]
    congr 1
    apply List.map_congr_left
    intro x _
    simp [url]
theorem entry_paths (name : Str) : ∀ c : Cfg, entry name c = (pathsIn c).map (fun x => (name ++ url x.1, x.2))
  | .leaf v => by simp [entry, pathsIn, url]
  | .dict items => by unfold entry pathsIn; exact paramsOf_paths name items
end

theorem url_nul {path : List Str} (h : ∀ k ∈ path, 0 ∉ k) : 0 ∉ url path := by
  induction path with
  | nil => simp [url]
  | cons k ks ih =>
    simp only [url, List.cons_append, List.mem_cons, List.mem_append]
    rintro (h1 | h1 | h1)
    · simp [slash] at h1
    · exact h k List.mem_cons_self h1
    · exact ih (fun x hx => h x (List.mem_cons_of_mem _ hx)) h1

theorem url_snoc {cs : List Str} {c : Str} : url (cs ++ [c]) = render cs c := by
  induction cs with
  | nil => simp [url, render]
  | cons k ks ih =>
    rw [List.cons_append, url, ih]
    simp [render]

theorem components_url {cs : List Str} {c : Str} (h : ∀ k ∈ cs ++ [c], slash ∉ k) : components (url (cs ++ [c])) = ([] :: cs) ++ [c] := by
  rw [url_snoc]
  exact components_render (fun x hx => h x (List.mem_append_left _ hx)) (h c (by simp))

end Verif.Upload
