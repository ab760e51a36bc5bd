import Verif.Studio.Model
import Verif.ParamServer.Props

/-!
# The parameter tree of the studio: dictionaries
-/

namespace Verif.Studio

open Verif.Param Verif.ParamServer

variable {α : Type}

/-- Every tail of a dictionary is a dictionary. -/
def Tree.Ok : Tree α → Prop
  | .leaf _ => True
  | .nil => True
  | .cons _ c r => c.Ok ∧ r.Ok ∧ r.isDict = true

theorem Tree.put_dict {k : Str} {c : Tree α} {t : Tree α} (h : t.isDict = true) : (t.put k c).isDict = true := by
  cases t with
  | leaf v => cases h
  | nil => rfl
  | cons k' c' r => simp only [Tree.put]; split <;> rfl

theorem Tree.put_ok {k : Str} {c : Tree α} : ∀ {t : Tree α}, t.Ok → c.Ok → (t.put k c).Ok
  | .leaf _, _, _ => trivial
  | .nil, _, hc => ⟨hc, trivial, rfl⟩
  | .cons k' c' r, ht, hc => by
    simp only [Tree.put]
    split
    · exact ⟨hc, ht.2.1, ht.2.2⟩
    · exact ⟨ht.1, Tree.put_ok ht.2.1 hc, Tree.put_dict ht.2.2⟩

theorem Tree.find_put {k j : Str} {c : Tree α} : ∀ {t : Tree α}, t.Ok → t.isDict = true →
    (t.put k c).find j = if j = k then some c else t.find j
  | .leaf _, _, h => by cases h
  | .nil, _, _ => by
    simp only [Tree.put, Tree.find]
    by_cases h : j = k
    · simp [h]
    · rw [if_neg h, if_neg (fun e => h e.symm)]
  | .cons k' c' r, ht, _ => by
    simp only [Tree.put]
    split
    · next e =>
      subst e
      simp only [Tree.find]
      by_cases h : j = k'
      · simp [h]
      · rw [if_neg h, if_neg (fun e => h e.symm), if_neg (fun e => h e.symm)]
    · next e =>
      simp only [Tree.find]
      by_cases h : k' = j
      · subst h
        rw [if_pos rfl, if_pos rfl, if_neg e]
      · rw [if_neg h, if_neg h, Tree.find_put ht.2.1 ht.2.2]

theorem Tree.find_ok {k : Str} : ∀ {t c : Tree α}, t.Ok → t.find k = some c → c.Ok
  | .leaf _, _, _, h => by cases h
  | .nil, _, _, h => by cases h
  | .cons k' c' r, c, ht, h => by
    simp only [Tree.find] at h
    split at h
    · cases h; exact ht.1
    · exact Tree.find_ok ht.2.1 h

theorem Tree.child_ok {k : Str} {t : Tree α} (ht : t.Ok) : ((t.find k).getD .nil).Ok := by
  cases h : t.find k with
  | none => trivial
  | some c => exact Tree.find_ok ht h

theorem Tree.lookup_nil (q : List Str) : (Tree.nil : Tree α).lookup q = none := by
  cases q <;> rfl

theorem Tree.lookup_cons (k : Str) (q : List Str) (t : Tree α) : t.lookup (k :: q) = ((t.find k).getD .nil).lookup q := by
  rw [Tree.lookup]
  cases t.find k with
  | none => exact (Tree.lookup_nil q).symm
  | some c => rfl

theorem Tree.lookup_dict {t : Tree α} (h : t.isDict = true) : t.lookup [] = none := by
  cases t with
  | leaf v => cases h
  | nil => rfl
  | cons _ _ _ => rfl

/-- A value can be set unless there is a value on the way. -/
theorem Tree.setAt_some (v : α) : ∀ (p : List Str) (t : Tree α), p ≠ [] → t.Ok →
    (∀ q, q <+: p → q ≠ p → t.lookup q = none) → ∃ t', t.setAt v p = some t' ∧ t'.Ok
  | [], _, h, _, _ => absurd rfl h
  | [k], t, _, ht, hq => by
    have hd : t.isDict = true := by
      have := hq [] (List.nil_prefix) (by simp)
      cases t with
      | leaf v => cases this
      | nil => rfl
      | cons _ _ _ => rfl
    exact ⟨t.put k (.leaf v), by simp [Tree.setAt, hd], Tree.put_ok ht trivial⟩
  | k :: k' :: ks, t, _, ht, hq => by
    have hd : t.isDict = true := by
      have := hq [] (List.nil_prefix) (by simp)
      cases t with
      | leaf v => cases this
      | nil => rfl
      | cons _ _ _ => rfl
    obtain ⟨c, hc, hok⟩ := Tree.setAt_some v (k' :: ks) ((t.find k).getD .nil) (by simp) (Tree.child_ok ht) (fun q h1 h2 => by
      rw [← Tree.lookup_cons]
      exact hq (k :: q) (List.cons_prefix_cons.mpr ⟨rfl, h1⟩) (by simpa using h2))
    exact ⟨t.put k c, by rw [Tree.setAt, if_pos hd, hc], Tree.put_ok ht hok⟩

/-- What is in a dictionary after a value was set. -/
theorem Tree.lookup_setAt (v : α) : ∀ (p : List Str) (t t' : Tree α), t.Ok → t.setAt v p = some t' →
    t'.Ok ∧ t'.lookup p = some v ∧ ∀ q, ¬ p <+: q → t'.lookup q = t.lookup q
  | [], _, _, _, h => by cases h
  | [k], t, t', ht, h => by
    simp only [Tree.setAt] at h
    split at h
    · next hd =>
      cases h
      refine ⟨Tree.put_ok ht trivial, ?_, ?_⟩
      · rw [Tree.lookup_cons, Tree.find_put ht hd, if_pos rfl]; rfl
      · intro q hq
        cases q with
        | nil => rw [Tree.lookup_dict hd, Tree.lookup_dict (Tree.put_dict hd)]
        | cons j q =>
          rw [Tree.lookup_cons, Tree.lookup_cons, Tree.find_put ht hd, if_neg]
          rintro rfl
          exact hq (List.cons_prefix_cons.mpr ⟨rfl, List.nil_prefix⟩)
    · cases h
  | k :: k' :: ks, t, t', ht, h => by
    rw [Tree.setAt] at h
    split at h
    · next hd =>
      split at h
      · cases h
      · next c hc =>
        cases h
        obtain ⟨h1, h2, h3⟩ := Tree.lookup_setAt v (k' :: ks) _ c (Tree.child_ok ht) hc
        refine ⟨Tree.put_ok ht h1, ?_, ?_⟩
        · rw [Tree.lookup_cons, Tree.find_put ht hd, if_pos rfl]; exact h2
        · intro q hq
          cases q with
          | nil => rw [Tree.lookup_dict hd, Tree.lookup_dict (Tree.put_dict hd)]
          | cons j q =>
            rw [Tree.lookup_cons, Tree.lookup_cons, Tree.find_put ht hd]
            by_cases e : j = k
            · subst e
              rw [if_pos rfl]
              refine (h3 q ?_)
              intro hp
              exact hq (List.cons_prefix_cons.mpr ⟨rfl, hp⟩)
            · rw [if_neg e]
    · cases h

/-- Below a value there is nothing. -/
theorem Tree.lookup_below {t : Tree α} {p q : List Str} {v : α} (h : t.lookup p = some v) (hp : p <+: q) (hne : p ≠ q) :
    t.lookup q = none := by
  induction p generalizing t q with
  | nil =>
    cases t with
    | leaf v =>
      cases q with
      | nil => exact absurd rfl hne
      | cons j q => rfl
    | nil => cases h
    | cons _ _ _ => cases h
  | cons k p ih =>
    cases q with
    | nil => simp at hp
    | cons j q =>
      obtain ⟨rfl, hp'⟩ := List.cons_prefix_cons.mp hp
      rw [Tree.lookup_cons] at h ⊢
      exact ih h hp' (by simpa using hne)

/-- Filling the tree: the values are found under their names and nowhere else, if no name continues another one. -/
theorem fill_spec : ∀ (rs : List Resp) (t : Tree (Option PyVal)), t.Ok →
    (rs.map (fun r => pySplit r.name)).Pairwise (fun a b => ¬ a <+: b ∧ ¬ b <+: a) →
    (∀ r ∈ rs, pySplit r.name ≠ [] ∧ ∀ q v, t.lookup q = some v → ¬ q <+: pySplit r.name ∧ ¬ pySplit r.name <+: q) →
    ∃ t', fill rs t = some t' ∧ t'.Ok ∧
      ∀ q v, t'.lookup q = some v ↔ t.lookup q = some v ∨ ∃ r ∈ rs, q = pySplit r.name ∧ v = some (extract r.value)
  | [], t, ht, _, _ => ⟨t, rfl, ht, by simp⟩
  | r :: rs, t, ht, hpw, hr => by
    rw [List.map_cons, List.pairwise_cons] at hpw
    obtain ⟨hne, hfree⟩ := hr r List.mem_cons_self
    obtain ⟨t1, h1, -⟩ := Tree.setAt_some (some (extract r.value)) (pySplit r.name) t hne ht (fun q hq _ => by
      cases hl : t.lookup q with
      | none => rfl
      | some v => exact absurd hq (hfree q v hl).1)
    obtain ⟨hok, hself, hother⟩ := Tree.lookup_setAt _ _ _ _ ht h1
    have key : ∀ q v, t1.lookup q = some v ↔ t.lookup q = some v ∨ (q = pySplit r.name ∧ v = some (extract r.value)) := by
      intro q v
      by_cases hp : pySplit r.name <+: q
      · by_cases e : q = pySplit r.name
        · subst e
          rw [hself]
          constructor
          · intro h; cases h; exact .inr ⟨rfl, rfl⟩
          · rintro (h | ⟨_, rfl⟩)
            · exact absurd hp (hfree _ v h).1
            · rfl
        · rw [Tree.lookup_below hself hp (fun h => e h.symm)]
          constructor
          · intro h; cases h
          · rintro (h | ⟨h, _⟩)
            · exact absurd hp (hfree _ v h).2
            · exact absurd h e
      · rw [hother q hp]
        constructor
        · exact .inl
        · rintro (h | ⟨rfl, _⟩)
          · exact h
          · exact absurd (List.prefix_refl _) hp
    obtain ⟨t', h2, hok', hl⟩ := fill_spec rs t1 hok hpw.2 (fun s hs => by
      refine ⟨(hr s (List.mem_cons_of_mem _ hs)).1, fun q v hq => ?_⟩
      rcases (key q v).mp hq with h | ⟨rfl, _⟩
      · exact (hr s (List.mem_cons_of_mem _ hs)).2 q v h
      · exact hpw.1 _ (List.mem_map_of_mem hs))
    refine ⟨t', by rw [fill, h1]; exact h2, hok', fun q v => ?_⟩
    rw [hl, key]
    simp only [List.mem_cons, exists_eq_or_imp, or_assoc]

/-! ## Names -/

theorem pySplit_components (s : Str) : pySplit s = components s := by
  induction s with
  | nil => rfl
  | cons c t ih => simp only [pySplit, components, ih]; rfl

theorem pySplit_ne (s : Str) : pySplit s ≠ [] := by
  cases s with
  | nil => simp [pySplit]
  | cons c t =>
    simp only [pySplit]
    split
    · simp
    · split <;> simp

/-- Splitting and joining. -/
theorem join_split (s : Str) : pyJoin (pySplit s) = s := by
  induction s with
  | nil => rfl
  | cons c t ih =>
    simp only [pySplit]
    split
    · next h =>
      subst h
      cases hs : pySplit t with
      | nil => exact absurd hs (pySplit_ne t)
      | cons q qs => rw [pyJoin]; · rw [← hs, ih]; rfl
                     · simp
    · next h =>
      split
      · next hs => exact absurd hs (pySplit_ne t)
      · next q qs hs =>
        rw [hs] at ih
        cases qs with
        | nil => simp only [pyJoin] at ih ⊢; rw [ih]
        | cons r rs => simp only [pyJoin] at ih ⊢; rw [List.cons_append, ih]

end Verif.Studio
