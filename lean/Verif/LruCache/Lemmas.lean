import Verif.LruCache.Model
import Mathlib.Data.List.Nodup
import Mathlib.Data.List.Perm.Basic
import Mathlib.Data.List.Range

namespace Verif.LruCache

/-- `l` is the list of entries starting at pointer `h`. -/
def IsList (next : Nat → Option Nat) : Option Nat → List Nat → Prop
  | h, [] => h = none
  | h, e :: l => h = some e ∧ IsList next (next e) l

theorem isList_set {next : Nat → Option Nat} {e : Nat} {v : Option Nat} :
    ∀ {l : List Nat} {h : Option Nat}, e ∉ l → (IsList (set next e v) h l ↔ IsList next h l)
  | [], h, _ => Iff.rfl
  | x :: l, h, hn => by
    simp only [List.mem_cons, not_or] at hn
    simp only [IsList]
    rw [show set next e v x = next x by simp [set, Ne.symm hn.1], isList_set hn.2]

theorem isList_head {next : Nat → Option Nat} {h : Option Nat} {l : List Nat} (hl : IsList next h l) :
    h = l.head? := by
  cases l with
  | nil => exact hl
  | cons e l => exact hl.1

/-- Relation between the heap and lists of used (most recent first) and free entries. -/
structure Rel (n : Nat) (c : Cache) (used : List (Nat × BitVec 32)) (free : List Nat) : Prop where
  isUsed : IsList c.next c.used (used.map Prod.fst)
  isFree : IsList c.next c.free free
  keys : ∀ p ∈ used, c.key p.1 = p.2
  perm : (used.map Prod.fst ++ free).Perm (List.range n)

theorem Rel.nodup {n : Nat} {c : Cache} {used : List (Nat × BitVec 32)} {free : List Nat} (h : Rel n c used free) : (used.map Prod.fst ++ free).Nodup :=
  h.perm.nodup_iff.mpr List.nodup_range

theorem Rel.length {n : Nat} {c : Cache} {used : List (Nat × BitVec 32)} {free : List Nat} (h : Rel n c used free) : used.length + free.length = n := by
  have := h.perm.length_eq; simpa using this

theorem lastLoop_spec {next : Nat → Option Nat} : ∀ (l : List Nat) (f : Nat) (prev : Option Nat)
    (cur : Nat), IsList next (next cur) l → l.length < f →
    lastLoop next f prev cur =
      .ok ((prev.toList ++ cur :: l).dropLast.getLast?, (cur :: l).getLast (by simp))
  | [], f + 1, prev, cur, h, _ => by
    simp only [IsList] at h
    simp only [lastLoop, h]
    cases prev <;> rfl
  | e :: l, f + 1, prev, cur, h, hf => by
    obtain ⟨h1, h2⟩ := h
    simp only [lastLoop, h1]
    rw [lastLoop_spec l f (some cur) e h2 (by simp at hf; omega)]
    cases prev <;> simp
  | _, 0, _, _, _, hf => by simp at hf

theorem findLoop_spec {next : Nat → Option Nat} {key : Nat → BitVec 32} {k : BitVec 32} :
    ∀ (l : List (Nat × BitVec 32)) (f : Nat) (prev h : Option Nat),
    IsList next h (l.map Prod.fst) → (∀ p ∈ l, key p.1 = p.2) → l.length ≤ f →
    (∀ p ∈ l, p.2 ≠ k) ∧ (∃ q, findLoop next key k f prev h = .ok (q, none)) ∨
    ∃ a e b, l = a ++ (e, k) :: b ∧ (∀ p ∈ a, p.2 ≠ k) ∧
      findLoop next key k f prev h = .ok ((prev.toList ++ a.map Prod.fst).getLast?, some e)
  | [], f, prev, h, hl, _, _ => by
    left; simp only [List.map_nil, IsList] at hl
    subst hl
    refine ⟨by simp, prev, ?_⟩
    cases f <;> rfl
  | (x, kx) :: l, f, prev, h, hl, hk, hf => by
    obtain ⟨rfl, h2⟩ := hl
    cases f with
    | zero => simp at hf
    | succ f =>
      have hx : key x = kx := hk (x, kx) (by simp)
      by_cases hkk : kx = k
      · right
        refine ⟨[], x, l, by simp [hkk], by simp, ?_⟩
        simp only [findLoop, hx, hkk, if_true]
        cases prev <;> rfl
      · have := findLoop_spec (k := k) l f (some x) (next x) h2 (fun p hp => hk p (by simp [hp]))
          (by simp at hf; omega)
        rcases this with ⟨h3, q, h4⟩ | ⟨a, e, b, h3, h4, h5⟩
        · left
          refine ⟨?_, q, ?_⟩
          · intro p hp; rcases List.mem_cons.mp hp with rfl | hp
            · exact hkk
            · exact h3 p hp
          · simp only [findLoop, hx, if_neg hkk, h4]
        · right
          refine ⟨(x, kx) :: a, e, b, by simp [h3], ?_, ?_⟩
          · intro p hp; rcases List.mem_cons.mp hp with rfl | hp
            · exact hkk
            · exact h4 p hp
          · simp only [findLoop, hx, if_neg hkk, h5]
            cases prev <;> simp

theorem isList_append {next : Nat → Option Nat} {b : List Nat} {p : Nat} :
    ∀ {a : List Nat} {h : Option Nat}, IsList next h (a ++ p :: b) → IsList next (next p) b
  | [], _, hl => hl.2
  | _ :: _, _, hl => isList_append hl.2

/-- Splitting a list after its element `p`: setting `p.next` replaces the tail. -/
theorem isList_relink {next : Nat → Option Nat} : ∀ {a b b' : List Nat} {h : Option Nat} {p : Nat}
    {v : Option Nat}, IsList next h (a ++ p :: b) → p ∉ a → p ∉ b' →
    IsList next v b' → IsList (set next p v) h (a ++ p :: b')
  | [], b, b', h, p, v, hl, _, hp', hv => by
    refine ⟨hl.1, ?_⟩
    rw [show set next p v p = v by simp [set]]
    exact (isList_set hp').mpr hv
  | x :: a, b, b', h, p, v, hl, hp, hp', hv => by
    simp only [List.mem_cons, not_or] at hp
    refine ⟨hl.1, ?_⟩
    rw [show set next p v x = next x by simp [set, Ne.symm hp.1]]
    exact isList_relink hl.2 hp.2 hp' hv

theorem init_rel (c : Cache) (n : Nat) (hn : 0 < n) :
    ∃ c', cacheInit c n = .ok c' ∧ Rel n c' [] (List.range n) := by
  refine ⟨_, by rw [cacheInit, if_neg (by omega)], ?_⟩
  refine ⟨rfl, ?_, by simp, by simp⟩
  have key : ∀ k m, m + k = n → 0 < k →
      IsList (set (fun i => if i < n then some (i + 1) else c.next i) (n - 1) none) (some m)
        (List.range' m k) := by
    intro k
    induction k with
    | zero => intro m _ h; omega
    | succ k ih =>
      intro m hm _
      refine ⟨rfl, ?_⟩
      by_cases hk : k = 0
      · subst hk
        have : m = n - 1 := by omega
        subst this
        simp [set, IsList]
      · have : set (fun i => if i < n then some (i + 1) else c.next i) (n - 1) none m = some (m + 1) := by
          simp only [set]; rw [if_neg (by omega), if_pos (by omega)]
        rw [this]
        exact ih (m + 1) (by omega) (by omega)
  rw [List.range_eq_range']
  exact key n 0 (by omega) hn

theorem get_miss {n : Nat} {c : Cache} {used : List (Nat × BitVec 32)} {free : List Nat} (h : Rel n c used free) (fuel : Nat) (hf : n ≤ fuel) (k : BitVec 32)
    (hk : ∀ p ∈ used, p.2 ≠ k) : get fuel c k = .ok (c, none) := by
  have hl := h.length
  rcases findLoop_spec used fuel none c.used h.isUsed h.keys (by omega) with ⟨-, q, h2⟩ | ⟨a, e, b, h1, -⟩
  · unfold get; rw [h2]; rfl
  · exact absurd rfl (hk (e, k) (by simp [h1]))

theorem get_hit {n : Nat} {c : Cache} {used : List (Nat × BitVec 32)} {free : List Nat} (h : Rel n c used free) (fuel : Nat) (hf : n ≤ fuel) (k : BitVec 32)
    (a b : List (Nat × BitVec 32)) (e : Nat) (hu : used = a ++ (e, k) :: b) (ha : ∀ p ∈ a, p.2 ≠ k) :
    ∃ c', get fuel c k = .ok (c', some e) ∧ Rel n c' ((e, k) :: (a ++ b)) free := by
  have hl := h.length
  rcases findLoop_spec used fuel none c.used h.isUsed h.keys (by omega) with ⟨h1, -⟩ | ⟨a', e', b', h1, h2, h3⟩
  · exact absurd rfl (h1 (e, k) (by simp [hu]))
  · have : a' = a ∧ e' = e ∧ b' = b := by
      rw [hu] at h1
      clear hu h3 h hl
      induction a generalizing a' with
      | nil =>
        cases a' with
        | nil => simp at h1; exact ⟨rfl, h1.1.symm, h1.2.symm⟩
        | cons x a' =>
          simp at h1
          exact absurd (congrArg Prod.snd h1.1).symm (h2 x (by simp))
      | cons y a ih =>
        cases a' with
        | nil =>
          simp at h1
          exact absurd (congrArg Prod.snd h1.1) (ha y (by simp))
        | cons x a' =>
          simp only [List.cons_append, List.cons.injEq] at h1
          have := ih (fun p hp => ha p (by simp [hp])) a' h1.2 (fun p hp => h2 p (by simp [hp]))
          simp [this, h1.1]
    obtain ⟨rfl, rfl, rfl⟩ := this
    subst hu
    unfold get
    rw [h3]
    simp only [Option.toList_none, List.nil_append]
    have hnd := h.nodup
    have hperm := h.perm
    have hkeys := h.keys
    have hul := h.isUsed
    have hfl := h.isFree
    cases hlast : (a'.map Prod.fst).getLast? with
    | none =>
      have : a' = [] := by simpa using hlast
      subst this
      exact ⟨c, rfl, h⟩
    | some p =>
      obtain ⟨a0, ha0⟩ : ∃ a0, a'.map Prod.fst = a0 ++ [p] := by
        have := List.getLast?_eq_some_iff.mp hlast
        obtain ⟨ys, hys⟩ := this
        exact ⟨ys, hys⟩
      refine ⟨_, rfl, ?_⟩
      simp only [List.map_append, List.map_cons, ha0, List.append_assoc] at hnd hul hperm
      have hne : p ≠ e' := by
        rintro rfl
        simp [List.nodup_append] at hnd
      have tail : IsList c.next (c.next e') (b'.map Prod.fst) := by
        have : IsList c.next c.used ((a0 ++ [p]) ++ e' :: b'.map Prod.fst) := by
          simpa using hul
        exact isList_append this
      have hpn : p ∉ a0 ∧ p ∉ b'.map Prod.fst ∧ p ∉ free := by
        simp only [List.nodup_append, List.nodup_cons, List.mem_append, List.mem_cons] at hnd
        grind
      have hen : e' ∉ a0 ∧ e' ∉ b'.map Prod.fst ∧ e' ∉ free := by
        simp only [List.nodup_append, List.nodup_cons, List.mem_append, List.mem_cons] at hnd
        grind
      have h1 : IsList (set c.next p (c.next e')) c.used (a0 ++ p :: b'.map Prod.fst) := by
        have : IsList c.next c.used (a0 ++ p :: (e' :: b'.map Prod.fst)) := by simpa using hul
        exact isList_relink this hpn.1 hpn.2.1 tail
      constructor
      · simp only [List.map_cons, List.map_append, ha0, List.append_assoc, List.singleton_append]
        refine ⟨rfl, ?_⟩
        rw [show set (set c.next p (c.next e')) e' c.used e' = c.used by simp [set]]
        refine (isList_set ?_).mpr h1
        simp only [List.mem_append, List.mem_cons]
        rintro (h | h | h)
        · exact hen.1 h
        · exact hne h.symm
        · exact hen.2.1 h
      · exact (isList_set hen.2.2).mpr ((isList_set hpn.2.2).mpr hfl)
      · intro q hq
        apply hkeys
        simp only [List.mem_cons, List.mem_append] at hq ⊢
        tauto
      · refine List.Perm.trans ?_ h.perm
        simp only [List.map_cons, List.map_append]
        apply List.Perm.append_right
        exact (List.perm_middle).symm

theorem allocate_free {n : Nat} {c : Cache} {used : List (Nat × BitVec 32)} {f : Nat} {free : List Nat} (h : Rel n c used (f :: free)) (fuel : Nat) (k : BitVec 32) :
    ∃ c', allocate fuel c k = .ok (c', f) ∧ Rel n c' ((f, k) :: used) free := by
  have hfl := h.isFree
  have hnd := h.nodup
  have hf : c.free = some f := hfl.1
  unfold allocate
  rw [hf]
  refine ⟨_, rfl, ?_⟩
  have hfn : f ∉ used.map Prod.fst ∧ f ∉ free := by
    simp only [List.nodup_append, List.nodup_cons, List.mem_cons] at hnd
    grind
  constructor
  · refine ⟨rfl, ?_⟩
    simp only
    rw [show set c.next f c.used f = c.used by simp [set]]
    exact (isList_set hfn.1).mpr h.isUsed
  · exact (isList_set hfn.2).mpr hfl.2
  · intro p hp
    simp only [List.mem_cons] at hp
    rcases hp with rfl | hp
    · simp [set]
    · have : p.1 ≠ f := fun h' => hfn.1 (by rw [← h']; exact List.mem_map_of_mem hp)
      simp only [set, if_neg this]
      exact h.keys p hp
  · refine List.Perm.trans ?_ h.perm
    simp only [List.map_cons, List.cons_append]
    exact List.perm_middle.symm

theorem allocate_full {n : Nat} {c : Cache} {used : List (Nat × BitVec 32)} (u : Nat × BitVec 32) (e : Nat) (ke : BitVec 32)
    (h : Rel n c (u :: used ++ [(e, ke)]) []) (fuel : Nat) (hf : n ≤ fuel) (k : BitVec 32) :
    ∃ c', allocate fuel c k = .ok (c', e) ∧ Rel n c' ((e, k) :: u :: used) [] := by
  have hnd := h.nodup
  have hul := h.isUsed
  have hl := h.length
  simp at hl
  have hu : c.used = some u.1 := by simpa [IsList] using hul.1
  have hfree : c.free = none := h.isFree
  simp only [List.append_nil, List.map_append, List.map_cons, List.map_nil, List.cons_append] at hnd hul
  obtain ⟨pre, p, hpre⟩ : ∃ pre p, u.1 :: used.map Prod.fst = pre ++ [p] := by
    have := List.dropLast_append_getLast (show u.1 :: used.map Prod.fst ≠ [] by simp)
    exact ⟨_, _, this.symm⟩
  have hll := lastLoop_spec (next := c.next) (used.map Prod.fst ++ [e]) fuel none u.1 hul.2
    (by simp; omega)
  have hlast : ((u.1 :: (used.map Prod.fst ++ [e])).getLast (by simp)) = e := by
    simp
  have hdl : ((none : Option Nat).toList ++ u.1 :: (used.map Prod.fst ++ [e])).dropLast.getLast? = some p := by
    rw [show (none : Option Nat).toList ++ u.1 :: (used.map Prod.fst ++ [e]) =
      (u.1 :: used.map Prod.fst) ++ [e] by simp, List.dropLast_concat, hpre]
    simp
  rw [hlast, hdl] at hll
  have hul' : IsList c.next c.used (pre ++ p :: [e]) := by
    have : u.1 :: (used.map Prod.fst ++ [e]) = pre ++ p :: [e] := by
      rw [← List.cons_append, hpre]; simp
    rw [← this]; exact hul
  have hnd' : (pre ++ p :: [e]).Nodup := by
    have : u.1 :: (used.map Prod.fst ++ [e]) = pre ++ p :: [e] := by
      rw [← List.cons_append, hpre]; simp
    rw [← this]; exact hnd
  have hpn : p ∉ pre ∧ e ∉ pre ∧ p ≠ e := by
    simp only [List.nodup_append, List.nodup_cons, List.mem_cons] at hnd'
    grind
  have h1 : IsList (set c.next p none) c.used (pre ++ [p]) :=
    isList_relink hul' hpn.1 (by simp) rfl
  unfold allocate
  rw [hfree]
  simp only [hu]
  rw [hll]
  refine ⟨_, rfl, ?_⟩
  constructor
  · simp only [List.map_cons]
    refine ⟨rfl, ?_⟩
    rw [hpre]
    rw [show ∀ g : Nat → Option Nat, set g e (some u.1) e = some u.1 by intro g; simp [set], ← hu]
    refine (isList_set ?_).mpr h1
    simp [hpn.2.1, Ne.symm hpn.2.2]
  · rfl
  · intro q hq
    simp only [List.mem_cons] at hq
    have hne : q = (e, k) ∨ q.1 ≠ e ∧ q ∈ u :: used := by
      rcases hq with rfl | hq
      · left; rfl
      · right
        refine ⟨?_, by simpa using hq⟩
        have : q.1 ∈ pre ++ [p] := by
          rw [← hpre]
          rcases hq with rfl | hq
          · simp
          · simp [List.mem_map_of_mem hq]
        rintro rfl
        simp only [List.mem_append, List.mem_singleton] at this
        rcases this with h | h
        · exact hpn.2.1 h
        · exact hpn.2.2 h.symm
    rcases hne with rfl | ⟨h2, h3⟩
    · simp [set]
    · simp only [set, if_neg h2]
      exact h.keys q (by simp at h3 ⊢; tauto)
  · refine List.Perm.trans ?_ h.perm
    simp only [List.map_cons, List.map_append, List.map_nil, List.append_nil]
    exact (List.perm_append_singleton e (u.1 :: used.map Prod.fst)).symm

end Verif.LruCache
