import Verif.Studio.Lemmas

/-!
# The parameter tree of the studio: paths on the board
-/

namespace Verif.Studio

open Verif.Param Verif.ParamServer

/-- No parameter has the name of a namespace beside it. -/
def Apart (l : List Op) : Prop := ∀ p ∈ pars l, ∀ m ∈ nss l, parentOf m l = some (nsOf p l) → nsIdOf m l ≠ parIdOf p l

theorem atPath_split {l : List Op} : ∀ {a b : List Str} {n k : Nat}, AtPath l n (a ++ b) k → ∃ m, AtPath l n a m ∧ AtPath l m b k
  | [], _, n, _, h => ⟨n, .nil n, h⟩
  | x :: a, b, n, k, h => by
    have h' : AtPath l n (x :: (a ++ b)) k := h
    cases h' with
    | cons h1 h2 h3 =>
      obtain ⟨m, h4, h5⟩ := atPath_split h3
      exact ⟨m, .cons h1 h2 h4, h5⟩

theorem atPath_cons_inv {l : List Op} {n k : Nat} {c : Str} {cs : List Str} (h : AtPath l n (c :: cs) k) :
    ∃ m ∈ nss l, parentOf m l = some n ∧ nsIdOf m l = c ∧ AtPath l m cs k := by
  cases h with
  | cons h1 h2 h3 => exact ⟨_, h1, h2, rfl, h3⟩

theorem atPath_unique {l : List Op} (hd : Distinct l) : ∀ {cs : List Str} {n a b : Nat}, AtPath l n cs a → AtPath l n cs b → a = b
  | [], n, a, b, h1, h2 => by cases h1; cases h2; rfl
  | c :: cs, n, a, b, h1, h2 => by
    obtain ⟨m, h3, h4, h5, h6⟩ := atPath_cons_inv h1
    obtain ⟨m', h3', h4', h5', h6'⟩ := atPath_cons_inv h2
    have := hd.1 m h3 m' h3' (by simp [h4]) (h4.trans h4'.symm) (h5.trans h5'.symm)
    subst this
    exact atPath_unique hd h6 h6'

theorem atPath_under {l : List Op} {n k : Nat} {cs : List Str} (h : AtPath l n cs k) : Under l n k := by
  induction h with
  | nil => exact .self
  | cons h1 h2 _ ih => exact under_trans (.child h1 h2 .self) ih

/-- The keys of a parameter in the tree. -/
def IsPath (l : List Op) (root p : Nat) (q : List Str) : Prop :=
  p ∈ pars l ∧ ∃ cs, AtPath l root cs (nsOf p l) ∧ q = [] :: cs ++ [parIdOf p l]

theorem isPath_prefix {l : List Op} (hd : Distinct l) (ha : Apart l) {root p p' : Nat} {q q' : List Str} (h : IsPath l root p q)
    (h' : IsPath l root p' q') (hq : q <+: q') : p = p' := by
  obtain ⟨hm, cs, hc, rfl⟩ := h
  obtain ⟨hm', cs', hc', rfl⟩ := h'
  obtain ⟨-, hq⟩ := List.cons_prefix_cons.mp hq
  obtain ⟨r, hr⟩ := hq
  replace hr : (cs ++ [parIdOf p l]) ++ r = cs' ++ [parIdOf p' l] := hr
  rcases List.eq_nil_or_concat r with rfl | ⟨r', x, rfl⟩
  · rw [List.append_nil] at hr
    obtain ⟨e1, e2⟩ := List.append_inj' hr rfl
    subst e1
    exact hd.2 p hm p' hm' (atPath_unique hd hc hc') (by simpa using e2)
  · have hr' : (cs ++ parIdOf p l :: r') ++ [x] = cs' ++ [parIdOf p' l] := by rw [← hr]; simp
    obtain ⟨e1, -⟩ := List.append_inj' hr' rfl
    subst e1
    obtain ⟨m, h1, h2⟩ := atPath_split hc'
    obtain ⟨m', h3, h4, h5, -⟩ := atPath_cons_inv h2
    rw [atPath_unique hd h1 hc] at h4
    exact absurd h5 (ha p hm m' h3 h4)

theorem isPath_unique {l : List Op} (hp : Proper l) {root p : Nat} (hroot : root ∈ nss l) (htop : parentOf root l = none)
    {q : List Str} (h : IsPath l root p q) : q = [] :: (chain (nsOf p l) l).dropLast.reverse.map (nsIdOf · l) ++ [parIdOf p l] := by
  obtain ⟨-, cs, hc, rfl⟩ := h
  suffices h : ∀ (k : Nat) (cs : List Str), AtPath l root cs k → cs = (chain k l).dropLast.reverse.map (nsIdOf · l) by rw [h _ _ hc]
  intro k cs
  induction hn : cs.length generalizing cs k with
  | zero =>
    intro h
    obtain rfl := List.length_eq_zero_iff.mp hn
    cases h
    rw [chain_unfold hp hroot, htop]; rfl
  | succ n ih =>
    intro h
    rcases List.eq_nil_or_concat cs with rfl | ⟨ds, x, rfl⟩
    · simp at hn
    · rw [List.concat_eq_append] at h hn ⊢
      obtain ⟨m, h1, h2⟩ := atPath_split h
      obtain ⟨m', h3, h4, h5, h6⟩ := atPath_cons_inv h2
      cases h6
      have hd := ih m ds (by simpa using hn) h1
      have hqn := parentOf_nss hp h4
      have hne : chain m l ≠ [] := by rw [chain_unfold hp hqn]; simp
      rw [chain_unfold hp h3, h4]
      show ds ++ [x] = _
      simp only
      rw [List.dropLast_cons_of_ne_nil hne, List.reverse_cons, List.map_append, ← hd]
      simp [h5]

/-- The answer to the request for an index. -/
theorem respond_spec {fuel : Nat} {h0 h : Heap} {l : List Op} (hp : Proper l) (hd : Distinct l) (hpl : Plain l)
    (hf : l.length ≤ fuel) (hr : run fuel h0 l = .ok h) {root : Nat} (hroot : root ∈ nss l) (htop : parentOf root l = none) :
    ∃ ps : List Nat, ps.Nodup ∧ (∀ p, p ∈ ps ↔ ∃ q, IsPath l root p q) ∧ ∀ i,
      (ps[i]? = none ∧ respond fuel h root i = .ok ⟨[], .empty⟩) ∨
      ∃ p name, ps[i]? = some p ∧ respond fuel h root i = .ok ⟨name, shown .empty (valueOf p l)⟩ ∧ name ≠ [] ∧
        IsPath l root p (pySplit name) ∧ parFind fuel h root (cStr name) = .ok (some p) := by
  obtain ⟨ps, hnd, hmem, hidx⟩ := findByIndex_enumerates hp hf hr hroot
  refine ⟨ps, hnd, fun p => ?_, fun i => ?_⟩
  · rw [hmem]
    constructor
    · rintro ⟨hm, hu⟩
      obtain ⟨cs, hc, -⟩ := fullName_path hp hf hr hroot htop hm hu
      exact ⟨_, hm, cs, hc, rfl⟩
    · rintro ⟨q, hm, cs, hc, -⟩
      exact ⟨hm, atPath_under hc⟩
  · rcases nameByIndex_finds hp hd hpl hf hr hroot htop i with ⟨h1, h2⟩ | ⟨p, name, hm, h1, h2, h3⟩
    · left
      rw [hidx] at h1
      injection h1 with h1
      exact ⟨h1, by unfold respond; rw [h2]; rfl⟩
    · right
      have h1' := h1
      rw [hidx] at h1
      injection h1 with h1
      obtain ⟨hm, hu⟩ := (hmem p).mp (List.mem_of_getElem? h1)
      obtain ⟨cs, hc, hn⟩ := fullName_path hp hf hr hroot htop hm hu
      have e : nameByIndex fuel h root i = .ok (some (render cs (parIdOf p l))) := by
        unfold nameByIndex; rw [h1']; show (fullName fuel h p >>= _) = _; rw [hn]; rfl
      rw [h2] at e
      injection e with e
      injection e with e
      subst e
      have hsl := atPath_ids hc (P := fun x => slash ∉ x ∧ x ≠ []) hpl.1
      refine ⟨p, _, h1, ?_, by simp [render], ⟨hm, cs, hc, ?_⟩, h3⟩
      · unfold respond
        rw [h2]
        show (readValue fuel h root (render cs (parIdOf p l)) .empty >>= _) = _
        rw [read_shows hp hf hr hm h3]; rfl
      · rw [pySplit_components]
        exact components_render (fun x hx => (hsl x hx).1) (hpl.2 p hm).1

end Verif.Studio
