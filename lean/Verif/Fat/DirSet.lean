import Verif.Fat.DirLemmas

/-!
# FatFs: directories as sets of names — lemmas
-/

namespace Verif.Fat

open Spec (Ty Chain Files Item named FoundAt Absent FreeAt Full Tidy Distinct proper alike)

theorem named_alike {a b : Nat → BitVec 8} (h : alike a b) {e : Item} (n : named a e) : named b e := ⟨n.1, fun j hj => (n.2 j hj).trans (h j hj)⟩

theorem found_alike {D : List Item} {a b : Nat → BitVec 8} (h : alike a b) {i : Nat} (f : FoundAt D a i) : FoundAt D b i := by
  obtain ⟨e, h1, h2⟩ := f.hit
  exact ⟨⟨e, h1, named_alike h h2⟩, f.before, fun j hj e he hn => f.first j hj e he (named_alike (fun k hk => (h k hk).symm) hn)⟩

theorem found_absent {D : List Item} {fn : Nat → BitVec 8} {i : Nat} (f : FoundAt D fn i) (a : Absent D fn) : False := by
  obtain ⟨e, h1, h2⟩ := f.hit
  obtain ⟨j, e', h3, h4, h5⟩ := a i e h1 h2
  exact f.before j h3 e' h4 h5

theorem named_two {a b : Nat → BitVec 8} {e : Item} (h : named a e) (k : named b e) : alike a b := fun j hj => (h.2 j hj).symm.trans (k.2 j hj)

theorem named_fresh {fn : Nat → BitVec 8} : named fn (Spec.fresh fn) := ⟨by unfold Spec.fresh; rw [if_neg (by decide)]; decide, fun j hj => if_pos hj⟩

theorem fresh_zero (fn : Nat → BitVec 8) : Spec.fresh fn 0 = fn 0 := if_pos (by decide)

/-! ## A new entry -/

section
variable {D : List Item} {i : Nat} {fn : Nat → BitVec 8}

theorem set_get (hi : i < D.length) (x : Item) (j : Nat) : (D.set i x)[j]? = if i = j then some x else D[j]? := by
  rw [List.getElem?_set]
  by_cases h : i = j
  · subst h
    rw [if_pos rfl, if_pos rfl, if_pos hi]
  · rw [if_neg h, if_neg h]

theorem Spec.FreeAt.lt (h : FreeAt D i) : i < D.length := by
  obtain ⟨e, h1, _⟩ := h.free
  exact (List.getElem?_eq_some_iff.mp h1).1

theorem fresh_found (hf : FreeAt D i) (ha : Absent D fn) (hp : proper fn) : FoundAt (D.set i (Spec.fresh fn)) fn i := by
  have hl := hf.lt
  refine ⟨⟨_, by rw [set_get hl, if_pos rfl], named_fresh⟩, fun j hj e he => ?_, fun j hj e he hn => ?_⟩
  · rw [set_get hl] at he
    by_cases h : i = j
    · rw [if_pos h] at he
      rw [← Option.some.inj he, fresh_zero]
      exact hp.1
    · rw [if_neg h] at he
      exact (hf.first j (by omega) e he).2
  · rw [set_get hl, if_neg (by omega)] at he
    obtain ⟨k, e', h1, h2, h3⟩ := ha j e he hn
    exact (hf.first k (by omega) e' h2).2 h3

theorem fresh_others (hf : FreeAt D i) (ht : Tidy D) (hp : proper fn) (gn : Nat → BitVec 8) (hg : proper gn) (hne : ¬ alike gn fn) (j : Nat) :
    FoundAt (D.set i (Spec.fresh fn)) gn j ↔ FoundAt D gn j := by
  have hl := hf.lt
  obtain ⟨x, x1, x2⟩ := hf.free
  have hx : ¬ named gn x := fun h => by
    have := h.2 0 (by decide)
    rcases x2 with y | y
    · exact hg.2 (this.symm.trans y)
    · exact hg.1 (this.symm.trans y)
  have hx' : ¬ named gn (Spec.fresh fn) := fun h => hne (named_two h named_fresh)
  constructor
  · intro h
    obtain ⟨e, h1, h2⟩ := h.hit
    rw [set_get hl] at h1
    have hij : i ≠ j := fun y => by
      rw [if_pos y] at h1
      exact hx' ((Option.some.inj h1).symm ▸ h2)
    rw [if_neg hij] at h1
    refine ⟨⟨e, h1, h2⟩, fun k hk y hy hz => ?_, fun k hk y hy hn => ?_⟩
    · by_cases hik : i = k
      · have := ht k j y e hk hy h1 hz
        exact hg.1 (by rw [← h2.2 0 (by decide), this])
      · exact h.before k hk y (by rw [set_get hl, if_neg hik]; exact hy) hz
    · by_cases hik : i = k
      · rw [← hik, x1] at hy
        exact hx ((Option.some.inj hy).symm ▸ hn)
      · exact h.first k hk y (by rw [set_get hl, if_neg hik]; exact hy) hn
  · intro h
    obtain ⟨e, h1, h2⟩ := h.hit
    have hij : i ≠ j := fun y => by
      rw [← y, x1] at h1
      exact hx ((Option.some.inj h1).symm ▸ h2)
    refine ⟨⟨e, by rw [set_get hl, if_neg hij]; exact h1, h2⟩, fun k hk y hy hz => ?_, fun k hk y hy hn => ?_⟩
    · rw [set_get hl] at hy
      by_cases hik : i = k
      · rw [if_pos hik] at hy
        rw [← Option.some.inj hy, fresh_zero] at hz
        exact hp.1 hz
      · rw [if_neg hik] at hy
        exact h.before k hk y hy hz
    · rw [set_get hl] at hy
      by_cases hik : i = k
      · rw [if_pos hik] at hy
        exact hx' ((Option.some.inj hy).symm ▸ hn)
      · rw [if_neg hik] at hy
        exact h.first k hk y hy hn

theorem fresh_tidy (hf : FreeAt D i) (ht : Tidy D) (hp : proper fn) : Tidy (D.set i (Spec.fresh fn)) := by
  have hl := hf.lt
  intro a b e e' hab h1 h2 hz
  rw [set_get hl] at h1 h2
  by_cases ha : i = a
  · rw [if_pos ha] at h1
    rw [← Option.some.inj h1, fresh_zero] at hz
    exact absurd hz hp.1
  · rw [if_neg ha] at h1
    by_cases hb : i = b
    · exact absurd hz (hf.first a (by omega) e h1).2
    · rw [if_neg hb] at h2
      exact ht a b e e' hab h1 h2 hz

theorem fresh_distinct (hf : FreeAt D i) (ht : Tidy D) (hd : Distinct D) (ha : Absent D fn) : Distinct (D.set i (Spec.fresh fn)) := by
  have hl := hf.lt
  have key : ∀ (gn : Nat → BitVec 8) (j : Nat) (e : Item), i ≠ j → D[j]? = some e → e 0 ≠ 0 → named gn e → named gn (Spec.fresh fn) → False := fun gn j e hij h1 h2 h3 h4 => by
    have hal := named_two h4 named_fresh
    obtain ⟨k, e', k1, k2, k3⟩ := ha j e h1 (named_alike hal h3)
    exact h2 (ht k j e' e k1 k2 h1 k3)
  intro gn a b e e' h1 h2 h3 h4 h5 h6 h7
  rw [set_get hl] at h1 h2
  by_cases hia : i = a
  · rw [if_pos hia] at h1
    by_cases hib : i = b
    · omega
    · rw [if_neg hib] at h2
      exact (key gn b e' hib h2 h4 h7 ((Option.some.inj h1).symm ▸ h6)).elim
  · rw [if_neg hia] at h1
    by_cases hib : i = b
    · rw [if_pos hib] at h2
      exact (key gn a e hia h1 h3 h6 ((Option.some.inj h2).symm ▸ h7)).elim
    · rw [if_neg hib] at h2
      exact hd gn a b e e' h1 h2 h3 h4 h5 h6 h7

/-! ## A deleted entry -/

theorem Spec.FoundAt.lt (h : FoundAt D fn i) : i < D.length := by
  obtain ⟨e, h1, _⟩ := h.hit
  exact (List.getElem?_eq_some_iff.mp h1).1

theorem deleted_zero : Spec.deleted 0 = 0xE5 := rfl

theorem deleted_unnamed {gn : Nat → BitVec 8} (hg : proper gn) : ¬ named gn Spec.deleted := fun h => hg.2 (h.2 0 (by decide)).symm

theorem deleted_absent (hf : FoundAt D fn i) (hd : Distinct D) (hp : proper fn) : Absent (D.set i Spec.deleted) fn := by
  have hl := hf.lt
  intro j e h1 h2
  rw [set_get hl] at h1
  by_cases hij : i = j
  · rw [if_pos hij] at h1
    exact absurd ((Option.some.inj h1).symm ▸ h2) (deleted_unnamed hp)
  · rw [if_neg hij] at h1
    obtain ⟨x, x1, x2⟩ := hf.hit
    have e0 := h2.2 0 (by decide)
    have x0 := x2.2 0 (by decide)
    exact absurd (hd fn i j x e x1 h1 (by rw [x0]; exact hp.1) (by rw [e0]; exact hp.1) (by rw [x0]; exact hp.2) x2 h2) hij

theorem deleted_others (hf : FoundAt D fn i) (gn : Nat → BitVec 8) (hg : proper gn) (hne : ¬ alike gn fn) (j : Nat) :
    FoundAt (D.set i Spec.deleted) gn j ↔ FoundAt D gn j := by
  have hl := hf.lt
  obtain ⟨x, x1, x2⟩ := hf.hit
  have hx : ¬ named gn x := fun h => hne (named_two h x2)
  constructor
  · intro h
    obtain ⟨e, h1, h2⟩ := h.hit
    rw [set_get hl] at h1
    have hij : i ≠ j := fun y => by
      rw [if_pos y] at h1
      exact deleted_unnamed hg ((Option.some.inj h1).symm ▸ h2)
    rw [if_neg hij] at h1
    refine ⟨⟨e, h1, h2⟩, fun k hk y hy hz => ?_, fun k hk y hy hn => ?_⟩
    · by_cases hik : i = k
      · exact hf.before k (by omega) y hy hz
      · exact h.before k hk y (by rw [set_get hl, if_neg hik]; exact hy) hz
    · by_cases hik : i = k
      · rw [← hik, x1] at hy
        exact hx ((Option.some.inj hy).symm ▸ hn)
      · exact h.first k hk y (by rw [set_get hl, if_neg hik]; exact hy) hn
  · intro h
    obtain ⟨e, h1, h2⟩ := h.hit
    have hij : i ≠ j := fun y => by
      rw [← y, x1] at h1
      exact hx ((Option.some.inj h1).symm ▸ h2)
    refine ⟨⟨e, by rw [set_get hl, if_neg hij]; exact h1, h2⟩, fun k hk y hy hz => ?_, fun k hk y hy hn => ?_⟩
    · rw [set_get hl] at hy
      by_cases hik : i = k
      · rw [if_pos hik] at hy
        rw [← Option.some.inj hy] at hz
        exact absurd hz (by decide)
      · rw [if_neg hik] at hy
        exact h.before k hk y hy hz
    · rw [set_get hl] at hy
      by_cases hik : i = k
      · rw [if_pos hik] at hy
        exact deleted_unnamed hg ((Option.some.inj hy).symm ▸ hn)
      · rw [if_neg hik] at hy
        exact h.first k hk y hy hn

theorem deleted_tidy (hf : FoundAt D fn i) (ht : Tidy D) : Tidy (D.set i Spec.deleted) := by
  have hl := hf.lt
  intro a b e e' hab h1 h2 hz
  rw [set_get hl] at h1 h2
  by_cases ha : i = a
  · rw [if_pos ha] at h1
    rw [← Option.some.inj h1] at hz
    exact absurd hz (by decide)
  · rw [if_neg ha] at h1
    by_cases hb : i = b
    · exact absurd hz (hf.before a (by omega) e h1)
    · rw [if_neg hb] at h2
      exact ht a b e e' hab h1 h2 hz

theorem deleted_distinct (hf : FoundAt D fn i) (hd : Distinct D) : Distinct (D.set i Spec.deleted) := by
  have hl := hf.lt
  intro gn a b e e' h1 h2 h3 h4 h5 h6 h7
  rw [set_get hl] at h1 h2
  by_cases hia : i = a
  · rw [if_pos hia] at h1
    rw [← Option.some.inj h1] at h5
    exact absurd rfl h5
  · rw [if_neg hia] at h1
    by_cases hib : i = b
    · rw [if_pos hib] at h2
      rw [← Option.some.inj h2] at h7
      exact absurd ((h6.2 0 (by decide)).trans (h7.2 0 (by decide)).symm) h5
    · rw [if_neg hib] at h2
      exact hd gn a b e e' h1 h2 h3 h4 h5 h6 h7

/-! ## Zeros at the end -/

theorem zeros_get {k j : Nat} (h : D.length ≤ j) {e : Item} (he : (D ++ List.replicate k (fun _ => 0))[j]? = some e) : e = fun _ => 0 := by
  rw [List.getElem?_append_right h, List.getElem?_replicate] at he
  split at he
  · exact (Option.some.inj he).symm
  · exact absurd he (by simp)

theorem zeros_found {k j : Nat} (hp : proper fn) : FoundAt (D ++ List.replicate k (fun _ => 0)) fn j ↔ FoundAt D fn j := by
  constructor
  · intro h
    obtain ⟨e, h1, h2⟩ := h.hit
    by_cases hj : j < D.length
    · rw [List.getElem?_append_left hj] at h1
      exact ⟨⟨e, h1, h2⟩, fun a ha y hy => h.before a ha y (by rw [List.getElem?_append_left (by omega)]; exact hy), fun a ha y hy => h.first a ha y (by rw [List.getElem?_append_left (by omega)]; exact hy)⟩
    · have := zeros_get (by omega) h1
      subst this
      exact absurd (h2.2 0 (by decide)).symm hp.1
  · intro h
    have hj := h.lt
    obtain ⟨e, h1, h2⟩ := h.hit
    exact ⟨⟨e, by rw [List.getElem?_append_left hj]; exact h1, h2⟩, fun a ha y hy => h.before a ha y (by rw [List.getElem?_append_left (by omega)] at hy; exact hy),
      fun a ha y hy => h.first a ha y (by rw [List.getElem?_append_left (by omega)] at hy; exact hy)⟩

theorem zeros_absent {k : Nat} (hp : proper fn) (ha : Absent D fn) : Absent (D ++ List.replicate k (fun _ => 0)) fn := by
  intro j e h1 h2
  by_cases hj : j < D.length
  · rw [List.getElem?_append_left hj] at h1
    obtain ⟨a, e', a1, a2, a3⟩ := ha j e h1 h2
    exact ⟨a, e', a1, by rw [List.getElem?_append_left (by omega)]; exact a2, a3⟩
  · have := zeros_get (by omega) h1
    subst this
    exact absurd (h2.2 0 (by decide)).symm hp.1

theorem zeros_tidy {k : Nat} (ht : Tidy D) : Tidy (D ++ List.replicate k (fun _ => 0)) := by
  intro a b e e' hab h1 h2 hz
  by_cases hb : b < D.length
  · rw [List.getElem?_append_left hb] at h2
    rw [List.getElem?_append_left (by omega)] at h1
    exact ht a b e e' hab h1 h2 hz
  · rw [zeros_get (by omega) h2]

theorem zeros_distinct {k : Nat} (hd : Distinct D) : Distinct (D ++ List.replicate k (fun _ => 0)) := by
  intro gn a b e e' h1 h2 h3 h4 h5 h6 h7
  by_cases ha : a < D.length
  · by_cases hb : b < D.length
    · rw [List.getElem?_append_left ha] at h1
      rw [List.getElem?_append_left hb] at h2
      exact hd gn a b e e' h1 h2 h3 h4 h5 h6 h7
    · rw [zeros_get (by omega) h2] at h4
      exact absurd rfl h4
  · rw [zeros_get (by omega) h1] at h3
    exact absurd rfl h3

theorem zeros_free {k : Nat} (hk : 0 < k) (hf : Full D) : FreeAt (D ++ List.replicate k (fun _ => 0)) D.length := by
  refine ⟨⟨fun _ => 0, ?_, Or.inr rfl⟩, fun j hj e he => ?_⟩
  · rw [List.getElem?_append_right (Nat.le_refl _), Nat.sub_self, List.getElem?_replicate, if_pos hk]
  · rw [List.getElem?_append_left hj] at he
    exact hf e (List.mem_of_getElem? he)

end

end Verif.Fat
