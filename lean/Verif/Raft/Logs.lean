import Verif.Raft.Single

/-!
# Raft: lemmas about logs
-/

namespace Verif.Raft

open Spec

variable {Op : Type} {s : Int} {l new : List (Entry Op)}

theorem numbered_nil : Numbered s ([] : List (Entry Op)) := fun _ h => absurd h (Nat.not_lt_zero _)

theorem numbered_cons {e : Entry Op} : Numbered s (e :: l) ↔ e.index = s + 1 ∧ Numbered (s + 1) l := by
  constructor
  · intro h
    refine ⟨by have h0 : e.index = s + ((0 : Nat) : Int) + 1 := h 0 (Nat.succ_pos _)
               omega, ?_⟩
    intro i hi
    have := h (i + 1) (by simpa using hi)
    simp only [List.getElem_cons_succ] at this
    omega
  · rintro ⟨h1, h2⟩ i hi
    cases i with
    | zero => simpa using h1
    | succ i =>
      have := h2 i (by simpa using hi)
      simp only [List.getElem_cons_succ]
      omega

theorem numbered_append {a b : List (Entry Op)} : Numbered s (a ++ b) ↔ Numbered s a ∧ Numbered (s + a.length) b := by
  induction a generalizing s with
  | nil => simp [numbered_nil]
  | cons e a ih =>
    rw [List.cons_append, numbered_cons, numbered_cons, ih, List.length_cons,
      show s + ((a.length + 1 : Nat) : Int) = s + 1 + a.length by omega]
    exact and_assoc.symm

theorem numbered_mem (h : Numbered s l) {e : Entry Op} (he : e ∈ l) : s < e.index ∧ e.index ≤ s + l.length := by
  obtain ⟨i, hi, rfl⟩ := List.mem_iff_getElem.mp he
  have := h i hi
  omega

theorem numbered_take (h : Numbered s l) (k : Nat) : Numbered s (l.take k) := by
  intro i hi
  rw [List.getElem_take]
  exact h i _

theorem lastIndex_numbered (h : Numbered s l) (hl : l ≠ []) : lastIndex l = s + l.length := by
  unfold lastIndex
  rw [List.getLast?_eq_some_getLast hl, List.getLast_eq_getElem]
  have := h (l.length - 1) (by have := List.length_pos_iff.mpr hl; omega)
  have := List.length_pos_iff.mpr hl
  simp only
  omega

theorem lastIndex_zero (h : Numbered 0 l) : lastIndex l = l.length := by
  by_cases hl : l = []
  · subst hl; rfl
  · rw [lastIndex_numbered h hl]; omega

theorem lastTerm_mem (hl : l ≠ []) : ∃ e ∈ l, lastTerm l = e.term := by
  refine ⟨l.getLast hl, List.getLast_mem hl, ?_⟩
  unfold lastTerm
  rw [List.getLast?_eq_some_getLast hl]

theorem dropWhile_numbered : ∀ {s : Int} {l : List (Entry Op)}, Numbered s l → ∀ a : Int,
    l.dropWhile (fun e => decide (e.index ≤ a)) = l.drop (a - s).toNat
  | s, [], _, a => by simp
  | s, e :: l, h, a => by
    obtain ⟨h1, h2⟩ := numbered_cons.mp h
    by_cases ha : e.index ≤ a
    · rw [List.dropWhile_cons_of_pos (by simpa using ha), dropWhile_numbered h2,
        show (a - s).toNat = (a - (s + 1)).toNat + 1 by omega, List.drop_succ_cons]
    · rw [List.dropWhile_cons_of_neg (by simpa using ha), show (a - s).toNat = 0 by omega, List.drop_zero]

theorem numbered_drop (h : Numbered s l) {k : Nat} (hk : k ≤ l.length) : Numbered (s + k) (l.drop k) := by
  have := (numbered_append (s := s) (a := l.take k) (b := l.drop k)).mp (by rw [List.take_append_drop]; exact h)
  rw [List.length_take, Nat.min_eq_left hk] at this
  exact this.2

theorem indices_eq {a b : Int} {es : List (Entry Op)} (h : Numbered a es) (hl : es.length = (b - a).toNat) :
    es.map (·.index) = indices a b := by
  apply List.ext_getElem
  · simp [indices, hl]
  · intro i h1 h2
    simp only [indices, List.getElem_map, List.getElem_range]
    exact h i (by simpa using h1)

/-- What `commitEntries` applies, on a numbered log. -/
theorem commitEntries_spec {n : Node Op} {a b : Int} (hn : Numbered 0 n.log) (ha : 0 ≤ a) (hb : b ≤ n.log.length) :
    ∃ es, commitEntries n a b = .ok { n with applied := n.applied ++ es } ∧ es.map (·.index) = indices a b ∧ ∀ e ∈ es, e ∈ n.log := by
  have hd := dropWhile_numbered hn a
  rw [Int.sub_zero] at hd
  refine ⟨(n.log.drop a.toNat).take (b - a).toNat, ?_, ?_, ?_⟩
  · unfold commitEntries
    simp only [hd]
    rw [if_neg (by rw [List.length_drop]; omega)]
  · by_cases hab : b ≤ a
    · simp [indices, show (b - a).toNat = 0 by omega]
    · apply indices_eq
      · have := numbered_take (numbered_drop hn (k := a.toNat) (by omega)) (b - a).toNat
        rw [show (0 : Int) + (a.toNat : Int) = a by omega] at this
        exact this
      · rw [List.length_take, List.length_drop]; omega
  · intro e he
    exact List.mem_of_mem_drop (List.mem_of_mem_take he)

theorem takeWhile_length {p : Entry Op → Bool} (h : ∀ i, ∀ hi : i < l.length, i < k → p l[i] = true) (hk : k ≤ l.length) :
    k ≤ (l.takeWhile p).length := by
  induction l generalizing k with
  | nil => simpa using hk
  | cons e l ih =>
    cases k with
    | zero => exact Nat.zero_le _
    | succ k =>
      rw [List.takeWhile_cons_of_pos (show p e = true from h 0 (Nat.succ_pos _) (Nat.succ_pos _)), List.length_cons]
      have := ih (k := k) (fun i hi hik => by
        have := h (i + 1) (by simpa using hi) (Nat.succ_lt_succ hik)
        simpa using this) (by simpa using hk)
      omega

theorem removeConflicting_prefix : removeConflicting l new <+: l := List.takeWhile_prefix _

theorem removeConflicting_length {k : Nat} (h : Numbered 0 l) (hnew : Numbered k new) (hk : k ≤ l.length) :
    k ≤ (removeConflicting l new).length := by
  apply takeWhile_length _ hk
  intro i hi hik
  simp only [Bool.not_eq_true', List.any_eq_false]
  intro x hx
  have h1 := numbered_mem hnew hx
  have h2 := h i hi
  have : x.index ≠ l[i].index := by omega
  simp [this]

theorem append_numbered {e : Entry Op} (h : Numbered 0 l) (hl : l.length ≤ logSize) (he : e.index = l.length + 1) (hc : l.length < logSize) :
    Numbered 0 (append l e) ∧ (append l e).length = l.length + 1 := by
  unfold append
  rw [if_pos hc]
  refine ⟨numbered_append.mpr ⟨h, ?_⟩, by simp⟩
  rw [numbered_cons]
  exact ⟨by omega, numbered_nil⟩

theorem merge_fold : ∀ {new l : List (Entry Op)} {k : Nat}, Numbered 0 l → l.length ≤ logSize → Numbered k new → k ≤ l.length →
    k + new.length ≤ logSize →
    Numbered 0 (new.foldl (fun log e => if e.index > lastIndex log then append log e else log) l) ∧
    (new.foldl (fun log e => if e.index > lastIndex log then append log e else log) l).length = max l.length (k + new.length) ∧
    ∀ e ∈ new.foldl (fun log e => if e.index > lastIndex log then append log e else log) l, e ∈ l ∨ e ∈ new
  | [], l, k, h, hl, _, hk, _ => ⟨h, by simp; omega, fun e he => .inl he⟩
  | x :: new, l, k, h, hl, hx, hk, hc => by
    obtain ⟨h1, h2⟩ := numbered_cons.mp hx
    rw [List.length_cons] at hc
    have h2' : Numbered ((k + 1 : Nat) : Int) new := by
      rw [show ((k + 1 : Nat) : Int) = (k : Int) + 1 by omega]; exact h2
    simp only [List.foldl_cons, lastIndex_zero h]
    by_cases hi : x.index > l.length
    · rw [if_pos hi]
      have ha := append_numbered (e := x) h hl (by omega) (by omega)
      obtain ⟨i1, i2, i3⟩ := merge_fold ha.1 (by omega) h2' (by omega) (by omega)
      refine ⟨i1, by rw [i2, List.length_cons]; omega, ?_⟩
      intro e he
      rcases i3 e he with h | h
      · unfold append at h
        rw [if_pos (by omega)] at h
        rcases List.mem_append.mp h with h | h
        · exact .inl h
        · rw [List.mem_singleton.mp h]; exact .inr List.mem_cons_self
      · exact .inr (List.mem_cons_of_mem _ h)
    · rw [if_neg hi]
      obtain ⟨i1, i2, i3⟩ := merge_fold h hl h2' (by omega) (by omega)
      refine ⟨i1, by rw [i2, List.length_cons]; omega, ?_⟩
      intro e he
      rcases i3 e he with h | h
      · exact .inl h
      · exact .inr (List.mem_cons_of_mem _ h)

theorem merge_spec {k : Nat} (h : Numbered 0 l) (hl : l.length ≤ logSize) (hnew : Numbered k new) (hk : k ≤ l.length)
    (hc : k + new.length ≤ logSize) :
    Numbered 0 (merge l new) ∧ (merge l new).length ≤ logSize ∧ ∀ e ∈ merge l new, e ∈ l ∨ e ∈ new := by
  have hp := removeConflicting_prefix (l := l) (new := new)
  have hlen := removeConflicting_length h hnew hk
  have hnum : Numbered 0 (removeConflicting l new) := by
    obtain ⟨t, ht⟩ := hp
    rw [← ht] at h
    exact (numbered_append.mp h).1
  have hle := hp.length_le
  obtain ⟨h1, h2, h3⟩ := merge_fold hnum (by omega) hnew hlen hc
  refine ⟨h1, by unfold merge; omega, ?_⟩
  intro e he
  rcases h3 e he with h | h
  · exact .inl (hp.subset h)
  · exact .inr h

end Verif.Raft
