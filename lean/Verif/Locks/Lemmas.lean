import Verif.Locks.Model

/-! Lemmas on lock order. -/

namespace Verif.Locks

variable {L : Type} [DecidableEq L]

/-- Locks are taken in increasing order of rank, released when held, and none is held at the end. -/
def Ordered (rank : L → Nat) : List (L × Mode) → List (Op L) → Prop
  | h, [] => h = []
  | h, .acq l m :: p => (∀ e ∈ h, rank e.1 < rank l) ∧ Ordered rank ((l, m) :: h) p
  | h, .rel l :: p => l ∈ h.map Prod.fst ∧ Ordered rank (h.eraseP (fun e => e.1 = l)) p

theorem ordered_step {rank : L → Nat} {s s' : State L} {b} (h : Step b s s') (ho : ∀ t ∈ s, Ordered rank t.held t.prog) :
    ∀ t ∈ s', Ordered rank t.held t.prog := by
  cases h with
  | acq hi hf =>
    intro t ht
    rcases List.mem_or_eq_of_mem_set ht with h1 | h1
    · exact ho t h1
    · subst h1; exact (ho _ (List.mem_of_getElem? hi)).2
  | rel hi hf =>
    intro t ht
    rcases List.mem_or_eq_of_mem_set ht with h1 | h1
    · exact ho t h1
    · subst h1; exact (ho _ (List.mem_of_getElem? hi)).2
  | queue hi hf =>
    intro t ht
    rcases List.mem_or_eq_of_mem_set ht with h1 | h1
    · exact ho t h1
    · subst h1; have := ho _ (List.mem_of_getElem? hi); exact this

/-- The heart of the argument: if blocked threads only hold locks below the one they want, a lock somebody waits for is held by a thread that wants a
greater one, and so on. -/
theorem no_cycle {rank : L → Nat} {N : Nat} (hN : ∀ l, rank l < N) {s : State L}
    (hend : ∀ t ∈ s, t.prog = [] → t.held = [])
    (hrel : ∀ t ∈ s, ∀ l p, t.prog = .rel l :: p → l ∈ t.held.map Prod.fst)
    (hblocked : ∀ t ∈ s, ∀ l m p, t.prog = .acq l m :: p → ¬Free s l m → ∀ e ∈ t.held, rank e.1 < rank l) : ¬Deadlock s := by
  intro ⟨hnd, hstuck⟩
  have hacq : ∀ t ∈ s, t.prog ≠ [] → ∃ l m p, t.prog = .acq l m :: p ∧ ¬Free s l m := by
    intro t ht hp
    obtain ⟨i, hi⟩ := List.getElem?_of_mem ht
    obtain ⟨prog, held, w⟩ := t
    cases prog with
    | nil => exact absurd rfl hp
    | cons o p =>
      cases o with
      | acq l m => exact ⟨l, m, p, rfl, fun hf => hstuck _ (.acq hi hf)⟩
      | rel l => exact absurd (Step.rel hi (hrel _ ht l p rfl)) (hstuck _)
  have hheld : ∀ l m, ¬Free s l m → ∃ t ∈ s, ∃ m', (l, m') ∈ t.held := by
    have hw : ∀ l, ¬Free s l .write → ∃ t ∈ s, ∃ m', (l, m') ∈ t.held := by
      intro l hf
      refine Classical.byContradiction fun hc => hf ?_
      intro t ht m hm
      exact hc ⟨t, ht, m, hm⟩
    intro l m hf
    cases m with
    | write => exact hw l hf
    | read =>
      refine Classical.byContradiction fun hc => hf ⟨fun t ht hm => hc ⟨t, ht, _, hm⟩, fun t ht hwt => ?_⟩
      obtain ⟨_, hhd⟩ := hwt
      have hp : t.prog ≠ [] := by intro h0; rw [h0] at hhd; cases hhd
      obtain ⟨l', m', p, hp', hf'⟩ := hacq t ht hp
      rw [hp'] at hhd
      simp only [List.head?_cons, Option.some.injEq, Op.acq.injEq] at hhd
      obtain ⟨rfl, rfl⟩ := hhd
      exact hc (hw _ hf')
  have climb : ∀ k l m, N - rank l ≤ k → ¬Free s l m → False := by
    intro k
    induction k with
    | zero => intro l m hk; have := hN l; omega
    | succ k ih =>
      intro l m hk hf
      obtain ⟨t, ht, m', hm⟩ := hheld l m hf
      have hp : t.prog ≠ [] := by
        intro h0
        rw [hend t ht h0] at hm
        cases hm
      obtain ⟨l', m'', p, hp', hf'⟩ := hacq t ht hp
      have hr := hblocked t ht l' m'' p hp' hf' _ hm
      have := hN l'
      exact ih l' m'' (by simp only at hr; omega) hf'
  refine hnd fun t ht => ?_
  refine Classical.byContradiction fun hp => ?_
  obtain ⟨l, m, p, _, hf⟩ := hacq t ht hp
  exact climb _ l m (Nat.le_refl _) hf

theorem no_deadlock {rank : L → Nat} {N : Nat} (hN : ∀ l, rank l < N) {s : State L} (ho : ∀ t ∈ s, Ordered rank t.held t.prog) : ¬Deadlock s := by
  refine no_cycle hN ?_ ?_ ?_
  · intro t ht h0
    have := ho t ht
    rw [h0] at this
    exact this
  · intro t ht l p hp
    have := ho t ht
    rw [hp] at this
    exact this.1
  · intro t ht l m p hp _
    have := ho t ht
    rw [hp] at this
    exact this.1

theorem ordered_append {rank : L → Nat} {h : List (L × Mode)} {p q : List (Op L)} (hp : Ordered rank h p) (hq : Ordered rank [] q) : Ordered rank h (p ++ q) := by
  induction p generalizing h with
  | nil => simp only [Ordered] at hp; subst hp; exact hq
  | cons o p ih =>
    cases o with
    | acq l m => exact ⟨hp.1, ih hp.2⟩
    | rel l => exact ⟨hp.1, ih hp.2⟩

/-- All locks taken by the program have a rank of at least `n`. -/
def Above (rank : L → Nat) (n : Nat) (p : List (Op L)) : Prop := ∀ l m, Op.acq l m ∈ p → n ≤ rank l

/-- A program that takes only greater locks can be run while a lock is held. -/
theorem ordered_under {rank : L → Nat} {l0 : L} {m0 : Mode} {h : List (L × Mode)} {p q : List (Op L)}
    (hh : ∀ e ∈ h, rank l0 < rank e.1) (hp : Ordered rank h p) (ha : Above rank (rank l0 + 1) p) (hq : Ordered rank [(l0, m0)] q) :
    Ordered rank (h ++ [(l0, m0)]) (p ++ q) := by
  induction p generalizing h with
  | nil => simp only [Ordered] at hp; subst hp; exact hq
  | cons o p ih =>
    cases o with
    | acq l m =>
      have hl := ha l m (by simp)
      refine ⟨?_, ih (h := (l, m) :: h) ?_ hp.2 (fun l' m' hm => ha l' m' (by simp [hm]))⟩
      · intro e he
        rcases List.mem_append.1 he with he | he
        · exact hp.1 e he
        · simp only [List.mem_singleton] at he; subst he; simp only; omega
      · intro e he
        rcases List.mem_cons.1 he with he | he
        · subst he; simp only; omega
        · exact hh e he
    | rel l =>
      obtain ⟨hl, hp⟩ := hp
      have hne : l0 ≠ l := by
        rintro rfl
        obtain ⟨e, he, hel⟩ := List.mem_map.1 hl
        have := hh e he
        rw [hel] at this
        omega
      refine ⟨by simp only [List.map_append, List.mem_append]; exact .inl hl, ?_⟩
      have hfil : (h ++ [(l0, m0)]).eraseP (fun e => e.1 = l) = h.eraseP (fun e => e.1 = l) ++ [(l0, m0)] := by
        obtain ⟨e, he, hel⟩ := List.mem_map.1 hl
        exact List.eraseP_append_left (by simpa using hel) _ he
      rw [hfil]
      refine ih ?_ hp (fun l' m' hm => ha l' m' (by simp [hm]))
      intro e he
      exact hh e (List.mem_of_mem_eraseP he)

/-- The locks of the code, in the order in which they are taken. -/
def rank : Lock → Nat
  | .map => 0 | .robot => 1 | .traj => 2 | .pos => 3 | .mapInner => 4 | .angleBd => 5 | .distanceBd => 6 | .game => 7 | .param => 8 | .bus => 9
  | .topic => 10 | .group => 11

theorem rank_lt (l : Lock) : rank l < 12 := by cases l <;> decide

theorem scope_ordered {l : Lock} {m : Mode} {p : Prog} (hp : Ordered rank [] p) (ha : Above rank (rank l + 1) p) : Ordered rank [] (scope l m p) := by
  have hq : Ordered rank [(l, m)] [Op.rel l] := by
    simp [Ordered]
  exact ⟨by simp, ordered_under (h := []) (by simp) hp ha hq⟩

theorem scope_above {l : Lock} {m : Mode} {p : Prog} {n : Nat} (hl : n ≤ rank l) (ha : Above rank n p) : Above rank n (scope l m p) := by
  intro l' m' hm
  simp only [scope, List.cons_append, List.mem_cons, Op.acq.injEq, List.mem_append, List.not_mem_nil, or_false] at hm
  rcases hm with ⟨rfl, _⟩ | hm | hm
  · exact hl
  · exact ha _ _ hm
  · cases hm

theorem flatten_ordered {ps : List Prog} (h : ∀ p ∈ ps, Ordered rank [] p) : Ordered rank [] ps.flatten := by
  induction ps with
  | nil => rfl
  | cons p ps ih =>
    rw [List.flatten_cons]
    exact ordered_append (h p (by simp)) (ih fun q hq => h q (by simp [hq]))

theorem flatten_above {ps : List Prog} {n : Nat} (h : ∀ p ∈ ps, Above rank n p) : Above rank n ps.flatten := by
  intro l m hm
  obtain ⟨p, hp, hm⟩ := List.mem_flatten.1 hm
  exact h p hp l m hm

theorem nil_above {n : Nat} : Above rank n ([] : Prog) := by intro l m h; cases h

theorem append_above {p q : Prog} {n : Nat} (hp : Above rank n p) (hq : Above rank n q) : Above rank n (p ++ q) := by
  intro l m h
  rcases List.mem_append.1 h with h | h
  · exact hp l m h
  · exact hq l m h

theorem leaf (l : Lock) (m : Mode) : Ordered rank [] (scope l m []) := scope_ordered rfl nil_above

theorem leaf_above {l : Lock} {m : Mode} {n : Nat} (h : n ≤ rank l) : Above rank n (scope l m []) := scope_above h nil_above

/-- Every part but the management of a line respects the order, and takes no lock before `traj`. -/
theorem part_ok : ∀ p : Part, p ≠ .manage true → Ordered rank [] p.ops ∧ Above rank 2 p.ops := by
  have reads : ∀ n, Ordered rank [] (List.replicate n (scope .pos .read [])).flatten ∧ Above rank 3 (List.replicate n (scope .pos .read [])).flatten := by
    intro n
    constructor
    · exact flatten_ordered fun p hp => by rw [List.eq_of_mem_replicate hp]; exact leaf _ _
    · exact flatten_above fun p hp => by rw [List.eq_of_mem_replicate hp]; exact leaf_above (by decide)
  have groups : ∀ n, Ordered rank [] (List.replicate n (scope .group .write [])).flatten ∧ Above rank 11 (List.replicate n (scope .group .write [])).flatten := by
    intro n
    constructor
    · exact flatten_ordered fun p hp => by rw [List.eq_of_mem_replicate hp]; exact leaf _ _
    · exact flatten_above fun p hp => by rw [List.eq_of_mem_replicate hp]; exact leaf_above (by decide)
  have weaken : ∀ {n k : Nat} {p : Prog}, Above rank n p → k ≤ n → Above rank k p := fun h hk l m hm => Nat.le_trans hk (h l m hm)
  intro p hp
  cases p with
  | posGet => exact ⟨leaf _ _, leaf_above (by decide)⟩
  | posSet => exact ⟨leaf _ _, leaf_above (by decide)⟩
  | command => exact ⟨scope_ordered (leaf _ _) (leaf_above (by decide)), scope_above (by decide) (leaf_above (by decide))⟩
  | trajOnly => exact ⟨leaf _ _, leaf_above (by decide)⟩
  | gotoRel n => exact ⟨scope_ordered (reads n).1 (reads n).2, scope_above (by decide) (weaken (reads n).2 (by decide))⟩
  | circleRel => exact ⟨scope_ordered (leaf _ _) (leaf_above (by decide)), scope_above (by decide) (leaf_above (by decide))⟩
  | manage b =>
    cases b with
    | false => exact ⟨scope_ordered (leaf _ _) (leaf_above (by decide)), scope_above (by decide) (leaf_above (by decide))⟩
    | true => exact absurd rfl hp
  | bdGet b => cases b <;> exact ⟨leaf _ _, leaf_above (by decide)⟩
  | bdSet b => cases b <;> exact ⟨leaf _ _, leaf_above (by decide)⟩
  | crosses =>
    refine ⟨ordered_append (reads 2).1 (scope_ordered (reads 3).1 (reads 3).2), append_above (weaken (reads 2).2 (by decide)) (scope_above (by decide) (weaken (reads 3).2 (by decide)))⟩
  | game => exact ⟨leaf _ _, leaf_above (by decide)⟩
  | param => exact ⟨leaf _ _, leaf_above (by decide)⟩
  | find => exact ⟨leaf _ _, leaf_above (by decide)⟩
  | topicRead => exact ⟨leaf _ _, leaf_above (by decide)⟩
  | publish n => exact ⟨scope_ordered (groups n).1 (groups n).2, scope_above (by decide) (weaken (groups n).2 (by decide))⟩
  | watch => exact ⟨scope_ordered (leaf _ _) (leaf_above (by decide)), scope_above (by decide) (leaf_above (by decide))⟩
  | mapSet => exact ⟨leaf _ _, leaf_above (by decide)⟩

end Verif.Locks
