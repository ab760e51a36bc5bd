import Verif.CmpMem.Model

/-!
# Properties of the memory reader and writer (C23)
-/

namespace Verif.CmpMem

/-- The sum does not overflow. -/
def NoWrap (W : Nat) (m : Mem) (n : Nat) : Prop := m.index + n < W

theorem read_eq {W : Nat} {m : Mem} {n : Nat} (h : NoWrap W m n) :
    read W m n = .ok (if m.index + n ≤ m.buf.length then (some ((m.buf.drop m.index).take n), { m with index := m.index + n })
      else (none, m)) := by
  unfold read NoWrap at *
  rw [Nat.mod_eq_of_lt h]
  split <;> simp

theorem write_eq {W : Nat} {m : Mem} {d : List Nat} (h : NoWrap W m d.length) :
    write W m d = .ok (if m.index + d.length ≤ m.buf.length then
        (d.length, { buf := m.buf.take m.index ++ d ++ m.buf.drop (m.index + d.length), index := m.index + d.length })
      else (0, m)) := by
  unfold write NoWrap at *
  rw [Nat.mod_eq_of_lt h]
  split <;> simp

/-- A read whose end does not overflow touches only the buffer. It succeeds iff the bytes are there, returns them and
advances; else nothing changes. -/
theorem read_bounds_partial {W : Nat} {m : Mem} {n : Nat} (h : NoWrap W m n) :
    (m.index + n ≤ m.buf.length ∧ ∃ d, read W m n = .ok (some d, ⟨m.buf, m.index + n⟩) ∧ d.length = n ∧
        ∀ i, i < n → d[i]? = m.buf[m.index + i]?) ∨
      (m.buf.length < m.index + n ∧ read W m n = .ok (none, m)) := by
  rw [read_eq h]
  by_cases hc : m.index + n ≤ m.buf.length
  · refine Or.inl ⟨hc, _, by rw [if_pos hc], ?_, ?_⟩
    · simp; omega
    · intro i hi
      rw [List.getElem?_take_of_lt hi, List.getElem?_drop]
  · exact Or.inr ⟨by omega, by rw [if_neg hc]⟩

/-- A write whose end does not overflow touches only the buffer: every byte outside the range written keeps its
value. -/
theorem write_bounds_partial {W : Nat} {m : Mem} {d : List Nat} (h : NoWrap W m d.length) :
    (m.index + d.length ≤ m.buf.length ∧ ∃ b, write W m d = .ok (d.length, ⟨b, m.index + d.length⟩) ∧
        b.length = m.buf.length ∧
        ∀ i, b[i]? = if m.index ≤ i ∧ i < m.index + d.length then d[i - m.index]? else m.buf[i]?) ∨
      (m.buf.length < m.index + d.length ∧ write W m d = .ok (0, m)) := by
  rw [write_eq h]
  by_cases hc : m.index + d.length ≤ m.buf.length
  · refine Or.inl ⟨hc, _, by rw [if_pos hc], ?_, ?_⟩
    · simp; omega
    · intro i
      rw [List.append_assoc, List.getElem?_append]
      simp only [List.length_take, Nat.min_eq_left (show m.index ≤ m.buf.length by omega)]
      by_cases h1 : i < m.index
      · rw [if_pos h1, if_neg (by omega), List.getElem?_take_of_lt h1]
      · rw [if_neg h1, List.getElem?_append]
        by_cases h2 : i - m.index < d.length
        · rw [if_pos h2, if_pos (by omega)]
        · rw [if_neg h2, if_neg (by omega), List.getElem?_drop]
          congr 1; omega
  · exact Or.inr ⟨by omega, by rw [if_neg hc]⟩

/-- Any sequence of calls runs inside the buffer and keeps its size, provided that no access is so long that the end
overflows for any position in use. -/
theorem run_safe_partial {W : Nat} : ∀ {ops : List Op} {m : Mem},
    (∀ op ∈ ops, ∀ op' ∈ ops, ∀ p, op = .setPos p → p + op'.len < W) → (∀ op ∈ ops, m.index + op.len < W) →
    (∀ op ∈ ops, m.buf.length + op.len < W) →
    ∃ m', run W m ops = .ok m' ∧ m'.buf.length = m.buf.length
  | [], m, _, _, _ => ⟨m, rfl, rfl⟩
  | op :: ops, m, h1, h2, h3 => by
    have hstep : ∃ m1, step W m op = .ok m1 ∧ m1.buf.length = m.buf.length ∧
        ((m1.index = m.index ∨ m1.index ≤ m.buf.length) ∨ op = .setPos m1.index) := by
      cases op with
      | setPos p => exact ⟨_, rfl, rfl, Or.inr rfl⟩
      | read n =>
        have hn : NoWrap W m n := h2 _ List.mem_cons_self
        rcases read_bounds_partial hn with ⟨hle, d, hr, _⟩ | ⟨_, hr⟩
        · exact ⟨⟨m.buf, m.index + n⟩, by simp only [step, hr, bind, Except.bind]; rfl, rfl, Or.inl (Or.inr hle)⟩
        · exact ⟨_, by simp only [step, hr, bind, Except.bind]; rfl, rfl, Or.inl (Or.inl rfl)⟩
      | write d =>
        have hn : NoWrap W m d.length := h2 _ List.mem_cons_self
        rcases write_bounds_partial hn with ⟨hle, b, hr, hb, _⟩ | ⟨_, hr⟩
        · exact ⟨_, by simp only [step, hr, bind, Except.bind]; rfl, hb, Or.inl (Or.inr hle)⟩
        · exact ⟨_, by simp only [step, hr, bind, Except.bind]; rfl, rfl, Or.inl (Or.inl rfl)⟩
    obtain ⟨m1, hs, hb, hidx⟩ := hstep
    obtain ⟨m', hr, hb'⟩ := run_safe_partial (W := W) (ops := ops) (m := m1)
      (fun o ho o' ho' p hp => h1 o (List.mem_cons_of_mem _ ho) o' (List.mem_cons_of_mem _ ho') p hp)
      (fun o ho => by
        have ha := h2 o (List.mem_cons_of_mem _ ho)
        have hc := h3 o (List.mem_cons_of_mem _ ho)
        rcases hidx with (hi | hi) | hi
        · omega
        · omega
        · exact h1 op List.mem_cons_self o (List.mem_cons_of_mem _ ho) _ hi)
      (fun o ho => by rw [hb]; exact h3 o (List.mem_cons_of_mem _ ho))
    refine ⟨m', ?_, by omega⟩
    simp only [run, hs, bind, Except.bind]; exact hr

/-- Without `set_pos` the position never exceeds the size. -/
theorem position_in_buffer_partial {W : Nat} : ∀ {ops : List Op} {m m' : Mem}, m.index ≤ m.buf.length →
    (∀ op ∈ ops, m.buf.length + op.len < W) → (∀ p, .setPos p ∉ ops) → run W m ops = .ok m' →
    m'.index ≤ m'.buf.length ∧ m.index ≤ m'.index
  | [], m, m', hi, _, _, hr => by injection hr with hr; subst hr; exact ⟨hi, Nat.le_refl _⟩
  | op :: ops, m, m', hi, h3, hp, hr => by
    have hstep : ∃ m1, step W m op = .ok m1 ∧ m1.buf.length = m.buf.length ∧ m1.index ≤ m.buf.length ∧ m.index ≤ m1.index := by
      have hn : NoWrap W m op.len := by have := h3 op List.mem_cons_self; unfold NoWrap; omega
      cases op with
      | setPos p => exact absurd List.mem_cons_self (hp p)
      | read n =>
        rcases read_bounds_partial (n := n) hn with ⟨hle, d, hr, _⟩ | ⟨_, hr⟩
        · exact ⟨⟨m.buf, m.index + n⟩, by simp only [step, hr, bind, Except.bind]; rfl, rfl, hle, by simp⟩
        · exact ⟨_, by simp only [step, hr, bind, Except.bind]; rfl, rfl, hi, by simp⟩
      | write d =>
        rcases write_bounds_partial (d := d) hn with ⟨hle, b, hr, hb, _⟩ | ⟨_, hr⟩
        · exact ⟨_, by simp only [step, hr, bind, Except.bind]; rfl, hb, hle, by simp⟩
        · exact ⟨_, by simp only [step, hr, bind, Except.bind]; rfl, rfl, hi, by simp⟩
    obtain ⟨m1, hs, hb, hidx, hmono⟩ := hstep
    simp only [run, hs, bind, Except.bind] at hr
    have := position_in_buffer_partial (W := W) (m := m1) (by omega)
      (fun o ho => by rw [hb]; exact h3 o (List.mem_cons_of_mem _ ho)) (fun p h => hp p (List.mem_cons_of_mem _ h)) hr
    exact ⟨this.1, by omega⟩

theorem writeAll_spec {W : Nat} : ∀ {ds : List (List Nat)} {m m' : Mem}, m.index ≤ m.buf.length →
    (∀ d ∈ ds, m.buf.length + d.length < W) → writeAll W m ds = .ok (some m') →
    m'.buf = m.buf.take m.index ++ ds.flatten ++ m.buf.drop (m.index + ds.flatten.length) ∧
      m'.index = m.index + ds.flatten.length ∧ m'.index ≤ m.buf.length
  | [], m, m', hi, _, hr => by
    simp only [writeAll, Except.ok.injEq, Option.some.injEq] at hr
    subst hr; simp [hi]
  | d :: ds, m, m', hi, hw, hr => by
    have hd := hw d List.mem_cons_self
    have hn : NoWrap W m d.length := by unfold NoWrap; omega
    simp only [writeAll, write_eq hn, bind, Except.bind] at hr
    by_cases hc : m.index + d.length ≤ m.buf.length
    · simp only [if_pos hc] at hr
      have hlen : (m.buf.take m.index ++ d ++ m.buf.drop (m.index + d.length)).length = m.buf.length := by simp; omega
      obtain ⟨h1, h2, h3⟩ := writeAll_spec (m := ⟨m.buf.take m.index ++ d ++ m.buf.drop (m.index + d.length), m.index + d.length⟩)
        (by rw [hlen]; exact hc) (by rw [hlen]; exact fun e he => hw e (List.mem_cons_of_mem _ he)) hr
      simp only at h1 h2 h3
      rw [hlen] at h3
      refine ⟨?_, by rw [h2]; simp; omega, h3⟩
      rw [h1]
      have hl2 : (m.buf.take m.index ++ d).length = m.index + d.length := by simp; omega
      have e1 : (m.buf.take m.index ++ d ++ m.buf.drop (m.index + d.length)).take (m.index + d.length) = m.buf.take m.index ++ d :=
        List.take_left' hl2
      have e2 : (m.buf.take m.index ++ d ++ m.buf.drop (m.index + d.length)).drop (m.index + d.length + ds.flatten.length) =
          m.buf.drop (m.index + d.length + ds.flatten.length) := by
        rw [← List.drop_drop, List.drop_left' hl2, List.drop_drop]
      rw [e1, e2]
      simp [Nat.add_assoc]
    · simp only [if_neg hc] at hr
      by_cases h0 : d.length = 0
      · omega
      · rw [if_neg (by omega)] at hr
        cases hr

theorem readAll_spec {W : Nat} : ∀ {ds : List (List Nat)} {m : Mem} {rest : List Nat},
    (∀ d ∈ ds, m.buf.length + d.length < W) → m.index ≤ m.buf.length → m.buf.drop m.index = ds.flatten ++ rest →
    readAll W m (ds.map List.length) = .ok (some (ds, { m with index := m.index + ds.flatten.length }))
  | [], m, rest, _, _, _ => by simp [readAll]
  | d :: ds, m, rest, hw, hi, hr => by
    have hd := hw d List.mem_cons_self
    have hn : NoWrap W m d.length := by unfold NoWrap; omega
    have hlen : (m.buf.drop m.index).length = (d ++ ds.flatten ++ rest).length := by rw [hr]; simp
    simp only [List.length_drop, List.length_append] at hlen
    have hc : m.index + d.length ≤ m.buf.length := by omega
    have htake : (m.buf.drop m.index).take d.length = d := by
      rw [hr]; simp only [List.flatten_cons, List.append_assoc]; exact List.take_left
    have hdrop : m.buf.drop (m.index + d.length) = ds.flatten ++ rest := by
      rw [← List.drop_drop, hr]; simp only [List.flatten_cons, List.append_assoc]; exact List.drop_left
    have ih := readAll_spec (W := W) (ds := ds) (m := { m with index := m.index + d.length }) (rest := rest)
      (fun e he => hw e (List.mem_cons_of_mem _ he)) hc hdrop
    simp only [List.map_cons, readAll, read_eq hn, bind, Except.bind, if_pos hc, htake, ih, pure, Except.pure]
    simp [Nat.add_assoc]

/-- Reading back from position 0 what was written from position 0 gives the same bytes, chunk by chunk. -/
theorem read_back_partial {W : Nat} {buf : List Nat} {ds : List (List Nat)} {m : Mem} (hw : ∀ d ∈ ds, buf.length + d.length < W)
    (h : writeAll W (init buf) ds = .ok (some m)) :
    ∃ m', readAll W (setPos m 0) (ds.map List.length) = .ok (some (ds, m')) ∧ getPos m' = getPos m := by
  obtain ⟨h1, h2, h3⟩ := writeAll_spec (m := init buf) (Nat.zero_le _) hw h
  simp only [init, Nat.zero_add, List.take_zero, List.nil_append] at h1 h2 h3
  have hlen : m.buf.length = buf.length := by rw [h1, List.length_append, List.length_drop]; omega
  have := readAll_spec (W := W) (ds := ds) (m := setPos m 0) (rest := buf.drop ds.flatten.length)
    (fun d hd => by simp only [setPos, hlen]; exact hw d hd) (Nat.zero_le _) (by simp only [setPos, List.drop_zero]; exact h1)
  refine ⟨_, this, ?_⟩
  simp only [getPos, setPos, Nat.zero_add]; exact h2.symm

/-- The read-only writer writes nothing. -/
theorem ro_writes_nothing (m : Mem) (d : List Nat) : writeRo m d = (0, m) := rfl

/-- A position is valid iff the byte is in the buffer. -/
theorem pos_is_valid_iff (m : Mem) (p : Nat) : posIsValid m p = true ↔ p < m.buf.length := by
  unfold posIsValid; split <;> simp <;> omega

/-- The missing case: the sum can overflow, and then the check passes and the copy runs out of the buffer. For every
`SIZE_MAX`, at every position but the first of a non-empty buffer. -/
theorem overflow_escapes {W : Nat} {m : Mem} (h1 : 0 < m.index) (h2 : m.index ≤ m.buf.length) (h3 : m.buf.length < W) :
    read W m (W - 1) = .error .outOfBounds := by
  have : (m.index + (W - 1)) % W = m.index - 1 := by
    rw [show m.index + (W - 1) = (m.index - 1) + W by omega, Nat.add_mod_right, Nat.mod_eq_of_lt (by omega)]
  unfold read
  rw [this, if_pos (by omega), if_neg (by omega)]

/-- The hypotheses are met: two chunks written to eight bytes and read back. -/
example : writeAll (2 ^ 32) (init (List.replicate 8 0)) [[1, 2, 3], [4, 5]] = .ok (some ⟨[1, 2, 3, 4, 5, 0, 0, 0], 5⟩) := by
  rfl
example : ∀ d ∈ [[1, 2, 3], [4, 5]], (List.replicate 8 0).length + d.length < 2 ^ 32 := by decide
/-- A chunk that does not fit is refused. -/
example : write (2 ^ 32) ⟨[1, 2, 3], 2⟩ [7, 8] = .ok (0, ⟨[1, 2, 3], 2⟩) := by rfl

end Verif.CmpMem
