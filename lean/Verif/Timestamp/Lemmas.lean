import Verif.Timestamp.Model
import Batteries.Data.List.Basic

/-! Helper lemmas for the timestamp properties. -/

namespace Verif.Timestamp

/-- The time the software counts after `t` ticks: one microsecond is lost per counter period because
the handler adds `COUNTER_MAX` and not `COUNTER_MAX + 1`. -/
def soft (t : Nat) : Nat := 65535 * (t / 65536) + t % 65536

theorem soft_mono {a b : Nat} (h : a ≤ b) : soft a ≤ soft b := by
  unfold soft; omega

/-- number of overflow interrupts served -/
def served (s : State) : Nat := s.ticks / 65536 - s.uif.toNat

/-- Invariant tying hardware and software. -/
structure HwInv (s : State) : Prop where
  pend : s.uif.toNat ≤ s.ticks / 65536
  low : s.low = BitVec.ofNat 32 (65535 * served s)
  high : s.high = 0#32

/-- What a thread in the middle of a call knows; `lb` is the number of interrupts served at the
start of the call. -/
def PcInv (s : State) : Prop :=
  match s.pc with
  | .idle => True
  | .gotLow st t1 th => ∃ s1, s1 ≤ served s ∧ t1 = BitVec.ofNat 32 (65535 * s1) ∧ th = 0#32 ∧
      st ≤ s.ticks ∧ s1 ≤ st / 65536 ∧ st / 65536 ≤ s1 + 1
  | .gotCnt st t1 th tim => ∃ s1 t, s1 ≤ served s ∧ t1 = BitVec.ofNat 32 (65535 * s1) ∧ th = 0#32 ∧
      st ≤ t ∧ t ≤ s.ticks ∧ s1 ≤ st / 65536 ∧ st / 65536 ≤ s1 + 1 ∧ s1 ≤ t / 65536 ∧
      tim = BitVec.ofNat 32 (t % 65536)
  | .flagClear st t1 th tim => ∃ s1 t s3, s1 ≤ s3 ∧ s3 ≤ served s ∧
      t1 = BitVec.ofNat 32 (65535 * s1) ∧ th = 0#32 ∧
      st ≤ t ∧ t ≤ s.ticks ∧ s1 ≤ st / 65536 ∧ st / 65536 ≤ s1 + 1 ∧ s1 ≤ t / 65536 ∧
      t / 65536 ≤ s3 ∧ tim = BitVec.ofNat 32 (t % 65536)

theorem served_tick {s s' : State} (h : step s .tick = some s') :
    s.pc = s'.pc ∧ s.rets = s'.rets ∧ s'.ticks = s.ticks + 1 ∧ s'.low = s.low ∧ s'.high = s.high ∧
    ((s'.uif = s.uif ∧ s'.ticks / 65536 = s.ticks / 65536) ∨
     (s.uif = false ∧ s'.uif = true ∧ s'.ticks / 65536 = s.ticks / 65536 + 1)) := by
  simp only [step] at h
  split at h
  · split at h
    · cases h
    · cases h; refine ⟨rfl, rfl, rfl, rfl, rfl, Or.inr ⟨by simp_all, rfl, ?_⟩⟩
      simp only; omega
  · cases h; refine ⟨rfl, rfl, rfl, rfl, rfl, Or.inl ⟨rfl, ?_⟩⟩
    simp only; omega

theorem served_tick' {s s' : State} (h : step s .tick = some s') :
    served s' = served s := by
  obtain ⟨-, -, -, -, -, h | h⟩ := served_tick h
  · simp [served, h.1, h.2]
  · simp [served, h.1, h.2.1, h.2.2]

theorem served_isr {s s' : State} (hh : HwInv s) (h : step s .isr = some s') :
    s.uif = true ∧ s' = { s with uif := false, low := s.low + BitVec.ofNat 32 counterMax } ∧
    served s' = served s + 1 := by
  simp only [step] at h
  split at h
  · cases h
    refine ⟨by assumption, rfl, ?_⟩
    have := hh.pend
    simp_all [served]
  · cases h

theorem served_cpu {s s' : State} (h : step s .cpu = some s') :
    s'.ticks = s.ticks ∧ s'.uif = s.uif ∧ s'.low = s.low ∧ s'.high = s.high := by
  simp only [step] at h
  split at h
  · cases h; simp
  · cases h; simp
  · split at h <;> cases h <;> simp
  · cases h; simp

theorem hwInv_step {s s' : State} {e : Ev} (hh : HwInv s) (h : step s e = some s') : HwInv s' := by
  cases e with
  | tick =>
    have hs := served_tick' h
    obtain ⟨-, -, ht, hl, hhi, h⟩ := served_tick h
    refine ⟨?_, by rw [hl, hs, hh.low], by rw [hhi, hh.high]⟩
    have := hh.pend
    rcases h with h | h
    · rw [h.1, h.2]; exact this
    · rw [h.2.1, h.2.2]; simp
  | isr =>
    obtain ⟨hu, he, hs⟩ := served_isr hh h
    refine ⟨by simp [he], ?_, by rw [he]; exact hh.high⟩
    rw [hs, he]
    simp only [hh.low, counterMax]
    rw [← BitVec.ofNat_add]
    congr 1
  | cpu =>
    obtain ⟨a, b, c, d⟩ := served_cpu h
    refine ⟨by rw [a, b]; exact hh.pend, ?_, by rw [d]; exact hh.high⟩
    simp only [served, a, b, c]; exact hh.low

theorem pcInv_step {s s' : State} {e : Ev} (hh : HwInv s) (hp : PcInv s) (h : step s e = some s') :
    PcInv s' := by
  have hpend := hh.pend
  cases e with
  | tick =>
    have hs := served_tick' h
    obtain ⟨hpc, -, ht, hl, hhi, h⟩ := served_tick h
    simp only [PcInv, ← hpc] at hp ⊢
    split at hp
    · trivial
    · obtain ⟨s1, hp⟩ := hp; exact ⟨s1, by grind⟩
    · obtain ⟨s1, t, hp⟩ := hp; exact ⟨s1, t, by grind⟩
    · obtain ⟨s1, t, s3, hp⟩ := hp; exact ⟨s1, t, s3, by grind⟩
  | isr =>
    obtain ⟨hu, he, hs⟩ := served_isr hh h
    have hpc : s'.pc = s.pc := by rw [he]
    have ht : s'.ticks = s.ticks := by rw [he]
    simp only [PcInv, hpc, ht] at hp ⊢
    split at hp
    · trivial
    · obtain ⟨s1, hp⟩ := hp; exact ⟨s1, by grind⟩
    · obtain ⟨s1, t, hp⟩ := hp; exact ⟨s1, t, by grind⟩
    · obtain ⟨s1, t, s3, hp⟩ := hp; exact ⟨s1, t, s3, by grind⟩
  | cpu =>
    simp only [step] at h
    have hsv : served s ≤ s.ticks / 65536 ∧ s.ticks / 65536 ≤ served s + 1 := by
      unfold served; cases s.uif <;> simp
      omega
    split at h
    · cases h
      exact ⟨served s, by simp [served], hh.low, hh.high, by simp, hsv.1, hsv.2⟩
    · rename_i st t1 th hpc
      cases h
      simp only [PcInv, hpc] at hp
      obtain ⟨s1, h1, h2, h3, h4, h5, h6⟩ := hp
      exact ⟨s1, s.ticks, h1, h2, h3, h4, by simp, h5, h6, by omega, rfl⟩
    · rename_i st t1 th tim hpc
      split at h
      · cases h; exact hp
      · cases h
        simp only [PcInv, hpc] at hp
        obtain ⟨s1, t, h1, h2, h3, h4, h5, h6, h7, h8, h9⟩ := hp
        have hser : served s = s.ticks / 65536 := by simp_all [served]
        exact ⟨s1, t, served s, h1, by simp [served], h2, h3, h4, h5, h6, h7, h8, by omega, h9⟩
    · cases h; trivial

/-! ### Returned values -/

/-- Facts about a single finished call and the ideal (unbounded) value `R` behind it. -/
def RetOk (r : Ret) (R : Nat) : Prop :=
  r.start ≤ r.fin ∧ r.val = BitVec.ofNat 32 R ∧ R ≤ soft r.fin ∧ soft r.start ≤ R + 65535 ∧
  (r.fin < 65536 * 65538 → r.lval = BitVec.ofNat 64 R)

/-- Bound on everything returned before the current call (or up to now, if there is none). -/
def BoundInv (s : State) (Rs : List Nat) : Prop :=
  match s.pc with
  | .idle => ∀ R ∈ Rs, R ≤ 65535 * (served s + 1) ∧ R ≤ soft s.ticks
  | .gotLow st t1 _ => ∃ s1, t1 = BitVec.ofNat 32 (65535 * s1) ∧ s1 ≤ st / 65536 ∧
      st / 65536 ≤ s1 + 1 ∧ s1 ≤ served s ∧ ∀ R ∈ Rs, R ≤ 65535 * (s1 + 1) ∧ R ≤ soft st
  | .gotCnt st t1 _ _ => ∃ s1, t1 = BitVec.ofNat 32 (65535 * s1) ∧ s1 ≤ st / 65536 ∧
      st / 65536 ≤ s1 + 1 ∧ s1 ≤ served s ∧ ∀ R ∈ Rs, R ≤ 65535 * (s1 + 1) ∧ R ≤ soft st
  | .flagClear st t1 _ _ => ∃ s1, t1 = BitVec.ofNat 32 (65535 * s1) ∧ s1 ≤ st / 65536 ∧
      st / 65536 ≤ s1 + 1 ∧ s1 ≤ served s ∧ ∀ R ∈ Rs, R ≤ 65535 * (s1 + 1) ∧ R ≤ soft st

structure Inv (s : State) (Rs : List Nat) : Prop where
  hw : HwInv s
  pc : PcInv s
  bound : BoundInv s Rs
  sorted : Rs.Pairwise (· ≤ ·)
  rets : List.Forall₂ RetOk s.rets Rs

theorem served_le (s : State) : served s ≤ s.ticks / 65536 := by unfold served; omega

/-- `65535 * _` is injective modulo `2^32` on numbers below `2^32`. -/
theorem low_inj {a b : Nat} (ha : a < 2^32) (hb : b < 2^32)
    (h : BitVec.ofNat 32 (65535 * a) = BitVec.ofNat 32 (65535 * b)) : a = b := by
  have h := congrArg BitVec.toNat h
  simp only [BitVec.toNat_ofNat] at h
  have h2 : (65535 * a * 4294901759) % 2^32 = (65535 * b * 4294901759) % 2^32 := by
    rw [Nat.mul_mod, h, ← Nat.mul_mod]
  omega

theorem ret_step {s : State} {Rs : List Nat} {st : Nat} {t1 th tim : BitVec 32}
    (hi : Inv s Rs) (hpc : s.pc = .flagClear st t1 th tim) (hup : s.ticks < 2^48) :
    ∃ R, RetOk ⟨st, s.ticks, getResult t1 tim s.low, lgetResult t1 th tim s.low⟩ R ∧
      (∀ R' ∈ Rs, R' ≤ R) ∧ R ≤ 65535 * (served s + 1) ∧ R ≤ soft s.ticks := by
  have hp := hi.pc
  have hb := hi.bound
  simp only [PcInv, hpc] at hp
  simp only [BoundInv, hpc] at hb
  obtain ⟨s1, t, s3, h13, h3s, ht1, hth, hst, htt, hs1, hs1', hs1t, hts3, htim⟩ := hp
  obtain ⟨s1', ht1', ha, hb', hc', hR⟩ := hb
  have hsl := served_le s
  have e1 : s1' = s1 := low_inj (by omega) (by omega) (by rw [← ht1', ht1])
  subst e1
  by_cases heq : s.low = t1
  · have hse : served s = s1' := by
      apply low_inj (by omega) (by omega)
      rw [← hi.hw.low, heq, ht1]
    have htq : t / 65536 = s1' := by omega
    refine ⟨soft t, ⟨by simp only; omega, ?_, soft_mono (by simpa using htt), ?_, ?_⟩, ?_, ?_,
      soft_mono htt⟩
    · simp only [getResult, heq, ne_eq, not_true_eq_false, if_false]
      rw [ht1, htim, ← BitVec.ofNat_add, soft, htq]
    · have := soft_mono hst; simp only; omega
    · intro hlt
      simp only at hlt
      simp only [lgetResult, heq, ne_eq, not_true_eq_false, if_false, hth, ht1, htim, soft, htq]
      apply BitVec.eq_of_toNat_eq
      simp only [BitVec.toNat_add, BitVec.toNat_setWidth, BitVec.toNat_ofNat, BitVec.toNat_shiftLeft]
      have hs : s1' ≤ 65537 := by omega
      have hm : 65535 * s1' % 2^32 = 65535 * s1' := by omega
      have ht : t % 65536 % 2^32 = t % 65536 := by omega
      rw [hm, ht]
      omega
    · intro R hm
      have := (hR R hm).2
      have := soft_mono hst
      omega
    · simp only [soft, htq]; omega
  · have hne : served s ≠ s1' := by
      intro h; apply heq; rw [hi.hw.low, h, ht1]
    refine ⟨65535 * served s, ⟨by simp only; omega, ?_, ?_, ?_, ?_⟩, ?_, by omega, ?_⟩
    · simp only [getResult, ne_eq, heq, not_false_eq_true, if_true]; exact hi.hw.low
    · simp only [soft]; omega
    · simp only [soft]; omega
    · intro hlt
      simp only at hlt
      have hlow : s.low.toNat = 65535 * served s := by
        rw [hi.hw.low, BitVec.toNat_ofNat]; omega
      have ht1n : t1.toNat = 65535 * s1' := by
        rw [ht1, BitVec.toNat_ofNat]; omega
      simp only [lgetResult, ne_eq, heq, not_false_eq_true, if_true]
      rw [if_neg (by omega)]
      apply BitVec.eq_of_toNat_eq
      simp only [hth, BitVec.toNat_add, BitVec.toNat_setWidth, BitVec.toNat_ofNat,
        BitVec.toNat_shiftLeft, hlow]
      omega
    · intro R hm
      have := (hR R hm).1
      omega
    · simp only [soft]; omega

theorem served_mono {s s' : State} {e : Ev} (hh : HwInv s) (h : step s e = some s') :
    served s ≤ served s' ∧ s.ticks ≤ s'.ticks := by
  cases e with
  | tick => rw [served_tick' h]; obtain ⟨-, -, ht, -⟩ := served_tick h; omega
  | isr => obtain ⟨-, he, hs⟩ := served_isr hh h; rw [he] at *; simp only; omega
  | cpu => obtain ⟨a, b, -⟩ := served_cpu h; simp [served, a, b]

theorem forall₂_length {α β : Type} {P : α → β → Prop} {l : List α} {m : List β}
    (h : List.Forall₂ P l m) : l.length = m.length := by
  induction h <;> simp_all

theorem forall₂_get {α β : Type} {P : α → β → Prop} {l : List α} {m : List β}
    (h : List.Forall₂ P l m) (k : Nat) (h1 : k < l.length) (h2 : k < m.length) :
    P l[k] m[k] := by
  induction h generalizing k with
  | nil => simp at h1
  | cons h _ ih => cases k with
    | zero => exact h
    | succ k => exact ih k (by simpa using h1) (by simpa using h2)

theorem forall₂_snoc {α β : Type} {P : α → β → Prop} {l : List α} {m : List β} {a : α} {b : β}
    (h : List.Forall₂ P l m) (hab : P a b) : List.Forall₂ P (l ++ [a]) (m ++ [b]) := by
  induction h with
  | nil => exact .cons hab .nil
  | cons h1 _ ih => exact .cons h1 ih

theorem inv_step {s s' : State} {Rs : List Nat} {e : Ev} (hi : Inv s Rs) (h : step s e = some s')
    (hup : s.ticks < 2^48) : ∃ Rs', Inv s' Rs' := by
  have hhw := hwInv_step hi.hw h
  have hpc := pcInv_step hi.hw hi.pc h
  have hmono := served_mono hi.hw h
  by_cases hret : ∃ st t1 th tim, s.pc = .flagClear st t1 th tim ∧ e = .cpu
  · obtain ⟨st, t1, th, tim, hp, rfl⟩ := hret
    obtain ⟨R, h1, h2, h3, h4⟩ := ret_step hi hp hup
    simp only [step, hp] at h
    cases h
    have hb := hi.bound
    simp only [BoundInv, hp] at hb
    obtain ⟨s1, -, hs1, hs1', hs1'', hRs⟩ := hb
    refine ⟨Rs ++ [R], hhw, hpc, ?_, ?_, ?_⟩
    · intro R' hm
      simp only [List.mem_append, List.mem_singleton] at hm
      rcases hm with hm | rfl
      · have := h2 R' hm; simp only [served] at *; omega
      · exact ⟨h3, h4⟩
    · rw [List.pairwise_append]
      refine ⟨hi.sorted, by simp, ?_⟩
      intro a ha b hb
      simp only [List.mem_singleton] at hb
      subst hb; exact h2 a ha
    · exact forall₂_snoc hi.rets h1
  · have hrets : s'.rets = s.rets := by
      cases e with
      | tick => exact (served_tick h).2.1.symm
      | isr => rw [(served_isr hi.hw h).2.1]
      | cpu =>
        simp only [step] at h
        split at h
        · cases h; rfl
        · cases h; rfl
        · split at h <;> cases h <;> rfl
        · exact absurd ⟨_, _, _, _, by assumption, rfl⟩ hret
    refine ⟨Rs, hhw, hpc, ?_, hi.sorted, by rw [hrets]; exact hi.rets⟩
    have hb := hi.bound
    cases e with
    | tick =>
      simp only [BoundInv, ← (served_tick h).1] at hb ⊢
      split at hb
      · intro R hm
        have := hb R hm
        have := soft_mono hmono.2
        omega
      all_goals
        obtain ⟨s1, h1, h2, h3, h4, h5⟩ := hb
        exact ⟨s1, h1, h2, h3, by omega, h5⟩
    | isr =>
      have hp' : s'.pc = s.pc := by rw [(served_isr hi.hw h).2.1]
      simp only [BoundInv, hp'] at hb ⊢
      split at hb
      · intro R hm
        have := hb R hm
        have := soft_mono hmono.2
        omega
      all_goals
        obtain ⟨s1, h1, h2, h3, h4, h5⟩ := hb
        exact ⟨s1, h1, h2, h3, by omega, h5⟩
    | cpu =>
      have hsv : served s ≤ s.ticks / 65536 ∧ s.ticks / 65536 ≤ served s + 1 := by
        unfold served; cases s.uif <;> simp
        omega
      simp only [step] at h
      split at h
      · rename_i hp
        cases h
        simp only [BoundInv, hp] at hb ⊢
        exact ⟨served s, hi.hw.low, hsv.1, hsv.2, by simp [served], hb⟩
      · rename_i hp
        cases h
        simp only [BoundInv, hp] at hb ⊢
        exact hb
      · rename_i hp
        split at h
        · cases h; exact hi.bound
        · cases h
          simp only [BoundInv, hp] at hb ⊢
          exact hb
      · exact absurd ⟨_, _, _, _, by assumption, rfl⟩ hret

theorem inv_init : Inv init [] := by
  refine ⟨⟨by simp [init], by simp [init, served], rfl⟩, trivial, ?_, List.Pairwise.nil, .nil⟩
  intro R hm; cases hm

theorem run_ticks_mono {s s' : State} {es : List Ev} (hh : HwInv s) (h : run s es = some s') :
    s.ticks ≤ s'.ticks := by
  induction es generalizing s with
  | nil => cases h; exact Nat.le_refl _
  | cons e es ih =>
    simp only [run] at h
    cases hs : step s e with
    | none => simp [hs] at h
    | some s1 =>
      simp only [hs, Option.bind_some] at h
      have := ih (hwInv_step hh hs) h
      have := (served_mono hh hs).2
      omega

theorem inv_run {s s' : State} {Rs : List Nat} {es : List Ev} (hi : Inv s Rs)
    (h : run s es = some s') (hup : s'.ticks < 2^48) : ∃ Rs', Inv s' Rs' := by
  induction es generalizing s Rs with
  | nil => cases h; exact ⟨Rs, hi⟩
  | cons e es ih =>
    simp only [run] at h
    cases hs : step s e with
    | none => simp [hs] at h
    | some s1 =>
      simp only [hs, Option.bind_some] at h
      have h1 := run_ticks_mono (hwInv_step hi.hw hs) h
      have h2 := (served_mono hi.hw hs).2
      obtain ⟨Rs', hi'⟩ := inv_step hi hs (by omega)
      exact ih hi' h

/-! ### Reaching the wrap -/

theorem run_append (s : State) (a b : List Ev) :
    run s (a ++ b) = (run s a).bind (fun s' => run s' b) := by
  induction a generalizing s with
  | nil => simp [run]
  | cons e es ih =>
    simp only [List.cons_append, run]
    cases step s e <;> simp [ih]

theorem run_ticks (s : State) (n : Nat) (h : s.ticks % 65536 + n < 65536) :
    run s (List.replicate n .tick) = some { s with ticks := s.ticks + n } := by
  induction n generalizing s with
  | zero => simp [run]
  | succ n ih =>
    simp only [List.replicate_succ, run, step]
    rw [if_neg (by omega)]
    simp only [Option.bind_some]
    rw [ih _ (by simp only; omega)]
    simp only [Option.some.injEq, State.mk.injEq, and_self, and_true]
    omega

/-- One full counter period with its interrupt served at once (`n = 65535`). -/
def period (n : Nat) : List Ev := List.replicate n .tick ++ [.tick, .isr]

theorem run_period (n : Nat) (hn : n = 65535) (k : Nat) (low : BitVec 32) (rets : List Ret) :
    run ⟨65536 * k, false, low, 0#32, .idle, rets⟩ (period n) =
      some ⟨65536 * (k+1), false, low + 65535#32, 0#32, .idle, rets⟩ := by
  unfold period
  rw [run_append, run_ticks _ _ (by simp only; omega)]
  have : (65536 * k + n + 1) % 65536 = 0 := by omega
  simp [run, step, this, counterMax]
  omega

theorem run_periods (n : Nat) (hn : n = 65535) (k : Nat) :
    ∃ es, run init es = some ⟨65536 * k, false, BitVec.ofNat 32 (65535 * k), 0#32, .idle, []⟩ := by
  induction k with
  | zero => exact ⟨[], rfl⟩
  | succ k ih =>
    obtain ⟨es, he⟩ := ih
    refine ⟨es ++ period n, ?_⟩
    rw [run_append, he]
    simp only [Option.bind_some]
    rw [run_period n hn]
    have : BitVec.ofNat 32 (65535 * (k + 1)) = BitVec.ofNat 32 (65535 * k) + 65535#32 := by
      rw [Nat.mul_add, BitVec.ofNat_add]
    rw [this]

end Verif.Timestamp
