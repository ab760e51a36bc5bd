import Verif.Timestamp.Lemmas

/-!
# Timestamp properties (C03, C04)
-/

namespace Verif.Timestamp

/-! ## C03: durations -/

/-- Specification: the 32-bit time stamp of an instant (microseconds, any integer). -/
def stamp (t : Int) : BitVec 32 := BitVec.ofInt 32 t

/-- Specification: the 64-bit time stamp of an instant. -/
def lstamp (t : Int) : BitVec 64 := BitVec.ofInt 64 t

/-- C03: the duration of two stamped instants is their true signed distance whenever it lies in
`[-2^31, 2^31)`, wherever the 32-bit counter wraps in between. -/
theorem durationUs_stamp (a b : Int) (h1 : -2^31 ≤ b - a) (h2 : b - a < 2^31) :
    durationUs (stamp a) (stamp b) = b - a := by
  unfold durationUs stamp
  rw [BitVec.toInt_sub, BitVec.toInt_ofInt, BitVec.toInt_ofInt, Int.sub_bmod_bmod, Int.bmod_sub_bmod,
    Int.bmod_eq_of_le (by omega) (by omega)]

/-- C03 in seconds. -/
theorem durationS_stamp (a b : Int) (h1 : -2^31 ≤ b - a) (h2 : b - a < 2^31) :
    durationS (stamp a) (stamp b) * 1000000 = ((b - a : Int) : Rat) := by
  unfold durationS
  rw [durationUs_stamp a b h1 h2, Rat.div_mul_cancel (by decide)]

example : durationS (stamp 4294967290) (stamp 4296467290) = 3 / 2 := by decide +kernel

/-- C03, 64-bit variant. -/
theorem lDurationUs_lstamp (a b : Int) (h1 : -2^63 ≤ b - a) (h2 : b - a < 2^63) :
    lDurationUs (lstamp a) (lstamp b) = b - a := by
  unfold lDurationUs lstamp
  rw [BitVec.toInt_sub, BitVec.toInt_ofInt, BitVec.toInt_ofInt, Int.sub_bmod_bmod, Int.bmod_sub_bmod,
    Int.bmod_eq_of_le (by omega) (by omega)]

/-- An interval across the wrap meets the hypotheses. -/
example : durationUs (stamp (2^32 - 5)) (stamp (2^32 + 10)) = 15 :=
  durationUs_stamp _ _ (by decide) (by decide)

/-- C03: the documented "shorter of the possible intervals": the result always lies in
`[-2^31, 2^31)` and moves the first stamp onto the second. -/
theorem durationUs_shortest (t1 t2 : BitVec 32) :
    -2^31 ≤ durationUs t1 t2 ∧ durationUs t1 t2 < 2^31 ∧
      t1 + BitVec.ofInt 32 (durationUs t1 t2) = t2 := by
  refine ⟨BitVec.le_toInt _, BitVec.toInt_lt, ?_⟩
  unfold durationUs
  rw [BitVec.ofInt_toInt, BitVec.add_comm, BitVec.sub_add_cancel]

/-- C03: swapping the arguments negates the duration, except at distance exactly `-2^31`. -/
theorem durationUs_swap (t1 t2 : BitVec 32) (h : durationUs t1 t2 ≠ -2^31) :
    durationUs t2 t1 = - durationUs t1 t2 := by
  obtain ⟨h1, h2, -⟩ := durationUs_shortest t1 t2
  have e : t1 - t2 = -(t2 - t1) := by rw [BitVec.neg_sub, BitVec.sub_eq_add_neg, BitVec.add_comm]
  unfold durationUs at *
  rw [e, BitVec.toInt_neg, Int.bmod_eq_of_le (by omega) (by omega)]

/-- At distance `-2^31` swapping does not negate (the exception is real). -/
theorem durationUs_swap_exception :
    durationUs 0#32 0x80000000#32 = -2^31 ∧ durationUs 0x80000000#32 0#32 = -2^31 := by decide

example : durationUs 7#32 5#32 ≠ -2^31 := by decide

/-- Sum of the durations along a chain of stamps. -/
def chainSum : BitVec 32 → List (BitVec 32) → Int
  | _, [] => 0
  | t, u :: us => durationUs t u + chainSum u us

/-- C03: durations along a chain telescope: the total equals the end-to-end duration, provided the
total itself is representable. -/
theorem durationUs_chain (t : BitVec 32) (us : List (BitVec 32))
    (h1 : -2^31 ≤ chainSum t us) (h2 : chainSum t us < 2^31) :
    durationUs t ((t :: us).getLast (by simp)) = chainSum t us := by
  have key : ∀ (us : List (BitVec 32)) (t : BitVec 32),
      t + BitVec.ofInt 32 (chainSum t us) = (t :: us).getLast (by simp) := by
    intro us
    induction us with
    | nil => intro t; simp [chainSum]
    | cons u us ih =>
      intro t
      have := ih u
      rw [List.getLast_cons (by simp), ← this, chainSum, BitVec.ofInt_add, ← BitVec.add_assoc,
        (durationUs_shortest t u).2.2]
  rw [← key us t]
  unfold durationUs
  rw [BitVec.add_comm, BitVec.add_sub_cancel, BitVec.toInt_ofInt, Int.bmod_eq_of_le (by omega) (by omega)]

example : -2^31 ≤ chainSum 0xfffffff0#32 [3#32, 1#32, 0x1000#32] ∧
    chainSum 0xfffffff0#32 [3#32, 1#32, 0x1000#32] < 2^31 := by decide

/-! ## C04: the STM32 clock -/

/-- C04: however timer ticks and overflow interrupts fall between the accesses of successive
`timestamp_get` calls, the duration from the value of one call to the value of any later call is
never negative, as long as less than `2^31` us (minus one counter period) separate the start of the
first from the end of the second. (Uptime below 2^48 us, almost nine years.) -/
theorem timestamp_get_monotone (es : List Ev) (s : State) (h : run init es = some s)
    (hup : s.ticks < 2^48) (i j : Nat) (hij : i < j) (hj : j < s.rets.length)
    (hd : (s.rets[j].fin : Int) - s.rets[i].start < 2^31 - 65536) :
    0 ≤ durationUs s.rets[i].val s.rets[j].val := by
  obtain ⟨Rs, hi⟩ := inv_run inv_init h hup
  have hlen : s.rets.length = Rs.length := by
    exact forall₂_length hi.rets
  have get : ∀ k (hk : k < s.rets.length), RetOk s.rets[k] (Rs[k]'(by omega)) :=
    fun k hk => forall₂_get hi.rets k hk (by omega)
  have hs := List.pairwise_iff_getElem.mp hi.sorted i j (by omega) (by omega) hij
  obtain ⟨ai, bi, ci, di, -⟩ := get i (by omega)
  obtain ⟨aj, bj, cj, dj, -⟩ := get j hj
  have hdiff : (Rs[j] : Int) - Rs[i] < 2^31 := by
    by_cases hle : s.rets[i].start ≤ s.rets[j].fin
    · have : soft s.rets[j].fin + s.rets[i].start ≤ soft s.rets[i].start + s.rets[j].fin := by
        unfold soft; omega
      omega
    · have := soft_mono (Nat.le_of_lt (Nat.lt_of_not_le hle))
      omega
  have e : durationUs s.rets[i].val s.rets[j].val = (Rs[j] : Int) - Rs[i] := by
    rw [bi, bj]
    have := durationUs_stamp (Rs[i]) (Rs[j]) (by omega) (by omega)
    simpa [stamp] using this
  omega

/-- C04: every value is the software time (see `soft`) of an instant no later than the end of the
call, and at most one counter period before its start. -/
theorem timestamp_get_accuracy (es : List Ev) (s : State) (h : run init es = some s)
    (hup : s.ticks < 2^48) (i : Nat) (hi : i < s.rets.length) :
    ∃ R, s.rets[i].val = BitVec.ofNat 32 R ∧ R ≤ soft s.rets[i].fin ∧
      soft s.rets[i].start ≤ R + 65535 := by
  obtain ⟨Rs, hinv⟩ := inv_run inv_init h hup
  have hlen := forall₂_length hinv.rets
  obtain ⟨-, b, c, d, -⟩ := forall₂_get hinv.rets i hi (by omega)
  exact ⟨_, b, c, d⟩

/-- The hypotheses of the two theorems above are met by a run with two calls, the second of which
is interrupted by an overflow between its first two reads. -/
example : ∃ es s, run init es = some s ∧ s.ticks < 2^48 ∧ s.rets.length = 2 ∧
    s.rets.map (fun r => (r.start, r.fin, r.val)) =
      [(0, 0, 0#32), (65535, 65536, 65535#32)] := by
  refine ⟨[.cpu, .cpu, .cpu, .cpu] ++ (List.replicate 65535 .tick ++
    [.cpu, .tick, .cpu, .cpu, .isr, .cpu, .cpu]), ?_⟩
  rw [run_append]
  have h1 : run init [.cpu, .cpu, .cpu, .cpu] =
      some ⟨0, false, 0#32, 0#32, .idle, [⟨0, 0, 0#32, 0#64⟩]⟩ := by decide
  rw [h1, Option.bind_some, run_append]
  generalize hn : 65535 = n
  rw [run_ticks _ n (by simp only; omega), Option.bind_some]
  subst hn
  refine ⟨_, rfl, ?_⟩
  decide

/-- C04, 64-bit: false. `time_us_high` is never incremented (the handler says "todo"), so about 71
minutes after start-up `ltimestamp_get` jumps back by almost 2^32 us. -/
theorem ltimestamp_get_not_monotone :
    ∃ es s, run init es = some s ∧ s.ticks < 2^48 ∧ ∃ r₁ r₂, s.rets = [r₁, r₂] ∧
      lDurationUs r₁.lval r₂.lval = -4294901761 := by
  obtain ⟨es, he⟩ := run_periods 65535 rfl 65537
  refine ⟨es ++ ([.cpu, .cpu, .cpu, .cpu] ++ (period 65535 ++ [.cpu, .cpu, .cpu, .cpu])), ?_⟩
  rw [run_append, he, Option.bind_some, run_append]
  have h1 : run ⟨65536 * 65537, false, BitVec.ofNat 32 (65535 * 65537), 0#32, .idle, []⟩
      [.cpu, .cpu, .cpu, .cpu] = some ⟨65536 * 65537, false, 0xffffffff#32, 0#32, .idle,
        [⟨4295032832, 4295032832, 0xffffffff#32, 0xffffffff#64⟩]⟩ := by decide
  rw [h1, Option.bind_some, run_append]
  generalize hn : (65535 : Nat) = n
  rw [run_period n hn.symm, Option.bind_some]
  refine ⟨_, rfl, by decide, _, _, rfl, by decide⟩

/-- C04, 64-bit: what does hold. While the 32-bit part has not wrapped (less than 65538 counter
periods, about 71.6 minutes, of uptime), `ltimestamp_get` never decreases. -/
theorem ltimestamp_get_monotone_partial (es : List Ev) (s : State) (h : run init es = some s)
    (hup : s.ticks < 2^48) (i j : Nat) (hij : i < j) (hj : j < s.rets.length)
    (hfi : s.rets[i].fin < 65536 * 65538) (hfj : s.rets[j].fin < 65536 * 65538) :
    s.rets[i].lval.toNat ≤ s.rets[j].lval.toNat ∧
      0 ≤ lDurationUs s.rets[i].lval s.rets[j].lval := by
  obtain ⟨Rs, hinv⟩ := inv_run inv_init h hup
  have hlen := forall₂_length hinv.rets
  have hs := List.pairwise_iff_getElem.mp hinv.sorted i j (by omega) (by omega) hij
  obtain ⟨-, -, ci, -, ei⟩ := forall₂_get hinv.rets i (by omega) (by omega)
  obtain ⟨-, -, cj, -, ej⟩ := forall₂_get hinv.rets j hj (by omega)
  have bi : soft s.rets[i].fin < 2^33 := by unfold soft; omega
  have bj : soft s.rets[j].fin < 2^33 := by unfold soft; omega
  rw [ei hfi, ej hfj]
  constructor
  · simp only [BitVec.toNat_ofNat]; omega
  · have := lDurationUs_lstamp (Rs[i]) (Rs[j]) (by omega) (by omega)
    simp only [lstamp, BitVec.ofInt_natCast] at this
    omega

/-- The clock is slow: each full counter period of 65536 ticks advances the software time by only
65535 us, because the handler adds `COUNTER_MAX` rather than `COUNTER_MAX + 1`. After `k` periods
`timestamp_get` (called with no interrupt around) is `k` microseconds behind. -/
theorem timestamp_drift (k : Nat) : ∃ es s r, run init es = some s ∧ s.ticks = 65536 * k ∧
    s.rets = [r] ∧ r.start = 65536 * k ∧ r.val = stamp (65536 * k - k : Int) := by
  obtain ⟨es, he⟩ := run_periods 65535 rfl k
  refine ⟨es ++ [.cpu, .cpu, .cpu, .cpu], ?_⟩
  rw [run_append, he, Option.bind_some]
  refine ⟨_, _, rfl, rfl, rfl, rfl, ?_⟩
  have h0 : 65536 * k % 65536 = 0 := by omega
  simp only [getResult, ne_eq, not_true_eq_false, if_false, h0, stamp]
  have : (65536 * (k:Int) - k) = ((65535 * k : Nat) : Int) := by omega
  rw [this, BitVec.ofInt_natCast]
  simp

/-- What `ltimestamp_get` computes when the interrupt came during the call, provided that the upper word was right when it was read: the
later time, also across the end of the lower word. -/
theorem lgetResult_interrupted (L1 L2 : Nat) (tim : BitVec 32) (h1 : L1 < L2) (h2 : L2 < L1 + 2^32) (h3 : L2 < 2^64) :
    lgetResult (BitVec.ofNat 32 L1) (BitVec.ofNat 32 (L1 / 2^32)) tim (BitVec.ofNat 32 L2) = BitVec.ofNat 64 L2 := by
  have hne : BitVec.ofNat 32 L2 ≠ BitVec.ofNat 32 L1 := by
    intro h
    have := congrArg BitVec.toNat h
    simp only [BitVec.toNat_ofNat] at this
    omega
  unfold lgetResult
  rw [if_pos hne]
  apply BitVec.eq_of_toNat_eq
  split
  · next h =>
    simp only [BitVec.toNat_ofNat] at h
    simp only [BitVec.toNat_add, BitVec.toNat_shiftLeft, BitVec.toNat_setWidth, BitVec.toNat_ofNat, Nat.shiftLeft_eq]
    omega
  · next h =>
    simp only [BitVec.toNat_ofNat] at h
    simp only [BitVec.toNat_add, BitVec.toNat_shiftLeft, BitVec.toNat_setWidth, BitVec.toNat_ofNat, Nat.shiftLeft_eq]
    omega

example : lgetResult 0xFFFFFFF0#32 0#32 3#32 0xFFEF#32 = 0x10000FFEF#64 := by decide

end Verif.Timestamp
