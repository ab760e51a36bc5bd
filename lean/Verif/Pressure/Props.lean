import Verif.Pressure.Lemmas

/-!
# Pressure sensors: properties (C108)
-/

namespace Verif.Pressure

/-! ## Specification -/

/-- `float`: each result is the exact one up to a part in 2^24, whole numbers up to 2^24 are exact (there is no overflow and no underflow with the numbers used here). -/
structure Single (rnd : ℚ → ℚ) : Prop where
  near : ∀ x, |rnd x - x| ≤ |x| / 16777216
  int : ∀ n : Int, |n| ≤ 16777216 → rnd n = n

/-- The pressure in Pascal that a result stands for: 0x19999a is no pressure, 0xe66666 is 15 psi, and linear in between and beyond (datasheet, page 19) -/
def exact (raw : BitVec 24) : ℚ := ((raw.toNat : ℚ) - 1677722) * (103422 / 13421772)

example : exact 0x19999a = 0 ∧ exact 0xe66666 = 103422 := by
  have h1 : (0x19999a : BitVec 24).toNat = 1677722 := rfl
  have h2 : (0xe66666 : BitVec 24).toNat = 15099494 := rfl
  unfold exact
  rw [h1, h2]
  constructor <;> norm_num

/-- The measurement was finished in time, and the status is in order. -/
def Good (o : Outcome) : Prop := StatusGood o.status ∧ o.duration ≤ 5000

/-- What is published for a measurement: the pressure up to 1 Pa (and a rounding error), or 0 if it failed -/
def Reads (o : Outcome) (p : BitVec 32) : Prop := (Good o ∧ |(p.toNat : ℚ) - exact o.raw| < 1.014) ∨ (¬ Good o ∧ p = 0)

/-! ## Conversion -/

theorem pascal_near {rnd : ℚ → ℚ} (h : Single rnd) (raw : BitVec 24) : |toPascal rnd (raw.setWidth 32) - exact raw| ≤ 0.014 ∧ exact raw ≤ 116351 := by
  have hn : ((raw.setWidth 32 : BitVec 32).toNat : ℚ) = (raw.toNat : ℚ) := by
    rw [BitVec.toNat_setWidth, Nat.mod_eq_of_lt (by have := raw.isLt; omega)]
  have hlt : raw.toNat ≤ 16777215 := by have := raw.isLt; omega
  have e1 : rnd (raw.toNat : ℚ) = (raw.toNat : ℚ) := by
    have := h.int (raw.toNat : Int) (by rw [abs_of_nonneg (by omega)]; omega)
    simpa using this
  have e2 : rnd ((raw.toNat : ℚ) - 1677722) = (raw.toNat : ℚ) - 1677722 := by
    have := h.int ((raw.toNat : Int) - 1677722) (by rw [abs_le]; omega)
    push_cast at this
    exact this
  have e3 : rnd (15099494 - 1677722) = 13421772 := by
    have := h.int (13421772 : Int) (by decide)
    push_cast at this
    norm_num
    exact this
  have hr : (0 : ℚ) ≤ raw.toNat ∧ (raw.toNat : ℚ) ≤ 16777215 := ⟨by positivity, by exact_mod_cast hlt⟩
  have hdef : toPascal rnd (raw.setWidth 32) = rnd (rnd (((raw.toNat : ℚ) - 1677722) / 13421772) * 103422) := by
    unfold toPascal
    simp only [hn]
    rw [e1, e2, e3]
  rw [hdef]
  unfold exact
  generalize (raw.toNat : ℚ) = r at hr
  obtain ⟨r0, r1⟩ := hr
  have ht : (-0.1251 : ℚ) ≤ (r - 1677722) / 13421772 ∧ (r - 1677722) / 13421772 ≤ 1.125 := by
    constructor
    · rw [le_div_iff₀ (by norm_num)]
      linarith
    · rw [div_le_iff₀ (by norm_num)]
      linarith
  have hx : (r - 1677722) * (103422 / 13421772) = (r - 1677722) / 13421772 * 103422 := by ring
  rw [hx]
  generalize (r - 1677722) / 13421772 = t at ht
  obtain ⟨t0, t1⟩ := ht
  have ha := h.near t
  have hta : |t| ≤ 1.125 := abs_le.mpr ⟨by linarith, t1⟩
  have hd : |rnd t - t| ≤ 1.125 / 16777216 := ha.trans (by linarith)
  rw [abs_le] at hd
  have hb := h.near (rnd t * 103422)
  have hab : |rnd t * 103422| ≤ 116350 := by
    rw [abs_le]
    constructor <;> linarith [hd.1, hd.2]
  have hb' : |rnd (rnd t * 103422) - rnd t * 103422| ≤ 116350 / 16777216 := hb.trans (by linarith)
  rw [abs_le] at hb'
  refine ⟨?_, by linarith⟩
  rw [abs_le]
  constructor <;> linarith [hd.1, hd.2, hb'.1, hb'.2]

/-- Truncation: a number above -1 is converted to one that is less than 1 away. -/
theorem toUint_near {x : ℚ} (h0 : -1 < x) (h1 : x < 4294967296) : ∃ p, toUint x = .ok p ∧ |(p.toNat : ℚ) - x| < 1 := by
  refine ⟨BitVec.ofNat 32 ⌊x⌋.toNat, by unfold toUint; rw [if_pos ⟨h0, h1⟩], ?_⟩
  have f1 := Int.floor_le x
  have f2 := Int.lt_floor_add_one x
  have hlt : ⌊x⌋ < 4294967296 := by
    rw [Int.floor_lt]
    exact_mod_cast h1
  have hnat : (BitVec.ofNat 32 ⌊x⌋.toNat).toNat = ⌊x⌋.toNat := by
    rw [BitVec.toNat_ofNat, Nat.mod_eq_of_lt (by omega)]
  rw [hnat, abs_lt]
  by_cases hx : 0 ≤ x
  · have h2 : 0 ≤ ⌊x⌋ := Int.floor_nonneg.mpr hx
    have h3 : ((⌊x⌋.toNat : Nat) : ℚ) = (⌊x⌋ : ℚ) := by
      have : ((⌊x⌋.toNat : Nat) : Int) = ⌊x⌋ := Int.toNat_of_nonneg h2
      exact_mod_cast congrArg (fun z : Int => (z : ℚ)) this
    rw [h3]
    constructor <;> linarith
  · have h2 : ⌊x⌋ ≤ 0 := by
      have : ⌊x⌋ < 1 := by
        rw [Int.floor_lt]
        push_cast
        linarith
      omega
    have h3 : ⌊x⌋.toNat = 0 := by omega
    rw [h3]
    push_cast
    constructor <;> linarith

/-! ## One reading -/

/-- What a reading leaves: nothing selected, one more measurement of this sensor, and none of the other one. -/
def Next (w w' : World) (i : Bool) : Prop :=
  Calm w' ∧ w'.clash = w.clash ∧ (w'.dev i).count = (w.dev i).count + 1 ∧ (w'.dev (!i)).count = (w.dev (!i)).count

theorem calm_sleep {w : World} (h : Calm w) (ms : Nat) : Calm (sleep ms w) := ⟨h.1, h.2⟩

theorem calm_reset {w : World} (h : Calm w) (l : Bool) : Calm (setReset l w) := by
  refine ⟨h.1, ?_⟩
  intro j
  cases l
  · exact h.2 j
  · exact h.2 j

/-- The answer of a sensor whose measurement has been going on for `us` µs -/
theorem answer_eq (d : Dev) (idle : List (BitVec 8)) (o : Outcome) (left : Nat) (h : d.conv = some (o, left)) :
    d.answer idle = [(o.status &&& 0xdf) ||| (if decide (left ≠ 0) then 0x20 else 0), (o.raw >>> 16).setWidth 8, (o.raw >>> 8).setWidth 8, o.raw.setWidth 8] := by
  unfold Dev.answer
  rw [h]
  by_cases e : left = 0 <;> simp [e]

/-- C108: a reading takes exactly one measurement of the sensor asked for and none of the other one. If it failed or was not finished in time, the value is 0; otherwise it is the
converted result of this measurement. -/
theorem read_spec (rnd : ℚ → ℚ) (env : Env) (i : Bool) (w : World) (hc : Calm w) :
    (¬ Good (env.outcome i (w.dev i).count) → ∃ w', readPressure rnd env i w = .ok (w', 0) ∧ Next w w' i) ∧
    (Good (env.outcome i (w.dev i).count) → ∃ w', Next w w' i ∧ readPressure rnd env i w =
      match toUint (toPascal rnd ((env.outcome i (w.dev i).count).raw.setWidth 32)) with
      | .error e => .error e
      | .ok p => .ok (w', p)) := by
  have hw1 : Calm (sleep 3 (setReset true (sleep 3 (setReset false w)))) := calm_sleep (calm_reset (calm_sleep (calm_reset hc _) _) _) _
  unfold readPressure
  simp only
  generalize hg : sleep 3 (setReset true (sleep 3 (setReset false w))) = w1 at hw1
  have r1 : (w1.dev i).reset = false := by subst hg; rfl
  have v1 : (w1.dev i).conv = none := by subst hg; rfl
  have n1 : ∀ j, (w1.dev j).count = (w.dev j).count := by subst hg; intro j; rfl
  have c1 : w1.clash = w.clash := by subst hg; rfl
  clear hg
  obtain ⟨w2, e2, hw2, c2, o2, r2, v2, n2⟩ := command_spec (env := env) hw1 r1 [0xaa, 0x00, 0x00] (by decide)
  rw [if_pos ⟨rfl, by rw [v1]; intro p hp; cases hp⟩] at v2 n2
  rw [n1] at v2 n2
  have hstart : startMeasurement env i w1 = .ok w2 := by
    unfold startMeasurement
    rw [e2]
  rw [hstart]
  simp only
  have hw3 := calm_sleep hw2 5
  generalize hg : sleep 5 w2 = w3 at hw3
  have r3 : (w3.dev i).reset = false := by subst hg; exact r2
  have v3 : (w3.dev i).conv = some (env.outcome i (w.dev i).count, (env.outcome i (w.dev i).count).duration - 5000) := by
    subst hg
    show (w2.dev i).conv.map _ = _
    rw [v2]
    rfl
  have n3 : (w3.dev i).count = (w.dev i).count + 1 := by subst hg; exact n2
  have m3 : (w3.dev (!i)).count = (w.dev (!i)).count := by
    subst hg
    show (w2.dev (!i)).count = _
    rw [o2, n1]
  have c3 : w3.clash = w.clash := by subst hg; rw [← c1, ← c2]; rfl
  clear hg
  generalize env.outcome i (w.dev i).count = o at *
  obtain ⟨w4, e4, hw4, c4, o4, r4, v4, n4⟩ := command_spec (env := env) hw3 r3 [0xf0] (by decide)
  rw [if_neg (fun h => absurd h.1 (by decide))] at v4 n4
  have hans := answer_eq (w3.dev i) (env.idle i) o (o.duration - 5000) v3
  have hstat : readStatus env i w3 = .ok (w4, (o.status &&& 0xdf) ||| (if decide (o.duration - 5000 ≠ 0) then 0x20 else 0)) := by
    unfold readStatus
    rw [e4, hans]
    rfl
  rw [hstat]
  simp only
  have hgood : Good o ↔ (isError ((o.status &&& 0xdf) ||| (if decide (o.duration - 5000 ≠ 0) then 0x20 else 0)) ||
      isBusy ((o.status &&& 0xdf) ||| (if decide (o.duration - 5000 ≠ 0) then 0x20 else 0))) = false := by
    rw [status_iff]
    unfold Good
    simp only [decide_eq_false_iff_not, ne_eq, Decidable.not_not]
    rw [show o.duration - 5000 = 0 ↔ o.duration ≤ 5000 by omega]
  constructor
  · intro hb
    rw [hgood] at hb
    rw [if_pos (Bool.eq_true_of_not_eq_false hb)]
    exact ⟨w4, rfl, hw4, by rw [c4, c3], by rw [n4, n3], by rw [o4, m3]⟩
  · intro hb
    rw [hgood] at hb
    rw [if_neg (by rw [hb]; decide)]
    have hw5 := calm_sleep hw4 1
    generalize hg : sleep 1 w4 = w5 at hw5
    have r5 : (w5.dev i).reset = false := by subst hg; exact r4
    have v5 : (w5.dev i).conv = some (o, o.duration - 5000 - 1000) := by
      subst hg
      show (w4.dev i).conv.map _ = _
      rw [v4, v3]
      rfl
    have n5 : (w5.dev i).count = (w.dev i).count + 1 := by subst hg; exact n4.trans n3
    have m5 : (w5.dev (!i)).count = (w.dev (!i)).count := by
      subst hg
      show (w4.dev (!i)).count = _
      rw [o4, m3]
    have c5 : w5.clash = w.clash := by subst hg; rw [← c3, ← c4]; rfl
    clear hg
    obtain ⟨w6, e6, hw6, c6, o6, r6, v6, n6⟩ := command_spec (env := env) hw5 r5 [0xf0, 0x00, 0x00, 0x00] (by decide)
    rw [if_neg (fun h => absurd h.1 (by decide))] at v6 n6
    have hdata : readData env i w5 = .ok (w6, o.raw.setWidth 32) := by
      unfold readData
      rw [e6, answer_eq (w5.dev i) (env.idle i) o _ v5]
      simp only [List.take, List.length]
      rw [join_bytes]
    rw [hdata]
    exact ⟨w6, ⟨hw6, by rw [c6, c5], by rw [n6, n5], by rw [o6, m5]⟩, rfl⟩

/-- Good measurements are not far below zero. -/
def Defined (o : Outcome) : Prop := Good o → 1677722 - 127 ≤ o.raw.toNat

theorem read_reads {rnd : ℚ → ℚ} (hs : Single rnd) (env : Env) (i : Bool) (w : World) (hc : Calm w) (hd : Defined (env.outcome i (w.dev i).count)) :
    ∃ w' p, readPressure rnd env i w = .ok (w', p) ∧ Next w w' i ∧ Reads (env.outcome i (w.dev i).count) p := by
  obtain ⟨s1, s2⟩ := read_spec rnd env i w hc
  generalize env.outcome i (w.dev i).count = o at *
  by_cases hg : Good o
  · obtain ⟨w', hn, e⟩ := s2 hg
    obtain ⟨p1, p2⟩ := pascal_near hs o.raw
    have hex : -0.98 < exact o.raw := by
      unfold exact
      have : ((1677722 - 127 : Nat) : ℚ) ≤ (o.raw.toNat : ℚ) := by exact_mod_cast hd hg
      have h2 : (1677595 : ℚ) ≤ (o.raw.toNat : ℚ) := by
        refine le_trans ?_ this
        norm_num
      linarith
    rw [abs_le] at p1
    obtain ⟨p, e1, e2⟩ := toUint_near (x := toPascal rnd (o.raw.setWidth 32)) (by linarith [p1.1]) (by linarith [p1.2])
    rw [e1] at e
    refine ⟨w', p, e, hn, .inl ⟨hg, ?_⟩⟩
    rw [abs_lt] at e2 ⊢
    constructor <;> linarith [p1.1, p1.2, e2.1, e2.2]
  · obtain ⟨w', e, hn⟩ := s1 hg
    exact ⟨w', 0, e, hn, .inr ⟨hg, rfl⟩⟩

/-! ## The messages -/

/-- The volts at an input: the divider halves them, the converter has 4096 steps for 3.3 V. -/
def volts (s : BitVec 12) : ℚ := 2 * ((s.toNat : ℚ) / 4096 * 3.3)

/-- What message `k` says -/
structure Says (env : Env) (nodeOk : Bool) (k : Nat) (m : Message) (health : Bool) : Prop where
  first : Reads (env.outcome false k) m.pressure0
  second : Reads (env.outcome true k) m.pressure1
  analog0 : m.analog0 = volts (env.analog k 0 0)
  analog1 : m.analog1 = volts (env.analog k 0 1)
  digital : m.digital = env.digital k
  health : health = true ↔ nodeOk = true ∧ m.pressure0 ≠ 0 ∧ m.pressure1 ≠ 0

theorem rounds_spec {rnd : ℚ → ℚ} (hs : Single rnd) (env : Env) (nodeOk : Bool) (hd : ∀ i k, Defined (env.outcome i k)) (n : Nat) : ∀ (k : Nat) (w : World), Calm w →
    (∀ i, (w.dev i).count = k) → ∃ w' l, rounds rnd env nodeOk n k w = .ok (w', l) ∧ l.length = n ∧ w'.clash = w.clash ∧
      ∀ j m h, l[j]? = some (m, h) → Says env nodeOk (k + j) m h := by
  induction n with
  | zero => intro k w _ _; exact ⟨w, [], rfl, rfl, rfl, by intro j m h hj; cases hj⟩
  | succ n ih =>
    intro k w hc hk
    have hc1 : Calm (sleep 10 (sleep 100 w)) := calm_sleep (calm_sleep hc _) _
    have k1 : ∀ i, ((sleep 10 (sleep 100 w)).dev i).count = k := hk
    have l1 : (sleep 10 (sleep 100 w)).clash = w.clash := rfl
    generalize hg : sleep 10 (sleep 100 w) = w1 at hc1 k1 l1
    obtain ⟨w2, p0, e2, n2, R2⟩ := read_reads hs env false w1 hc1 (by rw [k1]; exact hd _ _)
    obtain ⟨w3, p1, e3, n3, R3⟩ := read_reads hs env true w2 n2.1 (by
      have := n2.2.2.2
      simp only [Bool.not_false] at this
      rw [this, k1]
      exact hd _ _)
    have k3 : ∀ i, (w3.dev i).count = k + 1 := by
      have a1 := n2.2.2.1
      have a2 := n2.2.2.2
      have a3 := n3.2.2.1
      have a4 := n3.2.2.2
      simp only [Bool.not_false, Bool.not_true] at a1 a2 a3 a4
      intro i
      cases i
      · rw [a4, a1, k1]
      · rw [a3, a2, k1]
    have k2 : (w2.dev true).count = k := by
      have := n2.2.2.2
      simp only [Bool.not_false] at this
      rw [this, k1]
    rw [k1] at R2
    rw [k2] at R3
    obtain ⟨w4, l, e4, len, cl, hl⟩ := ih (k + 1) w3 n3.1 k3
    refine ⟨w4, (⟨p0, p1, (env.analog k 0 0).toNat * (2 * 3.3 / 4096), (env.analog k 0 1).toNat * (2 * 3.3 / 4096), env.digital k⟩,
      nodeOk && (decide (p0 ≠ 0) && decide (p1 ≠ 0))) :: l, ?_, by rw [List.length_cons, len], by rw [cl, n3.2.1, n2.2.1, l1], ?_⟩
    · unfold rounds publish
      simp only [analogRead, List.getElem?_cons_zero, List.getElem?_cons_succ, Option.map_some, hg, e2, e3, e4]
    · intro j m h hj
      cases j with
      | zero =>
        simp only [List.getElem?_cons_zero, Option.some.injEq, Prod.mk.injEq] at hj
        obtain ⟨rfl, rfl⟩ := hj
        refine ⟨R2, R3, ?_, ?_, rfl, ?_⟩
        · simp only [volts]
          ring_nf
        · simp only [volts]
          ring_nf
        · simp
      | succ j =>
        have := hl j m h (by simpa using hj)
        rw [show k + (j + 1) = k + 1 + j by omega]
        exact this

/-- C108: for every behaviour of the sensors (with good measurements not below what is allowed) the board publishes in each round, of each of its sensors, the measurement made in
this round: the pressure up to 1.014 Pa, or 0 if it failed or was not ready in time; the sensors are never selected at the same time; the analog and digital inputs are
those of the round, and the board reports health exactly if no pressure was 0. Missing: results far below that for no pressure, where the conversion is undefined (`below_undefined`). -/
theorem messages_partial {rnd : ℚ → ℚ} (hs : Single rnd) (env : Env) (nodeOk : Bool) (hd : ∀ i k, Defined (env.outcome i k)) (n : Nat) (w : World) (hw : w.start) :
    ∃ w' l, rounds rnd env nodeOk n 0 w = .ok (w', l) ∧ l.length = n ∧ w'.clash = false ∧ ∀ j m h, l[j]? = some (m, h) → Says env nodeOk j m h := by
  obtain ⟨w', l, e, len, cl, hl⟩ := rounds_spec hs env nodeOk hd n 0 w ⟨hw.1, fun j => (hw.2.2 j).1⟩ (fun j => (hw.2.2 j).2)
  refine ⟨w', l, e, len, cl.trans hw.2.1, ?_⟩
  intro j m h hj
  have := hl j m h hj
  rwa [Nat.zero_add] at this

/-- C108: the status byte is in order exactly as documented, except for bit 1. -/
theorem status_spec (s : BitVec 8) : isError s = false ↔ StatusGood s := by
  unfold StatusGood
  revert s
  decide +kernel

/-- Finding: bit 1 should be zero (pressure_sensor.h:33) but is not checked. -/
theorem bit_one_ignored : isError 0x42 = false := by decide +kernel

/-- Finding: a device that needs the time given in pressure_sensor.h:21 (up to 6.2 ms) is read too early: every message says 0. -/
theorem slow_zero {rnd : ℚ → ℚ} (env : Env) (i : Bool) (w : World) (hc : Calm w) (h : 5000 < (env.outcome i (w.dev i).count).duration) :
    ∃ w', readPressure rnd env i w = .ok (w', 0) := by
  obtain ⟨w', e, -⟩ := (read_spec rnd env i w hc).1 (fun hg => by have := hg.2; omega)
  exact ⟨w', e⟩

/-- Finding: a result slightly below the one for no pressure is a negative number, whose conversion to an unsigned one is undefined. -/
theorem below_undefined {rnd : ℚ → ℚ} (hs : Single rnd) (env : Env) (i : Bool) (w : World) (hc : Calm w) (hg : Good (env.outcome i (w.dev i).count))
    (hr : (env.outcome i (w.dev i).count).raw.toNat ≤ 1677722 - 132) : readPressure rnd env i w = .error .conversion := by
  obtain ⟨w', -, e⟩ := (read_spec rnd env i w hc).2 hg
  generalize env.outcome i (w.dev i).count = o at *
  have hex : exact o.raw ≤ -1.0171 := by
    unfold exact
    have h2 : (o.raw.toNat : ℚ) ≤ 1677590 := by exact_mod_cast hr
    linarith
  have := (pascal_near hs o.raw).1
  rw [abs_le] at this
  have hu : toUint (toPascal rnd (o.raw.setWidth 32)) = .error .conversion := by
    unfold toUint
    rw [if_neg]
    intro h
    linarith [h.1, this.2]
  rw [e, hu]

/-- Finding: less than 1 Pa is published as 0, which stands for a failure. -/
theorem small_is_failure : toUint (toPascal id 0x1999a0) = .ok 0 := by
  have h : (0x1999a0 : BitVec 32).toNat = 1677728 := rfl
  have e : toPascal id 0x1999a0 = 6 * 103422 / 13421772 := by
    unfold toPascal
    simp only [h, id]
    norm_num
  have f : ⌊(6 * 103422 / 13421772 : ℚ)⌋ = 0 := by
    rw [Int.floor_eq_zero_iff]
    constructor <;> norm_num
  unfold toUint
  rw [e, f, if_pos (by constructor <;> norm_num)]
  rfl

/-- Exact arithmetic is allowed as `float`. -/
theorem single_id : Single id := ⟨fun x => by simp; positivity, fun _ _ => rfl⟩

/-- Sensors that work, fail, and are too slow in turn -/
def exampleEnv : Env where
  outcome i k := if i then ⟨if k % 3 = 2 then 6200 else 4000, 0x40, 0x800000⟩ else ⟨3000, if k % 2 = 0 then 0x40 else 0x44, 0x19999a⟩
  idle _ := [0x40, 1, 2, 3]
  idleLen _ := rfl
  analog k j c := BitVec.ofNat 12 (1000 * k + 10 * j + c)
  digital k := k % 2 = 0

def exampleWorld : World := ⟨fun _ => ⟨false, false, [true], 7, [], some (⟨1, 2, 3⟩, 9), 0⟩, false, true, false⟩

example : exampleWorld.start ∧ (∀ i k, Defined (exampleEnv.outcome i k)) ∧ Good (exampleEnv.outcome true 0) ∧ ¬ Good (exampleEnv.outcome true 2) ∧
    ¬ Good (exampleEnv.outcome false 1) := by
  refine ⟨⟨rfl, rfl, fun _ => ⟨rfl, rfl⟩⟩, ?_, ⟨by unfold StatusGood; decide +kernel, by decide⟩, ?_, ?_⟩
  · intro i k _
    cases i
    · show 1677722 - 127 ≤ (0x19999a : BitVec 24).toNat
      decide
    · show 1677722 - 127 ≤ (0x800000 : BitVec 24).toNat
      decide
  · rintro ⟨-, h⟩
    revert h
    decide
  · rintro ⟨h, -⟩
    revert h
    unfold StatusGood
    decide +kernel

end Verif.Pressure
