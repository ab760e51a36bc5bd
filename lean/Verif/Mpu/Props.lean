import Verif.Mpu.Model

/-!
# Memory protection — properties (C143)
-/

namespace Verif.Mpu

/-! ## The registers -/

theorem mask_bits : ∀ i, i < 32 → (0xFFFFFFE0#32).getLsbD i = decide (5 ≤ i) := by decide

theorem mask_toNat (a : BitVec 32) : (a &&& 0xFFFFFFE0#32).toNat = a.toNat / 32 * 32 := by
  have h : a &&& 0xFFFFFFE0#32 = (a >>> 5) <<< 5 := by
    apply BitVec.eq_of_getLsbD_eq
    intro i hi
    rw [BitVec.getLsbD_and, BitVec.getLsbD_shiftLeft, mask_bits i hi, BitVec.getLsbD_ushiftRight]
    by_cases h5 : 5 ≤ i
    · have : ¬ i < 5 := by omega
      have e : 5 + (i - 5) = i := by omega
      simp [h5, hi, this, e]
    · have : i < 5 := by omega
      simp [h5, this]
  rw [h, BitVec.toNat_shiftLeft, BitVec.toNat_ushiftRight, Nat.shiftRight_eq_div_pow, Nat.shiftLeft_eq]
  have := a.isLt
  omega

theorem low_toNat (r : BitVec 32) : (r &&& 0xF).toNat = r.toNat % 16 := by
  rw [BitVec.toNat_and]
  exact Nat.and_two_pow_sub_one_eq_mod r.toNat 4

/-- What is written to `RBAR` -/
def base (region addr : BitVec 32) : BitVec 32 := (addr &&& 0xFFFFFFE0#32) + (region &&& 0xF) + 0x10

theorem base_toNat (region addr : BitVec 32) : (base region addr).toNat = addr.toNat / 32 * 32 + region.toNat % 16 + 16 := by
  have := addr.isLt
  unfold base
  rw [BitVec.toNat_add, BitVec.toNat_add, mask_toNat, low_toNat]
  show ((addr.toNat / 32 * 32 + region.toNat % 16) % 2 ^ 32 + 16) % 2 ^ 32 = _
  omega

theorem base_valid (region addr : BitVec 32) : base region addr &&& 0x10 ≠ 0 := by
  intro h
  have h := congrArg (fun v => v.getLsbD 4) h
  have k : (base region addr).getLsbD 4 = true := by
    rw [BitVec.getLsbD, Nat.testBit_eq_decide_div_mod_eq, base_toNat]
    exact decide_eq_true (by omega)
  simp only [BitVec.getLsbD_and, k] at h
  revert h
  decide

theorem base_region (region addr : BitVec 32) : (base region addr &&& 0xF).toNat = region.toNat % 16 := by
  rw [low_toNat, base_toNat]
  omega

/-- Bits of the base address from the fifth on are kept. -/
theorem base_div (region addr : BitVec 32) {l : Nat} (hl : 5 ≤ l) : (base region addr).toNat / 2 ^ l = addr.toNat / 2 ^ l := by
  obtain ⟨k, rfl⟩ := Nat.exists_eq_add_of_le hl
  rw [Nat.pow_add, ← Nat.div_div_eq_div_mul, ← Nat.div_div_eq_div_mul, base_toNat]
  congr 1
  have : (2 : Nat) ^ 5 = 32 := rfl
  omega

/-- Only the registers of one region are written. -/
theorem configure_eq {m m' : Unit} {region addr len ap : BitVec 32} {ex : Bool} (h : configure m region addr len ap ex = some m') :
    m'.enable = m.enable ∧ m'.privDef = m.privDef ∧
      (∀ r, m'.rbar r = if r = region.toNat % 16 then base region addr else m.rbar r) ∧
      ∀ r, m'.rasr r = if r = region.toNat % 16 then attributes len ap ex else m.rasr r := by
  unfold configure at h
  split at h
  · cases h
  · cases h
    have b := base_valid region addr
    have c := base_region region addr
    unfold base at b c
    refine ⟨rfl, rfl, fun r => ?_, fun r => ?_⟩
    · simp only [writeRasr, writeRbar, if_pos b, c, base]
    · simp only [writeRasr, writeRbar, if_pos b, c]

theorem attributes_all : ∀ l, l < 28 → ∀ ap, ap < 8 → ∀ ex : Bool,
    (attributes (BitVec.ofNat 32 (l + 5)) (BitVec.ofNat 32 ap) ex).toNat = (if ex then 0 else 2 ^ 28) + ap * 2 ^ 24 + (l + 4) * 2 + 1 := by
  decide +kernel

theorem attributes_toNat {len ap : BitVec 32} (h5 : 5 ≤ len.toNat) (h32 : len.toNat ≤ 32) (hap : ap.toNat < 8) (ex : Bool) :
    (attributes len ap ex).toNat = (if ex then 0 else 2 ^ 28) + ap.toNat * 2 ^ 24 + (len.toNat - 1) * 2 + 1 := by
  have h := attributes_all (len.toNat - 5) (by omega) ap.toNat hap ex
  rw [show len.toNat - 5 + 5 = len.toNat by omega, show len.toNat - 5 + 4 = len.toNat - 1 by omega, BitVec.ofNat_toNat, BitVec.ofNat_toNat] at h
  simpa using h

/-! ## One region -/

theorem hit_congr {m m' : Unit} {r : Nat} (h1 : m'.rbar r = m.rbar r) (h2 : m'.rasr r = m.rasr r) (a : BitVec 32) : hit m' r a = hit m r a := by
  unfold hit
  rw [h1, h2]

theorem hit_region {m m' : Unit} {region addr len ap : BitVec 32} {ex : Bool} (h : configure m region addr len ap ex = some m')
    (h5 : 5 ≤ len.toNat) (h32 : len.toNat ≤ 32) (hap : ap.toNat < 8) (a : BitVec 32) :
    hit m' (region.toNat % 16) a = decide (a.toNat / 2 ^ len.toNat = addr.toNat / 2 ^ len.toNat) := by
  obtain ⟨-, -, hb, hr⟩ := configure_eq h
  have t := attributes_toNat h5 h32 hap ex
  unfold hit
  rw [hb, hr, if_pos rfl, if_pos rfl]
  generalize (attributes len ap ex).toNat = s at t
  have s1 : s % 2 = 1 := by split at t <;> omega
  have s2 : s / 2 % 32 + 1 = len.toNat := by split at t <;> omega
  have s3 : s / 256 % 256 = 0 := by split at t <;> omega
  have s4 : s / 256 / 2 ^ (a.toNat / 2 ^ (len.toNat - 3) % 8) % 2 = 0 := by
    have k : a.toNat / 2 ^ (len.toNat - 3) % 8 < 8 := Nat.mod_lt _ (by decide)
    generalize a.toNat / 2 ^ (len.toNat - 3) % 8 = j at k
    generalize s / 256 = u at s3
    have : j = 0 ∨ j = 1 ∨ j = 2 ∨ j = 3 ∨ j = 4 ∨ j = 5 ∨ j = 6 ∨ j = 7 := by omega
    rcases this with rfl | rfl | rfl | rfl | rfl | rfl | rfl | rfl <;> omega
  simp only [s1, s2, s4, base_div region addr h5]
  simp

theorem last_some {m : Unit} {a : BitVec 32} {r n : Nat} (hr : r < n) (h : hit m r a = true) (hn : ∀ q, r < q → q < n → hit m q a = false) : last m a n = some r := by
  induction n with
  | zero => omega
  | succ n ih =>
    unfold last
    by_cases e : r = n
    · subst e
      rw [if_pos h]
    · rw [if_neg (by rw [hn n (by omega) (by omega)]; decide)]
      exact ih (by omega) fun q q1 q2 => hn q q1 (by omega)

theorem last_none {m : Unit} {a : BitVec 32} {n : Nat} (hn : ∀ q, q < n → hit m q a = false) : last m a n = none := by
  induction n with
  | zero => rfl
  | succ n ih =>
    unfold last
    rw [if_neg (by rw [hn n (by omega)]; decide)]
    exact ih fun q q1 => hn q (by omega)

/-- **A region that has been configured** holds exactly the `2 ^ len` bytes from its base on, if that is a multiple of its size: where no region with a higher number is in the way the accesses are those that were asked for, and no code is run unless asked for. All other addresses are treated as if the region were switched off. -/
theorem region_protects {plain : BitVec 32 → Access → Bool} {m m' : Unit} {region addr len ap : BitVec 32} {ex : Bool} (h : configure m region addr len ap ex = some m')
    (hr : region.toNat < 8) (h32 : len.toNat ≤ 32) (hap : ap.toNat < 8) (hal : 2 ^ len.toNat ∣ addr.toNat) (hen : m.enable = true) (a : BitVec 32) (priv : Bool) (x : Access) :
    (addr.toNat ≤ a.toNat ∧ a.toNat < addr.toNat + 2 ^ len.toNat → (∀ q, region.toNat < q → q < 8 → hit m q a = false) →
      access plain m' a priv x = (permits ap.toNat priv (x = .write) && (x ≠ .fetch || ex))) ∧
    (¬ (addr.toNat ≤ a.toNat ∧ a.toNat < addr.toNat + 2 ^ len.toNat) →
      access plain m' a priv x = access plain { m with rasr := fun r => if r = region.toNat then 0 else m.rasr r } a priv x) := by
  have h5 : 5 ≤ len.toNat := by
    unfold configure at h
    split at h
    · cases h
    · omega
  have e16 : region.toNat % 16 = region.toNat := by omega
  have hh := hit_region h h5 h32 hap a
  obtain ⟨c1, c2, hb, hs⟩ := configure_eq h
  rw [e16] at hh hb hs
  have other : ∀ q, q ≠ region.toNat → hit m' q a = hit m q a := fun q hq => hit_congr (by rw [hb, if_neg hq]) (by rw [hs, if_neg hq]) a
  have inside : (a.toNat / 2 ^ len.toNat = addr.toNat / 2 ^ len.toNat) ↔ addr.toNat ≤ a.toNat ∧ a.toNat < addr.toNat + 2 ^ len.toNat := by
    obtain ⟨k, hk⟩ := hal
    have pos : 0 < 2 ^ len.toNat := Nat.two_pow_pos _
    rw [hk, Nat.mul_div_cancel_left _ pos, Nat.div_eq_iff pos, Nat.mul_comm]
    generalize 2 ^ len.toNat = z at pos
    generalize k * z = y
    omega
  constructor
  · intro hin hq
    rw [decide_eq_true (inside.mpr hin)] at hh
    have t := attributes_toNat h5 h32 hap ex
    unfold access
    rw [c1, hen, if_neg (by decide), last_some hr hh fun q q1 q2 => by rw [other q (by omega)]; exact hq q q1 q2]
    show allows (m'.rasr region.toNat) priv x = _
    rw [hs, if_pos rfl]
    unfold allows
    generalize (attributes len ap ex).toNat = s at t
    have s1 : s / 2 ^ 24 % 8 = ap.toNat := by split at t <;> omega
    have s2 : s / 2 ^ 28 % 2 = if ex then 0 else 1 := by split at t <;> simp_all <;> omega
    rw [s1, s2]
    cases ex <;> simp
  · intro hin
    rw [decide_eq_false (fun w => hin (inside.mp w))] at hh
    have same : ∀ q, hit m' q a = hit { m with rasr := fun r => if r = region.toNat then 0 else m.rasr r } q a := by
      intro q
      by_cases hq : q = region.toNat
      · subst hq
        rw [hh]
        simp [hit]
      · rw [other q hq]
        exact (hit_congr (m := m) (m' := { m with rasr := fun r => if r = region.toNat then 0 else m.rasr r }) rfl (if_neg hq) a).symm
    have sl : ∀ n, last m' a n = last { m with rasr := fun r => if r = region.toNat then 0 else m.rasr r } a n := by
      intro n
      induction n with
      | zero => rfl
      | succ n ih =>
        unfold last
        rw [same n, ih]
    have found : ∀ n r, last m' a n = some r → hit m' r a = true := by
      intro n
      induction n with
      | zero => intro r hr; cases hr
      | succ n ih =>
        intro r hr
        unfold last at hr
        split at hr
        · cases hr
          assumption
        · exact ih r hr
    unfold access
    rw [← sl 8, c1, c2]
    split
    · rfl
    · cases hl : last m' a 8 with
      | none => rfl
      | some r =>
        have hne : r ≠ region.toNat := by
          rintro rfl
          rw [found 8 _ hl] at hh
          cases hh
        show allows (m'.rasr r) priv x = allows (if r = region.toNat then 0 else m.rasr r) priv x
        rw [hs, if_neg hne, if_neg hne]

/-! ## Null pointers and RAM -/

/-- Calls of `mpu_configure_region`: region, address, length, permission, executable -/
def calls : Unit → List (BitVec 32 × BitVec 32 × BitVec 32 × BitVec 32 × Bool) → Option Unit
  | m, [] => some m
  | m, (r, addr, len, ap, ex) :: cs => (configure m r addr len ap ex).bind fun m => calls m cs

theorem calls_keep {m m' : Unit} {cs : List (BitVec 32 × BitVec 32 × BitVec 32 × BitVec 32 × Bool)} (h : calls m cs = some m') {q : Nat} (hc : ∀ c ∈ cs, c.1.toNat % 16 ≠ q) :
    m'.enable = m.enable ∧ m'.privDef = m.privDef ∧ m'.rbar q = m.rbar q ∧ m'.rasr q = m.rasr q := by
  induction cs generalizing m with
  | nil => cases h; exact ⟨rfl, rfl, rfl, rfl⟩
  | cons c cs ih =>
    obtain ⟨r, addr, len, ap, ex⟩ := c
    obtain ⟨m1, h1, h2⟩ := Option.bind_eq_some_iff.mp h
    obtain ⟨a1, a2, a3, a4⟩ := ih h2 fun c hc' => hc c (List.mem_cons_of_mem _ hc')
    obtain ⟨b1, b2, b3, b4⟩ := configure_eq h1
    have n : q ≠ r.toNat % 16 := fun e => hc _ List.mem_cons_self e.symm
    exact ⟨a1.trans b1, a2.trans b2, by rw [a3, b3, if_neg n], by rw [a4, b4, if_neg n]⟩

theorem init_eq (m : Unit) : ∃ m', init m = some m' ∧ m'.enable = true ∧ m'.privDef = true ∧
    m'.rbar 7 = 0x17 ∧ m'.rasr 7 = 0x10000009 ∧ m'.rbar 0 = 0x20000010 ∧ m'.rasr 0 = 0x13000039 ∧ ∀ q, q ≠ 7 → q ≠ 0 → m'.rbar q = m.rbar q ∧ m'.rasr q = m.rasr q := by
  have some5 : ∀ m r addr len ap ex, ¬ BitVec.toNat len < 5 → ∃ m', configure m r addr len ap ex = some m' := fun m r addr len ap ex h => ⟨_, if_neg h⟩
  obtain ⟨m1, h1⟩ := some5 { m with privDef := true } 7 0 5 0 false (by decide)
  obtain ⟨m2, h2⟩ := some5 m1 0 0x20000000 29 3 false (by decide)
  obtain ⟨-, a2, a3, a4⟩ := configure_eq h1
  obtain ⟨-, b2, b3, b4⟩ := configure_eq h2
  refine ⟨{ m2 with enable := true }, ?_, rfl, b2.trans a2, ?_, ?_, ?_, ?_, fun q q7 q0 => ⟨?_, ?_⟩⟩
  · simp only [init, h1, h2, Option.bind_eq_bind, Option.bind_some]
  · show m2.rbar 7 = _
    rw [b3, a3, if_neg (by decide), if_pos (by decide)]; decide
  · show m2.rasr 7 = _
    rw [b4, a4, if_neg (by decide), if_pos (by decide)]; decide
  · show m2.rbar 0 = _
    rw [b3, if_pos (by decide)]; decide
  · show m2.rasr 0 = _
    rw [b4, if_pos (by decide)]; decide
  · show m2.rbar q = _
    rw [b3, if_neg (show ¬ q = (0 : BitVec 32).toNat % 16 from q0), a3, if_neg (show ¬ q = (7 : BitVec 32).toNat % 16 from q7)]
  · show m2.rasr q = _
    rw [b4, if_neg (show ¬ q = (0 : BitVec 32).toNat % 16 from q0), a4, if_neg (show ¬ q = (7 : BitVec 32).toNat % 16 from q7)]

/-- **Null pointers:** after `mpu_init`, whatever the registers were, and any number of calls for other regions with any arguments, no access to the first 32 bytes is permitted, not even to privileged code. -/
theorem null_guarded (plain : BitVec 32 → Access → Bool) (m : Unit) {m1 m2 : Unit} (h1 : init m = some m1) {cs : List (BitVec 32 × BitVec 32 × BitVec 32 × BitVec 32 × Bool)}
    (h2 : calls m1 cs = some m2) (hc : ∀ c ∈ cs, c.1.toNat % 16 ≠ 7) {a : BitVec 32} (ha : a.toNat < 32) (priv : Bool) (x : Access) : access plain m2 a priv x = false := by
  obtain ⟨m', e, i1, -, i3, i4, -⟩ := init_eq m
  cases e.symm.trans h1
  obtain ⟨k1, -, k3, k4⟩ := calls_keep h2 hc
  have hh : hit m2 7 a = true := by
    unfold hit
    rw [k3, k4, i3, i4]
    have : a.toNat / 32 = 0 := by omega
    simp [this]
  unfold access
  rw [k1, i1, if_neg (by decide), last_some (by decide) hh fun q _ _ => by omega]
  show allows (m2.rasr 7) priv x = false
  rw [k4, i4]
  cases priv <;> cases x <;> decide

/-- **After `mpu_init`** with no other region in use: RAM can be read and written by all code and no code in it is run, the first 32 bytes cannot be used, and all other addresses are as in the default map for privileged code and closed for other code. -/
theorem init_map (plain : BitVec 32 → Access → Bool) {m m1 : Unit} (h : init m = some m1) (hoff : ∀ q, q ≠ 7 → q ≠ 0 → m.rasr q = 0) (a : BitVec 32) (priv : Bool) (x : Access) :
    access plain m1 a priv x =
      if a.toNat < 32 then false
      else if 0x20000000 ≤ a.toNat ∧ a.toNat < 0x40000000 then decide (x ≠ .fetch)
      else priv && plain a x := by
  by_cases ha : a.toNat < 32
  · rw [if_pos ha]
    exact null_guarded plain m h (cs := []) rfl (fun c hc => by cases hc) ha priv x
  · rw [if_neg ha]
    obtain ⟨m', e, i1, i2, i3, i4, i5, i6, i7⟩ := init_eq m
    obtain rfl : m' = m1 := Option.some.inj (e.symm.trans h)
    have h7 : hit m' 7 a = false := by
      unfold hit
      rw [i3, i4]
      have : a.toNat / 32 ≠ 0 := by omega
      simp
      omega
    have hq : ∀ q, q ≠ 0 → hit m' q a = false := by
      intro q q0
      by_cases q7 : q = 7
      · rw [q7]; exact h7
      · unfold hit
        rw [(i7 q q7 q0).2, hoff q q7 q0]
        simp
    have h0 : hit m' 0 a = decide (a.toNat / 2 ^ 29 = 1) := by
      unfold hit
      rw [i5, i6]
      have : (0x13000039#32).toNat / 256 / 2 ^ (a.toNat / 2 ^ (28 + 1 - 3) % 8) % 2 = 0 := by
        have k : a.toNat / 2 ^ (28 + 1 - 3) % 8 < 8 := Nat.mod_lt _ (by decide)
        generalize a.toNat / 2 ^ (28 + 1 - 3) % 8 = j at k
        revert k
        revert j
        decide
      simp at this
      simp [this]
    unfold access
    rw [i1, if_neg (by decide)]
    by_cases hr : 0x20000000 ≤ a.toNat ∧ a.toNat < 0x40000000
    · rw [if_pos hr, last_some (r := 0) (n := 8) (by decide) (by rw [h0]; exact decide_eq_true (by omega)) fun q q1 _ => hq q (by omega)]
      show allows (m'.rasr 0) priv x = _
      rw [i6]
      cases priv <;> cases x <;> decide
    · rw [if_neg hr, last_none fun q _ => by
        by_cases q0 : q = 0
        · rw [q0, h0]; exact decide_eq_false (by omega)
        · exact hq q q0]
      show (priv && m'.privDef && plain a x) = _
      rw [i2, Bool.and_true]

/-! ## Examples -/

/-- All registers 0 -/
def blank : Unit := ⟨false, false, 0, fun _ => 0, fun _ => 0⟩

/-- A region of 1 KB of RAM is made executable and read only: code there can be run, beside it not; the first bytes stay closed. -/
example : ((init blank).bind fun m => calls m [(3, 0x20000400, 10, 6, true)]).map (fun m =>
    ([0x20000400, 0x200007FF, 0x20000800, 0x200003FF, 0, 31, 32].map fun a => access (fun _ _ => true) m a true .fetch, access (fun _ _ => true) m 0x20000400 true .write)) =
    some ([true, true, false, false, false, false, true], false) := by decide +kernel

/-- The hypotheses of `region_protects` are met by that call. -/
example : (0x20000400 : BitVec 32).toNat % 2 ^ (10 : BitVec 32).toNat = 0 ∧ (3 : BitVec 32).toNat < 8 := by decide

/-! ## What is not checked -/

/-- **Base addresses:** mpu.h:45 says that the lowest 5 bits of the base are ignored. All bits below the size are: a region of 1 KB at 0x20000200 starts at 0x20000000 and does not hold its last 512 bytes. -/
theorem base_rounded : ((init blank).bind fun m => calls m [(3, 0x20000200, 10, 6, true)]).map (fun m =>
    [0x20000000, 0x200001FF, 0x200003FF, 0x20000400, 0x200005FF].map fun a => access (fun _ _ => true) m a true .fetch) = some [true, true, true, false, false] := by decide +kernel

/-- **Region numbers** are taken modulo 16: a call for region 23 opens the first bytes. -/
theorem region_wraps : ((init blank).bind fun m => calls m [(23, 0, 5, 3, false)]).map (fun m => access (fun _ _ => true) m 0 true .write) = some true := by decide +kernel

/-- **Sizes** above 32 are not refused: the size 33 sets a reserved bit and the size field to 0. -/
theorem size_wraps : (attributes 33 3 false).toNat / 2 % 32 = 0 ∧ (configure blank 1 0 33 3 false).isSome = true := by decide

end Verif.Mpu
