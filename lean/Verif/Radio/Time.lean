import Verif.Radio.Model
import Verif.Uwb.Props

/-!
# The radio of the beacon: time stamps (C112)
-/

namespace Verif.Radio

open Uwb

/-- The time of arrival is read as it was measured, modulo 2^40. -/
theorem rxTimestamp_eq (count : Nat) : rxTimestamp (rxBytes count) = count % 2 ^ 40 := by
  unfold rxTimestamp rxBytes
  simp only [List.reverse_cons, List.reverse_nil, List.nil_append, List.cons_append, List.foldl_cons, List.foldl_nil, BitVec.toNat_ofNat]
  have key : ∀ (hi b : Nat), hi < 2 ^ 32 → b < 256 → Uwb.u64 (hi <<< 8) ||| b = hi * 256 + b := by
    intro hi b h hb
    have : Uwb.u64 (hi <<< 8) = hi <<< 8 := by unfold Uwb.u64; rw [Nat.shiftLeft_eq]; omega
    rw [this, ← Nat.shiftLeft_add_eq_or_of_lt (i := 8) (by omega), Nat.shiftLeft_eq]
  rw [show Uwb.u64 (0 <<< 8) ||| count / 2 ^ 32 % 2 ^ 8 = count / 2 ^ 32 % 2 ^ 8 from by
    have := key 0 (count / 2 ^ 32 % 2 ^ 8) (by omega) (by omega)
    omega]
  rw [key (count / 2 ^ 32 % 2 ^ 8) (count / 2 ^ 24 % 2 ^ 8) (by omega) (by omega), key _ (count / 2 ^ 16 % 2 ^ 8) (by omega) (by omega),
    key _ (count / 2 ^ 8 % 2 ^ 8) (by omega) (by omega), key _ (count % 2 ^ 8) (by omega) (by omega)]
  omega

/-- The system time is the counter without its lower eight bits. -/
theorem timestampGet_eq (count : Nat) : timestampGet count = count % 2 ^ 40 / 256 * 256 := by
  unfold timestampGet sysTimeHi Uwb.u64
  rw [BitVec.toNat_ofNat, Nat.shiftLeft_eq]
  omega

/-- The times that the protocol chooses are ones at which the radio can send. -/
theorem leaveTime_later (x : Nat) : leaveTime (dxTime (later x)) = later x := by
  have h1 := later_lt x
  have h2 : later x % 512 = 0 := by unfold later; rw [and_mask40]; omega
  generalize later x = y at h1 h2
  unfold leaveTime dxTime
  rw [BitVec.toNat_ofNat, Nat.shiftRight_eq_div_pow]
  omega

theorem later_eq (x : Nat) (h : x < 2 ^ 40) : later x = (x + 52428800) % 2 ^ 40 / 512 * 512 := by
  unfold later
  rw [and_mask40]
  have : u64 (x + delay) = x + 52428800 := by unfold u64 delay; omega
  rw [this]

/-- C112, when a frame leaves. The time `x` is that of the radio at `count`, at most 255 ticks old (system time) or the time of arrival. If the radio is told within
`p` ticks to send, the frame leaves when the counter has the very value that the protocol has chosen (and written into the frame): `UWB_DELAY` after `count` or up to
766 ticks before that. Around the wrap of the counter as well. -/
theorem sends_when_it_says {count x p : Nat} (hx : x = count % 2 ^ 40 ∨ x = timestampGet count) (hp : p ≤ 52428034) :
    ∃ c, transmitAt (count + p) (later x) = some c ∧ c % 2 ^ 40 = later x ∧ count + 52428034 ≤ c ∧ c ≤ count + 52428800 := by
  have hx' : x ≤ count % 2 ^ 40 ∧ count % 2 ^ 40 ≤ x + 255 := by
    rcases hx with h | h
    · omega
    · rw [timestampGet_eq] at h; omega
  have h1 := later_lt x
  have e := later_eq x (by omega)
  unfold transmitAt device
  rw [leaveTime_later]
  dsimp only
  generalize later x = y at *
  have key : (y + 2 ^ 40 - (count + p) % 2 ^ 40) % 2 ^ 40 < 2 ^ 39 ∧ (count + p + (y + 2 ^ 40 - (count + p) % 2 ^ 40) % 2 ^ 40) % 2 ^ 40 = y ∧
      count + 52428034 ≤ count + p + (y + 2 ^ 40 - (count + p) % 2 ^ 40) % 2 ^ 40 ∧
      count + p + (y + 2 ^ 40 - (count + p) % 2 ^ 40) % 2 ^ 40 ≤ count + 52428800 := by omega
  rw [if_pos key.1]
  exact ⟨_, rfl, key.2.1, key.2.2.1, key.2.2.2⟩

/-- Finding: if the thread needs longer than `UWB_DELAY` (0.82 ms), nothing is sent, and nobody is told. -/
theorem late_not_sent {count x p : Nat} (hx : x = count % 2 ^ 40 ∨ x = timestampGet count) (hp : 52428801 ≤ p) (hq : p < 2 ^ 39) :
    transmitAt (count + p) (later x) = none := by
  have hx' : x ≤ count % 2 ^ 40 ∧ count % 2 ^ 40 ≤ x + 255 := by
    rcases hx with h | h
    · omega
    · rw [timestampGet_eq] at h; omega
  have h1 := later_lt x
  have e := later_eq x (by omega)
  unfold transmitAt device
  rw [leaveTime_later]
  dsimp only
  generalize later x = y at *
  rw [if_neg (by omega)]

/-- C112, a complete measurement with the radios. `count` is the counter of the anchor when it starts; clocks differ by `d`; `T` is the time from the time stamp of
sending to the time stamp of arrival (propagation and delays of the antennas, corrected by the configured delay). Each side takes `p0`, `p1`, `p2` ticks until it
tells its radio to send. The tag then reports `T`, or `T - 1` if a counter wrapped in the meantime. -/
theorem exchange (anchor tag : Handler) (hpan : anchor.pan = tag.pan) (htag : tag.isAnchor = false) (hcb : tag.ranging = true)
    (buf rest1 rest2 rest3 : List Uwb.Byte) (hb : 16 ≤ buf.length) (hr1 : 10 ≤ rest1.length) (hr2 : 10 ≤ rest2.length)
    (count p0 p1 p2 n1 n2 n3 T : Nat) (d : Int) (hT : 0 < T) (hT2 : T < 2 ^ 30)
    (h0 : p0 ≤ 52428034) (h1 : p1 ≤ 52428034) (h2 : p2 ≤ 52428034) :
    ∃ ts1 f1 c1, sendAdvertisement anchor buf (timestampGet count) = .ok [.transmit ts1 f1] ∧ transmitAt (count + p0) ts1 = some c1 ∧
    ∀ b1 : Nat, (b1 : Int) = c1 + d + T →
    ∃ ts2 f2 c2, receive tag (f1 ++ rest1) f1.length (rxTimestamp (rxBytes b1)) n1 = .ok [.transmit ts2 f2] ∧ transmitAt (b1 + p1) ts2 = some c2 ∧
    ∀ a2 : Nat, (a2 : Int) = c2 - d + T →
    ∃ ts3 f3 c3, receive anchor (f2 ++ rest2) f2.length (rxTimestamp (rxBytes a2)) n2 = .ok [.transmit ts3 f3] ∧ transmitAt (a2 + p2) ts3 = some c3 ∧
    ∀ b3 : Nat, (b3 : Int) = c3 + d + T →
    ∃ t, receive tag (f3 ++ rest3) f3.length (rxTimestamp (rxBytes b3)) n3 = .ok [.ranging anchor.address t] ∧
      (t = T ∨ t + 1 = T) ∧ (c3 / 2 ^ 40 = c1 / 2 ^ 40 → b3 / 2 ^ 40 = b1 / 2 ^ 40 → t = T) := by
  obtain ⟨c1, d1, m1, l1, u1⟩ := sends_when_it_says (count := count) (p := p0) (.inr rfl) h0
  refine ⟨later (timestampGet count), macFrame anchor.pan anchor.address broadcast 0 (bytes40 (later (timestampGet count))), c1,
    sendAdvertisement_eq anchor buf _ hb, d1, ?_⟩
  intro b1 e1
  rw [rxTimestamp_eq]
  obtain ⟨c2, d2, m2, l2, u2⟩ := sends_when_it_says (count := b1) (p := p1) (.inl rfl) h1
  refine ⟨later (b1 % 2 ^ 40), macFrame anchor.pan tag.address anchor.address 1 (bytes40 (later (timestampGet count)) ++ bytes40 (b1 % 2 ^ 40) ++ bytes40 (later (b1 % 2 ^ 40))),
    c2, ?_, d2, ?_⟩
  · rw [macFrame_length, hpan]
    exact receive_advertisement tag anchor.address broadcast (bytes40 (later (timestampGet count))) rest1 (b1 % 2 ^ 40) n1 htag rfl hr1 (.inr rfl)
  intro a2 e2
  rw [rxTimestamp_eq]
  obtain ⟨c3, d3, m3, l3, u3⟩ := sends_when_it_says (count := a2) (p := p2) (.inl rfl) h2
  refine ⟨later (a2 % 2 ^ 40), macFrame anchor.pan anchor.address tag.address 2
      (bytes40 (later (timestampGet count)) ++ bytes40 (b1 % 2 ^ 40) ++ bytes40 (later (b1 % 2 ^ 40)) ++ bytes40 (a2 % 2 ^ 40) ++ bytes40 (later (a2 % 2 ^ 40))),
    c3, ?_, d3, ?_⟩
  · rw [macFrame_length]
    exact receive_reply anchor tag.address anchor.address _ rest2 (a2 % 2 ^ 40) n2 rfl hr2 (.inl rfl)
  intro b3 e3
  rw [rxTimestamp_eq]
  have hfit : (2 * T + (c2 - b1)) * (2 * T + (c3 - a2)) < 2 ^ 64 :=
    Nat.lt_of_le_of_lt (Nat.mul_le_mul (show 2 * T + (c2 - b1) ≤ 2 ^ 32 - 1 by omega) (show 2 * T + (c3 - a2) ≤ 2 ^ 32 - 1 by omega)) (by decide)
  obtain ⟨t, ht, hor⟩ := propagation_wrap (a1 := c1) (b1 := b1) (b2 := c2) (a2 := a2) (a3 := c3) (b3 := b3) (T := T) (D1 := c2 - b1) (D2 := c3 - a2) (d := d)
    e1 (by omega) e2 (by omega) e3 hT (by omega) ⟨by omega, by omega⟩ hfit
  have hex : c3 / 2 ^ 40 = c1 / 2 ^ 40 → b3 / 2 ^ 40 = b1 / 2 ^ 40 → t = T := by
    intro ha hb'
    have := propagation_exact (a1 := c1) (b1 := b1) (b2 := c2) (a2 := a2) (a3 := c3) (b3 := b3) (T := T) (D1 := c2 - b1) (D2 := c3 - a2) (d := d)
      e1 (by omega) e2 (by omega) e3 ha hb' (by omega) hfit
    rw [ht] at this
    exact Except.ok.inj this
  rw [macFrame_length]
  refine ⟨t, ?_, hor, hex⟩
  rw [hpan]
  refine receive_finalization tag anchor.address tag.address _ _ _ _ _ rest3 (b3 % 2 ^ 40) n3 (.inl rfl) hcb ?_
  rw [m1, m2, m3] at ht
  rw [Nat.mod_eq_of_lt (later_lt _), Nat.mod_eq_of_lt (later_lt _), Nat.mod_eq_of_lt (later_lt _), Nat.mod_eq_of_lt (Nat.mod_lt _ (by decide)),
    Nat.mod_eq_of_lt (Nat.mod_lt _ (by decide))]
  exact ht

/-- C112, as the tags of the robot do it: the tag asks the anchor, the anchor answers with an advertisement, and so on. `q` is the time from the arrival at the anchor
until it reads its clock; nothing is assumed about it. -/
theorem measurement (anchor tag : Handler) (hpan : anchor.pan = tag.pan) (htag : tag.isAnchor = false) (hcb : tag.ranging = true)
    (buf rest0 rest1 rest2 rest3 : List Uwb.Byte) (hb : 11 ≤ buf.length) (hr0 : 5 ≤ rest0.length) (hr1 : 10 ≤ rest1.length) (hr2 : 10 ≤ rest2.length)
    (count p q p0 p1 p2 n1 n2 n3 T : Nat) (d : Int) (hT : 0 < T) (hT2 : T < 2 ^ 30)
    (hp : p ≤ 52428034) (h0 : p0 ≤ 52428034) (h1 : p1 ≤ 52428034) (h2 : p2 ≤ 52428034) :
    ∃ ts0 f0 c0, initiate tag buf anchor.address (timestampGet count) = .ok [.transmit ts0 f0] ∧ transmitAt (count + p) ts0 = some c0 ∧
    ∀ a0 : Nat, (a0 : Int) = c0 - d + T →
    ∃ ts1 f1 c1, receive anchor (f0 ++ rest0) f0.length (rxTimestamp (rxBytes a0)) (timestampGet (a0 + q)) = .ok [.transmit ts1 f1] ∧
      transmitAt (a0 + q + p0) ts1 = some c1 ∧
    ∀ b1 : Nat, (b1 : Int) = c1 + d + T →
    ∃ ts2 f2 c2, receive tag (f1 ++ rest1) f1.length (rxTimestamp (rxBytes b1)) n1 = .ok [.transmit ts2 f2] ∧ transmitAt (b1 + p1) ts2 = some c2 ∧
    ∀ a2 : Nat, (a2 : Int) = c2 - d + T →
    ∃ ts3 f3 c3, receive anchor (f2 ++ rest2) f2.length (rxTimestamp (rxBytes a2)) n2 = .ok [.transmit ts3 f3] ∧ transmitAt (a2 + p2) ts3 = some c3 ∧
    ∀ b3 : Nat, (b3 : Int) = c3 + d + T →
    ∃ t, receive tag (f3 ++ rest3) f3.length (rxTimestamp (rxBytes b3)) n3 = .ok [.ranging anchor.address t] ∧
      (t = T ∨ t + 1 = T) ∧ (c3 / 2 ^ 40 = c1 / 2 ^ 40 → b3 / 2 ^ 40 = b1 / 2 ^ 40 → t = T) := by
  obtain ⟨c0, d0, m0, l0, u0⟩ := sends_when_it_says (count := count) (p := p) (.inr rfl) hp
  refine ⟨later (timestampGet count), macFrame tag.pan tag.address anchor.address 5 [], c0, initiate_eq tag buf anchor.address _ hb, d0, ?_⟩
  intro a0 e0
  obtain ⟨after, ha, e⟩ := receive_frame anchor (0x41, 0x88) (0, 0) tag.pan tag.address anchor.address 5 [] rest0 (rxTimestamp (rxBytes a0)) (timestampGet (a0 + q))
    (by decide) ⟨hpan.symm, .inl rfl⟩
  rw [dispatch_5 _ _ _ _ _ _ rfl] at e
  rw [macFrame_length, macFrame_any, e]
  exact exchange anchor tag hpan htag hcb ([] ++ after) rest1 rest2 rest3 (by simp; omega) hr1 hr2 (a0 + q) p0 p1 p2 n1 n2 n3 T d hT hT2 h0 h1 h2

/-- The hypotheses can be met: 3 m of distance (640 ticks), clocks 1000 ticks apart, with the counters about to wrap. -/
example : transmitAt (2 ^ 40 - 52428900 + 5000) (later (timestampGet (2 ^ 40 - 52428900))) = some (2 ^ 40 - 512) ∧
    transmitAt (2 ^ 40 - 512 + 1000 + 640 + 5000) (later ((2 ^ 40 - 512 + 1000 + 640) % 2 ^ 40)) = some (2 ^ 40 + 52429824) := by
  decide +kernel

/-- A frame with any time leaves at the last multiple of 512 up to it, by the counter of the device. -/
theorem leaveTime_floor (tx : Nat) : leaveTime (dxTime tx) = tx % 2 ^ 40 / 512 * 512 := by
  unfold leaveTime dxTime
  rw [BitVec.toNat_ofNat, Nat.shiftRight_eq_div_pow]
  omega

end Verif.Radio
