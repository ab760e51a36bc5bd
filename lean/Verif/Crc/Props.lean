import Verif.Crc.Lemmas

/-!
# Checksum properties (C01, C02)
-/

namespace Verif.Crc

/-- C01: chunked computation of `crc32`. -/
theorem crc32_append (init : BitVec 32) (a b : List Byte) :
    crc32 (crc32 init a) b = crc32 init (a ++ b) := by
  simp [crc32, List.foldl_append]

/-- C01: `crc32` over any list of chunks, each call seeded with the previous result. -/
theorem crc32_chunks (init : BitVec 32) (chunks : List (List Byte)) :
    chunks.foldl crc32 init = crc32 init chunks.flatten := by
  induction chunks generalizing init with
  | nil => simp [crc32]
  | cons c cs ih => simp [ih, crc32_append]

/-- C01: chunked computation of `crc16`. -/
theorem crc16_append (init : BitVec 16) (a b : List Byte) :
    crc16 (crc16 init a) b = crc16 init (a ++ b) := by
  simp [crc16, List.foldl_append]

/-- C01: `crc16` over any list of chunks. -/
theorem crc16_chunks (init : BitVec 16) (chunks : List (List Byte)) :
    chunks.foldl crc16 init = crc16 init chunks.flatten := by
  induction chunks generalizing init with
  | nil => simp [crc16]
  | cons c cs ih => simp [ih, crc16_append]

/-- The model computes the standard check value of CRC-32/ISO-HDLC ("123456789"); a test of the
model, not a claim. -/
example : crc32 0#32 [0x31, 0x32, 0x33, 0x34, 0x35, 0x36, 0x37, 0x38, 0x39] = 0xCBF43926#32 := by
  decide +kernel

/-- Standard check value of CRC-16/ARC; a test of the model. -/
example : crc16 0#16 [0x31, 0x32, 0x33, 0x34, 0x35, 0x36, 0x37, 0x38, 0x39] = 0xBB3D#16 := by
  decide +kernel

/-- C02: `crc32` detects every error whose differing bits lie within 32 consecutive bits. -/
theorem crc32_burst (init : BitVec 32) (a b : List Byte) (k : Nat)
    (hl : a.length = b.length) (hne : a ≠ b)
    (hwin : ∀ i, bitAt a i ≠ bitAt b i → k ≤ i ∧ i < k + 32) :
    crc32 init a ≠ crc32 init b := by
  obtain ⟨p, u, v, s, ha, hb, h1, h2, h3⟩ := burst_split a b k 32 hl hne hwin
  unfold crc32
  rw [foldl_crc32Byte, foldl_crc32Byte, ha, hb]
  intro h
  exact burst_ne crc32Poly (by decide) p u v s h1 h2 h3 _ (BitVec.not_inj.mp h)

/-- C02: `crc16` detects every error whose differing bits lie within 16 consecutive bits. -/
theorem crc16_burst (init : BitVec 16) (a b : List Byte) (k : Nat)
    (hl : a.length = b.length) (hne : a ≠ b)
    (hwin : ∀ i, bitAt a i ≠ bitAt b i → k ≤ i ∧ i < k + 16) :
    crc16 init a ≠ crc16 init b := by
  obtain ⟨p, u, v, s, ha, hb, h1, h2, h3⟩ := burst_split a b k 16 hl hne hwin
  unfold crc16
  rw [foldl_crc16Byte, foldl_crc16Byte, ha, hb]
  exact burst_ne crc16Poly (by decide) p u v s h1 h2 h3 _

/-- The burst hypotheses are met by a two-bit error across a byte border. -/
example : ∃ a b : List Byte, a.length = b.length ∧ a ≠ b ∧
    ∀ i, bitAt a i ≠ bitAt b i → 7 ≤ i ∧ i < 7 + 16 := by
  refine ⟨[0x00, 0x00, 0x55], [0x80, 0x01, 0x55], rfl, by decide, ?_⟩
  intro i hi
  by_cases hlt : i < 24
  · have key : ∀ j : Fin 24, bitAt [0x00, 0x00, 0x55] j ≠ bitAt [0x80, 0x01, 0x55] j →
        7 ≤ j.val ∧ j.val < 7 + 16 := by decide +kernel
    exact key ⟨i, hlt⟩ hi
  · exact absurd (by simp [bitAt, show ¬ i / 8 < 3 by omega]) hi

/-- C02: `crc32` is injective on buffers of the same length of at most four bytes. -/
theorem crc32_inj (init : BitVec 32) (a b : List Byte) (hl : a.length = b.length)
    (h4 : a.length ≤ 4) (h : crc32 init a = crc32 init b) : a = b := by
  apply Classical.byContradiction
  intro hne
  refine crc32_burst init a b 0 hl hne ?_ h
  intro i hi
  refine ⟨by omega, ?_⟩
  apply Classical.byContradiction
  intro hge
  apply hi
  have : a.length ≤ i / 8 := by omega
  simp [bitAt, this, hl ▸ this]

/-- C02: `crc16` is injective on buffers of the same length of at most two bytes. -/
theorem crc16_inj (init : BitVec 16) (a b : List Byte) (hl : a.length = b.length)
    (h2 : a.length ≤ 2) (h : crc16 init a = crc16 init b) : a = b := by
  apply Classical.byContradiction
  intro hne
  refine crc16_burst init a b 0 hl hne ?_ h
  intro i hi
  refine ⟨by omega, ?_⟩
  apply Classical.byContradiction
  intro hge
  apply hi
  have : a.length ≤ i / 8 := by omega
  simp [bitAt, this, hl ▸ this]

example : ([1, 2, 3, 4] : List Byte).length = ([1, 2, 3, 5] : List Byte).length ∧
    ([1, 2, 3, 4] : List Byte).length ≤ 4 := by decide

/-- C02 (strengthening): for a fixed buffer, different seeds give different checksums. -/
theorem crc32_seed_inj (i j : BitVec 32) (a : List Byte) (h : crc32 i a = crc32 j a) : i = j := by
  unfold crc32 at h
  rw [foldl_crc32Byte, foldl_crc32Byte] at h
  exact BitVec.not_inj.mp (run_inj crc32Poly (by decide) _ _ _ (BitVec.not_inj.mp h))

/-- C02 (strengthening): for a fixed buffer, different seeds give different checksums. -/
theorem crc16_seed_inj (i j : BitVec 16) (a : List Byte) (h : crc16 i a = crc16 j a) : i = j := by
  unfold crc16 at h
  rw [foldl_crc16Byte, foldl_crc16Byte] at h
  exact run_inj crc16Poly (by decide) _ _ _ h

/-- C02 (strengthening): `crc16` detects every error that flips an odd number of bits, wherever
they are. -/
theorem crc16_odd_error (init : BitVec 16) (a b : List Byte) (h : parity (bits a) ≠ parity (bits b)) :
    crc16 init a ≠ crc16 init b := by
  intro he
  unfold crc16 at he
  rw [foldl_crc16Byte, foldl_crc16Byte] at he
  have := congrArg (fun c => parity (regBits c)) he
  simp only [parity16_run] at this
  cases h1 : parity (bits a) <;> cases h2 : parity (bits b) <;> simp_all

example : parity (bits [0x00, 0x10, 0x00, 0x00, 0x03]) ≠ parity (bits [0, 0, 0, 0, 0]) := by
  decide +kernel

end Verif.Crc
