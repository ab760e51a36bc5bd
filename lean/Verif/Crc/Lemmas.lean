import Verif.Crc.Model
import Verif.Crc.Spec

/-!
Helper lemmas for the checksum properties: a bit-serial form of both checksums, and the analysis of
how the difference of two registers evolves.
-/

namespace Verif.Crc

/-- Bit-serial register step for an arbitrary width and polynomial. -/
def stepBit {w : Nat} (poly : BitVec w) (c : BitVec w) (b : Bool) : BitVec w :=
  if c.getLsbD 0 != b then (c >>> 1) ^^^ poly else c >>> 1

theorem and_one_eq {w : Nat} (c : BitVec w) :
    c &&& 1#w = if c.getLsbD 0 then 1#w else 0#w := by
  ext i hi
  by_cases h0 : i = 0
  · subst h0
    cases h : c.getLsbD 0 <;> simp_all [BitVec.getElem_eq_testBit_toNat, BitVec.getLsbD]
  · split <;> simp [BitVec.getElem_one, h0]

theorem crc32Bit_eq (c : BitVec 32) (x : Byte) (k : Nat) :
    crc32Bit c x k = stepBit crc32Poly c (x.getLsbD k) := by
  unfold crc32Bit stepBit
  rw [and_one_eq c, and_one_eq (x >>> k)]
  simp only [BitVec.getLsbD_ushiftRight, Nat.add_zero]
  cases c.getLsbD 0 <;> cases x.getLsbD k <;> simp

theorem crc32Byte_eq (c : BitVec 32) (x : Byte) :
    crc32Byte c x = (byteBits x).foldl (stepBit crc32Poly) c := by
  simp [crc32Byte, crc32Bit_eq, byteBits, List.range, List.range.loop]

theorem foldl_crc32Byte (data : List Byte) (c : BitVec 32) :
    data.foldl crc32Byte c = (bits data).foldl (stepBit crc32Poly) c := by
  induction data generalizing c with
  | nil => rfl
  | cons x xs ih => simp [bits, crc32Byte_eq, ih, List.foldl_append]

theorem crc16Shift_eq (c : BitVec 16) : crc16Shift c = stepBit crc16Poly c false := by
  unfold crc16Shift stepBit
  rw [and_one_eq c]
  cases c.getLsbD 0 <;> simp

theorem crc16Shift_xor (c : BitVec 16) (x : BitVec 16) :
    crc16Shift (c ^^^ x) = stepBit crc16Poly c (x.getLsbD 0) ^^^ (x >>> 1) := by
  rw [crc16Shift_eq]
  unfold stepBit
  have hx : (c ^^^ x) >>> 1 = (c >>> 1) ^^^ (x >>> 1) := by
    ext i hi; simp [BitVec.getElem_eq_testBit_toNat]
  rw [hx, BitVec.getLsbD_xor]
  cases c.getLsbD 0 <;> cases x.getLsbD 0 <;> simp <;> ac_rfl

theorem crc16Byte_eq (c : BitVec 16) (x : Byte) :
    crc16Byte c x = (byteBits x).foldl (stepBit crc16Poly) c := by
  have h8 : (x.setWidth 16) >>> 1 >>> 1 >>> 1 >>> 1 >>> 1 >>> 1 >>> 1 >>> 1 = 0#16 := by
    ext i hi
    simp only [← BitVec.shiftRight_add]
    simp
  simp only [crc16Byte, byteBits, List.range, List.range.loop, List.foldl, List.map,
    crc16Shift_xor]
  rw [h8]
  simp

theorem foldl_crc16Byte (data : List Byte) (c : BitVec 16) :
    data.foldl crc16Byte c = (bits data).foldl (stepBit crc16Poly) c := by
  induction data generalizing c with
  | nil => rfl
  | cons x xs ih => simp [bits, crc16Byte_eq, ih, List.foldl_append]

/-! ### Differences -/

theorem msb_of_stepBit {w : Nat} (poly c : BitVec (w+1)) (b : Bool) (hp : poly.getLsbD w = true) :
    (stepBit poly c b).getLsbD w = (c.getLsbD 0 != b) := by
  unfold stepBit
  have : (c >>> 1).getLsbD w = false := by
    simp only [BitVec.getLsbD_ushiftRight]
    exact BitVec.getLsbD_of_ge _ _ (by omega)
  split <;> simp_all

/-- Going back one step: if the difference fits in `k ≤ w` bits after the step, it fitted in `k+1`
bits before it. -/
theorem diff_back {w : Nat} (poly r s : BitVec (w+1)) (x y : Bool) (hp : poly.getLsbD w = true)
    (k : Nat) (hk : k ≤ w)
    (h : ∀ i, k ≤ i → (stepBit poly r x).getLsbD i = (stepBit poly s y).getLsbD i) :
    ∀ i, k + 1 ≤ i → r.getLsbD i = s.getLsbD i := by
  have hm := h w hk
  rw [msb_of_stepBit _ _ _ hp, msb_of_stepBit _ _ _ hp] at hm
  intro i hi
  have h1 := h (i-1) (by omega)
  have hi1 : 1 + (i - 1) = i := by omega
  unfold stepBit at h1
  rw [hm] at h1
  split at h1 <;> simpa [hi1] using h1

theorem diff_back_run {w : Nat} (poly : BitVec (w+1)) (hp : poly.getLsbD w = true)
    (u v : List Bool) (hl : u.length = v.length) (r s : BitVec (w+1)) (k : Nat)
    (hk : k + u.length ≤ w + 1)
    (h : ∀ i, k ≤ i → (u.foldl (stepBit poly) r).getLsbD i = (v.foldl (stepBit poly) s).getLsbD i) :
    ∀ i, k + u.length ≤ i → r.getLsbD i = s.getLsbD i := by
  induction u generalizing v r s with
  | nil =>
    cases v with
    | nil => simpa using h
    | cons => simp at hl
  | cons x u ih =>
    cases v with
    | nil => simp at hl
    | cons y v =>
      simp only [List.length_cons, Nat.add_right_cancel_iff] at hl
      simp only [List.length_cons] at hk ⊢
      have := ih v hl (stepBit poly r x) (stepBit poly s y) (by omega) h
      exact diff_back poly r s x y hp (k + u.length) (by omega) this

/-- With the same input bit the register step is injective. -/
theorem stepBit_inj {w : Nat} (poly r s : BitVec (w+1)) (x : Bool) (hp : poly.getLsbD w = true)
    (h : stepBit poly r x = stepBit poly s x) : r = s := by
  have hb := diff_back poly r s x x hp 0 (by omega) (by intro i _; rw [h])
  have hm := congrArg (fun c => c.getLsbD w) h
  simp only [msb_of_stepBit _ _ _ hp] at hm
  apply BitVec.eq_of_getLsbD_eq
  intro i _
  by_cases h0 : i = 0
  · subst h0
    cases hr : r.getLsbD 0 <;> cases hs : s.getLsbD 0 <;> cases x <;> simp_all
  · exact hb i (by omega)

theorem run_inj {w : Nat} (poly : BitVec (w+1)) (hp : poly.getLsbD w = true) (u : List Bool)
    (r s : BitVec (w+1)) (h : u.foldl (stepBit poly) r = u.foldl (stepBit poly) s) : r = s := by
  induction u generalizing r s with
  | nil => simpa using h
  | cons x u ih => exact stepBit_inj poly r s x hp (ih _ _ h)

/-- Different bit strings of at most `w+1` bits lead to different registers. -/
theorem run_ne {w : Nat} (poly : BitVec (w+1)) (hp : poly.getLsbD w = true)
    (u v : List Bool) (hl : u.length = v.length) (hw : u.length ≤ w + 1) (hne : u ≠ v)
    (r : BitVec (w+1)) : u.foldl (stepBit poly) r ≠ v.foldl (stepBit poly) r := by
  induction u generalizing v r with
  | nil => cases v with
    | nil => exact absurd rfl hne
    | cons => simp at hl
  | cons x u ih => cases v with
    | nil => simp at hl
    | cons y v =>
      simp only [List.length_cons, Nat.add_right_cancel_iff] at hl
      simp only [List.length_cons] at hw
      by_cases hxy : x = y
      · subst hxy
        exact ih v hl (by omega) (by simpa using hne) _
      · intro h
        have := diff_back_run poly hp u v hl (stepBit poly r x) (stepBit poly r y) 0 (by omega)
          (by intro i _; exact congrArg (fun c => c.getLsbD i) h) w (by omega)
        rw [msb_of_stepBit _ _ _ hp, msb_of_stepBit _ _ _ hp] at this
        revert this hxy
        cases x <;> cases y <;> cases r.getLsbD 0 <;> simp

theorem burst_ne {w : Nat} (poly : BitVec (w+1)) (hp : poly.getLsbD w = true)
    (p u v s : List Bool) (hl : u.length = v.length) (hw : u.length ≤ w + 1) (hne : u ≠ v)
    (r : BitVec (w+1)) :
    (p ++ u ++ s).foldl (stepBit poly) r ≠ (p ++ v ++ s).foldl (stepBit poly) r := by
  simp only [List.foldl_append]
  intro h
  exact run_ne poly hp u v hl hw hne _ (run_inj poly hp s _ _ h)

theorem bits_length (a : List Byte) : (bits a).length = 8 * a.length := by
  induction a with
  | nil => rfl
  | cons x xs ih => simp [bits, byteBits] at *; omega

theorem byteBits_inj (x y : Byte) (h : byteBits x = byteBits y) : x = y := by
  apply BitVec.eq_of_getLsbD_eq
  intro i hi
  have := congrArg (fun l => l[i]?) h
  simpa [byteBits, hi] using this

theorem bits_inj (a b : List Byte) (h : bits a = bits b) : a = b := by
  induction a generalizing b with
  | nil => cases b with
    | nil => rfl
    | cons => simp [bits, byteBits, List.range, List.range.loop] at h
  | cons x xs ih => cases b with
    | nil => simp [bits, byteBits, List.range, List.range.loop] at h
    | cons y ys =>
      have h' : byteBits x ++ bits xs = byteBits y ++ bits ys := by simpa [bits] using h
      have := List.append_inj h' (by simp [byteBits])
      rw [byteBits_inj x y this.1, ih ys this.2]

theorem getElem?_bits (a : List Byte) (i : Nat) (h : i < 8 * a.length) :
    (bits a)[i]? = some (bitAt a i) := by
  induction a generalizing i with
  | nil => simp at h
  | cons x xs ih =>
    simp only [bits, List.flatMap_cons]
    have hlen : (byteBits x).length = 8 := by simp [byteBits]
    by_cases hi : i < 8
    · rw [List.getElem?_append_left (by omega)]
      have h1 : i / 8 = 0 := by omega
      have h2 : i % 8 = i := by omega
      simp [byteBits, bitAt, hi, h1, h2]
    · rw [List.getElem?_append_right (by omega), hlen]
      have h1 : i / 8 = (i - 8) / 8 + 1 := by omega
      have h2 : i % 8 = (i - 8) % 8 := by omega
      have := ih (i - 8) (by simp at h; omega)
      simp only [bits] at this
      rw [this]
      simp [bitAt, h1, h2]

/-- Two buffers whose differences lie in a window decompose into common prefix, burst, common
suffix. -/
theorem burst_split (a b : List Byte) (k n : Nat) (hl : a.length = b.length)
    (hne : a ≠ b) (hwin : ∀ i, bitAt a i ≠ bitAt b i → k ≤ i ∧ i < k + n) :
    ∃ p u v s, bits a = p ++ u ++ s ∧ bits b = p ++ v ++ s ∧ u.length = v.length ∧
      u.length ≤ n ∧ u ≠ v := by
  have hla := bits_length a
  have hlb := bits_length b
  have key : ∀ i, ¬ (k ≤ i ∧ i < k + n) → (bits a)[i]? = (bits b)[i]? := by
    intro i hi
    by_cases hb : i < 8 * a.length
    · rw [getElem?_bits a i hb, getElem?_bits b i (by omega)]
      by_cases he : bitAt a i = bitAt b i
      · rw [he]
      · exact absurd (hwin i he) hi
    · rw [List.getElem?_eq_none (by omega), List.getElem?_eq_none (by omega)]
  have e1 : (bits a).take k = (bits b).take k := by
    apply List.ext_getElem?
    intro i
    rw [List.getElem?_take, List.getElem?_take]
    split
    · exact key i (by omega)
    · rfl
  have e2 : (bits a).drop (k + n) = (bits b).drop (k + n) := by
    apply List.ext_getElem?
    intro i
    rw [List.getElem?_drop, List.getElem?_drop]
    exact key _ (by omega)
  have sp : ∀ l : List Bool, l = l.take k ++ (l.drop k).take n ++ l.drop (k + n) := by
    intro l
    rw [List.append_assoc, ← List.drop_drop, List.take_append_drop, List.take_append_drop]
  refine ⟨(bits a).take k, ((bits a).drop k).take n, ((bits b).drop k).take n,
    (bits a).drop (k + n), sp _, ?_, ?_, ?_, ?_⟩
  · rw [e1, e2]; exact sp _
  · simp; omega
  · simp; omega
  · intro hu
    apply hne
    apply bits_inj
    rw [sp (bits a), sp (bits b), e1, e2, hu]

/-! ### Parity -/

theorem parity_append (a b : List Bool) : parity (a ++ b) = (parity a ^^ parity b) := by
  induction a with
  | nil => simp [parity]
  | cons x xs ih => simp [parity] at *; rw [ih]

/-- Bits of a register. -/
def regBits {w : Nat} (c : BitVec w) : List Bool := (List.range w).map c.getLsbD

theorem parity16_step (c : BitVec 16) (b : Bool) :
    parity (regBits (stepBit crc16Poly c b)) = (parity (regBits c) ^^ b) := by
  unfold stepBit
  cases h : c.getLsbD 0 <;> cases b <;>
    simp [regBits, List.range, List.range.loop, parity, crc16Poly] <;>
    (try (generalize c.getLsbD 1 = x1; generalize c.getLsbD 2 = x2; generalize c.getLsbD 3 = x3)) <;>
    grind

theorem parity16_run (u : List Bool) (c : BitVec 16) :
    parity (regBits (u.foldl (stepBit crc16Poly) c)) = (parity (regBits c) ^^ parity u) := by
  induction u generalizing c with
  | nil => simp [parity]
  | cons x u ih =>
    simp only [List.foldl_cons, ih, parity16_step]
    cases parity (regBits c) <;> cases x <;> cases h : parity u <;> simp_all [parity]

end Verif.Crc
