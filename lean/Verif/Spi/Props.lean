import Verif.Spi.Model

/-!
# Software SPI: properties
-/

namespace Verif.Spi

/-! ## Specification -/

/-- The bits of a byte, most significant first -/
def bits8 (b : BitVec 8) : List Bool := [b.getLsbD 7, b.getLsbD 6, b.getLsbD 5, b.getLsbD 4, b.getLsbD 3, b.getLsbD 2, b.getLsbD 1, b.getLsbD 0]

/-- The bits of a buffer -/
def bits (l : List (BitVec 8)) : List Bool := l.flatMap bits8

/-- A transfer in mode 0: for each bit, the data line is set, then the clock rises, the answer is read, and the clock falls. -/
def clocked (slave : Slave) (before : List Ev) : List Bool → List Ev × List Bool
  | [] => (before, [])
  | b :: bs =>
    let high := before ++ [.mosi b, .sck true]
    let r := clocked slave (high ++ [.miso (slave high), .sck false]) bs
    (r.1, slave high :: r.2)

/-! ## Proof -/

theorem bits_length (l : List (BitVec 8)) : (bits l).length = 8 * l.length := by
  induction l with
  | nil => rfl
  | cons b l ih => show (bits8 b ++ bits l).length = _; rw [List.length_append, ih]; simp [bits8]; omega

theorem bits8_get (b : BitVec 8) (k : Nat) (hk : k < 8) : (bits8 b)[k]? = some (b.getLsbD (7 - k)) := by
  match k, hk with
  | 0, _ | 1, _ | 2, _ | 3, _ | 4, _ | 5, _ | 6, _ | 7, _ => rfl

theorem bits_get (l : List (BitVec 8)) (i : Nat) : (bits l)[i]? = (l[i / 8]?).map fun b => b.getLsbD (7 - i % 8) := by
  induction l generalizing i with
  | nil => simp [bits]
  | cons b l ih =>
    show (bits8 b ++ bits l)[i]? = _
    by_cases h : i < 8
    · rw [List.getElem?_append_left (by simp [bits8]; exact h), bits8_get b i h]
      have h1 : i / 8 = 0 := by omega
      have h2 : i % 8 = i := by omega
      rw [h1, h2]
      rfl
    · rw [List.getElem?_append_right (by simp [bits8]; omega)]
      have h1 : i / 8 = (i - 8) / 8 + 1 := by omega
      have h2 : i % 8 = (i - 8) % 8 := by omega
      rw [h1, h2, List.getElem?_cons_succ, ← ih]
      rfl

/-- Buffers with the same bits are equal. -/
theorem bits_injective {l l' : List (BitVec 8)} (h : bits l = bits l') : l = l' := by
  have hl : l.length = l'.length := by have := congrArg List.length h; rw [bits_length, bits_length] at this; omega
  apply List.ext_getElem hl
  intro n h1 h2
  apply BitVec.eq_of_getLsbD_eq
  intro i hi
  have e := congrArg (fun b => b[8 * n + (7 - i)]?) h
  simp only [bits_get] at e
  have e1 : (8 * n + (7 - i)) / 8 = n := by omega
  have e2 : 7 - (8 * n + (7 - i)) % 8 = i := by omega
  rw [e1, e2, List.getElem?_eq_getElem h1, List.getElem?_eq_getElem h2] at e
  exact Option.some.inj e

theorem test_bit (b : BitVec 8) (k : Nat) (hk : k < 8) : decide (b &&& (1#8 <<< k) ≠ 0#8) = b.getLsbD k := by
  have : ∀ k < 8, ∀ b : BitVec 8, decide (b &&& (1#8 <<< k) ≠ 0#8) = b.getLsbD k := by decide +kernel
  exact this k hk b

theorem set_bit (b : BitVec 8) (v : Bool) (k m : Nat) (hk : k < 8) (hm : m < 8) :
    (b ||| ((if v then 1#8 else 0#8) <<< k)).getLsbD m = (b.getLsbD m || (v && decide (m = k))) := by
  have : ∀ k < 8, ∀ m < 8, ∀ v : Bool, ((if v then 1#8 else 0#8) <<< k : BitVec 8).getLsbD m = (v && decide (m = k)) := by decide +kernel
  rw [BitVec.getLsbD_or, this k hk m hm v]

/-- What a range of the memory contains -/
def range (mem : List (BitVec 8)) (a n : Nat) : List (BitVec 8) := (mem.drop a).take n

theorem range_get (mem : List (BitVec 8)) (a n j : Nat) (h : j < n) : (range mem a n)[j]? = mem[a + j]? := by
  unfold range
  rw [List.getElem?_take_of_lt h, List.getElem?_drop]

theorem clocked_append (slave : Slave) (before : List Ev) (bs : List Bool) (b : Bool) :
    clocked slave before (bs ++ [b]) =
      ((clocked slave before bs).1 ++ [.mosi b, .sck true] ++ [.miso (slave ((clocked slave before bs).1 ++ [.mosi b, .sck true])), .sck false],
       (clocked slave before bs).2 ++ [slave ((clocked slave before bs).1 ++ [.mosi b, .sck true])]) := by
  induction bs generalizing before with
  | nil => simp [clocked]
  | cons c bs ih =>
    simp only [List.cons_append, clocked]
    rw [ih]

theorem clocked_length (slave : Slave) (before : List Ev) (bs : List Bool) : (clocked slave before bs).2.length = bs.length := by
  induction bs generalizing before with
  | nil => rfl
  | cons b bs ih => simp [clocked, ih]

/-- The state after `i` bits -/
structure Inv (slave : Slave) (st0 : St) (data : List (BitVec 8)) (rx n i : Nat) (st : St) : Prop where
  trace : st.trace = (clocked slave st0.trace ((bits data).take i)).1
  len : st.mem.length = st0.mem.length
  frame : ∀ p, p < rx ∨ rx + n ≤ p → st.mem[p]? = st0.mem[p]?
  done : ∀ p, p < 8 * n → (bits (range st.mem rx n))[p]? = some ((clocked slave st0.trace ((bits data).take i)).2[p]?.getD false)

theorem loop_spec {slave : Slave} {st0 : St} {data : List (BitVec 8)} {tx rx n : Nat} (hd : data.length = n) (htx : range st0.mem tx n = data)
    (hrx : rx + n ≤ st0.mem.length) (hdis : tx + n ≤ rx ∨ rx + n ≤ tx) (k i : Nat) (hk : i + k = 8 * n) (st : St) (h : Inv slave st0 data rx n i st) :
    ∃ st', loop slave tx rx k i st = some st' ∧ Inv slave st0 data rx n (8 * n) st' := by
  induction k generalizing i st with
  | zero =>
    have : i = 8 * n := by omega
    subst this
    exact ⟨st, rfl, h⟩
  | succ k ih =>
    have hi : i < 8 * n := by omega
    have hi8 : i / 8 < n := by omega
    have htxm : st.mem[tx + i / 8]? = data[i / 8]? := by
      rw [h.frame _ (by omega), ← htx, range_get _ _ _ _ hi8]
    have hdat : i / 8 < data.length := by omega
    have hrxl : rx + i / 8 < st.mem.length := by rw [h.len]; omega
    unfold loop bit
    rw [htxm, List.getElem?_eq_getElem hdat]
    simp only
    rw [List.getElem?_eq_getElem hrxl, test_bit _ _ (by omega)]
    simp only
    have hb : (bits data)[i]? = some (data[i / 8].getLsbD (7 - i % 8)) := by rw [bits_get, List.getElem?_eq_getElem hdat]; rfl
    have hlt : i < (bits data).length := by rw [bits_length, hd]; exact hi
    have htake : (bits data).take (i + 1) = (bits data).take i ++ [data[i / 8].getLsbD (7 - i % 8)] := by
      rw [List.take_succ, hb]; rfl
    refine ih (i + 1) (by omega) _ ⟨?_, ?_, ?_, ?_⟩
    · show st.trace ++ _ ++ _ = _
      rw [htake, clocked_append, h.trace]
    · show (st.mem.set _ _).length = _
      rw [List.length_set, h.len]
    · intro p hp
      show (st.mem.set _ _)[p]? = _
      rw [List.getElem?_set_ne (by omega), h.frame p hp]
    · intro p hp
      have hold := h.done p hp
      have hp8 : p / 8 < n := by omega
      rw [bits_get, range_get _ _ _ _ hp8] at hold ⊢
      rw [htake, clocked_append, ← h.trace]
      have hlen : (clocked slave st0.trace ((bits data).take i)).2.length = i := by
        rw [clocked_length, List.length_take]; omega
      show ((st.mem.set (rx + i / 8) _)[rx + p / 8]?).map _ = _
      generalize clocked slave st0.trace ((bits data).take i) = C at hold hlen ⊢
      by_cases hpi : p / 8 = i / 8
      · rw [hpi] at hold ⊢
        rw [List.getElem?_set_self hrxl]
        rw [List.getElem?_eq_getElem hrxl] at hold
        simp only [Option.map_some, Option.some.injEq] at hold ⊢
        rw [set_bit _ _ _ _ (by omega) (by omega), hold]
        rcases Nat.lt_trichotomy p i with hlt | heq | hgt
        · rw [List.getElem?_append_left (by omega)]
          have : ¬ (7 - p % 8 = 7 - i % 8) := by omega
          rw [decide_eq_false this, Bool.and_false, Bool.or_false]
        · subst heq
          rw [List.getElem?_append_right (by omega), List.getElem?_eq_none (l := C.2) (by omega), hlen, Nat.sub_self]
          simp
        · rw [List.getElem?_eq_none (l := C.2) (by omega), List.getElem?_eq_none (l := C.2 ++ _) (by simp; omega)]
          have : ¬ (7 - p % 8 = 7 - i % 8) := by omega
          rw [decide_eq_false this, Bool.and_false]
          rfl
      · rw [List.getElem?_set_ne (by omega), hold]
        by_cases hlt : p < i
        · rw [List.getElem?_append_left (by omega)]
        · rw [List.getElem?_eq_none (l := C.2) (by omega), List.getElem?_eq_none (l := C.2 ++ _) (by simp; omega)]

/-- C53: with separate buffers, the bits of the transmit buffer are shifted out, most significant first, by the protocol of mode 0, the bits presented by the
slave end in the receive buffer in the same order, and nothing else changes. -/
theorem send_spec (slave : Slave) (st : St) (tx rx n : Nat) (htx : tx + n ≤ st.mem.length) (hrx : rx + n ≤ st.mem.length)
    (hdis : tx + n ≤ rx ∨ rx + n ≤ tx) :
    ∃ st', send slave tx rx n st = some st' ∧
      st'.trace = (clocked slave st.trace (bits (range st.mem tx n))).1 ∧
      bits (range st'.mem rx n) = (clocked slave st.trace (bits (range st.mem tx n))).2 ∧
      st'.mem.length = st.mem.length ∧ ∀ p, p < rx ∨ rx + n ≤ p → st'.mem[p]? = st.mem[p]? := by
  have hlen : (range st.mem tx n).length = n := by unfold range; rw [List.length_take, List.length_drop]; omega
  unfold send clear
  rw [if_pos hrx]
  simp only
  have hml : (st.mem.take rx).length = rx := by rw [List.length_take]; omega
  have hml2 : (st.mem.take rx ++ List.replicate n 0#8).length = rx + n := by rw [List.length_append, hml, List.length_replicate]
  have hI : Inv slave st (range st.mem tx n) rx n 0 { st with mem := st.mem.take rx ++ List.replicate n 0#8 ++ st.mem.drop (rx + n) } := by
    refine ⟨rfl, ?_, ?_, ?_⟩
    · simp only [List.length_append, List.length_take, List.length_replicate, List.length_drop]; omega
    · intro p hp
      simp only
      rcases hp with hp | hp
      · rw [List.getElem?_append_left (by omega), List.getElem?_append_left (by omega), List.getElem?_take_of_lt hp]
      · rw [List.getElem?_append_right (by omega), hml2, List.getElem?_drop]
        congr 1; omega
    · intro p hp
      simp only
      rw [bits_get, range_get _ _ _ _ (by omega), List.getElem?_append_left (by omega), List.getElem?_append_right (by omega), hml,
        List.getElem?_replicate, if_pos (by omega)]
      simp [clocked]
  obtain ⟨st', h1, h2⟩ := loop_spec hlen rfl hrx hdis (8 * n) 0 (by omega) _ hI
  refine ⟨st', h1, ?_, ?_, h2.len, h2.frame⟩
  · rw [h2.trace, List.take_of_length_le (by rw [bits_length, hlen]; exact Nat.le_refl _)]
  · have hd := h2.done
    rw [List.take_of_length_le (by rw [bits_length, hlen]; exact Nat.le_refl _)] at hd
    apply List.ext_getElem?
    intro p
    have hr : (range st'.mem rx n).length = n := by unfold range; rw [List.length_take, List.length_drop, h2.len]; omega
    by_cases hp : p < 8 * n
    · rw [hd p hp]
      have : p < (clocked slave st.trace (bits (range st.mem tx n))).2.length := by rw [clocked_length, bits_length, hlen]; exact hp
      rw [List.getElem?_eq_getElem this]
      rfl
    · rw [List.getElem?_eq_none (by rw [bits_length, hr]; omega), List.getElem?_eq_none (by rw [clocked_length, bits_length, hlen]; omega)]

/-- MISO connected to MOSI -/
def loopback : Slave := fun h => match h.reverse.find? (fun e => match e with | .mosi _ => true | _ => false) with
  | some (.mosi b) => b
  | _ => false

theorem clocked_loopback (before : List Ev) (bs : List Bool) : (clocked loopback before bs).2 = bs := by
  induction bs generalizing before with
  | nil => rfl
  | cons b bs ih =>
    show loopback (before ++ [.mosi b, .sck true]) :: _ = _
    rw [ih]
    congr 1
    unfold loopback
    simp [List.reverse_append]

/-- C53: with MISO connected to MOSI the transmitted bytes are received. -/
theorem send_loopback (st : St) (tx rx n : Nat) (htx : tx + n ≤ st.mem.length) (hrx : rx + n ≤ st.mem.length) (hdis : tx + n ≤ rx ∨ rx + n ≤ tx) :
    ∃ st', send loopback tx rx n st = some st' ∧ range st'.mem rx n = range st.mem tx n := by
  obtain ⟨st', h1, -, h3, -⟩ := send_spec loopback st tx rx n htx hrx hdis
  refine ⟨st', h1, bits_injective ?_⟩
  rw [h3, clocked_loopback]

/-- A slave that shifts out its own data, the next bit after each falling edge, starting from the end of `before` -/
def shifter (before : Nat) (data : List Bool) : Slave := fun h => data.getD (((h.drop before).filter (· == .sck false)).length) false

theorem clocked_shifter (n0 : Nat) (data : List Bool) (before : List Ev) (hn : n0 ≤ before.length) (bs : List Bool) (k : Nat)
    (hk : ((before.drop n0).filter (· == .sck false)).length = k) (hl : k + bs.length ≤ data.length) :
    (clocked (shifter n0 data) before bs).2 = (data.drop k).take bs.length := by
  induction bs generalizing before k with
  | nil => simp [clocked]
  | cons b bs ih =>
    simp only [List.length_cons] at hl
    have hkl : k < data.length := by omega
    have h1 : shifter n0 data (before ++ [.mosi b, .sck true]) = data[k] := by
      unfold shifter
      rw [List.drop_append_of_le_length hn, List.filter_append, List.length_append, hk]
      have : ((([Ev.mosi b, Ev.sck true] : List Ev).filter (· == .sck false)).length) = 0 := by cases b <;> decide
      rw [this, List.getD_eq_getElem?_getD, Nat.add_zero, List.getElem?_eq_getElem hkl]
      rfl
    show shifter n0 data (before ++ [.mosi b, .sck true]) :: _ = _
    rw [ih _ (by simp; omega) (k + 1) ?_ (by omega), h1]
    · rw [List.length_cons, List.drop_eq_getElem_cons hkl, List.take_succ_cons]
    · rw [List.append_assoc, List.drop_append_of_le_length hn, List.filter_append, List.length_append, hk]
      generalize shifter n0 data (before ++ [.mosi b, .sck true]) = c
      have : ((([Ev.mosi b, Ev.sck true] ++ [Ev.miso c, Ev.sck false] : List Ev).filter (· == .sck false)).length) = 1 := by cases b <;> cases c <;> decide
      rw [this]

/-- C53: the bytes of a mode 0 slave are received. -/
theorem send_shifter (st : St) (data : List (BitVec 8)) (tx rx : Nat) (htx : tx + data.length ≤ st.mem.length) (hrx : rx + data.length ≤ st.mem.length)
    (hdis : tx + data.length ≤ rx ∨ rx + data.length ≤ tx) :
    ∃ st', send (shifter st.trace.length (bits data)) tx rx data.length st = some st' ∧ range st'.mem rx data.length = data := by
  obtain ⟨st', h1, -, h3, -⟩ := send_spec (shifter st.trace.length (bits data)) st tx rx data.length htx hrx hdis
  refine ⟨st', h1, bits_injective ?_⟩
  have hlen : (range st.mem tx data.length).length = data.length := by unfold range; rw [List.length_take, List.length_drop]; omega
  rw [h3, clocked_shifter st.trace.length (bits data) st.trace (Nat.le_refl _) _ 0 (by simp) (by rw [bits_length, bits_length, hlen]; omega),
    bits_length, hlen, ← bits_length, List.drop_zero, List.take_length]

/-- If both buffers are the same one, it is cleared before it is read: with a slave that answers low, only zeros are sent. -/
theorem send_in_place : ∃ st', send (fun _ => false) 0 0 1 ⟨[], [0xA5#8]⟩ = some st' ∧ Ev.mosi true ∉ st'.trace := by
  refine ⟨_, rfl, ?_⟩
  decide +kernel

example : (send loopback 0 2 2 ⟨[], [0xA5#8, 0x3C#8, 7#8, 9#8]⟩).map (·.mem) = some [0xA5#8, 0x3C#8, 0xA5#8, 0x3C#8] := by decide +kernel

end Verif.Spi
