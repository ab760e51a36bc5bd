import Verif.Uart.Model

/-!
# The UART of the motor boards — properties (C145)
-/

namespace Verif.Uart

/-! ## The baud rate -/

/-- **The divider** is the nearest one to `clock / baud`: no other comes closer. -/
theorem divider_nearest {clock baud : Nat} (hb : 0 < baud) (hc : 2 * clock + baud < 2 ^ 32) (hb' : 2 * baud < 2 ^ 32) :
    ∃ d, divider clock baud = some d ∧ (d * baud ≤ clock → 2 * (clock - d * baud) ≤ baud) ∧ (clock ≤ d * baud → 2 * (d * baud - clock) ≤ baud) ∧
      ∀ e, (clock - d * baud) + (d * baud - clock) ≤ (clock - e * baud) + (e * baud - clock) := by
  have e1 : 2 * baud % 2 ^ 32 = 2 * baud := Nat.mod_eq_of_lt hb'
  have e2 : (2 * clock % 2 ^ 32 + baud) % 2 ^ 32 = 2 * clock + baud := by omega
  refine ⟨(2 * clock + baud) / (2 * baud), ?_, ?_⟩
  · unfold divider
    rw [e1, e2, if_neg (by omega)]
  · have h1 := Nat.div_mul_le_self (2 * clock + baud) (2 * baud)
    have h2 := Nat.lt_div_mul_add (a := 2 * clock + baud) (b := 2 * baud) (by omega)
    generalize (2 * clock + baud) / (2 * baud) = d at h1 h2
    have h3 : d * (2 * baud) = 2 * (d * baud) := by rw [Nat.mul_left_comm]
    rw [h3] at h1 h2
    refine ⟨fun _ => by omega, fun _ => by omega, fun e => ?_⟩
    rcases Nat.lt_trichotomy e d with h | rfl | h
    · have : e * baud + baud ≤ d * baud := by
        have := Nat.mul_le_mul_right baud (show e + 1 ≤ d from h)
        rwa [Nat.succ_mul] at this
      omega
    · exact Nat.le_refl _
    · have : d * baud + baud ≤ e * baud := by
        have := Nat.mul_le_mul_right baud (show d + 1 ≤ e from h)
        rwa [Nat.succ_mul] at this
      omega

/-- **Each bit is sampled within itself:** for a divider of at least 16 (which the hardware asks for), a receiver with the exact baud rate that samples each of the 10 bits of a byte (start, data, stop) in the middle of where it expects it does so after the bit began and before it ended. Times are in units of `1 / (2 * clock * baud)` from the start bit on: a bit sent lasts `2 * d * baud`, one expected `2 * clock`. -/
theorem bits_sampled {clock baud d : Nat} (hb : 0 < baud) (hc : 2 * clock + baud < 2 ^ 32) (hb' : 2 * baud < 2 ^ 32) (h : divider clock baud = some d) (hd : 16 ≤ d) {k : Nat} (hk : k < 10) :
    k * (2 * d * baud) < k * (2 * clock) + clock ∧ k * (2 * clock) + clock < (k + 1) * (2 * d * baud) := by
  obtain ⟨d', e, l1, l2, -⟩ := divider_nearest hb hc hb'
  cases e.symm.trans h
  have h16 : 16 * baud ≤ d * baud := Nat.mul_le_mul_right _ hd
  rw [Nat.mul_assoc 2 d baud]
  generalize d * baud = x at l1 l2 h16
  have : k = 0 ∨ k = 1 ∨ k = 2 ∨ k = 3 ∨ k = 4 ∨ k = 5 ∨ k = 6 ∨ k = 7 ∨ k = 8 ∨ k = 9 := by omega
  rcases Nat.le_total x clock with c | c
  · have := l1 c
    rcases ‹k = 0 ∨ _› with rfl | rfl | rfl | rfl | rfl | rfl | rfl | rfl | rfl | rfl <;> omega
  · have := l2 c
    rcases ‹k = 0 ∨ _› with rfl | rfl | rfl | rfl | rfl | rfl | rfl | rfl | rfl | rfl <;> omega

/-- 36 MHz and 115200 baud: 312.5, rounded up -/
example : divider 36000000 115200 = some 313 ∧ 2 * 36000000 + 115200 < 2 ^ 32 := by decide

/-- **Without the bound** the divider is wrong or there is none: a clock of 2^31 Hz overflows, and so does a baud rate of 2^31. -/
theorem divider_overflows : divider (2 ^ 31) 1000000 = some 0 ∧ divider 36000000 (2 ^ 31) = none ∧ divider 36000000 0 = none := by decide

/-! ## Sending -/

/-- **No byte is lost, doubled or overtaken:** at each moment the bytes on the line, that in the register and those left are, in this order, what was there before and the bytes given. -/
theorem write_keeps (ks : List Bool) (bs : List (BitVec 8)) (t : Tx) :
    (write ks bs t).1.line ++ (write ks bs t).1.tdr.toList ++ (write ks bs t).2 = t.line ++ t.tdr.toList ++ bs := by
  induction ks generalizing bs t with
  | nil => cases bs <;> rfl
  | cons k ks ih =>
    cases bs with
    | nil => rfl
    | cons b bs =>
      have key : ∀ u : Tx, u.line ++ u.tdr.toList = t.line ++ t.tdr.toList →
          (if u.tdr = none then write ks bs { u with tdr := some b } else write ks (b :: bs) u).1.line ++ (if u.tdr = none then write ks bs { u with tdr := some b } else write ks (b :: bs) u).1.tdr.toList ++
            (if u.tdr = none then write ks bs { u with tdr := some b } else write ks (b :: bs) u).2 = t.line ++ t.tdr.toList ++ b :: bs := by
        intro u hu
        split
        · rename_i hn
          rw [ih, ← hu, hn]
          simp
        · rw [ih, hu]
      refine key (if k then t.take else t) ?_
      cases k
      · rfl
      · simp [Tx.take]

/-- **It returns** once the transmitter has taken as many bytes as there are. -/
theorem write_returns (ks : List Bool) (bs : List (BitVec 8)) (t : Tx) (h : bs.length ≤ ks.count true) : (write ks bs t).2 = [] := by
  induction ks generalizing bs t with
  | nil =>
    cases bs with
    | nil => rfl
    | cons b bs => simp at h
  | cons k ks ih =>
    cases bs with
    | nil => rfl
    | cons b bs =>
      unfold write
      cases k with
      | true =>
        rw [List.count_cons_self, List.length_cons] at h
        simp only [Tx.take, if_true]
        exact ih _ _ (by omega)
      | false =>
        rw [List.count_cons_of_ne (by decide), List.length_cons] at h
        simp only [Bool.false_eq_true, if_false]
        split
        · exact ih _ _ (by omega)
        · exact ih _ _ (by rw [List.length_cons]; omega)

/-- Three bytes while the first waits for one that is still there -/
example : write [false, true, false, true, true] [1, 2, 3] ⟨some 9, []⟩ = (⟨some 3, [9, 1, 2]⟩, []) := by decide

/-! ## Receiving -/

/-- **If at most one byte arrives between two reads of the register,** none is lost, and those read are the first that arrived; the rest is in the register or yet to come: `left` reads are not used. -/
theorem read_keeps (as : List (List (BitVec 8))) (n : Nat) (r : Rx) (h1 : ∀ a ∈ as, a.length ≤ 1) (hr : r.rdr = none) :
    ∃ left, (read as n r).2 ++ (as.drop (as.length - left)).flatten = as.flatten ∧ (read as n r).1 = r ∧ left ≤ as.length ∧ ((read as n r).2.length = n ∨ left = 0) := by
  induction as generalizing n r with
  | nil =>
    cases n with
    | zero => exact ⟨0, rfl, rfl, Nat.le_refl _, .inl rfl⟩
    | succ n => exact ⟨0, rfl, rfl, Nat.le_refl _, .inr rfl⟩
  | cons a as ih =>
    cases n with
    | zero => exact ⟨(a :: as).length, by simp [read], by simp [read], Nat.le_refl _, .inl (by simp [read])⟩
    | succ n =>
      have ha := h1 a List.mem_cons_self
      have h1' : ∀ x ∈ as, x.length ≤ 1 := fun x hx => h1 x (List.mem_cons_of_mem _ hx)
      have dr : ∀ left, left ≤ as.length → (a :: as).drop ((a :: as).length - left) = as.drop (as.length - left) := by
        intro left hl
        rw [List.length_cons, show as.length + 1 - left = (as.length - left) + 1 by omega, List.drop_succ_cons]
      match a, ha with
      | [], _ =>
        obtain ⟨left, q1, q2, q3, q4⟩ := ih (n + 1) r h1' hr
        have e : read ([] :: as) (n + 1) r = read as (n + 1) r := by
          simp only [read, List.foldl_nil, hr]
        refine ⟨left, ?_, by rw [e]; exact q2, by rw [List.length_cons]; omega, by rw [e]; exact q4⟩
        rw [e, dr left q3, List.flatten_cons, List.nil_append]
        exact q1
      | [b], _ =>
        obtain ⟨left, q1, q2, q3, q4⟩ := ih n r h1' hr
        have back : ({ r with rdr := none } : Rx) = r := by
          obtain ⟨x, y⟩ := r
          cases hr
          rfl
        have e : read ([b] :: as) (n + 1) r = ((read as n r).1, b :: (read as n r).2) := by
          simp only [read, List.foldl_cons, List.foldl_nil, Rx.arrive, hr]
          rw [show ({ rdr := none, lost := r.lost } : Rx) = r from back]
        refine ⟨left, ?_, by rw [e]; exact q2, by rw [List.length_cons]; omega, ?_⟩
        · rw [e, dr left q3, List.flatten_cons]
          show b :: ((read as n r).2 ++ _) = b :: as.flatten
          rw [q1]
        · rw [e]
          rcases q4 with q | q
          · exact .inl (by rw [List.length_cons, q])
          · exact .inr q

example : read [[], [5], [], [6], [7]] 2 ⟨none, 0⟩ = (⟨none, 0⟩, [5, 6]) := by decide

/-- **Bytes are lost** if two arrive between two reads, and nobody is told. -/
theorem read_loses : read [[5, 6], [7]] 2 ⟨none, 0⟩ = (⟨none, 1⟩, [5, 7]) := by decide

end Verif.Uart
