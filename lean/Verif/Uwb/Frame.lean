import Verif.Uwb.Model

/-!
# UWB: frames
-/

namespace Verif.Uwb

/-! ## What is required -/

/-- An IEEE 802.15.4 data frame with short addresses and compressed PAN id, with two bytes for the checksum: little-endian fields. -/
def macFrame (pan src dst : Addr) (seq : Byte) (payload : List Byte) : List Byte :=
  [0x41, 0x88, seq, pan.extractLsb' 0 8, pan.extractLsb' 8 8, dst.extractLsb' 0 8, dst.extractLsb' 8 8, src.extractLsb' 0 8, src.extractLsb' 8 8] ++ payload ++ [0, 0]

/-- Any frame of at least 11 bytes, with its fields named: frame control, header, payload, checksum. -/
def anyFrame (c : Byte × Byte) (pan src dst : Addr) (seq : Byte) (payload : List Byte) (k : Byte × Byte) : List Byte :=
  [c.1, c.2, seq, pan.extractLsb' 0 8, pan.extractLsb' 8 8, dst.extractLsb' 0 8, dst.extractLsb' 8 8, src.extractLsb' 0 8, src.extractLsb' 8 8] ++ payload ++ [k.1, k.2]

theorem macFrame_any (pan src dst : Addr) (seq : Byte) (p : List Byte) : macFrame pan src dst seq p = anyFrame (0x41, 0x88) pan src dst seq p (0, 0) := rfl

theorem anyFrame_length (c k : Byte × Byte) (pan src dst : Addr) (seq : Byte) (p : List Byte) : (anyFrame c pan src dst seq p k).length = p.length + 11 := by
  simp [anyFrame]

theorem macFrame_length (pan src dst : Addr) (seq : Byte) (p : List Byte) : (macFrame pan src dst seq p).length = p.length + 11 := by
  simp [macFrame]

/-! ## Memory -/

theorem bind_ok {α β : Type} (a : α) (f : α → Except Err β) : (Except.ok a >>= f) = f a := id rfl

theorem bind_error {α β : Type} (e : Err) (f : α → Except Err β) : ((.error e : Except Err α) >>= f) = .error e := id rfl

theorem pure_eq {α : Type} (a : α) : (pure a : Except Err α) = .ok a := id rfl

theorem slice_prefix (a b : List Byte) : slice (a ++ b) 0 a.length = .ok a := by
  unfold slice
  rw [if_pos (by simp)]
  simp

theorem slice_at (a b c : List Byte) : slice (a ++ b ++ c) a.length b.length = .ok b := by
  unfold slice
  rw [if_pos (by simp)]
  simp [List.append_assoc]

theorem put_at (a b c x : List Byte) (h : x.length = b.length) : put (a ++ b ++ c) a.length x = .ok (a ++ x ++ c) := by
  unfold put
  rw [if_pos (by simp; omega)]
  simp [List.append_assoc, h, ← List.drop_drop]

theorem size_eq {n : Nat} (h : n < 4294967296) : size n = n := Nat.mod_eq_of_lt h

theorem sizeSub_eq {a b : Nat} (h : a < 4294967296) (hb : b ≤ a) : sizeSub a b = a - b := by unfold sizeSub size; omega

theorem sizeSub_small {a b : Nat} (h : a < b) (hb : b < 4294967296) : sizeSub a b = 4294967296 + a - b := by unfold sizeSub size; omega

/-! ## C39: frames -/

theorem lo_eq (x : Addr) : lo x.toNat = x.extractLsb' 0 8 := by
  apply BitVec.eq_of_toNat_eq
  unfold lo
  rw [BitVec.toNat_ofNat, BitVec.extractLsb'_toNat, show (0xff : Nat) = 2 ^ 8 - 1 from rfl, Nat.and_two_pow_sub_one_eq_mod]
  simp

theorem hi_eq (x : Addr) : hi x.toNat = x.extractLsb' 8 8 := by
  apply BitVec.eq_of_toNat_eq
  unfold hi
  rw [BitVec.toNat_ofNat, BitVec.extractLsb'_toNat]

theorem word_eq (x : Addr) : word (x.extractLsb' 8 8) (x.extractLsb' 0 8) = x := by
  apply BitVec.eq_of_toNat_eq
  unfold word
  rw [BitVec.toNat_ofNat, BitVec.extractLsb'_toNat, BitVec.extractLsb'_toNat]
  have hx := x.isLt
  have h1 : x.toNat >>> 0 % 2 ^ 8 < 2 ^ 8 := Nat.mod_lt _ (by decide)
  rw [← Nat.shiftLeft_add_eq_or_of_lt h1, Nat.shiftLeft_eq, Nat.shiftRight_eq_div_pow, Nat.shiftRight_eq_div_pow]
  omega

/-- What `uwb_mac_encapsulate_frame` makes of a buffer that starts with the payload and has room for 11 more bytes. -/
theorem encapsulate_eq (pan src dst : Addr) (seq : Byte) (payload room rest : List Byte) (hr : room.length = 11) (hl : payload.length + 11 < 4294967296) :
    encapsulate pan src dst seq (payload ++ room ++ rest) payload.length = .ok (macFrame pan src dst seq payload ++ rest, payload.length + 11) := by
  unfold encapsulate memmove
  have e1 : slice (payload ++ room ++ rest) 0 payload.length = .ok payload := by
    rw [List.append_assoc]; exact slice_prefix _ _
  simp only [e1, hdrLen, crcLen]
  -- the payload is moved behind the header
  obtain ⟨h, t, hht, hh⟩ : ∃ h t : List Byte, payload ++ room = h ++ t ∧ h.length = 9 :=
    ⟨(payload ++ room).take 9, (payload ++ room).drop 9, (List.take_append_drop _ _).symm, by simp; omega⟩
  have hlen : payload.length + room.length = h.length + t.length := by
    rw [← List.length_append, ← List.length_append, hht]
  obtain ⟨m, c, hmc, hm⟩ : ∃ m c : List Byte, t = m ++ c ∧ m.length = payload.length :=
    ⟨t.take payload.length, t.drop payload.length, (List.take_append_drop _ _).symm, by simp; omega⟩
  have hc : c.length = 2 := by
    have : t.length = m.length + c.length := by rw [hmc, List.length_append]
    omega
  have e2 : put (payload ++ room ++ rest) 9 payload = .ok (h ++ payload ++ (c ++ rest)) := by
    rw [hht, hmc, ← hh, show h ++ (m ++ c) ++ rest = h ++ m ++ (c ++ rest) by simp]
    exact put_at _ _ _ _ hm.symm
  have e3 : ∀ x : List Byte, x.length = 9 → put (h ++ payload ++ (c ++ rest)) 0 x = .ok (x ++ payload ++ (c ++ rest)) := by
    intro x hx
    have := put_at [] h (payload ++ (c ++ rest)) x (by omega)
    simpa [List.append_assoc] using this
  have e4 : ∀ x : List Byte, x.length = 9 → put (x ++ payload ++ (c ++ rest)) (size (payload.length + 9)) [0, 0] = .ok (x ++ payload ++ [0, 0] ++ rest) := by
    intro x hx
    have := put_at (x ++ payload) c rest [0, 0] (by simp [hc])
    rw [List.length_append, hx] at this
    rw [show size (payload.length + 9) = 9 + payload.length by rw [size_eq (by omega)]; omega]
    simpa [List.append_assoc] using this
  simp only [bind, Except.bind, pure, Except.pure, e2]
  rw [e3 _ rfl]
  simp only
  rw [e4 _ rfl]
  simp only
  congr 2
  · unfold macFrame
    rw [lo_eq pan, hi_eq pan, lo_eq dst, hi_eq dst, lo_eq src, hi_eq src, show lo frameHdr = 0x41 from rfl, show hi frameHdr = 0x88 from rfl]
  · rw [size_eq (n := payload.length + 9) (by omega), size_eq (by omega)]

/-- What `uwb_mac_decapsulate_frame` makes of a frame: the payload is at the front of the buffer. -/
theorem decapsulate_eq (c k : Byte × Byte) (pan src dst : Addr) (seq : Byte) (payload rest : List Byte) (hl : payload.length + 11 < 4294967296) :
    ∃ after, decapsulate (anyFrame c pan src dst seq payload k ++ rest) (payload.length + 11) = .ok (⟨pan, src, dst, seq⟩, payload ++ after, payload.length) ∧
      after.length = rest.length + 11 := by
  generalize hh : [c.1, c.2, seq, pan.extractLsb' 0 8, pan.extractLsb' 8 8, dst.extractLsb' 0 8, dst.extractLsb' 8 8, src.extractLsb' 0 8, src.extractLsb' 8 8] = h
  have hbuf : anyFrame c pan src dst seq payload k ++ rest = h ++ (payload ++ [k.1, k.2]) ++ rest := by
    unfold anyFrame
    rw [← hh]
    simp
  have h9 : h.length = 9 := by rw [← hh]; rfl
  have e1 : slice (h ++ (payload ++ [k.1, k.2]) ++ rest) hdrLen (sizeSub (payload.length + 11) hdrLen) = .ok (payload ++ [k.1, k.2]) := by
    have hh9 : hdrLen = 9 := rfl
    rw [hh9]
    have := slice_at h (payload ++ [k.1, k.2]) rest
    rw [h9] at this
    rw [show sizeSub (payload.length + 11) 9 = (payload ++ [k.1, k.2]).length by
      rw [sizeSub_eq (by omega) (by omega), List.length_append, show ([k.1, k.2] : List Byte).length = 2 from rfl]; omega]
    exact this
  have e2 : ∃ z, put (h ++ (payload ++ [k.1, k.2]) ++ rest) 0 (payload ++ [k.1, k.2]) = .ok (payload ++ [k.1, k.2] ++ z) ∧ z.length = rest.length + 9 := by
    have hlen : (payload ++ [k.1, k.2]).length ≤ (h ++ (payload ++ [k.1, k.2]) ++ rest).length := by simp; omega
    refine ⟨(h ++ (payload ++ [k.1, k.2]) ++ rest).drop (payload ++ [k.1, k.2]).length, ?_, ?_⟩
    · unfold put
      rw [if_pos (by omega)]
      simp
    · rw [List.length_drop, List.length_append, List.length_append]
      omega
  obtain ⟨z, e2, hz⟩ := e2
  have hb : ∀ (i : Nat) (b : Byte), h[i]? = some b → byte (h ++ (payload ++ [k.1, k.2]) ++ rest) i = .ok b := by
    intro i b hib
    unfold byte
    have hi : i < h.length := (List.getElem?_eq_some_iff.mp hib).1
    rw [List.append_assoc, List.getElem?_append_left hi, hib]
  refine ⟨[k.1, k.2] ++ z, ?_, by simp [hz]⟩
  have e3 : memmove (h ++ (payload ++ [k.1, k.2]) ++ rest) 0 hdrLen (sizeSub (payload.length + 11) hdrLen) = .ok (payload ++ ([k.1, k.2] ++ z)) := by
    unfold memmove
    rw [e1]
    simp only [bind, Except.bind]
    rw [e2, List.append_assoc]
  have e4 : sizeSub (sizeSub (payload.length + 11) hdrLen) crcLen = payload.length := by
    have h9 : hdrLen = 9 := rfl
    have h2 : crcLen = 2 := rfl
    rw [h9, h2, sizeSub_eq (a := payload.length + 11) (by omega) (by omega), sizeSub_eq (by omega) (by omega)]; omega
  rw [hbuf]
  unfold decapsulate
  rw [hb 2 seq (by rw [← hh]; rfl), hb 3 _ (by rw [← hh]; rfl), hb 4 _ (by rw [← hh]; rfl), hb 5 _ (by rw [← hh]; rfl), hb 6 _ (by rw [← hh]; rfl),
    hb 7 _ (by rw [← hh]; rfl), hb 8 _ (by rw [← hh]; rfl)]
  clear e1
  revert e3 e4
  generalize sizeSub (payload.length + 11) hdrLen = n
  generalize sizeSub n crcLen = n'
  intro e3 e4
  simp only [bind_ok, pure_eq, e3, e4, word_eq]

/-- C39: a frame made of a payload in a buffer with room for 11 more bytes is a MAC frame, and taking it apart in any buffer gives back the payload, its
length, the PAN id, both addresses and the sequence number. -/
theorem frame_round_trip (pan src dst : Addr) (seq : Byte) (payload room : List Byte) (hr : 11 ≤ room.length) (hl : payload.length + 11 < 4294967296) :
    ∃ rest, encapsulate pan src dst seq (payload ++ room) payload.length = .ok (macFrame pan src dst seq payload ++ rest, payload.length + 11) ∧
      ∀ rest', ∃ after, decapsulate (macFrame pan src dst seq payload ++ rest') (payload.length + 11) = .ok (⟨pan, src, dst, seq⟩, payload ++ after, payload.length) := by
  refine ⟨room.drop 11, ?_, fun rest' => ?_⟩
  · have := encapsulate_eq pan src dst seq payload (room.take 11) (room.drop 11) (by simp; omega) hl
    rwa [List.append_assoc, List.take_append_drop] at this
  · obtain ⟨after, h, _⟩ := decapsulate_eq (0x41, 0x88) (0, 0) pan src dst seq payload rest' hl
    exact ⟨after, h⟩

/-- Without room for 11 bytes the buffer is overrun. -/
theorem encapsulate_no_room (pan src dst : Addr) (seq : Byte) (buf : List Byte) (n : Nat) (hn : n + 11 < 4294967296) (h : buf.length < n + 11) :
    encapsulate pan src dst seq buf n = .error .bounds := by
  unfold encapsulate memmove slice
  by_cases h1 : 0 + n ≤ buf.length
  · rw [if_pos h1]
    simp only [bind, Except.bind, hdrLen]
    unfold put
    by_cases h2 : 9 + ((buf.drop 0).take n).length ≤ buf.length
    · rw [if_pos h2]
      have hlen : (buf.take 9 ++ (buf.drop 0).take n ++ buf.drop (9 + ((buf.drop 0).take n).length)).length = buf.length := by
        simp only [List.length_append, List.length_take, List.length_drop] at h2 ⊢; omega
      generalize buf.take 9 ++ (buf.drop 0).take n ++ buf.drop (9 + ((buf.drop 0).take n).length) = b at hlen
      simp only
      have hn' : n ≤ b.length := by omega
      have h9 : 9 ≤ b.length := by simp only [List.length_take, List.length_drop] at h2; omega
      rw [if_pos (by simpa using h9)]
      simp only
      rw [if_neg]
      simp only [List.length_append, List.length_take, List.length_drop, List.length_cons, List.length_nil]
      rw [size_eq (by omega)]
      omega
    · rw [if_neg h2]
  · rw [if_neg h1]
    rfl

/-- Bytes as PAN id or address -/
theorem split_word (l h : Byte) : (h ++ l : Addr).extractLsb' 0 8 = l ∧ (h ++ l : Addr).extractLsb' 8 8 = h := by
  constructor
  · apply BitVec.eq_of_toNat_eq
    rw [BitVec.extractLsb'_toNat, BitVec.toNat_append, ← Nat.shiftLeft_add_eq_or_of_lt l.isLt, Nat.shiftLeft_eq, Nat.shiftRight_zero]
    have := l.isLt
    omega
  · apply BitVec.eq_of_toNat_eq
    rw [BitVec.extractLsb'_toNat, BitVec.toNat_append, ← Nat.shiftLeft_add_eq_or_of_lt l.isLt, Nat.shiftLeft_eq, Nat.shiftRight_eq_div_pow]
    have := l.isLt
    have := h.isLt
    omega

/-- Every list of at least 11 bytes is a frame. -/
theorem every_frame (f : List Byte) (h : 11 ≤ f.length) : ∃ c pan src dst seq payload k, f = anyFrame c pan src dst seq payload k := by
  match f with
  | c0 :: c1 :: seq :: p0 :: p1 :: d0 :: d1 :: s0 :: s1 :: rest =>
    simp only [List.length_cons] at h
    have : rest = rest.take (rest.length - 2) ++ rest.drop (rest.length - 2) := (List.take_append_drop _ _).symm
    obtain ⟨k0, k1, hk⟩ : ∃ k0 k1, rest.drop (rest.length - 2) = [k0, k1] := by
      have hl : (rest.drop (rest.length - 2)).length = 2 := by rw [List.length_drop]; omega
      match hr : rest.drop (rest.length - 2) with
      | [a, b] => exact ⟨a, b, rfl⟩
      | [] => rw [hr] at hl; cases hl
      | [a] => rw [hr] at hl; cases hl
      | a :: b :: c :: d => rw [hr] at hl; simp at hl
    refine ⟨(c0, c1), p1 ++ p0, s1 ++ s0, d1 ++ d0, seq, rest.take (rest.length - 2), (k0, k1), ?_⟩
    unfold anyFrame
    rw [(split_word p0 p1).1, (split_word p0 p1).2, (split_word d0 d1).1, (split_word d0 d1).2, (split_word s0 s1).1, (split_word s0 s1).2]
    simp only [List.cons_append, List.nil_append, List.cons.injEq, true_and]
    rw [← hk]
    exact this

/-- Frames of less than 9 bytes make `uwb_mac_decapsulate_frame` move nearly 4 GB; 9 or 10 bytes give a payload of nearly 4 GB. -/
theorem decapsulate_short (buf : List Byte) (n : Nat) (hb : buf.length < 1000000) :
    (n < 9 → decapsulate buf n = .error .bounds) ∧
    (n = 9 ∨ n = 10 → ∀ h b k, decapsulate buf n = .ok (h, b, k) → k ≥ 4294967294) := by
  have hm : n < 9 → ∀ b, memmove b 0 hdrLen (sizeSub n hdrLen) = .error .bounds ∨ 1000000 ≤ b.length := by
    intro hn b
    unfold memmove slice
    have h9 : hdrLen = 9 := rfl
    rw [h9, sizeSub_small hn (by decide)]
    by_cases h : 9 + (4294967296 + n - 9) ≤ b.length
    · right; omega
    · left; rw [if_neg h, bind_error]
  have hb' : ∀ i, byte buf i = .error .bounds ∨ ∃ b, byte buf i = .ok b := by
    intro i
    unfold byte
    cases buf[i]? with
    | none => exact .inl rfl
    | some b => exact .inr ⟨b, rfl⟩
  constructor
  · intro hn
    unfold decapsulate
    rcases hb' 2 with e | ⟨b2, e⟩ <;> rw [e] <;> simp only [bind_error, bind_ok]
    rcases hb' 3 with e | ⟨b2, e⟩ <;> rw [e] <;> simp only [bind_error, bind_ok]
    rcases hb' 4 with e | ⟨b2, e⟩ <;> rw [e] <;> simp only [bind_error, bind_ok]
    rcases hb' 5 with e | ⟨b2, e⟩ <;> rw [e] <;> simp only [bind_error, bind_ok]
    rcases hb' 6 with e | ⟨b2, e⟩ <;> rw [e] <;> simp only [bind_error, bind_ok]
    rcases hb' 7 with e | ⟨b2, e⟩ <;> rw [e] <;> simp only [bind_error, bind_ok]
    rcases hb' 8 with e | ⟨b2, e⟩ <;> rw [e] <;> simp only [bind_error, bind_ok]
    rcases hm hn buf with e | e
    · rw [e, bind_error]
    · omega
  · intro hn h b k hd
    have : k = sizeSub (sizeSub n hdrLen) crcLen := by
      unfold decapsulate at hd
      rcases hb' 2 with e | ⟨b2, e⟩ <;> rw [e] at hd <;> simp only [bind_error, bind_ok] at hd
      · cases hd
      rcases hb' 3 with e | ⟨b2, e⟩ <;> rw [e] at hd <;> simp only [bind_error, bind_ok] at hd
      · cases hd
      rcases hb' 4 with e | ⟨b2, e⟩ <;> rw [e] at hd <;> simp only [bind_error, bind_ok] at hd
      · cases hd
      rcases hb' 5 with e | ⟨b2, e⟩ <;> rw [e] at hd <;> simp only [bind_error, bind_ok] at hd
      · cases hd
      rcases hb' 6 with e | ⟨b2, e⟩ <;> rw [e] at hd <;> simp only [bind_error, bind_ok] at hd
      · cases hd
      rcases hb' 7 with e | ⟨b2, e⟩ <;> rw [e] at hd <;> simp only [bind_error, bind_ok] at hd
      · cases hd
      rcases hb' 8 with e | ⟨b2, e⟩ <;> rw [e] at hd <;> simp only [bind_error, bind_ok] at hd
      · cases hd
      cases hmm : memmove buf 0 hdrLen (sizeSub n hdrLen) with
      | error e => rw [hmm, bind_error] at hd; cases hd
      | ok b' =>
        rw [hmm, bind_ok, pure_eq] at hd
        exact (congrArg (fun x => x.2.2) (Except.ok.inj hd)).symm
    rw [this, show hdrLen = 9 from rfl, show crcLen = 2 from rfl, sizeSub_eq (a := n) (by omega) (by omega), sizeSub_small (by omega) (by decide)]
    omega

end Verif.Uwb
