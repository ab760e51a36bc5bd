import Verif.Udp.Frame

/-! # Framing of topics: what is proved (C93) -/

namespace Verif.Udp

/-! ## Specification -/

/-- A message preceded by its length in four bytes, little endian, behind the tag 0x0D. -/
def Framed (f m : Bytes) : Prop :=
  ∃ b0 b1 b2 b3 : UInt8, f = [0x0D, b0, b1, b2, b3] ++ m ∧
    b0.toNat + 2 ^ 8 * b1.toNat + 2 ^ 16 * b2.toNat + 2 ^ 24 * b3.toNat = m.length

/-- Values that survive the encoding of the topic. -/
def Codec.Lossless (c : Codec) (v : Bytes) : Prop := ∀ w, c.enc v = some w → c.dec w = some v

/-! ## Encoding -/

theorem messageSize_length (n : Nat) : (messageSize n).length = 5 := rfl

theorem framed_mk {m : Bytes} (h : m.length < 2 ^ 32) : Framed (messageSize m.length ++ m) m := by
  refine ⟨_, _, _, _, rfl, ?_⟩
  simp only [UInt8.toNat_ofNat']
  omega

theorem encodeHeader_eq {t : Topic} {n : Nat} {f : Bytes} : encodeHeader t n = some f ↔
    5 + (topicHeader t.msgid t.name).length ≤ n ∧
      f = messageSize (topicHeader t.msgid t.name).length ++ topicHeader t.msgid t.name := by
  unfold encodeHeader
  by_cases h : n < 5
  · rw [if_pos h]
    exact ⟨(fun h => by cases h), fun hh => absurd hh.1 (by omega)⟩
  · rw [if_neg h]
    unfold pbEncode
    by_cases h2 : (topicHeader t.msgid t.name).length ≤ n - 5
    · rw [if_pos h2]
      simp only [Option.bind_eq_bind, Option.bind_some, messageSize_length, Nat.le_refl, if_true, Option.some.injEq]
      exact ⟨fun e => ⟨by omega, e.symm⟩, fun e => e.2.symm⟩
    · rw [if_neg h2]
      exact ⟨(fun h => by cases h), fun hh => absurd hh.1 (by omega)⟩

theorem encodeBody_eq {t : Topic} {n m : Nat} {f : Bytes} : (encodeBody t n m).1 = some f ↔
    t.buffer.length ≤ m ∧ t.published = true ∧ ∃ w, t.codec.enc t.buffer = some w ∧ 5 + w.length ≤ n ∧
      f = messageSize w.length ++ w := by
  unfold encodeBody
  by_cases h : m < t.buffer.length
  · rw [if_pos h]
    exact ⟨(fun h => by cases h), fun hh => absurd hh.1 (by omega)⟩
  · rw [if_neg h]
    by_cases h2 : n < 5
    · rw [if_pos h2]
      refine ⟨(fun h => by cases h), ?_⟩
      rintro ⟨_, _, w, _, hw, _⟩
      omega
    · rw [if_neg h2]
      by_cases h3 : t.published = false
      · rw [if_pos h3]
        refine ⟨(fun h => by cases h), ?_⟩
        rintro ⟨_, hp, _⟩
        rw [h3] at hp; cases hp
      · rw [if_neg h3]
        cases hw : t.codec.enc t.buffer with
        | none =>
          refine ⟨(fun h => by cases h), ?_⟩
          rintro ⟨_, _, w, hw', _⟩
          cases hw'
        | some w =>
          unfold pbEncode
          by_cases h4 : w.length ≤ n - 5
          · simp only [Option.bind_eq_bind, Option.bind_some, if_pos h4, messageSize_length, Nat.le_refl, if_true,
              Option.some.injEq]
            constructor
            · intro e
              exact ⟨by omega, by simpa using h3, w, rfl, by omega, e.symm⟩
            · rintro ⟨_, _, w', e, _, hf⟩
              cases e
              exact hf.symm
          · simp only [Option.bind_eq_bind, Option.bind_some, if_neg h4, Option.bind_none]
            refine ⟨(fun h => by cases h), ?_⟩
            rintro ⟨_, _, w', e, h5, _⟩
            cases e
            omega

theorem encode_iff {t : Topic} {n m : Nat} {f : Bytes} : (encode t n m).1 = some f ↔
    t.buffer.length ≤ m ∧ t.published = true ∧ ∃ w, t.codec.enc t.buffer = some w ∧
      (topicHeader t.msgid t.name).length + w.length + 10 ≤ n ∧
      f = messageSize (topicHeader t.msgid t.name).length ++ topicHeader t.msgid t.name ++ (messageSize w.length ++ w) := by
  unfold encode
  cases hh : encodeHeader t n with
  | none =>
    refine ⟨(fun h => by cases h), ?_⟩
    rintro ⟨_, _, w, _, hn, _⟩
    have := (encodeHeader_eq (t := t) (n := n)).2 ⟨by omega, rfl⟩
    rw [hh] at this; cases this
  | some h =>
    obtain ⟨h1, h2⟩ := encodeHeader_eq.1 hh
    have hl : h.length = 5 + (topicHeader t.msgid t.name).length := by
      rw [h2, List.length_append, messageSize_length]
    simp only
    cases hb : encodeBody t (n - h.length) m with
    | mk o c =>
      cases o with
      | none =>
        refine ⟨(fun h => by cases h), ?_⟩
        rintro ⟨a1, a2, w, a3, a4, _⟩
        have := (encodeBody_eq (t := t) (n := n - h.length) (m := m)).2 ⟨a1, a2, w, a3, by omega, rfl⟩
        rw [hb] at this; cases this
      | some b =>
        obtain ⟨a1, a2, w, a3, a4, a5⟩ := (encodeBody_eq (t := t) (n := n - h.length) (m := m) (f := b)).1 (by rw [hb])
        simp only [Option.some.injEq]
        constructor
        · intro e
          refine ⟨a1, a2, w, a3, by omega, ?_⟩
          rw [← e, h2, a5]
        · rintro ⟨_, _, w', e, _, hf⟩
          rw [a3] at e
          cases e
          rw [hf, h2, a5]

/-- C93: an encoded topic is the framed header followed by the framed message, and fits in the buffer. -/
theorem encode_framed {t : Topic} {n m : Nat} {f : Bytes} (hn : n < 2 ^ 32) (h : (encode t n m).1 = some f) :
    f.length ≤ n ∧ ∃ a b w, t.codec.enc t.buffer = some w ∧ f = a ++ b ∧ Framed a (topicHeader t.msgid t.name) ∧ Framed b w := by
  obtain ⟨_, _, w, hw, hl, e⟩ := encode_iff.1 h
  refine ⟨?_, _, _, w, hw, e, framed_mk (by omega), framed_mk (by omega)⟩
  rw [e]
  simp only [List.length_append, messageSize_length]
  omega

/-- C93: encoding succeeds exactly when the topic was published, its object fits in the scratch buffer, it can be encoded and
everything fits in the output buffer. -/
theorem encode_succeeds_iff {t : Topic} {n m : Nat} : (encode t n m).1.isSome ↔ t.buffer.length ≤ m ∧ t.published = true ∧
    ∃ w, t.codec.enc t.buffer = some w ∧ (topicHeader t.msgid t.name).length + w.length + 10 ≤ n := by
  rw [Option.isSome_iff_exists]
  constructor
  · rintro ⟨f, h⟩
    obtain ⟨a, b, w, c, d, _⟩ := encode_iff.1 h
    exact ⟨a, b, w, c, d⟩
  · rintro ⟨a, b, w, c, d⟩
    exact ⟨_, encode_iff.2 ⟨a, b, w, c, d, rfl⟩⟩

/-- Finding: with a scratch buffer larger than the object, encoding reads behind the object. -/
theorem encode_overreads {t : Topic} {n m : Nat} {f : Bytes} (h : (encode t n m).1 = some f) :
    (encode t n m).2 = m - t.buffer.length := by
  unfold encode at h ⊢
  cases hh : encodeHeader t n with
  | none => rw [hh] at h; cases h
  | some hd =>
    rw [hh] at h
    simp only at h ⊢
    cases hb : encodeBody t (n - hd.length) m with
    | mk o c =>
      cases o with
      | none => rw [hb] at h; cases h
      | some b =>
        simp only
        have e := (encodeBody_eq (t := t) (n := n - hd.length) (m := m) (f := b)).1 (by rw [hb])
        obtain ⟨a1, a2, w, _, a4, _⟩ := e
        unfold encodeBody at hb
        rw [if_neg (by omega), if_neg (by omega), if_neg (by rw [a2]; decide)] at hb
        exact (congrArg Prod.snd hb).symm

/-! ## Decoding what was encoded -/

theorem readByte_cons (b : UInt8) (r : Bytes) (m : Nat) : readByte ⟨b :: r, m + 1⟩ = .ok (b, ⟨r, m⟩) := by
  unfold readByte
  rw [if_neg (by simp)]
  rfl

theorem readVarintN_varint (k : Nat) : ∀ (n : Nat) (r : Bytes) (m : Nat), n < 128 ^ (k + 1) →
    readVarintN (k + 1) ⟨varint n ++ r, (varint n).length + m⟩ = .ok (n, ⟨r, m⟩) := by
  have one : ∀ (k n : Nat) (r : Bytes) (m : Nat), n < 128 →
      readVarintN (k + 1) ⟨varint n ++ r, (varint n).length + m⟩ = .ok (n, ⟨r, m⟩) := by
    intro k n r m h
    have e : varint n = [UInt8.ofNat n] := by unfold varint; rw [if_pos h]
    have e2 : (UInt8.ofNat n).toNat = n := by rw [UInt8.toNat_ofNat']; omega
    rw [e, show [UInt8.ofNat n].length + m = m + 1 from by simp; omega]
    unfold readVarintN
    simp only [List.cons_append, List.nil_append, readByte_cons, bind, Except.bind, e2, h, if_true]
  induction k with
  | zero => intro n r m h; exact one 0 n r m (by simpa using h)
  | succ k ih =>
    intro n r m h
    by_cases hn : n < 128
    · exact one _ n r m hn
    · have e : varint n = UInt8.ofNat (n % 128 + 128) :: varint (n / 128) := by
        conv => lhs; unfold varint
        rw [if_neg hn]
      have e2 : (UInt8.ofNat (n % 128 + 128)).toNat = n % 128 + 128 := by rw [UInt8.toNat_ofNat']; omega
      have hlt : n / 128 < 128 ^ (k + 1) := by
        rw [Nat.div_lt_iff_lt_mul (by decide)]
        rw [Nat.pow_succ] at h
        exact h
      have := ih (n / 128) r m hlt
      rw [e, show (UInt8.ofNat (n % 128 + 128) :: varint (n / 128)).length + m = ((varint (n / 128)).length + m) + 1 from by
        simp only [List.length_cons]; omega]
      unfold readVarintN
      simp only [List.cons_append, readByte_cons, bind, Except.bind, e2, this]
      rw [if_neg (by omega)]
      congr 2
      omega

theorem readVarint_varint {n : Nat} (r : Bytes) (m : Nat) (h : n < 2 ^ 32) :
    readVarint ⟨varint n ++ r, (varint n).length + m⟩ = .ok (n, ⟨r, m⟩) := by
  unfold readVarint
  have := readVarintN_varint 4 n r m (by omega)
  simp only [this, bind, Except.bind]
  rw [if_pos h]

theorem readN_append (l r : Bytes) (m : Nat) : readN l.length ⟨l ++ r, l.length + m⟩ = .ok (l, ⟨r, m⟩) := by
  induction l with
  | nil => simp [readN]
  | cons b l ih =>
    rw [show (b :: l).length + m = (l.length + m) + 1 from by simp only [List.length_cons]; omega]
    simp only [List.length_cons, readN, List.cons_append, readByte_cons, bind, Except.bind, ih]

theorem readStr_append (l r : Bytes) (m : Nat) : readStr l.length ⟨l ++ r, l.length + m⟩ = .ok (l, ⟨r, m⟩) := by
  unfold readStr
  rw [if_neg (by simp)]
  exact readN_append l r m

theorem fromLe_le32 {n : Nat} (h : n < 2 ^ 32) : fromLe (le32 n) = n := by
  simp only [le32, fromLe, UInt8.toNat_ofNat']
  omega

theorem varint_small {n : Nat} (h : n < 128) : varint n = [UInt8.ofNat n] := by unfold varint; rw [if_pos h]

theorem readTag (b : UInt8) (r : Bytes) (m : Nat) (h : b.toNat < 128) : readVarint ⟨b :: r, m + 1⟩ = .ok (b.toNat, ⟨r, m⟩) := by
  have e : varint b.toNat = [b] := by rw [varint_small h]; simp
  have := readVarint_varint (n := b.toNat) r m (by omega)
  rw [e] at this
  rw [show [b].length + m = m + 1 from by simp; omega] at this
  exact this

theorem decodeSize_messageSize {n : Nat} (r : Bytes) (h : n < 2 ^ 32) :
    decodeSize 6 none ⟨messageSize n ++ r, 5⟩ = .ok (n, ⟨r, 0⟩) := by
  have e1 : readVarint ⟨messageSize n ++ r, 5⟩ = .ok (13, ⟨le32 n ++ r, 4⟩) := readTag 0x0D (le32 n ++ r) 4 (by decide)
  have e2 : readStr 4 ⟨le32 n ++ r, 4⟩ = .ok (le32 n, ⟨r, 0⟩) := readStr_append (le32 n) r 0
  unfold decodeSize
  rw [if_neg (show ¬ (5 : Nat) = 0 by decide)]
  simp only [e1, bind, Except.bind]
  rw [if_neg (by decide), if_pos (by decide), if_pos (by decide)]
  simp only [e2, fromLe_le32 h]
  unfold decodeSize
  rw [if_pos rfl]

theorem decodeHeader_topicHeader {id : Nat} {nm : Bytes} (r : Bytes) (k : Nat) (h1 : id < 2 ^ 32) (h2 : nm.length ≤ 64) :
    decodeHeader (k + 3) none none ⟨topicHeader id nm ++ r, (topicHeader id nm).length⟩ = .ok (id, nm, ⟨r, 0⟩) := by
  have ea : topicHeader id nm ++ r = 0x08 :: (varint id ++ (0x12 :: (varint nm.length ++ (nm ++ r)))) := by
    simp [topicHeader]
  have eb : (topicHeader id nm).length = ((varint id).length + (((varint nm.length).length + (nm.length + 0)) + 1)) + 1 := by
    simp only [topicHeader, List.length_append, List.length_cons]; omega
  rw [ea, eb]
  unfold decodeHeader
  rw [if_neg (by simp)]
  simp only [readTag 0x08 _ _ (by decide), bind, Except.bind]
  rw [if_neg (by decide), if_pos (by decide), if_pos (by decide)]
  simp only [readVarint_varint _ _ h1]
  unfold decodeHeader
  rw [if_neg (by simp)]
  simp only [readTag 0x12 _ _ (by decide), bind, Except.bind]
  rw [if_neg (by decide), if_neg (by decide), if_pos (by decide), if_pos (by decide)]
  simp only [readVarint_varint _ _ (show nm.length < 2 ^ 32 by omega), h2, if_true, readStr_append]
  unfold decodeHeader
  rw [if_pos rfl]

theorem varint_pos (n : Nat) : 0 < (varint n).length := by
  unfold varint
  by_cases h : n < 128
  · rw [if_pos h]; simp
  · rw [if_neg h]; simp

theorem topicHeader_pos (id : Nat) (nm : Bytes) : 2 ≤ (topicHeader id nm).length := by
  simp [topicHeader]; omega

theorem cstr_eq {l : Bytes} (h : ∀ b ∈ l, b ≠ 0) : cstr l = l := by
  unfold cstr
  induction l with
  | nil => rfl
  | cons b l ih =>
    rw [List.takeWhile_cons_of_pos (by simpa using h b (by simp)), ih (fun x hx => h x (by simp [hx]))]

theorem inject_frames {bus : List Topic} {h w rest : Bytes} (hh : h.length < 2 ^ 32) (hw : w.length < 2 ^ 32) :
    inject bus (messageSize h.length ++ h ++ (messageSize w.length ++ w) ++ rest) =
      match decodeHeader (h.length + 1) none none ⟨h ++ (messageSize w.length ++ w ++ rest), h.length⟩ with
      | .error .fail => .ignored
      | .error .oob => .oob
      | .ok (_, name, _) =>
        match findTopic bus (cstr name) with
        | none => .ignored
        | some i =>
          match bus[i]? with
          | none => .ignored
          | some t =>
            match t.codec.dec w with
            | none => .ignored
            | some v => if 1024 < t.buffer.length then .overflow else .published i v := by
  unfold inject
  have e1 : messageSize h.length ++ h ++ (messageSize w.length ++ w) ++ rest =
      messageSize h.length ++ (h ++ (messageSize w.length ++ w ++ rest)) := by simp
  have e2 : (messageSize h.length ++ (h ++ (messageSize w.length ++ w ++ rest))).drop 5 =
      h ++ (messageSize w.length ++ w ++ rest) := rfl
  have e3 : (messageSize h.length ++ (h ++ (messageSize w.length ++ w ++ rest))).drop (5 + h.length) =
      messageSize w.length ++ (w ++ rest) := by
    rw [← List.drop_drop, e2, List.drop_left]
    simp
  have e4 : (messageSize h.length ++ (h ++ (messageSize w.length ++ w ++ rest))).drop (2 * 5 + h.length) = w ++ rest := by
    rw [show 2 * 5 + h.length = (5 + h.length) + 5 by omega, ← List.drop_drop, e3]
    rfl
  rw [e1, decodeSize_messageSize _ hh]
  simp only [e2, e3, e4, decodeSize_messageSize (w ++ rest) hw]
  have e5 : ¬ (w ++ rest).length < w.length := by simp
  simp only [if_neg e5, List.take_left]
  generalize decodeHeader (h.length + 1) none none ⟨h ++ (messageSize w.length ++ w ++ rest), h.length⟩ = x
  cases x with
  | error e => cases e <;> rfl
  | ok r => rfl

/-- C93: what was encoded from a topic is published by the topic of the same name of another bus, whatever follows in the
buffer. -/
theorem inject_encode {t : Topic} {n m : Nat} {f rest : Bytes} {bus : List Topic} {i : Nat} {t' : Topic} (hn : n < 2 ^ 32)
    (h : (encode t n m).1 = some f) (hid : t.msgid < 2 ^ 32) (hnm : t.name.length ≤ 64) (hz : ∀ b ∈ t.name, b ≠ 0)
    (hf : findTopic bus t.name = some i) (hi : bus[i]? = some t') (hc : t'.codec = t.codec)
    (hl : t.codec.Lossless t.buffer) (hs : t'.buffer.length ≤ 1024) :
    inject bus (f ++ rest) = .published i t.buffer := by
  obtain ⟨_, _, w, hw, hlen, e⟩ := encode_iff.1 h
  rw [e, inject_frames (by omega) (by omega)]
  obtain ⟨k, hk⟩ : ∃ k, (topicHeader t.msgid t.name).length + 1 = k + 3 :=
    ⟨(topicHeader t.msgid t.name).length - 2, by have := topicHeader_pos t.msgid t.name; omega⟩
  rw [hk, decodeHeader_topicHeader _ _ hid hnm]
  simp only [cstr_eq hz, hf, hi, hc, hl w hw]
  rw [if_neg (by omega)]

/-! ## Decoding arbitrary bytes -/

/-- The stream does not go beyond the buffer. -/
def In.Ok (s : In) : Prop := s.left ≤ s.rem.length

theorem readByte_ok {s : In} (h : s.Ok) : readByte s ≠ .error .oob ∧ ∀ b s', readByte s = .ok (b, s') → s'.Ok := by
  obtain ⟨rem, left⟩ := s
  unfold In.Ok at h
  unfold readByte
  by_cases h0 : left = 0
  · rw [if_pos h0]
    exact ⟨by simp, fun _ _ e => by cases e⟩
  · rw [if_neg h0]
    cases rem with
    | nil => simp only [List.length_nil] at h; omega
    | cons b r =>
      refine ⟨by simp, fun _ _ e => ?_⟩
      cases e
      unfold In.Ok
      simp only [List.length_cons] at h ⊢
      omega

/-- `f` never goes beyond the buffer, and keeps within it. -/
def Safe {α : Type} (st : α → In) (x : Except Err α) : Prop := x ≠ .error .oob ∧ ∀ a, x = .ok a → (st a).Ok

theorem Safe.fail {α : Type} {st : α → In} : Safe st (.error .fail) :=
  ⟨by simp, fun _ e => by cases e⟩

theorem Safe.pure {α : Type} {st : α → In} {a : α} (h : (st a).Ok) : Safe st (.ok a) :=
  ⟨by simp, fun _ e => by cases e; exact h⟩

theorem Safe.bind {α β : Type} {st : α → In} {st' : β → In} {x : Except Err α} {f : α → Except Err β} (h : Safe st x)
    (hf : ∀ a, (st a).Ok → Safe st' (f a)) : Safe st' (x.bind f) := by
  cases x with
  | error e =>
    cases e with
    | fail => exact Safe.fail
    | oob => exact absurd rfl h.1
  | ok a => exact hf a (h.2 a rfl)

theorem readByte_safe {s : In} (h : s.Ok) : Safe Prod.snd (readByte s) :=
  ⟨(readByte_ok h).1, fun a e => (readByte_ok h).2 a.1 a.2 e⟩

theorem readN_safe (n : Nat) : ∀ {s : In}, s.Ok → Safe Prod.snd (readN n s) := by
  induction n with
  | zero => intro s h; exact Safe.pure h
  | succ n ih =>
    intro s h
    exact Safe.bind (readByte_safe h) (fun a ha => Safe.bind (ih ha) (fun b hb => Safe.pure hb))

theorem readStr_safe (n : Nat) {s : In} (h : s.Ok) : Safe Prod.snd (readStr n s) := by
  unfold readStr
  by_cases hl : s.left < n
  · rw [if_pos hl]; exact Safe.fail
  · rw [if_neg hl]; exact readN_safe n h

theorem readVarintN_safe (k : Nat) : ∀ {s : In}, s.Ok → Safe Prod.snd (readVarintN k s) := by
  induction k with
  | zero => intro s _; exact Safe.fail
  | succ k ih =>
    intro s h
    refine Safe.bind (readByte_safe h) (fun a ha => ?_)
    by_cases hb : a.1.toNat < 128
    · simp only [hb, if_true]; exact Safe.pure ha
    · simp only [hb, if_false]
      exact Safe.bind (ih ha) (fun b hb => Safe.pure hb)

theorem readVarint_safe {s : In} (h : s.Ok) : Safe Prod.snd (readVarint s) := by
  refine Safe.bind (readVarintN_safe 5 h) (fun a ha => ?_)
  by_cases hb : a.1 < 2 ^ 32
  · simp only [hb, if_true]; exact Safe.pure ha
  · simp only [hb, if_false]; exact Safe.fail

theorem skipField_safe (wt : Nat) {s : In} (h : s.Ok) : Safe id (skipField wt s) := by
  unfold skipField
  by_cases h0 : wt = 0
  · rw [if_pos h0]; exact Safe.bind (readVarint_safe h) (fun a ha => Safe.pure ha)
  · rw [if_neg h0]
    by_cases h1 : wt = 1
    · rw [if_pos h1]; exact Safe.bind (readStr_safe 8 h) (fun a ha => Safe.pure ha)
    · rw [if_neg h1]
      by_cases h2 : wt = 2
      · rw [if_pos h2]
        exact Safe.bind (readVarint_safe h) (fun a ha => Safe.bind (readStr_safe a.1 ha) (fun b hb => Safe.pure hb))
      · rw [if_neg h2]
        by_cases h5 : wt = 5
        · rw [if_pos h5]; exact Safe.bind (readStr_safe 4 h) (fun a ha => Safe.pure ha)
        · rw [if_neg h5]; exact Safe.fail

theorem decodeHeader_safe (k : Nat) : ∀ (id : Option Nat) (nm : Option Bytes) {s : In}, s.Ok →
    Safe (fun a => a.2.2) (decodeHeader k id nm s) := by
  induction k with
  | zero => intro _ _ s _; exact Safe.fail
  | succ k ih =>
    intro i nm s h
    unfold decodeHeader
    by_cases h0 : s.left = 0
    · rw [if_pos h0]
      cases i <;> cases nm <;> first | exact Safe.fail | exact Safe.pure h
    · rw [if_neg h0]
      refine Safe.bind (readVarint_safe h) (fun a ha => ?_)
      obtain ⟨t, s'⟩ := a
      simp only
      by_cases c0 : t / 8 = 0
      · rw [if_pos c0]; exact Safe.fail
      · rw [if_neg c0]
        by_cases c1 : t / 8 = 1
        · rw [if_pos c1]
          by_cases d : t % 8 = 0
          · rw [if_pos d]; exact Safe.bind (readVarint_safe ha) (fun b hb => ih _ _ hb)
          · rw [if_neg d]; exact Safe.fail
        · rw [if_neg c1]
          by_cases c2 : t / 8 = 2
          · rw [if_pos c2]
            by_cases d : t % 8 = 2
            · rw [if_pos d]
              refine Safe.bind (readVarint_safe ha) (fun b hb => ?_)
              by_cases hn : b.1 ≤ 64
              · simp only [hn, if_true]
                exact Safe.bind (readStr_safe b.1 hb) (fun c hc => ih _ _ hc)
              · simp only [hn, if_false]; exact Safe.fail
            · rw [if_neg d]; exact Safe.fail
          · rw [if_neg c2]
            exact Safe.bind (skipField_safe _ ha) (fun b hb => ih _ _ hb)

/-- C93, as far as it holds: when the two sizes are those of the parts of the buffer, nothing behind the buffer is read,
whatever the parts are. Missing: sizes that are not, see `inject_reads_behind`. -/
theorem inject_framed_safe_partial {bus : List Topic} {a b h w rest : Bytes} (ha : Framed a h) (hb : Framed b w)
    (hh : h.length < 2 ^ 32) (hw : w.length < 2 ^ 32) : inject bus (a ++ b ++ rest) ≠ .oob := by
  have key : ∀ {f m : Bytes}, Framed f m → m.length < 2 ^ 32 → f = messageSize m.length ++ m := by
    rintro f m ⟨b0, b1, b2, b3, e, hl⟩ _
    have l0 := b0.toNat_lt
    have l1 := b1.toNat_lt
    have l2 := b2.toNat_lt
    have l3 := b3.toNat_lt
    have q : ∀ (x : UInt8) (n : Nat), n % 256 = x.toNat → UInt8.ofNat n = x := by
      intro x n hx
      apply UInt8.toNat_inj.1
      rw [UInt8.toNat_ofNat']
      exact hx
    rw [e]
    unfold messageSize le32
    rw [← hl, q b0 _ (by omega), q b1 _ (by omega), q b2 _ (by omega), q b3 _ (by omega)]
  rw [key ha hh, key hb hw, inject_frames hh hw]
  have s := decodeHeader_safe (h.length + 1) none none (s := ⟨h ++ (messageSize w.length ++ w ++ rest), h.length⟩)
    (by unfold In.Ok; simp)
  cases e : decodeHeader (h.length + 1) none none ⟨h ++ (messageSize w.length ++ w ++ rest), h.length⟩ with
  | error x =>
    cases x with
    | fail => simp
    | oob => exact absurd e s.1
  | ok r =>
    obtain ⟨_, name, _⟩ := r
    simp only
    cases findTopic bus (cstr name) with
    | none => simp
    | some i =>
      simp only
      cases bus[i]? with
      | none => simp
      | some t =>
        simp only
        cases t.codec.dec w with
        | none => simp
        | some v =>
          simp only
          by_cases hs : 1024 < t.buffer.length
          · rw [if_pos hs]; simp
          · rw [if_neg hs]; simp

/-- C93: whatever the bytes are, a value that is published was decoded with the descriptor of its topic from bytes of the
buffer, fits the static buffer, and the topic is the first one with its name. -/
theorem inject_published {bus : List Topic} {buf : Bytes} {i : Nat} {v : Bytes} (h : inject bus buf = .published i v) :
    ∃ t w, bus[i]? = some t ∧ w <:+: buf ∧ t.codec.dec w = some v ∧ t.buffer.length ≤ 1024 ∧
      ∀ j t', j < i → bus[j]? = some t' → t'.name ≠ t.name := by
  unfold inject at h
  split at h
  · cases h
  · cases h
  · split at h
    · cases h
    · cases h
    · rename_i hs _ _ _ _ name _ _
      split at h
      · cases h
      · rename_i j hj
        split at h
        · cases h
        · cases h
        · rename_i ms _ _
          simp only at h
          by_cases hl : (buf.drop (2 * 5 + hs)).length < ms
          · rw [if_pos hl] at h; cases h
          · rw [if_neg hl] at h
            split at h
            · cases h
            · rename_i t ht
              split at h
              · cases h
              · rename_i v' hv
                by_cases h1024 : 1024 < t.buffer.length
                · rw [if_pos h1024] at h; cases h
                · rw [if_neg h1024] at h
                  injection h with h1 h2
                  subst h1
                  subst h2
                  refine ⟨t, _, ht, ?_, hv, by omega, ?_⟩
                  · exact List.IsInfix.trans (List.take_prefix _ _).isInfix (List.drop_suffix _ _).isInfix
                  · intro k t' hk hkt hn
                    unfold findTopic at hj
                    rw [List.findIdx?_eq_some_iff_getElem] at hj
                    obtain ⟨hlt, hj1, hj2⟩ := hj
                    have hk' : k < bus.length := by omega
                    rw [List.getElem?_eq_getElem hk'] at hkt
                    rw [List.getElem?_eq_getElem hlt] at ht
                    have := hj2 k hk
                    cases hkt
                    cases ht
                    rw [hn] at this
                    exact this hj1

/-- C93: the other topics keep their values. -/
theorem inject_others (bus : List Topic) (buf : Bytes) (j : Nat) (h : ∀ v, inject bus buf ≠ .published j v) :
    (applyOutcome bus (inject bus buf))[j]? = bus[j]? := by
  cases e : inject bus buf with
  | published i v =>
    have hij : i ≠ j := fun he => h v (by rw [e, he])
    simp only [applyOutcome, List.getElem?_modify, hij, if_false]
    simp
  | _ => rfl

/-- C93: the topic has the new value, and counts as published; nothing else of it changes. -/
theorem inject_topic {bus : List Topic} {buf v : Bytes} {j : Nat} (h : inject bus buf = .published j v) :
    (applyOutcome bus (inject bus buf))[j]? = bus[j]?.map (fun t => ⟨t.name, t.msgid, t.codec, v, true⟩) := by
  rw [h]
  simp only [applyOutcome, List.getElem?_modify, if_true]
  rfl

/-! ## Findings and examples -/

def sampleCodec : Codec := ⟨fun v => some (0x0D :: v), fun w => match w with | 0x0D :: v => some v | _ => none⟩

def sampleTopic : Topic := ⟨[109, 121], 13, sampleCodec, [1, 2, 3, 4], true⟩

/-- Finding: a size that is larger than the buffer makes `inject` read behind it. -/
theorem inject_reads_behind : inject [sampleTopic] (messageSize 200 ++ topicHeader 13 [109, 121]) = .oob := by decide +kernel

/-- Finding: an object larger than the static buffer of 1024 bytes is written beyond it. -/
theorem inject_overflows : ∃ (t : Topic) (f : Bytes), (encode t 4096 4096).1 = some f ∧ inject [t] f = .overflow := by
  refine ⟨⟨[109], 13, ⟨fun _ => some [], fun _ => some (List.replicate 1025 0)⟩, List.replicate 1025 0, true⟩,
    messageSize (topicHeader 13 [109]).length ++ topicHeader 13 [109] ++ (messageSize 0 ++ []), ?_, ?_⟩
  · exact encode_iff.2 ⟨by rw [List.length_replicate]; decide, rfl, [], rfl, by decide +kernel, rfl⟩
  · have := inject_frames (bus := [⟨[109], 13, ⟨fun _ => some [], fun _ => some (List.replicate 1025 0)⟩,
      List.replicate 1025 0, true⟩]) (h := topicHeader 13 [109]) (w := []) (rest := []) (by decide +kernel) (by decide)
    rw [List.append_nil] at this
    refine this.trans ?_
    decide +kernel

/-- Finding: the broadcaster, with its scratch buffer of 512 bytes, reads 508 bytes behind an object of four bytes. -/
example : (encode sampleTopic 126 512).2 = 508 ∧
    (encode sampleTopic 126 512).1 = some [0x0D, 6, 0, 0, 0, 8, 13, 18, 2, 109, 121, 0x0D, 5, 0, 0, 0, 0x0D, 1, 2, 3, 4] := by
  decide +kernel

example : inject [⟨[109], 3, sampleCodec, [9, 9, 9, 9], false⟩, { sampleTopic with buffer := [0, 0, 0, 0] }]
    ((encode sampleTopic 126 512).1.getD [] ++ [7, 7]) = .published 1 [1, 2, 3, 4] := by decide +kernel

example : sampleTopic.codec.Lossless sampleTopic.buffer ∧ sampleTopic.name.length ≤ 64 ∧ (∀ b ∈ sampleTopic.name, b ≠ 0) ∧
    findTopic [sampleTopic] sampleTopic.name = some 0 := by
  refine ⟨?_, by decide, by decide, by decide⟩
  intro w h
  cases h
  rfl

/-- A topic that was never published is not encoded. -/
example : (encode { sampleTopic with published := false } 126 512).1 = none := by decide +kernel

end Verif.Udp
