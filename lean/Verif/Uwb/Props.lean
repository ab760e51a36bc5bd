import Verif.Uwb.Time

/-!
# UWB: the protocol
-/

namespace Verif.Uwb

/-! ## Sending -/

/-- What a frame made of the first `n` bytes of a buffer looks like on the air -/
theorem encapsulate_transmit (pan src dst : Addr) (seq : Byte) (buf : List Byte) (n ts : Nat) (hn : n + 11 < 4294967296) (hb : n + 11 ≤ buf.length) :
    (do let (buf, n) ← encapsulate pan src dst seq buf n; transmit ts buf n) = .ok [.transmit ts (macFrame pan src dst seq (buf.take n))] := by
  have hlen : (buf.take n).length = n := by rw [List.length_take]; omega
  obtain ⟨rest, h, _⟩ := frame_round_trip pan src dst seq (buf.take n) (buf.drop n) (by rw [List.length_drop]; omega) (by omega)
  rw [List.take_append_drop, hlen] at h
  rw [h, bind_ok]
  show transmit ts _ _ = _
  unfold transmit
  have e := slice_prefix (macFrame pan src dst seq (buf.take n)) rest
  rw [macFrame_length, hlen] at e
  rw [e, bind_ok, pure_eq]

theorem put_front (buf x : List Byte) (h : x.length ≤ buf.length) : put buf 0 x = .ok (x ++ buf.drop x.length) := by
  unfold put
  rw [if_pos (by omega)]
  simp

theorem take_front (x y : List Byte) : (x ++ y).take x.length = x := by simp

/-- An advertisement is a broadcast that carries the time at which it is sent. -/
theorem sendAdvertisement_eq (h : Handler) (buf : List Byte) (now : Nat) (hb : 16 ≤ buf.length) :
    sendAdvertisement h buf now = .ok [.transmit (later now) (macFrame h.pan h.address broadcast 0 (bytes40 (later now)))] := by
  unfold sendAdvertisement write40
  simp only [put_front buf (bytes40 (later now)) (by rw [length_bytes40]; omega), bind_ok]
  rw [encapsulate_transmit _ _ _ _ _ 5 _ (by decide) (by simp [length_bytes40]; omega)]
  rw [show (5 : Nat) = (bytes40 (later now)).length from rfl, take_front]
  rfl

theorem sendAnchorPos_eq (h : Handler) (xyz buf : List Byte) (hx : xyz.length = 12) (hb : 23 ≤ buf.length) :
    sendAnchorPos h xyz buf = .ok [.transmit immediate (macFrame h.pan h.address broadcast 3 xyz)] := by
  unfold sendAnchorPos
  rw [put_front _ _ (by omega), bind_ok]
  rw [encapsulate_transmit _ _ _ _ _ 12 _ (by decide) (by simp; omega)]
  rw [show ∀ l : List Byte, l.take 12 = l.take xyz.length by rw [hx]; exact fun _ => rfl, take_front]
  rfl

theorem sendTagPos_eq (h : Handler) (xy buf : List Byte) (hx : xy.length = 8) (hb : 19 ≤ buf.length) :
    sendTagPos h xy buf = .ok [.transmit immediate (macFrame h.pan h.address broadcast 4 xy)] := by
  unfold sendTagPos
  rw [put_front _ _ (by omega), bind_ok]
  rw [encapsulate_transmit _ _ _ _ _ 8 _ (by decide) (by simp; omega)]
  rw [show ∀ l : List Byte, l.take 8 = l.take xy.length by rw [hx]; exact fun _ => rfl, take_front]
  rfl

theorem sendData_eq (h : Handler) (dst : Addr) (msg buf : List Byte) (hb : msg.length + 11 ≤ buf.length) (hn : msg.length + 11 < 4294967296) :
    sendData h dst msg buf = .ok [.transmit immediate (macFrame h.pan h.address dst 100 msg)] := by
  unfold sendData
  rw [put_front _ _ (by omega), bind_ok]
  rw [encapsulate_transmit _ _ _ _ _ _ _ hn (by simp; omega)]
  rw [take_front]
  rfl

theorem initiate_eq (h : Handler) (buf : List Byte) (anchor : Addr) (now : Nat) (hb : 11 ≤ buf.length) :
    initiate h buf anchor now = .ok [.transmit (later now) (macFrame h.pan h.address anchor 5 [])] := by
  unfold initiate
  rw [encapsulate_transmit _ _ _ _ _ 0 _ (by decide) (by omega)]
  rfl

/-! ## Receiving -/

/-- `uwb_process_incoming_frame` once the frame is taken apart. -/
def dispatch (h : Handler) (hdr : Header) (buf : List Byte) (n rx now : Nat) : Except Err (List Event) :=
  if hdr.seq = seqAdvertisement then
    if h.isAnchor = false then answer h hdr seqReply buf n rx 5 else .ok []
  else if hdr.seq = seqReply then answer h hdr seqFinalization buf n rx 15
  else if hdr.seq = seqFinalization then do
    let advTx ← read40 buf 0
    let advRx ← read40 buf 5
    let replyTx ← read40 buf 10
    let replyRx ← read40 buf 15
    let finalTx ← read40 buf 20
    let t ← propagation advTx advRx replyTx replyRx finalTx rx
    if h.ranging then return [.ranging hdr.src t] else return []
  else if hdr.seq = seqAnchorPos then do
    let xyz ← slice buf 0 12
    if h.anchorPos then return [.anchorPos hdr.src xyz] else .error .null
  else if hdr.seq = seqTagPos then do
    let xy ← slice buf 0 8
    if h.tagPos then return [.tagPos hdr.src xy] else .error .null
  else if hdr.seq = seqInitiate then sendAdvertisement h buf now
  else if hdr.seq = seqUserData then
    if h.userData then do
      let msg ← slice buf 0 n
      return [.userData msg hdr.src hdr.dst]
    else .ok []
  else .ok []

theorem dispatch_0 (h : Handler) (hdr : Header) (buf : List Byte) (n rx now : Nat) (hs : hdr.seq = 0) :
    dispatch h hdr buf n rx now = if h.isAnchor = false then answer h hdr seqReply buf n rx 5 else .ok [] := by
  unfold dispatch
  rw [if_pos (show hdr.seq = seqAdvertisement from hs)]

theorem dispatch_1 (h : Handler) (hdr : Header) (buf : List Byte) (n rx now : Nat) (hs : hdr.seq = 1) :
    dispatch h hdr buf n rx now = answer h hdr seqFinalization buf n rx 15 := by
  unfold dispatch
  rw [if_neg (by rw [hs]; decide), if_pos (show hdr.seq = seqReply from hs)]

theorem dispatch_2 (h : Handler) (hdr : Header) (buf : List Byte) (n rx now : Nat) (hs : hdr.seq = 2) :
    dispatch h hdr buf n rx now = (do
      let advTx ← read40 buf 0
      let advRx ← read40 buf 5
      let replyTx ← read40 buf 10
      let replyRx ← read40 buf 15
      let finalTx ← read40 buf 20
      let t ← propagation advTx advRx replyTx replyRx finalTx rx
      if h.ranging then return [.ranging hdr.src t] else return []) := by
  unfold dispatch
  rw [if_neg (by rw [hs]; decide), if_neg (by rw [hs]; decide), if_pos (show hdr.seq = seqFinalization from hs)]

theorem dispatch_3 (h : Handler) (hdr : Header) (buf : List Byte) (n rx now : Nat) (hs : hdr.seq = 3) :
    dispatch h hdr buf n rx now = (do let xyz ← slice buf 0 12; if h.anchorPos then return [.anchorPos hdr.src xyz] else .error .null) := by
  unfold dispatch
  rw [if_neg (by rw [hs]; decide), if_neg (by rw [hs]; decide), if_neg (by rw [hs]; decide), if_pos (show hdr.seq = seqAnchorPos from hs)]

theorem dispatch_4 (h : Handler) (hdr : Header) (buf : List Byte) (n rx now : Nat) (hs : hdr.seq = 4) :
    dispatch h hdr buf n rx now = (do let xy ← slice buf 0 8; if h.tagPos then return [.tagPos hdr.src xy] else .error .null) := by
  unfold dispatch
  rw [if_neg (by rw [hs]; decide), if_neg (by rw [hs]; decide), if_neg (by rw [hs]; decide), if_neg (by rw [hs]; decide), if_pos (show hdr.seq = seqTagPos from hs)]

theorem dispatch_5 (h : Handler) (hdr : Header) (buf : List Byte) (n rx now : Nat) (hs : hdr.seq = 5) :
    dispatch h hdr buf n rx now = sendAdvertisement h buf now := by
  unfold dispatch
  rw [if_neg (by rw [hs]; decide), if_neg (by rw [hs]; decide), if_neg (by rw [hs]; decide), if_neg (by rw [hs]; decide), if_neg (by rw [hs]; decide), if_pos (show hdr.seq = seqInitiate from hs)]

theorem dispatch_100 (h : Handler) (hdr : Header) (buf : List Byte) (n rx now : Nat) (hs : hdr.seq = 100) :
    dispatch h hdr buf n rx now = if h.userData then (do let msg ← slice buf 0 n; return [.userData msg hdr.src hdr.dst]) else .ok [] := by
  unfold dispatch
  rw [if_neg (by rw [hs]; decide), if_neg (by rw [hs]; decide), if_neg (by rw [hs]; decide), if_neg (by rw [hs]; decide), if_neg (by rw [hs]; decide), if_neg (by rw [hs]; decide), if_pos (show hdr.seq = seqUserData from hs)]

/-- Is a frame with this PAN id and this destination for us? -/
def Handler.Mine (h : Handler) (pan dst : Addr) : Prop := pan = h.pan ∧ (dst = h.address ∨ dst = 0xffff)

theorem receive_of (h : Handler) (buf : List Byte) (n rx now : Nat) {hdr : Header} {buf' : List Byte} {n' : Nat}
    (hd : decapsulate buf n = .ok (hdr, buf', n')) :
    (¬ h.Mine hdr.pan hdr.dst → receive h buf n rx now = .ok []) ∧
    (h.Mine hdr.pan hdr.dst → receive h buf n rx now = dispatch h hdr buf' n' rx now) := by
  unfold receive
  rw [hd, bind_ok]
  constructor
  · intro hm
    simp only
    by_cases h1 : hdr.pan ≠ h.pan
    · rw [if_pos h1, pure_eq]
    · rw [if_neg h1]
      rw [if_pos, pure_eq]
      refine ⟨fun h2 => hm ⟨Classical.not_not.mp h1, .inl h2⟩, fun h2 => hm ⟨Classical.not_not.mp h1, .inr h2⟩⟩
  · rintro ⟨h1, h2⟩
    simp only
    rw [if_neg (by simp [h1]), if_neg]
    · rfl
    · rintro ⟨h3, h4⟩
      rcases h2 with h2 | h2
      · exact h3 h2
      · exact h4 h2

/-- Receiving any frame of at least 11 bytes -/
theorem receive_frame (h : Handler) (c k : Byte × Byte) (pan src dst : Addr) (seq : Byte) (payload rest : List Byte) (rx now : Nat)
    (hl : payload.length + 11 < 4294967296) (hm : h.Mine pan dst) :
    ∃ after, after.length = rest.length + 11 ∧
      receive h (anyFrame c pan src dst seq payload k ++ rest) (payload.length + 11) rx now =
        dispatch h ⟨pan, src, dst, seq⟩ (payload ++ after) payload.length rx now := by
  obtain ⟨after, hd, ha⟩ := decapsulate_eq c k pan src dst seq payload rest hl
  exact ⟨after, ha, (receive_of h _ _ rx now hd).2 hm⟩

/-! ## C42: what is ignored -/

/-- C42: frames for another network or for another address have no effect, whatever they contain. -/
theorem foreign_frame (h : Handler) (c k : Byte × Byte) (pan src dst : Addr) (seq : Byte) (payload rest : List Byte) (rx now : Nat)
    (hl : payload.length + 11 < 4294967296) (hm : pan ≠ h.pan ∨ dst ≠ h.address ∧ dst ≠ 0xffff) :
    receive h (anyFrame c pan src dst seq payload k ++ rest) (payload.length + 11) rx now = .ok [] := by
  obtain ⟨after, hd, _⟩ := decapsulate_eq c k pan src dst seq payload rest hl
  refine (receive_of h _ _ rx now hd).1 ?_
  rintro ⟨h1, h2⟩
  rcases hm with hm | ⟨hm, hm'⟩
  · exact hm h1
  · rcases h2 with h2 | h2
    · exact hm h2
    · exact hm' h2

/-- C42: anchors do not answer advertisements. -/
theorem anchor_ignores (h : Handler) (c k : Byte × Byte) (pan src dst : Addr) (payload rest : List Byte) (rx now : Nat)
    (hl : payload.length + 11 < 4294967296) (ha : h.isAnchor = true) :
    receive h (anyFrame c pan src dst 0 payload k ++ rest) (payload.length + 11) rx now = .ok [] := by
  by_cases hm : h.Mine pan dst
  · obtain ⟨after, _, hr⟩ := receive_frame h c k pan src dst 0 payload rest rx now hl hm
    rw [hr]
    rw [dispatch_0 _ _ _ _ _ _ rfl, if_neg (by simp [ha])]
  · obtain ⟨after, hd, _⟩ := decapsulate_eq c k pan src dst 0 payload rest hl
    exact (receive_of h _ _ rx now hd).1 hm

/-- Unknown sequence numbers have no effect. -/
theorem unknown_ignored (h : Handler) (c k : Byte × Byte) (pan src dst : Addr) (seq : Byte) (payload rest : List Byte) (rx now : Nat)
    (hl : payload.length + 11 < 4294967296) (hs : 5 < seq.toNat ∧ seq.toNat ≠ 100) :
    receive h (anyFrame c pan src dst seq payload k ++ rest) (payload.length + 11) rx now = .ok [] := by
  by_cases hm : h.Mine pan dst
  · obtain ⟨after, _, hr⟩ := receive_frame h c k pan src dst seq payload rest rx now hl hm
    rw [hr]
    have hne : ∀ x : Byte, (x.toNat ≤ 5 ∨ x.toNat = 100) → seq ≠ x := by rintro x hx rfl; omega
    unfold dispatch
    rw [if_neg (hne _ (by decide)), if_neg (hne _ (by decide)), if_neg (hne _ (by decide)), if_neg (hne _ (by decide)), if_neg (hne _ (by decide)),
      if_neg (hne _ (by decide)), if_neg (hne _ (by decide))]
  · obtain ⟨after, hd, _⟩ := decapsulate_eq c k pan src dst seq payload rest hl
    exact (receive_of h _ _ rx now hd).1 hm

/-! ## Answers -/

theorem put_length {buf x out : List Byte} {off : Nat} (h : put buf off x = .ok out) : out.length = buf.length ∧ off + x.length ≤ buf.length := by
  unfold put at h
  by_cases hb : off + x.length ≤ buf.length
  · rw [if_pos hb] at h
    cases h
    simp only [List.length_append, List.length_take, List.length_drop]
    omega
  · rw [if_neg hb] at h
    cases h

theorem put_ok (buf x : List Byte) (off : Nat) (h : off + x.length ≤ buf.length) : ∃ out, put buf off x = .ok out ∧ out.length = buf.length := by
  unfold put
  rw [if_pos h]
  refine ⟨_, rfl, ?_⟩
  simp only [List.length_append, List.length_take, List.length_drop]
  omega

/-- An answer goes to the sender at the time that it contains. -/
theorem answer_ok (h : Handler) (hdr : Header) (seq : Byte) (buf : List Byte) (n rx off : Nat) (hoff : off + 10 ≤ buf.length) (hn : n + 21 ≤ buf.length)
    (hs : n + 21 < 4294967296) : ∃ p, p.length = n + 10 ∧ answer h hdr seq buf n rx off = .ok [.transmit (later rx) (macFrame hdr.pan h.address hdr.src seq p)] := by
  unfold answer write40
  obtain ⟨b1, e1, l1⟩ := put_ok buf (bytes40 rx) off (by rw [length_bytes40]; omega)
  obtain ⟨b2, e2, l2⟩ := put_ok b1 (bytes40 (later rx)) (off + 5) (by rw [length_bytes40]; omega)
  simp only [e1, e2, bind_ok]
  rw [size_eq (n := n + 10) (by omega)]
  refine ⟨b2.take (n + 10), by rw [List.length_take]; omega, ?_⟩
  exact encapsulate_transmit _ _ _ _ _ _ _ (by omega) (by omega)

/-- An answer to a payload of the right length: the two timestamps are appended. -/
theorem answer_eq (h : Handler) (hdr : Header) (seq : Byte) (payload after : List Byte) (rx : Nat) (ha : 21 ≤ after.length) (hs : payload.length + 21 < 4294967296) :
    answer h hdr seq (payload ++ after) payload.length rx payload.length =
      .ok [.transmit (later rx) (macFrame hdr.pan h.address hdr.src seq (payload ++ bytes40 rx ++ bytes40 (later rx)))] := by
  unfold answer write40
  obtain ⟨x, y, z, rfl, hx, hy⟩ : ∃ x y z, after = x ++ y ++ z ∧ x.length = 5 ∧ y.length = 5 := by
    refine ⟨after.take 5, (after.drop 5).take 5, (after.drop 5).drop 5, ?_, ?_, ?_⟩
    · rw [List.append_assoc, List.take_append_drop, List.take_append_drop]
    · rw [List.length_take]; omega
    · rw [List.length_take, List.length_drop]; omega
  have e1 : put (payload ++ (x ++ y ++ z)) payload.length (bytes40 rx) = .ok (payload ++ bytes40 rx ++ (y ++ z)) := by
    rw [show payload ++ (x ++ y ++ z) = payload ++ x ++ (y ++ z) by simp]
    exact put_at _ _ _ _ (by rw [hx]; rfl)
  have e2 : put (payload ++ bytes40 rx ++ (y ++ z)) (payload.length + 5) (bytes40 (later rx)) = .ok (payload ++ bytes40 rx ++ bytes40 (later rx) ++ z) := by
    have := put_at (payload ++ bytes40 rx) y z (bytes40 (later rx)) (by rw [hy]; rfl)
    rw [List.length_append, length_bytes40] at this
    rw [show payload ++ bytes40 rx ++ (y ++ z) = payload ++ bytes40 rx ++ y ++ z by simp]
    exact this
  simp only [e1, e2, bind_ok]
  rw [size_eq (n := payload.length + 10) (by omega)]
  rw [encapsulate_transmit _ _ _ _ _ _ _ (by omega) (by simp only [List.length_append, length_bytes40] at ha ⊢; omega)]
  congr 4
  rw [show payload.length + 10 = (payload ++ bytes40 rx ++ bytes40 (later rx)).length by simp [length_bytes40]]
  exact take_front _ _

/-! ## C42: what is answered -/

/-- C42: whatever frame arrives, at most one thing happens, only for frames of our network that are for us, and:
a transmission goes to the sender of an advertisement or of a reply, or it is the advertisement that an initiation asks for;
a measured distance comes from a finalization, a position from a position frame, and data is the payload of the frame as it was sent. Missing: the answer to an initiation request is a broadcast, not addressed to the sender. -/
theorem reaction_partial (h : Handler) (c k : Byte × Byte) (pan src dst : Addr) (seq : Byte) (payload rest : List Byte) (rx now : Nat)
    (hl : payload.length + 21 < 4294967296) (hroom : 10 ≤ rest.length) (h36 : 36 ≤ payload.length + 11 + rest.length)
    {evs : List Event} (he : receive h (anyFrame c pan src dst seq payload k ++ rest) (payload.length + 11) rx now = .ok evs) :
    evs = [] ∨ h.Mine pan dst ∧ ∃ e, evs = [e] ∧
      match e with
      | .transmit ts frame =>
        (∃ p, p.length = payload.length + 10 ∧ ts = later rx ∧
          (seq = 0 ∧ h.isAnchor = false ∧ frame = macFrame h.pan h.address src 1 p ∨ seq = 1 ∧ frame = macFrame h.pan h.address src 2 p)) ∨
        (seq = 5 ∧ ts = later now ∧ frame = macFrame h.pan h.address 0xffff 0 (bytes40 ts))
      | .ranging a _ => a = src ∧ seq = 2 ∧ h.ranging = true
      | .anchorPos a xyz => a = src ∧ seq = 3 ∧ h.anchorPos = true ∧ (12 ≤ payload.length → xyz = payload.take 12)
      | .tagPos a xy => a = src ∧ seq = 4 ∧ h.tagPos = true ∧ (8 ≤ payload.length → xy = payload.take 8)
      | .userData msg a b => a = src ∧ b = dst ∧ seq = 100 ∧ h.userData = true ∧ msg = payload := by
  by_cases hm : h.Mine pan dst
  · obtain ⟨after, ha, hr⟩ := receive_frame h c k pan src dst seq payload rest rx now (by omega) hm
    rw [hr] at he
    obtain ⟨rfl, hm2⟩ := hm
    have hlen : (payload ++ after).length = payload.length + rest.length + 11 := by rw [List.length_append]; omega
    have hsl : ∀ n, n ≤ payload.length + rest.length + 11 → slice (payload ++ after) 0 n = .ok ((payload ++ after).take n) := by
      intro n hn
      unfold slice
      rw [if_pos (by omega), List.drop_zero]
    have htk : ∀ n, n ≤ payload.length → (payload ++ after).take n = payload.take n := by
      intro n hn
      rw [List.take_append_of_le_length hn]
    unfold dispatch at he
    by_cases s0 : seq = seqAdvertisement
    · rw [if_pos s0] at he
      by_cases hA : h.isAnchor = false
      · rw [if_pos hA] at he
        obtain ⟨p, hp, hans⟩ := answer_ok h ⟨h.pan, src, dst, seq⟩ seqReply (payload ++ after) payload.length rx 5 (by omega) (by omega) (by omega)
        rw [hans] at he
        cases he
        exact .inr ⟨⟨rfl, hm2⟩, _, rfl, .inl ⟨p, hp, rfl, .inl ⟨s0, hA, rfl⟩⟩⟩
      · rw [if_neg hA] at he
        cases he
        exact .inl rfl
    rw [if_neg s0] at he
    by_cases s1 : seq = seqReply
    · rw [if_pos s1] at he
      obtain ⟨p, hp, hans⟩ := answer_ok h ⟨h.pan, src, dst, seq⟩ seqFinalization (payload ++ after) payload.length rx 15 (by omega) (by omega) (by omega)
      rw [hans] at he
      cases he
      exact .inr ⟨⟨rfl, hm2⟩, _, rfl, .inl ⟨p, hp, rfl, .inr ⟨s1, rfl⟩⟩⟩
    rw [if_neg s1] at he
    by_cases s2 : seq = seqFinalization
    · rw [if_pos s2] at he
      cases h1 : read40 (payload ++ after) 0 with
      | error e => rw [h1, bind_error] at he; cases he
      | ok t1 =>
      cases h2 : read40 (payload ++ after) 5 with
      | error e => rw [h1, h2, bind_ok, bind_error] at he; cases he
      | ok t2 =>
      cases h3 : read40 (payload ++ after) 10 with
      | error e => rw [h1, h2, h3] at he; simp only [bind_ok, bind_error] at he; cases he
      | ok t3 =>
      cases h4 : read40 (payload ++ after) 15 with
      | error e => rw [h1, h2, h3, h4] at he; simp only [bind_ok, bind_error] at he; cases he
      | ok t4 =>
      cases h5 : read40 (payload ++ after) 20 with
      | error e => rw [h1, h2, h3, h4, h5] at he; simp only [bind_ok, bind_error] at he; cases he
      | ok t5 =>
      cases h6 : propagation t1 t2 t3 t4 t5 rx with
      | error e => rw [h1, h2, h3, h4, h5] at he; simp only [bind_ok, h6, bind_error] at he; cases he
      | ok t6 =>
        rw [h1, h2, h3, h4, h5] at he
        simp only [bind_ok, h6, pure_eq] at he
        by_cases hcb : h.ranging = true
        · rw [if_pos hcb] at he
          cases he
          exact .inr ⟨⟨rfl, hm2⟩, _, rfl, rfl, s2, hcb⟩
        · rw [if_neg hcb] at he
          cases he
          exact .inl rfl
    rw [if_neg s2] at he
    by_cases s3 : seq = seqAnchorPos
    · rw [if_pos s3, hsl 12 (by omega), bind_ok] at he
      by_cases hcb : h.anchorPos = true
      · rw [if_pos hcb, pure_eq] at he
        cases he
        exact .inr ⟨⟨rfl, hm2⟩, _, rfl, rfl, s3, hcb, htk 12⟩
      · rw [if_neg hcb] at he
        cases he
    rw [if_neg s3] at he
    by_cases s4 : seq = seqTagPos
    · rw [if_pos s4, hsl 8 (by omega), bind_ok] at he
      by_cases hcb : h.tagPos = true
      · rw [if_pos hcb, pure_eq] at he
        cases he
        exact .inr ⟨⟨rfl, hm2⟩, _, rfl, rfl, s4, hcb, htk 8⟩
      · rw [if_neg hcb] at he
        cases he
    rw [if_neg s4] at he
    by_cases s5 : seq = seqInitiate
    · rw [if_pos s5, sendAdvertisement_eq _ _ _ (by omega)] at he
      cases he
      exact .inr ⟨⟨rfl, hm2⟩, _, rfl, .inr ⟨s5, rfl, rfl⟩⟩
    rw [if_neg s5] at he
    by_cases s6 : seq = seqUserData
    · rw [if_pos s6] at he
      by_cases hcb : h.userData = true
      · rw [if_pos hcb, hsl _ (by omega), bind_ok, pure_eq] at he
        cases he
        refine .inr ⟨⟨rfl, hm2⟩, _, rfl, rfl, rfl, s6, hcb, ?_⟩
        simp
      · rw [if_neg hcb] at he
        cases he
        exact .inl rfl
    rw [if_neg s6] at he
    cases he
    exact .inl rfl
  · obtain ⟨after, hd, _⟩ := decapsulate_eq c k pan src dst seq payload rest (by omega)
    rw [(receive_of h _ _ rx now hd).1 hm] at he
    cases he
    exact .inl rfl

/-! ## Deliveries -/

/-- Data arrives as it was sent, at the addressed device of the same network, in a buffer with any contents behind the frame. -/
theorem data_delivered (tx rx : Handler) (dst : Addr) (msg buf rest : List Byte) (t now : Nat) (hb : msg.length + 11 ≤ buf.length)
    (hn : msg.length + 11 < 4294967296) (hpan : rx.pan = tx.pan) (hd : dst = rx.address ∨ dst = 0xffff) (hcb : rx.userData = true) :
    ∃ frame, sendData tx dst msg buf = .ok [.transmit immediate frame] ∧ frame.length = msg.length + 11 ∧
      receive rx (frame ++ rest) frame.length t now = .ok [.userData msg tx.address dst] := by
  refine ⟨_, sendData_eq tx dst msg buf hb hn, macFrame_length .., ?_⟩
  rw [macFrame_length, macFrame_any]
  obtain ⟨after, ha, hr⟩ := receive_frame rx (0x41, 0x88) (0, 0) tx.pan tx.address dst 100 msg rest t now hn ⟨hpan.symm, hd⟩
  rw [hr]
  rw [dispatch_100 _ _ _ _ _ _ rfl, if_pos hcb, slice_prefix, bind_ok]
  rfl

/-- Positions of anchors arrive as they were sent. -/
theorem anchorPos_delivered (tx rx : Handler) (xyz buf rest : List Byte) (t now : Nat) (hx : xyz.length = 12) (hb : 23 ≤ buf.length) (hpan : rx.pan = tx.pan)
    (hcb : rx.anchorPos = true) :
    ∃ frame, sendAnchorPos tx xyz buf = .ok [.transmit immediate frame] ∧ receive rx (frame ++ rest) frame.length t now = .ok [.anchorPos tx.address xyz] := by
  refine ⟨_, sendAnchorPos_eq tx xyz buf hx hb, ?_⟩
  rw [macFrame_length, macFrame_any]
  obtain ⟨after, ha, hr⟩ := receive_frame rx (0x41, 0x88) (0, 0) tx.pan tx.address broadcast 3 xyz rest t now (by omega) ⟨hpan.symm, .inr rfl⟩
  rw [hr]
  rw [dispatch_3 _ _ _ _ _ _ rfl, show ∀ l : List Byte, slice l 0 12 = slice l 0 xyz.length by rw [hx]; exact fun _ => rfl, slice_prefix, bind_ok, if_pos hcb]
  rfl

theorem tagPos_delivered (tx rx : Handler) (xy buf rest : List Byte) (t now : Nat) (hx : xy.length = 8) (hb : 19 ≤ buf.length) (hpan : rx.pan = tx.pan)
    (hcb : rx.tagPos = true) :
    ∃ frame, sendTagPos tx xy buf = .ok [.transmit immediate frame] ∧ receive rx (frame ++ rest) frame.length t now = .ok [.tagPos tx.address xy] := by
  refine ⟨_, sendTagPos_eq tx xy buf hx hb, ?_⟩
  rw [macFrame_length, macFrame_any]
  obtain ⟨after, ha, hr⟩ := receive_frame rx (0x41, 0x88) (0, 0) tx.pan tx.address broadcast 4 xy rest t now (by omega) ⟨hpan.symm, .inr rfl⟩
  rw [hr]
  rw [dispatch_4 _ _ _ _ _ _ rfl, show ∀ l : List Byte, slice l 0 8 = slice l 0 xy.length by rw [hx]; exact fun _ => rfl, slice_prefix, bind_ok, if_pos hcb]
  rfl

/-- Without a callback for positions, such a frame makes the code call a null pointer. -/
theorem position_null (tx rx : Handler) (xyz rest : List Byte) (t now : Nat) (hx : xyz.length = 12) (hpan : rx.pan = tx.pan) (hcb : rx.anchorPos = false) :
    receive rx (macFrame tx.pan tx.address 0xffff 3 xyz ++ rest) 23 t now = .error .null := by
  obtain ⟨after, ha, hr⟩ := receive_frame rx (0x41, 0x88) (0, 0) tx.pan tx.address 0xffff 3 xyz rest t now (by omega) ⟨hpan.symm, .inr rfl⟩
  rw [hx] at hr
  rw [macFrame_any, hr]
  rw [dispatch_3 _ _ _ _ _ _ rfl, show ∀ l : List Byte, slice l 0 12 = slice l 0 xyz.length by rw [hx]; exact fun _ => rfl, slice_prefix, bind_ok, if_neg (by simp [hcb])]

/-! ## C41: the whole exchange -/

/-- The two answers -/
theorem receive_advertisement (h : Handler) (src dst : Addr) (payload rest : List Byte) (rx now : Nat) (hA : h.isAnchor = false) (hp : payload.length = 5)
    (hr : 10 ≤ rest.length) (hd : dst = h.address ∨ dst = 0xffff) :
    receive h (macFrame h.pan src dst 0 payload ++ rest) (payload.length + 11) rx now =
      .ok [.transmit (later rx) (macFrame h.pan h.address src 1 (payload ++ bytes40 rx ++ bytes40 (later rx)))] := by
  obtain ⟨after, ha, e⟩ := receive_frame h (0x41, 0x88) (0, 0) h.pan src dst 0 payload rest rx now (by omega) ⟨rfl, hd⟩
  rw [macFrame_any, e]
  rw [dispatch_0 _ _ _ _ _ _ rfl, if_pos hA]
  have := answer_eq h ⟨h.pan, src, dst, 0⟩ seqReply payload after rx (by omega) (by omega)
  rw [hp] at this ⊢
  exact this

theorem receive_reply (h : Handler) (src dst : Addr) (payload rest : List Byte) (rx now : Nat) (hp : payload.length = 15) (hr : 10 ≤ rest.length)
    (hd : dst = h.address ∨ dst = 0xffff) :
    receive h (macFrame h.pan src dst 1 payload ++ rest) (payload.length + 11) rx now =
      .ok [.transmit (later rx) (macFrame h.pan h.address src 2 (payload ++ bytes40 rx ++ bytes40 (later rx)))] := by
  obtain ⟨after, ha, e⟩ := receive_frame h (0x41, 0x88) (0, 0) h.pan src dst 1 payload rest rx now (by omega) ⟨rfl, hd⟩
  rw [macFrame_any, e]
  rw [dispatch_1 _ _ _ _ _ _ rfl]
  have := answer_eq h ⟨h.pan, src, dst, 1⟩ seqFinalization payload after rx (by omega) (by omega)
  rw [hp] at this ⊢
  exact this

theorem receive_finalization (h : Handler) (src dst : Addr) (t1 t2 t3 t4 t5 : Nat) (rest : List Byte) (rx now : Nat) (hd : dst = h.address ∨ dst = 0xffff)
    (hcb : h.ranging = true) {t : Nat} (ht : propagation (t1 % 2 ^ 40) (t2 % 2 ^ 40) (t3 % 2 ^ 40) (t4 % 2 ^ 40) (t5 % 2 ^ 40) rx = .ok t) :
    receive h (macFrame h.pan src dst 2 (bytes40 t1 ++ bytes40 t2 ++ bytes40 t3 ++ bytes40 t4 ++ bytes40 t5) ++ rest) 36 rx now = .ok [.ranging src t] := by
  obtain ⟨after, ha, e⟩ := receive_frame h (0x41, 0x88) (0, 0) h.pan src dst 2 (bytes40 t1 ++ bytes40 t2 ++ bytes40 t3 ++ bytes40 t4 ++ bytes40 t5) rest rx now
    (by simp [length_bytes40]) ⟨rfl, hd⟩
  rw [show (bytes40 t1 ++ bytes40 t2 ++ bytes40 t3 ++ bytes40 t4 ++ bytes40 t5).length = 25 from rfl] at e
  rw [macFrame_any, e]
  rw [dispatch_2 _ _ _ _ _ _ rfl]
  have r1 := read40_write40 t1 [] (bytes40 t2 ++ bytes40 t3 ++ bytes40 t4 ++ bytes40 t5 ++ after)
  have r2 := read40_write40 t2 (bytes40 t1) (bytes40 t3 ++ bytes40 t4 ++ bytes40 t5 ++ after)
  have r3 := read40_write40 t3 (bytes40 t1 ++ bytes40 t2) (bytes40 t4 ++ bytes40 t5 ++ after)
  have r4 := read40_write40 t4 (bytes40 t1 ++ bytes40 t2 ++ bytes40 t3) (bytes40 t5 ++ after)
  have r5 := read40_write40 t5 (bytes40 t1 ++ bytes40 t2 ++ bytes40 t3 ++ bytes40 t4) after
  simp only [List.append_assoc, List.nil_append, List.length_append, length_bytes40, List.length_nil] at r1 r2 r3 r4 r5 ⊢
  rw [r1, r2, r3, r4, r5]
  simp only [bind_ok, ht, pure_eq]
  rw [if_pos hcb]

/-- C41: a complete measurement between an anchor and a tag. The anchor advertises at `a1`, read off its own clock; the tag receives this at `b1` of its own
clock, `d` ahead of the clock of the anchor, and `T` later; it replies at the time it chose, the anchor receives this at `a2` and answers, and the tag receives
the last frame at `b3`. The tag then reports the distance `T` to the address of the anchor, exactly. Neither counter wraps in the meantime. -/
theorem exchange (anchor tag : Handler) (hpan : anchor.pan = tag.pan) (htag : tag.isAnchor = false) (hcb : tag.ranging = true)
    (buf rest1 rest2 rest3 : List Byte) (hb : 16 ≤ buf.length) (hr1 : 10 ≤ rest1.length) (hr2 : 10 ≤ rest2.length)
    (now n1 n2 n3 T a1 b1 b2 a2 a3 b3 : Nat) (d : Int)
    (h1 : a1 = later now) (h2 : (b1 : Int) = a1 + d + T) (h3 : b2 = later b1) (h4 : (a2 : Int) = b2 - d + T) (h5 : a3 = later a2) (h6 : (b3 : Int) = a3 + d + T)
    (ha : a2 + 52428800 < 2 ^ 40) (hb3 : b3 < 2 ^ 40) (hb1 : b1 + 52428800 < 2 ^ 40) (hT : T < 2 ^ 30) :
    ∃ f1 f2 f3,
      sendAdvertisement anchor buf now = .ok [.transmit a1 f1] ∧
      receive tag (f1 ++ rest1) f1.length b1 n1 = .ok [.transmit b2 f2] ∧
      receive anchor (f2 ++ rest2) f2.length a2 n2 = .ok [.transmit a3 f3] ∧
      receive tag (f3 ++ rest3) f3.length b3 n3 = .ok [.ranging anchor.address T] := by
  have l1 := later_spec hb1
  have l2 := later_spec ha
  refine ⟨macFrame anchor.pan anchor.address broadcast 0 (bytes40 a1), macFrame anchor.pan tag.address anchor.address 1 (bytes40 a1 ++ bytes40 b1 ++ bytes40 b2),
    macFrame anchor.pan anchor.address tag.address 2 (bytes40 a1 ++ bytes40 b1 ++ bytes40 b2 ++ bytes40 a2 ++ bytes40 a3), ?_, ?_, ?_, ?_⟩
  · rw [h1]
    exact sendAdvertisement_eq anchor buf now hb
  · rw [macFrame_length, hpan, h3]
    exact receive_advertisement tag anchor.address broadcast (bytes40 a1) rest1 b1 n1 htag rfl hr1 (.inr rfl)
  · rw [macFrame_length, h5]
    have := receive_reply anchor tag.address anchor.address (bytes40 a1 ++ bytes40 b1 ++ bytes40 b2) rest2 a2 n2 rfl hr2 (.inl rfl)
    exact this
  · rw [macFrame_length, show (bytes40 a1 ++ bytes40 b1 ++ bytes40 b2 ++ bytes40 a2 ++ bytes40 a3).length + 11 = 36 from rfl, hpan]
    refine receive_finalization tag anchor.address tag.address a1 b1 b2 a2 a3 rest3 b3 n3 (.inl rfl) hcb ?_
    have ha3 : a3 < 2 ^ 40 := h5 ▸ later_lt a2
    have := propagation_exact (a1 := a1) (b1 := b1) (b2 := b2) (a2 := a2) (a3 := a3) (b3 := b3) (T := T) (D1 := b2 - b1) (D2 := a3 - a2) (d := d) h2 (by omega) h4
      (by omega) h6 (by omega) (by omega) (by omega) ?_
    · rwa [Nat.mod_eq_of_lt hb3] at this
    · have e1 : 2 * T + (b2 - b1) ≤ 2 ^ 32 - 1 := by omega
      have e2 : 2 * T + (a3 - a2) ≤ 2 ^ 32 - 1 := by omega
      exact Nat.lt_of_le_of_lt (Nat.mul_le_mul e1 e2) (by decide)

/-! ## Bounds -/

theorem read40_ok (buf : List Byte) (off : Nat) (h : off + 5 ≤ buf.length) : ∃ t, read40 buf off = .ok t := by
  unfold read40 slice
  rw [if_pos h, bind_ok, pure_eq]
  exact ⟨_, rfl⟩

/-- The code stays within its buffer for all frames of at least 11 bytes behind which there are 10 more bytes, in buffers of at least 36 bytes. -/
theorem receive_in_bounds (h : Handler) (buf : List Byte) (n rx now : Nat) (hn : 11 ≤ n) (hb : n + 10 ≤ buf.length) (h36 : 36 ≤ buf.length)
    (hs : buf.length < 4294967296) : receive h buf n rx now ≠ .error .bounds := by
  obtain ⟨c, pan, src, dst, seq, payload, k, hf⟩ := every_frame (buf.take n) (by rw [List.length_take]; omega)
  have hlen : payload.length + 11 = n := by
    have := congrArg List.length hf
    rw [anyFrame_length, List.length_take] at this
    omega
  have hbuf : buf = anyFrame c pan src dst seq payload k ++ buf.drop n := by rw [← hf, List.take_append_drop]
  have hrest : (buf.drop n).length = buf.length - n := List.length_drop
  generalize buf.drop n = rest at hbuf hrest
  rw [hbuf, ← hlen]
  by_cases hm : h.Mine pan dst
  · obtain ⟨after, ha, hr⟩ := receive_frame h c k pan src dst seq payload rest rx now (by omega) hm
    rw [hr]
    have hl' : (payload ++ after).length = payload.length + rest.length + 11 := by rw [List.length_append]; omega
    have hsl : ∀ n, n ≤ payload.length + rest.length + 11 → slice (payload ++ after) 0 n = .ok ((payload ++ after).take n) := by
      intro n hn
      unfold slice
      rw [if_pos (by omega), List.drop_zero]
    unfold dispatch
    by_cases s0 : seq = seqAdvertisement
    · rw [if_pos s0]
      by_cases hA : h.isAnchor = false
      · rw [if_pos hA]
        obtain ⟨p, hp, hans⟩ := answer_ok h ⟨pan, src, dst, seq⟩ seqReply (payload ++ after) payload.length rx 5 (by omega) (by omega) (by omega)
        rw [hans]
        exact fun h => by cases h
      · rw [if_neg hA]
        exact fun h => by cases h
    rw [if_neg s0]
    by_cases s1 : seq = seqReply
    · rw [if_pos s1]
      obtain ⟨p, hp, hans⟩ := answer_ok h ⟨pan, src, dst, seq⟩ seqFinalization (payload ++ after) payload.length rx 15 (by omega) (by omega) (by omega)
      rw [hans]
      exact fun h => by cases h
    rw [if_neg s1]
    by_cases s2 : seq = seqFinalization
    · rw [if_pos s2]
      obtain ⟨t1, h1⟩ := read40_ok (payload ++ after) 0 (by omega)
      obtain ⟨t2, h2⟩ := read40_ok (payload ++ after) 5 (by omega)
      obtain ⟨t3, h3⟩ := read40_ok (payload ++ after) 10 (by omega)
      obtain ⟨t4, h4⟩ := read40_ok (payload ++ after) 15 (by omega)
      obtain ⟨t5, h5⟩ := read40_ok (payload ++ after) 20 (by omega)
      rw [h1, h2, h3, h4, h5]
      simp only [bind_ok]
      have hp : propagation t1 t2 t3 t4 t5 rx ≠ .error .bounds := by
        unfold propagation
        simp only
        split
        · exact fun h => by cases h
        · exact fun h => by cases h
      cases h6 : propagation t1 t2 t3 t4 t5 rx with
      | error e =>
        rw [bind_error]
        rw [h6] at hp
        intro h'
        cases h'
        exact hp rfl
      | ok t =>
        simp only [bind_ok, pure_eq]
        split
        · exact fun h => by cases h
        · exact fun h => by cases h
    rw [if_neg s2]
    by_cases s3 : seq = seqAnchorPos
    · rw [if_pos s3, hsl 12 (by omega), bind_ok, pure_eq]
      split
      · exact fun h => by cases h
      · exact fun h => by cases h
    rw [if_neg s3]
    by_cases s4 : seq = seqTagPos
    · rw [if_pos s4, hsl 8 (by omega), bind_ok, pure_eq]
      split
      · exact fun h => by cases h
      · exact fun h => by cases h
    rw [if_neg s4]
    by_cases s5 : seq = seqInitiate
    · rw [if_pos s5, sendAdvertisement_eq _ _ _ (by omega)]
      exact fun h => by cases h
    rw [if_neg s5]
    by_cases s6 : seq = seqUserData
    · rw [if_pos s6]
      by_cases hcb : h.userData = true
      · rw [if_pos hcb, hsl _ (by omega), bind_ok, pure_eq]
        exact fun h => by cases h
      · rw [if_neg hcb]
        exact fun h => by cases h
    rw [if_neg s6]
    exact fun h => by cases h
  · obtain ⟨after, hd, _⟩ := decapsulate_eq c k pan src dst seq payload rest (by omega)
    rw [(receive_of h _ _ rx now hd).1 hm]
    exact fun h => by cases h

/-- A longer advertisement makes a tag write behind its buffer. -/
theorem answer_overrun (h : Handler) (hdr : Header) (seq : Byte) (buf : List Byte) (n rx off : Nat) (hn : buf.length < n + 21)
    (hs : n + 21 < 4294967296) : answer h hdr seq buf n rx off = .error .bounds := by
  unfold answer write40
  cases e1 : put buf off (bytes40 rx) with
  | error e => cases e <;> first | rfl | (unfold put at e1; split at e1 <;> cases e1)
  | ok b1 =>
    simp only [bind_ok]
    cases e2 : put b1 (off + 5) (bytes40 (later rx)) with
    | error e => cases e <;> first | rfl | (unfold put at e2; split at e2 <;> cases e2)
    | ok b2 =>
      have l1 := (put_length e1).1
      have l2 := (put_length e2).1
      simp only [bind_ok]
      rw [size_eq (n := n + 10) (by omega), encapsulate_no_room _ _ _ _ _ _ (by omega) (by omega)]
      rfl

/-- The buffer overrun: an advertisement with less than 10 bytes of the buffer behind it. The receive buffer has 1024 bytes and frames have up to 1023. -/
theorem advertisement_overrun (h : Handler) (c k : Byte × Byte) (pan src dst : Addr) (payload rest : List Byte) (rx now : Nat)
    (hl : payload.length + 21 < 4294967296) (hm : h.Mine pan dst) (hA : h.isAnchor = false) (hr : rest.length < 10) :
    receive h (anyFrame c pan src dst 0 payload k ++ rest) (payload.length + 11) rx now = .error .bounds := by
  obtain ⟨after, ha, e⟩ := receive_frame h c k pan src dst 0 payload rest rx now (by omega) hm
  rw [e]
  rw [dispatch_0 _ _ _ _ _ _ rfl, if_pos hA]
  exact answer_overrun _ _ _ _ _ _ _ (by rw [List.length_append]; omega) hl

/-- A short finalization is completed by what the buffer held before: the distance is made of stale bytes. -/
theorem stale_bytes : ∃ (h : Handler) (rest : List Byte) (t : Nat), receive h (macFrame 1 2 0xffff 2 [] ++ rest) 11 1000 0 = .ok [.ranging 2 t] ∧ t ≠ 0 :=
  ⟨⟨1, 3, false, true, true, true, true⟩, List.replicate 25 7, 13499211, by decide +kernel, by decide⟩

/-! ## Examples -/

def exAnchor : Handler := { pan := 0xcafe, address := 7, isAnchor := true }
def exTag : Handler := { pan := 0xcafe, address := 42, isAnchor := false }

/-- A measurement over 3000 ticks, with the clock of the tag 1000000 ticks ahead -/
example : ∃ f1 f2 f3,
    sendAdvertisement exAnchor (List.replicate 1024 0) 5000 = .ok [.transmit 52433408 f1] ∧
    receive exTag (f1 ++ List.replicate 1000 0) f1.length 53436408 0 = .ok [.transmit 105864704 f2] ∧
    receive exAnchor (f2 ++ List.replicate 1000 0) f2.length 104867704 0 = .ok [.transmit 157296128 f3] ∧
    receive exTag (f3 ++ List.replicate 900 0) f3.length 158299128 0 = .ok [.ranging 7 3000] :=
  exchange exAnchor exTag rfl rfl rfl (List.replicate 1024 0) (List.replicate 1000 0) (List.replicate 1000 0) (List.replicate 900 0)
    (by rw [List.length_replicate]; decide) (by rw [List.length_replicate]; decide) (by rw [List.length_replicate]; decide)
    5000 0 0 0 3000 52433408 53436408 105864704 104867704 157296128 158299128 1000000
    (by decide +kernel) (by decide) (by decide +kernel) (by decide) (by decide +kernel) (by decide) (by decide) (by decide) (by decide) (by decide)

example : receive exTag (macFrame 0xbeef 7 42 100 [1, 2] ++ [0]) 13 0 0 = .ok [] :=
  foreign_frame exTag (0x41, 0x88) (0, 0) 0xbeef 7 42 100 [1, 2] [0] 0 0 (by decide) (.inl (by decide))

example : receive exTag (macFrame 0xcafe 7 42 100 [1, 2] ++ [0]) 13 0 0 = .ok [.userData [1, 2] 7 42] := by decide +kernel

example : receive exAnchor (macFrame 0xcafe 42 0xffff 0 [1, 2, 3, 4, 5] ++ List.replicate 30 0) 16 0 0 = .ok [] := by decide +kernel

example : propagation (1099511627000 % 2 ^ 40) 5000 6000 (1099511628200 % 2 ^ 40) (1099511629200 % 2 ^ 40) 7200 = .ok 99 := by decide +kernel

end Verif.Uwb
