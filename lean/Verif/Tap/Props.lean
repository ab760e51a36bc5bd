import Verif.Tap.Model
import Verif.Tap.LimiterProps
import Verif.Uwb.Props

/-!
# Properties of network packets over CAN and radio (C132)
-/

namespace Verif.Tap

/-! ## The adapter -/

/-- The frames read from the interface, with their times. -/
def offered : List BridgeEv → List (ℚ × List Byte)
  | [] => []
  | .tap now frame :: es => (now, frame) :: offered es
  | _ :: es => offered es

/-- The messages that arrived on the bus. -/
def arrived : List BridgeEv → List Msg
  | [] => []
  | .spin ms :: es => ms ++ arrived es
  | _ :: es => arrived es

/-- The frames for which the rate limiter says yes, cut to 1500 bytes. -/
def accepted (l : Limiter) (fs : List (ℚ × List Byte)) : List (List Byte) :=
  ((fs.zip (l.calls (fs.map Prod.fst)).1).filter (·.2.2)).map (·.1.2.take 1500)

/-- The packet that ended the node thread, if any. -/
def Culprit (b : Bridge) (c : List (List Byte)) : Prop :=
  (b.alive = true ∧ c = []) ∨ (b.alive = false ∧ ∃ p, c = [p] ∧ 1024 ≤ p.length)

theorem accepted_cons (l : Limiter) (t : ℚ) (f : List Byte) (fs : List (ℚ × List Byte)) :
    accepted l ((t, f) :: fs) = (if (l.check t).1 then [f.take 1500] else []) ++ accepted (l.check t).2 fs := by
  unfold accepted
  simp only [List.map_cons, Limiter.calls, List.zip_cons_cons, List.filter_cons]
  cases (l.check t).1 <;> simp

theorem bridge_gen (es : List BridgeEv) : ∀ (b b' : Bridge) (c : List (List Byte)), Culprit b c → b.run es = some b' →
    ∃ c', Culprit b' c' ∧
      b.sent.map (·.data) ++ c ++ b.tapToCan ++ accepted b.limiter (offered es) = b'.sent.map (·.data) ++ c' ++ b'.tapToCan ∧
      b.written ++ b.canToTap ++ (arrived es).map (·.data) = b'.written ++ b'.canToTap ∧
      ((∀ m ∈ b.sent, m.src = 0 ∧ m.dst = 0xFFFF ∧ m.data.length < 1024) →
        ∀ m ∈ b'.sent, m.src = 0 ∧ m.dst = 0xFFFF ∧ m.data.length < 1024) := by
  induction es with
  | nil =>
    intro b b' c hc h
    simp only [Bridge.run, Option.some.injEq] at h
    subst h
    exact ⟨c, hc, by simp [accepted, offered, Limiter.calls], by simp [arrived], id⟩
  | cons e es ih =>
    intro b b' c hc h
    unfold Bridge.run at h
    cases hs : b.step e with
    | none => rw [hs] at h; cases h
    | some b1 =>
      rw [hs] at h
      replace h : b1.run es = some b' := h
      cases e with
      | tap now f =>
        simp only [Bridge.step] at hs
        simp only [offered, accepted_cons, arrived]
        cases hk : (b.limiter.check now).1 with
        | true =>
          rw [hk] at hs
          simp only [if_true, Option.some.injEq] at hs
          subst hs
          obtain ⟨c', h1, h2, h3, h4⟩ := ih _ _ c (by exact hc) h
          refine ⟨c', h1, ?_, h3, h4⟩
          rw [← h2]; simp
        | false =>
          rw [hk] at hs
          simp only [Bool.false_eq_true, if_false, Option.some.injEq] at hs
          subst hs
          obtain ⟨c', h1, h2, h3, h4⟩ := ih _ _ c (by exact hc) h
          refine ⟨c', h1, ?_, h3, h4⟩
          rw [← h2]; simp
      | spin ms =>
        simp only [Bridge.step] at hs
        split at hs
        · simp only [Option.some.injEq] at hs
          subst hs
          obtain ⟨c', h1, h2, h3, h4⟩ := ih _ _ c (by exact hc) h
          refine ⟨c', h1, h2, ?_, h4⟩
          rw [← h3]; simp [arrived]
        · cases hs
      | send =>
        simp only [Bridge.step] at hs
        split at hs
        · next ha =>
          have hcn : c = [] := by
            rcases hc with ⟨_, h⟩ | ⟨h, _⟩
            · exact h
            · rw [ha] at h; cases h
          subst hcn
          split at hs
          · simp only [Option.some.injEq] at hs; subst hs
            exact ih _ _ [] hc h
          · next p q hq =>
            split at hs
            · next hl =>
              simp only [Option.some.injEq] at hs; subst hs
              obtain ⟨c', h1, h2, h3, h4⟩ := ih _ _ [] (by exact .inl ⟨ha, rfl⟩) h
              refine ⟨c', h1, ?_, h3, fun hm => h4 ?_⟩
              · rw [← h2, hq]; simp [offered]
              · intro m hm'
                rcases List.mem_append.mp hm' with h | h
                · exact hm m h
                · obtain rfl := List.mem_singleton.mp h; exact ⟨rfl, rfl, hl⟩
            · next hl =>
              simp only [Option.some.injEq] at hs; subst hs
              obtain ⟨c', h1, h2, h3, h4⟩ := ih _ _ [p] (by exact .inr ⟨rfl, p, rfl, by omega⟩) h
              refine ⟨c', h1, ?_, h3, h4⟩
              rw [← h2, hq]; simp [offered]
        · cases hs
      | write =>
        simp only [Bridge.step] at hs
        split at hs
        · cases hs
        · next p q hq =>
          simp only [Option.some.injEq] at hs; subst hs
          obtain ⟨c', h1, h2, h3, h4⟩ := ih _ _ c (by exact hc) h
          refine ⟨c', h1, h2, ?_, h4⟩
          rw [← h3, hq]; simp [arrived]

/-- C132, adapter: in all executions the frames accepted by the rate limiter are broadcast in their order, each once, all to
the broadcast address and all shorter than 1024 bytes; those that are not yet broadcast wait in the queue; and what arrives on
the bus is written to the interface in its order. Only a frame of 1024 bytes or more is not broadcast: it ends the
thread. -/
theorem bridge_order {rate t0 : ℚ} {es : List BridgeEv} {b : Bridge} (h : (Bridge.start rate t0).run es = some b) :
    (∃ c, Culprit b c ∧ accepted (.init rate t0) (offered es) = b.sent.map (·.data) ++ c ++ b.tapToCan) ∧
      (arrived es).map (·.data) = b.written ++ b.canToTap ∧
      ∀ m ∈ b.sent, m.src = 0 ∧ m.dst = 0xFFFF ∧ m.data.length < 1024 := by
  obtain ⟨c, h1, h2, h3, h4⟩ := bridge_gen es _ _ [] (.inl ⟨rfl, rfl⟩) h
  refine ⟨⟨c, h1, ?_⟩, ?_, h4 (by simp [Bridge.start])⟩
  · simpa [Bridge.start] using h2
  · simpa [Bridge.start] using h3

/-- The frames that pass are frames that were offered. -/
theorem accepted_mem {l : Limiter} {fs : List (ℚ × List Byte)} {p : List Byte} (h : p ∈ accepted l fs) :
    ∃ x ∈ fs, p = x.2.take 1500 := by
  induction fs generalizing l with
  | nil => simp [accepted, Limiter.calls] at h
  | cons x fs ih =>
    rw [show x = (x.1, x.2) from rfl, accepted_cons] at h
    rcases List.mem_append.mp h with h | h
    · refine ⟨x, List.mem_cons_self, ?_⟩
      split at h
      · exact List.mem_singleton.mp h
      · cases h
    · obtain ⟨y, hy, he⟩ := ih h
      exact ⟨y, List.mem_cons_of_mem _ hy, he⟩

/-- The adapter keeps running as long as all frames on the interface are shorter than 1024 bytes. -/
theorem stays_alive_partial {rate t0 : ℚ} {es : List BridgeEv} {b : Bridge} (h : (Bridge.start rate t0).run es = some b)
    (hs : ∀ x ∈ offered es, x.2.length < 1024) :
    b.alive = true ∧ accepted (.init rate t0) (offered es) = b.sent.map (·.data) ++ b.tapToCan := by
  obtain ⟨⟨c, h1, h2⟩, -, -⟩ := bridge_order h
  rcases h1 with ⟨ha, rfl⟩ | ⟨_, p, rfl, hp⟩
  · exact ⟨ha, by simpa using h2⟩
  · exfalso
    obtain ⟨x, hx, rfl⟩ := accepted_mem (l := .init rate t0) (fs := offered es) (p := p) (by rw [h2]; simp)
    have := hs x hx
    rw [List.length_take] at hp
    omega

/-- Once the node thread has ended, nothing is broadcast any more and nothing more is received. -/
theorem dead_forever {b b' : Bridge} {es : List BridgeEv} (hb : b.alive = false) (h : b.run es = some b') :
    b'.alive = false ∧ b'.sent = b.sent ∧ b'.written ++ b'.canToTap = b.written ++ b.canToTap := by
  induction es generalizing b with
  | nil => simp only [Bridge.run, Option.some.injEq] at h; subst h; exact ⟨hb, rfl, rfl⟩
  | cons e es ih =>
    unfold Bridge.run at h
    cases hs : b.step e with
    | none => rw [hs] at h; cases h
    | some b1 =>
      rw [hs] at h
      replace h : b1.run es = some b' := h
      cases e with
      | tap now f =>
        simp only [Bridge.step] at hs
        split at hs <;> (simp only [Option.some.injEq] at hs; subst hs; have := ih (by exact hb) h; exact this)
      | spin ms => simp [Bridge.step, hb] at hs
      | send => simp [Bridge.step, hb] at hs
      | write =>
        simp only [Bridge.step] at hs
        split at hs
        · cases hs
        · next p q hq =>
          simp only [Option.some.injEq] at hs; subst hs
          obtain ⟨h1, h2, h3⟩ := ih (b := { b with canToTap := q, written := b.written ++ [p] }) hb h
          exact ⟨h1, h2, by rw [h3, hq]; simp⟩

/-- A single frame of 1024 bytes or more ends the adapter, although Ethernet frames have up to 1514 bytes. -/
theorem long_frame_ends_adapter (rate t0 : ℚ) (hr : 1 < rate) (frame : List Byte) (hf : 1024 ≤ frame.length) :
    ∃ b, (Bridge.start rate t0).run [.tap t0 frame, .send] = some b ∧ b.alive = false ∧ b.sent = [] := by
  have hok : ((Limiter.init rate t0).check t0).1 = true := by
    rw [check_allowed]; simp only [Limiter.init, sub_self, mul_zero, add_zero]; exact ⟨hr, hr⟩
  have hl : ¬ (frame.take 1500).length < 1024 := by rw [List.length_take]; omega
  refine ⟨⟨((Limiter.init rate t0).check t0).2, [], [], false, [], []⟩, ?_, rfl, rfl⟩
  simp [Bridge.run, Bridge.step, Bridge.start, hok, show ¬ frame.length < 1024 by omega]

/-! ## On the air -/

/-- C132, beacon: a packet of at most 1012 bytes goes on the air as a frame of the network with that data, whatever the frame
buffer of 1024 bytes held. -/
theorem on_air_partial (h : Uwb.Handler) (buf : List Byte) (m : Msg) (crc : Byte × Byte) (hb : buf.length = 1024)
    (hm : m.data.length ≤ 1012) :
    toAir h buf m crc = .ok (some (Uwb.anyFrame (0x41, 0x88) h.pan h.address m.dst 100 m.data crc)) := by
  unfold toAir dataPacketCb
  rw [if_pos (by omega), Uwb.bind_ok]
  simp only
  rw [Uwb.sendData_eq _ _ _ _ (by omega) (by omega), Uwb.bind_ok]
  simp only [onAir]
  rw [if_pos (by rw [Uwb.macFrame_length]; omega), Uwb.macFrame_length]
  simp only [Uwb.macFrame, Uwb.anyFrame, pure, Except.pure]
  congr 2
  rw [List.take_append_of_le_length (by simp), List.take_of_length_le (by simp)]

/-- A packet of 1013 bytes, which the check in the adapter lets pass, is not sent. -/
theorem too_long_for_radio (h : Uwb.Handler) (buf : List Byte) (m : Msg) (crc : Byte × Byte) (hb : buf.length = 1024)
    (hm : m.data.length = 1013) : toAir h buf m crc = .ok none := by
  unfold toAir dataPacketCb
  rw [if_pos (by omega), Uwb.bind_ok]
  simp only
  rw [Uwb.sendData_eq _ _ _ _ (by omega) (by omega), Uwb.bind_ok]
  simp only [onAir]
  rw [if_neg (by rw [Uwb.macFrame_length]; omega)]
  rfl

/-- One of 1014 to 1023 bytes, which that check lets pass as well, is written beyond the end of the frame buffer of the
beacon. -/
theorem overruns_buffer (h : Uwb.Handler) (buf : List Byte) (m : Msg) (crc : Byte × Byte) (hb : buf.length = 1024)
    (h1 : 1014 ≤ m.data.length) (h2 : m.data.length ≤ 1023) : toAir h buf m crc = .error .bounds := by
  unfold toAir dataPacketCb
  rw [if_pos (by omega), Uwb.bind_ok]
  simp only
  have : Uwb.sendData h m.dst m.data buf = .error .bounds := by
    unfold Uwb.sendData
    rw [Uwb.put_front _ _ (by omega), Uwb.bind_ok]
    rw [Uwb.encapsulate_no_room _ _ _ _ _ _ (by omega) (by simp; omega)]
    rfl
  rw [this]; rfl

/-- The frame as it arrives at another beacon of the network. -/
theorem from_air (h : Uwb.Handler) (buf : List Byte) {pan : Addr} (src dst : Addr) (data : List Byte) (c crc : Byte × Byte) (rx now : Nat)
    (hb : buf.length = 1024) (hd : data.length ≤ 1013) (hu : h.userData = true) (hm : h.Mine pan dst) :
    fromAir h buf (Uwb.anyFrame c pan src dst 100 data crc) rx now = .ok [some ⟨src, dst, data⟩] := by
  have hlen : (Uwb.anyFrame c pan src dst 100 data crc).length = data.length + 11 := by simp [Uwb.anyFrame]
  unfold fromAir
  rw [Uwb.put_front _ _ (by omega), Uwb.bind_ok, hlen]
  obtain ⟨after, _, hr⟩ := Uwb.receive_frame h c crc pan src dst 100 data (buf.drop (data.length + 11)) rx now (by omega) hm
  rw [hr, Uwb.dispatch_100 _ _ _ _ _ _ rfl, if_pos hu, Uwb.slice_prefix]
  have h1 : data.length ≤ 1024 := by omega
  simp [bind, Except.bind, pure, Except.pure, received, h1]

/-- C132, over the air: a packet of at most 1012 bytes that one beacon gets from the CAN bus is published unchanged by every
other beacon of the network for which it is meant, under the address of the sender. -/
theorem over_the_air_partial (tx rx : Uwb.Handler) (bufT bufR : List Byte) (m : Msg) (crc : Byte × Byte) (t now : Nat)
    (hbT : bufT.length = 1024) (hbR : bufR.length = 1024) (hm : m.data.length ≤ 1012) (hu : rx.userData = true)
    (hp : rx.pan = tx.pan) (hd : m.dst = rx.address ∨ m.dst = 0xFFFF) :
    (do match ← toAir tx bufT m crc with
        | some f => fromAir rx bufR f t now
        | none => .ok []) = .ok [some ⟨tx.address, m.dst, m.data⟩] := by
  rw [on_air_partial tx bufT m crc hbT hm, Uwb.bind_ok]
  exact from_air rx bufR _ _ _ _ _ _ _ hbR (by omega) hu ⟨hp.symm, hd⟩

/-- And every other frame publishes nothing: those for another network or another address. -/
theorem foreign_not_published (h : Uwb.Handler) (buf : List Byte) (pan src dst : Addr) (seq : Byte) (data : List Byte)
    (c crc : Byte × Byte) (rx now : Nat) (hb : buf.length = 1024) (hd : data.length ≤ 1013)
    (hm : pan ≠ h.pan ∨ dst ≠ h.address ∧ dst ≠ 0xffff) :
    fromAir h buf (Uwb.anyFrame c pan src dst seq data crc) rx now = .ok [] := by
  have hlen : (Uwb.anyFrame c pan src dst seq data crc).length = data.length + 11 := by simp [Uwb.anyFrame]
  unfold fromAir
  rw [Uwb.put_front _ _ (by omega), Uwb.bind_ok, hlen, Uwb.foreign_frame h c crc pan src dst seq data _ rx now (by omega) hm]
  rfl

/-! ## From the topic to the CAN bus -/

/-- The packets published on the topic. -/
def packets : List RelayEv → List Msg
  | [] => []
  | .arrive m :: es => m :: packets es
  | _ :: es => packets es

/-- `out` shows packets of `l` in their order; some may be left out and some repeated. -/
def InOrder (out l : List Msg) : Prop :=
  ∃ idx : List Nat, idx.Pairwise (· ≤ ·) ∧ (∀ i ∈ idx, i < l.length) ∧ out.map some = idx.map (l[·]?)

/-- What holds after the packets `l`. -/
structure Relay.Ok (r : Relay) (l : List Msg) : Prop where
  order : InOrder r.out l
  topic : r.topic = l.getLast?
  got : r.watcher = .got .data → l ≠ []
  pub : r.published = .data → l ≠ []
  sem : r.sem = true → l ≠ []
  taken : r.taken = true → l ≠ []

theorem InOrder.more {out l : List Msg} (h : InOrder out l) (m : Msg) : InOrder out (l ++ [m]) := by
  obtain ⟨idx, h1, h2, h3⟩ := h
  refine ⟨idx, h1, fun i hi => by have := h2 i hi; simp; omega, ?_⟩
  rw [h3]
  refine List.map_congr_left fun i hi => ?_
  rw [List.getElem?_append_left (h2 i hi)]

theorem InOrder.show {out l : List Msg} (h : InOrder out l) {m : Msg} (hm : l.getLast? = some m) : InOrder (out ++ [m]) l := by
  obtain ⟨idx, h1, h2, h3⟩ := h
  have hl : 0 < l.length := by cases l <;> simp at hm ⊢
  refine ⟨idx ++ [l.length - 1], ?_, ?_, ?_⟩
  · rw [List.pairwise_append]
    refine ⟨h1, by simp, ?_⟩
    intro a ha b hb
    have := h2 a ha
    simp at hb
    omega
  · intro i hi
    rcases List.mem_append.mp hi with hi | hi
    · exact h2 i hi
    · simp at hi; omega
  · rw [List.map_append, List.map_append, h3]
    simp [← hm, List.getLast?_eq_getElem?]

theorem relay_gen (es : List RelayEv) : ∀ (r r' : Relay) (l : List Msg), r.Ok l → r.run es = some r' → r'.Ok (l ++ packets es) := by
  induction es with
  | nil =>
    intro r r' l h hr
    simp only [Relay.run, Option.some.injEq] at hr
    subst hr
    simpa [packets] using h
  | cons e es ih =>
    intro r r' l h hr
    unfold Relay.run at hr
    cases hs : r.step e with
    | none => rw [hs] at hr; cases hr
    | some r1 =>
      rw [hs] at hr
      replace hr : r1.run es = some r' := hr
      cases e with
      | arrive m =>
        have := ih r1 r' (l ++ [m]) ?_ hr
        · simpa [packets] using this
        simp only [Relay.step, Option.some.injEq] at hs
        subst hs
        exact ⟨h.order.more m, by simp, by simp, by simp, by simp, by simp⟩
      | other =>
        refine ih r1 r' l ?_ hr
        simp only [Relay.step, Option.some.injEq] at hs
        subst hs
        refine ⟨h.order, h.topic, ?_, by simp, h.sem, h.taken⟩
        intro hw
        refine h.got ?_
        simp only at hw
        revert hw
        cases r.watcher <;> simp [Watcher.notified]
      | wake =>
        refine ih r1 r' l ?_ hr
        simp only [Relay.step] at hs
        split at hs
        · simp only [Option.some.injEq] at hs
          subst hs
          exact ⟨h.order, h.topic, fun hw => h.pub (by simpa using hw), h.pub, h.sem, h.taken⟩
        · cases hs
      | handle en =>
        refine ih r1 r' l ?_ hr
        simp only [Relay.step] at hs
        split at hs
        · next w hw =>
          simp only [Option.some.injEq] at hs
          subst hs
          refine ⟨h.order, h.topic, by simp, h.pub, ?_, h.taken⟩
          intro hsem
          simp only [Bool.or_eq_true, Bool.and_eq_true, decide_eq_true_eq] at hsem
          rcases hsem with hsem | ⟨rfl, _⟩
          · exact h.sem hsem
          · exact h.got hw
        · cases hs
      | wait =>
        refine ih r1 r' l ?_ hr
        simp only [Relay.step] at hs
        split at hs
        · simp only [Option.some.injEq] at hs
          subst hs
          exact ⟨h.order, h.topic, by simp, h.pub, h.sem, h.taken⟩
        · cases hs
      | take =>
        refine ih r1 r' l ?_ hr
        simp only [Relay.step] at hs
        split at hs
        · cases hs
        · simp only [Option.some.injEq] at hs
          subst hs
          exact ⟨h.order, h.topic, h.got, h.pub, by simp, h.sem⟩
      | read =>
        refine ih r1 r' l ?_ hr
        simp only [Relay.step] at hs
        split at hs
        · split at hs
          · next m hm =>
            simp only [Option.some.injEq] at hs
            subst hs
            exact ⟨h.order.show (by rw [← h.topic, hm]), by rw [← h.topic, hm], h.got, h.pub, h.sem, by simp⟩
          · cases hs
        · cases hs

theorem relay_ok {es : List RelayEv} {r : Relay} (h : Relay.start.run es = some r) : r.Ok (packets es) := by
  have := relay_gen es _ _ [] ⟨⟨[], by simp, by simp, rfl⟩, rfl, by simp [Relay.start], by simp [Relay.start], by simp [Relay.start], by simp [Relay.start]⟩ h
  simpa using this

/-- C132, relay: in all executions what the beacon broadcasts are packets that arrived, in the order of their arrival. -/
theorem relay_in_order {es : List RelayEv} {r : Relay} (h : Relay.start.run es = some r) : InOrder r.out (packets es) :=
  (relay_ok h).order

/-- The read of the topic after the semaphore never finds it empty: what the code relies on when it ignores the result of
`messagebus_topic_read` (topics_publisher.cpp:205). -/
theorem read_succeeds {es : List RelayEv} {r : Relay} (h : Relay.start.run es = some r) (ht : r.taken = true) :
    ∃ r', r.step .read = some r' := by
  have hk := relay_ok h
  have hne := hk.taken ht
  obtain ⟨m, hm⟩ : ∃ m, r.topic = some m := by
    rw [hk.topic]
    cases hg : (packets es).getLast? with
    | none => exact absurd (List.getLast?_eq_none_iff.mp hg) hne
    | some m => exact ⟨m, rfl⟩
  exact ⟨{ r with taken := false, out := r.out ++ [m] }, by simp [Relay.step, ht, hm]⟩

/-- A packet that arrives while all threads wait and that is handled before anything else happens. -/
theorem calm_step (r : Relay) (m : Msg) (hw : r.watcher = .waiting) (hs : r.sem = false) (ht : r.taken = false) :
    r.run [.arrive m, .wake, .handle true, .wait, .take, .read] =
      some { r with topic := some m, published := .data, out := r.out ++ [m] } := by
  simp [Relay.run, Relay.step, hw, hs, ht, Watcher.notified]

/-- One packet after the other, each handled before the next. -/
def calmly : List Msg → List RelayEv
  | [] => []
  | m :: ms => [.arrive m, .wake, .handle true, .wait, .take, .read] ++ calmly ms

theorem Relay.run_append (r : Relay) (a b : List RelayEv) :
    r.run (a ++ b) = match r.run a with | none => none | some r => r.run b := by
  induction a generalizing r with
  | nil => rfl
  | cons e es ih =>
    simp only [List.cons_append, Relay.run]
    cases r.step e with
    | none => rfl
    | some r => exact ih r

theorem calm_gen (ms : List Msg) : ∀ r : Relay, r.watcher = .waiting → r.sem = false → r.taken = false →
    ∃ r', r.run (calmly ms) = some r' ∧ r'.out = r.out ++ ms := by
  induction ms with
  | nil => intro r _ _ _; exact ⟨r, rfl, by simp⟩
  | cons m ms ih =>
    intro r h1 h2 h3
    obtain ⟨r', hr, ho⟩ := ih { r with topic := some m, published := .data, out := r.out ++ [m] } h1 h2 h3
    refine ⟨r', ?_, by rw [ho]; simp⟩
    rw [calmly, Relay.run_append, calm_step r m h1 h2 h3]
    exact hr

/-- Packets that come slowly enough are all broadcast, each once. -/
theorem calm_all_relayed_partial (ms : List Msg) : ∃ r, Relay.start.run (calmly ms) = some r ∧ r.out = ms := by
  obtain ⟨r, h1, h2⟩ := calm_gen ms .start rfl rfl rfl
  exact ⟨r, h1, by simpa [Relay.start] using h2⟩

/-- Of two packets in quick succession the first is lost, and after everything was handled it is still lost. -/
theorem burst_loses (m n : Msg) : ∃ r, Relay.start.run [.arrive m, .arrive n, .wake, .handle true, .wait, .take, .read] = some r ∧
    r.out = [n] ∧ r.watcher = .waiting ∧ r.sem = false ∧ r.taken = false :=
  ⟨_, rfl, rfl, rfl, rfl, rfl⟩

/-- A packet is lost if the other topic is published before the watcher has left the wait. -/
theorem other_topic_hides (m : Msg) : ∃ r, Relay.start.run [.arrive m, .other, .wake, .handle true, .wait, .take] = some r ∧
    r.out = [] ∧ r.watcher = .waiting ∧ r.sem = false ∧ r.taken = false :=
  ⟨_, rfl, rfl, rfl, rfl, rfl⟩

/-- The last packet is lost without any other traffic if it arrives while the watcher is on the way back and the CAN
thread has already broadcast the one before. -/
theorem missed_between_waits (m n : Msg) :
    ∃ r, Relay.start.run [.arrive m, .wake, .handle true, .take, .read, .arrive n, .wait, .take] = some r ∧
      r.out = [m] ∧ r.watcher = .waiting ∧ r.sem = false ∧ r.taken = false :=
  ⟨_, rfl, rfl, rfl, rfl, rfl⟩

/-- A packet can be broadcast twice while the one before it is lost. -/
theorem repeated (m n : Msg) :
    ∃ r, Relay.start.run [.arrive m, .wake, .handle true, .wait, .arrive n, .take, .read, .wake, .handle true, .wait, .take, .read] = some r ∧
      r.out = [n, n] :=
  ⟨_, rfl, rfl⟩

/-- Without the parameter nothing is broadcast. -/
theorem disabled_silent {es : List RelayEv} {r : Relay} (h : Relay.start.run es = some r) (hd : .handle true ∉ es) : r.out = [] := by
  suffices ∀ (es : List RelayEv) (r r' : Relay), r.sem = false → r.taken = false → .handle true ∉ es → r.run es = some r' → r'.out = r.out by
    simpa [Relay.start] using this es _ _ rfl rfl hd h
  clear h hd
  intro es
  induction es with
  | nil => intro r r' _ _ _ h; simp only [Relay.run, Option.some.injEq] at h; rw [h]
  | cons e es ih =>
    intro r r' hs ht hd h
    unfold Relay.run at h
    have hd' : RelayEv.handle true ∉ es := fun hh => hd (List.mem_cons_of_mem _ hh)
    cases hst : r.step e with
    | none => rw [hst] at h; cases h
    | some r1 =>
      rw [hst] at h
      replace h : r1.run es = some r' := h
      have key : r1.sem = false ∧ r1.taken = false ∧ r1.out = r.out := by
        cases e with
        | arrive m => simp only [Relay.step, Option.some.injEq] at hst; subst hst; exact ⟨hs, ht, rfl⟩
        | other => simp only [Relay.step, Option.some.injEq] at hst; subst hst; exact ⟨hs, ht, rfl⟩
        | wake =>
          simp only [Relay.step] at hst
          split at hst
          · simp only [Option.some.injEq] at hst; subst hst; exact ⟨hs, ht, rfl⟩
          · cases hst
        | handle en =>
          have hen : en = false := by
            cases en with
            | false => rfl
            | true => exact absurd List.mem_cons_self hd
          subst hen
          simp only [Relay.step] at hst
          split at hst
          · simp only [Option.some.injEq] at hst; subst hst; exact ⟨by simp [hs], ht, rfl⟩
          · cases hst
        | wait =>
          simp only [Relay.step] at hst
          split at hst
          · simp only [Option.some.injEq] at hst; subst hst; exact ⟨hs, ht, rfl⟩
          · cases hst
        | take => simp only [Relay.step, ht, Bool.false_eq_true, if_false, Option.some.injEq] at hst; subst hst; exact ⟨rfl, hs, rfl⟩
        | read => simp [Relay.step, ht] at hst
      rw [ih r1 r' key.1 key.2.1 hd' h, key.2.2]

/-! ## From end to end -/

/-- C132, from end to end: frames on the interface of one computer, all of at most 1012 bytes, of which those the rate limiter
lets pass are broadcast by the adapter; each of these is published by the beacon of another computer of the network, and if
they come slowly enough there, the adapter of that computer writes exactly the frames that passed, in their order. -/
theorem end_to_end_partial {rate t0 rate' t0' : ℚ} {es : List BridgeEv} {b : Bridge} (hrun : (Bridge.start rate t0).run es = some b)
    (hs : ∀ x ∈ offered es, x.2.length ≤ 1012) (hq : b.tapToCan = [])
    (tx rx : Uwb.Handler) (hu : rx.userData = true) (hp : rx.pan = tx.pan) (bufT bufR : Msg → List Byte) (crc : Msg → Byte × Byte)
    (hbT : ∀ m, (bufT m).length = 1024) (hbR : ∀ m, (bufR m).length = 1024) (t now : Msg → Nat) :
    ∃ ms r b', (∀ m ∈ b.sent, (do match ← toAir tx (bufT m) m (crc m) with
          | some f => fromAir rx (bufR m) f (t m) (now m)
          | none => .ok []) = .ok [some ⟨tx.address, m.dst, m.data⟩]) ∧
      ms = b.sent.map (fun m => ⟨tx.address, m.dst, m.data⟩) ∧
      Relay.start.run (calmly ms) = some r ∧
      (Bridge.start rate' t0').run (.spin r.out :: List.replicate r.out.length .write) = some b' ∧
      b'.written = accepted (.init rate t0) (offered es) := by
  obtain ⟨-, hacc⟩ := stays_alive_partial hrun (fun x hx => by have := hs x hx; omega)
  rw [hq, List.append_nil] at hacc
  have hlen : ∀ m ∈ b.sent, m.data.length ≤ 1012 := by
    intro m hm
    obtain ⟨x, hx, he⟩ := accepted_mem (l := .init rate t0) (fs := offered es) (p := m.data) (by rw [hacc]; exact List.mem_map_of_mem hm)
    have := hs x hx
    rw [he, List.length_take]; omega
  have hdst := (bridge_order hrun).2.2
  obtain ⟨r, hr, ho⟩ := calm_all_relayed_partial (b.sent.map (fun m => (⟨tx.address, m.dst, m.data⟩ : Msg)))
  have hw : ∀ (q : List (List Byte)) (c : Bridge), c.canToTap = q →
      ∃ c', c.run (List.replicate q.length .write) = some c' ∧ c'.written = c.written ++ q := by
    intro q
    induction q with
    | nil => intro c _; exact ⟨c, rfl, by simp⟩
    | cons p q ih =>
      intro c hc
      obtain ⟨c', h1, h2⟩ := ih { c with canToTap := q, written := c.written ++ [p] } rfl
      refine ⟨c', ?_, by rw [h2]; simp⟩
      simp only [List.length_cons, List.replicate_succ, Bridge.run, Bridge.step, hc]
      exact h1
  obtain ⟨b', h1, h2⟩ := hw (r.out.map (·.data)) { Bridge.start rate' t0' with canToTap := r.out.map (·.data) } rfl
  refine ⟨_, r, b', ?_, rfl, hr, ?_, ?_⟩
  · intro m hm
    exact over_the_air_partial tx rx _ _ m _ _ _ (hbT m) (hbR m) (hlen m hm) hu hp (.inr (hdst m hm).2.1)
  · rw [List.length_map] at h1
    simpa [Bridge.run, Bridge.step, Bridge.start] using h1
  · rw [h2, ho, hacc]; simp [Bridge.start]

/-! ## Examples -/

/-- Two frames of which one passes through and the other still waits. -/
example : ∃ b, (Bridge.start 100 0).run [.tap 0 [1, 2], .tap 0 [3], .send, .spin [⟨7, 0xFFFF, [9]⟩], .write] = some b ∧
    b.sent = [⟨0, 0xFFFF, [1, 2]⟩] ∧ b.tapToCan = [[3]] ∧ b.written = [[9]] ∧ b.alive = true := by
  refine ⟨⟨⟨100, 98, 0⟩, [[3]], [], true, [⟨0, 0xFFFF, [1, 2]⟩], [[9]]⟩, ?_, rfl, rfl, rfl, rfl⟩
  norm_num [Bridge.run, Bridge.step, Bridge.start, Limiter.check, Limiter.init]

example : ∃ (h : Uwb.Handler), h.userData = true ∧ h.Mine 1 0xffff ∧
    fromAir h (List.replicate 1024 0) (Uwb.anyFrame (0x41, 0x88) 1 7 0xffff 100 [1, 2, 3] (0, 0)) 0 0 = .ok [some ⟨7, 0xffff, [1, 2, 3]⟩] := by
  refine ⟨{ address := 9, pan := 1, isAnchor := false, userData := true, .. }, rfl, ⟨rfl, .inr rfl⟩, ?_⟩
  exact from_air _ _ _ _ _ _ _ _ _ List.length_replicate (by decide) rfl ⟨rfl, .inr rfl⟩

end Verif.Tap
