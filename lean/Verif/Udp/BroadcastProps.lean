import Verif.Udp.Broadcast

/-! # Broadcast of topics over UDP: what is proved (C93) -/

namespace Verif.Udp

def Enc.own : Enc → List Nat
  | .idle => []
  | .got i => [i]
  | .coded i _ => [i]

def Snd.own : Snd → List Nat
  | .idle => []
  | .fetched i => [i]
  | .ready i => [i]
  | .sent i => [i]

/-- The buffer of the sender that is still to be sent. -/
def Snd.todo : Snd → List Nat
  | .idle => []
  | .fetched i => [i]
  | .ready i => [i]
  | .sent _ => []

/-- Every buffer, with all of its owners. -/
def owners (s : St) : List Nat := s.pool ++ s.enc.own ++ s.mbox ++ s.snd.own

/-- What was encoded but not posted yet. -/
def Enc.pending : Enc → List Bytes
  | .coded _ (some f) => [f]
  | _ => []

/-- What an event encodes. -/
def Ev.coded : Ev → List Bytes
  | .encode t => (Verif.Udp.encode t maxLen scratchLen).1.toList
  | _ => []

structure Inv (s : St) : Prop where
  own : (owners s).Perm (List.range poolSize)
  leak : s.leaked = []
  order : s.posted = s.out.map Prod.fst ++ s.snd.todo.map s.cont ++ s.mbox.map s.cont
  coded : ∀ i f, s.enc = .coded i (some f) → s.cont i = f

theorem inv_init : Inv St.init :=
  ⟨by decide, rfl, rfl, fun _ _ h => by cases h⟩

theorem own_length {s : St} (h : Inv s) : s.pool.length + s.enc.own.length + s.mbox.length + s.snd.own.length = poolSize := by
  have := h.own.length_eq
  simp only [owners, List.length_append, List.length_range] at this
  omega

theorem own_nodup {s : St} (h : Inv s) : (owners s).Nodup := h.own.nodup_iff.2 List.nodup_range

theorem perm_of_count {s s' : St} (h : Inv s) (e : ∀ a, (owners s').count a = (owners s).count a) :
    (owners s').Perm (List.range poolSize) :=
  (List.perm_iff_count.2 e).trans h.own

theorem todo_sub_own (s : Snd) : ∀ i ∈ s.todo, i ∈ s.own := by
  cases s <;> simp [Snd.todo, Snd.own]

theorem step_inv {s s' : St} {e : Ev} (h : Inv s) (hs : step s e = some s') : Inv s' := by
  cases e with
  | wake =>
    unfold step at hs
    cases he : s.enc with
    | idle =>
      cases hp : s.pool with
      | nil =>
        simp only [he, hp] at hs
        cases hs
        refine ⟨perm_of_count h (fun a => ?_), h.leak, h.order, fun i f hc => by cases hc⟩
        simp only [owners, he, hp]
      | cons i p =>
        simp only [he, hp] at hs
        cases hs
        refine ⟨perm_of_count h (fun a => ?_), h.leak, h.order, fun i f hc => by cases hc⟩
        simp only [owners, he, hp, Enc.own, List.count_append, List.count_cons, List.count_nil]
        omega
    | got i => simp only [he] at hs; cases hs
    | coded i m => simp only [he] at hs; cases hs
  | encode t =>
    unfold step at hs
    cases he : s.enc with
    | idle => simp only [he] at hs; cases hs
    | coded i m => simp only [he] at hs; cases hs
    | got i =>
      simp only [he] at hs
      cases hc : (encode t maxLen scratchLen).1 with
      | none =>
        simp only [hc] at hs
        cases hs
        refine ⟨perm_of_count h (fun a => ?_), h.leak, h.order, fun i f hc => by cases hc⟩
        simp only [owners, he, Enc.own]
      | some f =>
        simp only [hc] at hs
        cases hs
        have nd := own_nodup h
        have hi : i ∉ s.mbox ∧ i ∉ s.snd.own := by
          simp only [owners, he, Enc.own, List.append_assoc, List.nodup_append] at nd
          obtain ⟨_, ⟨_, nd, hd⟩, _⟩ := nd
          have hd' := hd i (by simp)
          exact ⟨fun hm => hd' i (by simp [hm]) rfl, fun hm => hd' i (by simp [hm]) rfl⟩
        have keep : ∀ l : List Nat, i ∉ l → l.map (fun j => if j = i then f else s.cont j) = l.map s.cont := by
          intro l hl
          apply List.map_congr_left
          intro j hj
          rw [if_neg (fun hij : j = i => hl (hij ▸ hj))]
        refine ⟨perm_of_count h (fun a => ?_), h.leak, ?_, fun i' f' hc => ?_⟩
        · simp only [owners, he, Enc.own]
        · simp only
          rw [keep _ hi.1, keep _ (fun hm => hi.2 (todo_sub_own _ _ hm))]
          exact h.order
        · injection hc with h1 h2
          injection h2 with h2
          subst h1
          simp [h2]
  | post =>
    unfold step at hs
    cases he : s.enc with
    | idle => simp only [he] at hs; cases hs
    | got i => simp only [he] at hs; cases hs
    | coded i m =>
      cases m with
      | none =>
        simp only [he] at hs
        cases hs
        refine ⟨perm_of_count h (fun a => ?_), h.leak, h.order, fun i f hc => by cases hc⟩
        simp only [owners, he, Enc.own, List.count_append, List.count_cons, List.count_nil]
        omega
      | some f =>
        simp only [he] at hs
        have hl := own_length h
        simp only [he, Enc.own, List.length_cons, List.length_nil] at hl
        rw [if_pos (by omega)] at hs
        cases hs
        refine ⟨perm_of_count h (fun a => ?_), h.leak, ?_, fun i f hc => by cases hc⟩
        · simp only [owners, he, Enc.own, List.count_append, List.count_cons, List.count_nil]
          omega
        · simp only [h.order, List.map_append, List.map_cons, List.map_nil, List.append_assoc, h.coded i f he]
  | fetch =>
    unfold step at hs
    cases he : s.snd with
    | fetched i => simp only [he] at hs; cases hs
    | ready i => simp only [he] at hs; cases hs
    | sent i => simp only [he] at hs; cases hs
    | idle =>
      cases hm : s.mbox with
      | nil => simp only [he, hm] at hs; cases hs
      | cons i m =>
        simp only [he, hm] at hs
        cases hs
        refine ⟨perm_of_count h (fun a => ?_), h.leak, ?_, fun i f hc => h.coded i f hc⟩
        · simp only [owners, he, hm, Snd.own, List.count_append, List.count_cons, List.count_nil]
          omega
        · have := h.order
          simp only [he, hm, Snd.todo, List.map_nil, List.append_nil, List.map_cons] at this
          simp only [Snd.todo, List.map_cons, List.map_nil, this, List.append_assoc, List.cons_append, List.nil_append]
  | nobuf =>
    unfold step at hs
    cases he : s.snd with
    | idle => simp only [he] at hs; cases hs
    | ready i => simp only [he] at hs; cases hs
    | sent i => simp only [he] at hs; cases hs
    | fetched i =>
      simp only [he] at hs
      cases hs
      refine ⟨perm_of_count h (fun a => ?_), h.leak, ?_, fun i f hc => h.coded i f hc⟩
      · simp only [owners, he, Snd.own, List.count_append, List.count_cons, List.count_nil]
        omega
      · have := h.order
        simp only [he, Snd.todo, List.map_cons, List.map_nil] at this
        simp only [Snd.todo, List.map_append, List.map_cons, List.map_nil, List.append_nil, this]
  | newbuf =>
    unfold step at hs
    cases he : s.snd with
    | idle => simp only [he] at hs; cases hs
    | ready i => simp only [he] at hs; cases hs
    | sent i => simp only [he] at hs; cases hs
    | fetched i =>
      simp only [he] at hs
      cases hs
      refine ⟨perm_of_count h (fun a => ?_), h.leak, ?_, fun i f hc => h.coded i f hc⟩
      · simp only [owners, he, Snd.own]
      · have := h.order
        simp only [he, Snd.todo] at this
        exact this
  | send =>
    unfold step at hs
    cases he : s.snd with
    | idle => simp only [he] at hs; cases hs
    | fetched i => simp only [he] at hs; cases hs
    | sent i => simp only [he] at hs; cases hs
    | ready i =>
      simp only [he] at hs
      cases hs
      refine ⟨perm_of_count h (fun a => ?_), h.leak, ?_, fun i f hc => h.coded i f hc⟩
      · simp only [owners, he, Snd.own]
      · have := h.order
        simp only [he, Snd.todo, List.map_cons, List.map_nil] at this
        simp only [Snd.todo, List.map_append, List.map_cons, List.map_nil, List.append_nil, this]
  | release =>
    unfold step at hs
    cases he : s.snd with
    | idle => simp only [he] at hs; cases hs
    | fetched i => simp only [he] at hs; cases hs
    | ready i => simp only [he] at hs; cases hs
    | sent i =>
      simp only [he] at hs
      cases hs
      refine ⟨perm_of_count h (fun a => ?_), h.leak, ?_, fun i f hc => h.coded i f hc⟩
      · simp only [owners, he, Snd.own, List.count_append, List.count_cons, List.count_nil]
        omega
      · have := h.order
        simp only [he, Snd.todo] at this
        exact this

theorem run_inv {es : List Ev} : ∀ {s s' : St}, Inv s → run s es = some s' → Inv s' := by
  induction es with
  | nil => intro s s' h e; cases e; exact h
  | cons e es ih =>
    intro s s' h hr
    simp only [run, Option.bind_eq_some_iff] at hr
    obtain ⟨s1, h1, h2⟩ := hr
    exact ih (step_inv h h1) h2

/-- C93: at every moment every buffer has exactly one owner: the pool, the encoder, the mailbox or the sender. -/
theorem one_owner {es : List Ev} {s : St} (h : run St.init es = some s) : (owners s).Perm (List.range poolSize) :=
  (run_inv inv_init h).own

/-- C93: no buffer is ever lost, although the result of posting is ignored: the mailbox has room for all of them. -/
theorem none_leaked {es : List Ev} {s : St} (h : run St.init es = some s) : s.leaked = [] := (run_inv inv_init h).leak

/-- C93: messages leave in the order they were posted, each one once and with the bytes that were encoded; those not gone yet
are with the sender or in the mailbox. -/
theorem in_order {es : List Ev} {s : St} (h : run St.init es = some s) :
    s.posted = s.out.map Prod.fst ++ s.snd.todo.map s.cont ++ s.mbox.map s.cont := (run_inv inv_init h).order

theorem step_coded {s s' : St} {e : Ev} (hs : step s e = some s') :
    s'.posted ++ s'.enc.pending = s.posted ++ s.enc.pending ++ e.coded := by
  cases e with
  | encode t =>
    unfold step at hs
    cases he : s.enc with
    | idle => simp only [he] at hs; cases hs
    | coded i m => simp only [he] at hs; cases hs
    | got i =>
      simp only [he] at hs
      cases hc : (encode t maxLen scratchLen).1 with
      | none => simp only [hc] at hs; cases hs; simp [Ev.coded, hc, Enc.pending]
      | some f => simp only [hc] at hs; cases hs; simp [Ev.coded, hc, Enc.pending]
  | post =>
    unfold step at hs
    cases he : s.enc with
    | idle => simp only [he] at hs; cases hs
    | got i => simp only [he] at hs; cases hs
    | coded i m =>
      cases m with
      | none => simp only [he] at hs; cases hs; simp [Ev.coded, Enc.pending]
      | some f =>
        simp only [he] at hs
        by_cases hl : s.mbox.length < poolSize
        · rw [if_pos hl] at hs; cases hs; simp [Ev.coded, Enc.pending]
        · rw [if_neg hl] at hs; cases hs; simp [Ev.coded, Enc.pending]
  | wake =>
    unfold step at hs
    cases he : s.enc <;> cases hp : s.pool <;> simp only [he, hp] at hs <;> cases hs <;> simp [Ev.coded, Enc.pending, he]
  | fetch =>
    unfold step at hs
    cases he : s.snd <;> cases hp : s.mbox <;> simp only [he, hp] at hs <;> cases hs <;> simp [Ev.coded]
  | nobuf => unfold step at hs; cases he : s.snd <;> simp only [he] at hs <;> cases hs <;> simp [Ev.coded]
  | newbuf => unfold step at hs; cases he : s.snd <;> simp only [he] at hs <;> cases hs <;> simp [Ev.coded]
  | send => unfold step at hs; cases he : s.snd <;> simp only [he] at hs <;> cases hs <;> simp [Ev.coded]
  | release => unfold step at hs; cases he : s.snd <;> simp only [he] at hs <;> cases hs <;> simp [Ev.coded]

/-- C93: everything that was encoded was posted, or is about to be. -/
theorem all_posted {es : List Ev} {s : St} (h : run St.init es = some s) :
    s.posted ++ s.enc.pending = (es.map Ev.coded).flatten := by
  suffices ∀ es : List Ev, ∀ s s' : St, run s es = some s' →
      s'.posted ++ s'.enc.pending = s.posted ++ s.enc.pending ++ (es.map Ev.coded).flatten by
    have := this es _ _ h
    simpa [St.init, Enc.pending] using this
  intro es
  induction es with
  | nil => intro s s' h; cases h; simp
  | cons e es ih =>
    intro s s' h
    simp only [run, Option.bind_eq_some_iff] at h
    obtain ⟨s1, h1, h2⟩ := h
    rw [ih _ _ h2, step_coded h1]
    simp

/-- C93: a topic is only dropped while all buffers are in use. -/
theorem drop_only_full {s s' : St} (h : step s .wake = some s') (hd : s'.dropped ≠ s.dropped) : s.pool = [] := by
  unfold step at h
  cases he : s.enc <;> cases hp : s.pool <;> simp only [he, hp] at h <;> cases h <;> first | rfl | exact absurd rfl hd

/-- Steps that the sender still has to make. -/
def work (s : St) : Nat :=
  4 * s.mbox.length + match s.snd with | .idle => 0 | .fetched _ => 3 | .ready _ => 2 | .sent _ => 1

/-- C93: as long as there is something to send the sender can go on, and each of its steps is progress. -/
theorem sender_goes_on {s : St} (h : 0 < work s) : ∃ e s', e ∈ [Ev.fetch, .newbuf, .send, .release] ∧ step s e = some s' ∧
    work s' < work s := by
  cases he : s.snd with
  | idle =>
    cases hm : s.mbox with
    | nil => simp [work, he, hm] at h
    | cons i m =>
      refine ⟨.fetch, { s with mbox := m, snd := .fetched i }, by simp, by simp [step, he, hm], ?_⟩
      simp only [work, he, hm, List.length_cons]; omega
  | fetched i =>
    refine ⟨.newbuf, { s with snd := .ready i }, by simp, by simp [step, he], ?_⟩
    simp only [work, he]; omega
  | ready i =>
    refine ⟨.send, { s with snd := .sent i, out := s.out ++ [(s.cont i, true)] }, by simp, by simp [step, he], ?_⟩
    simp only [work, he]; omega
  | sent i =>
    refine ⟨.release, { s with pool := i :: s.pool, snd := .idle }, by simp, by simp [step, he], ?_⟩
    simp only [work, he]; omega

/-- C93: when it has nothing to do, everything posted has been sent or given up, and every buffer is free or with the
encoder. -/
theorem sender_done {es : List Ev} {s : St} (h : run St.init es = some s) (hw : work s = 0) :
    s.posted = s.out.map Prod.fst ∧ (s.pool ++ s.enc.own).Perm (List.range poolSize) := by
  have o := in_order h
  have p := one_owner h
  have hm : s.mbox = [] := by
    cases hm : s.mbox with
    | nil => rfl
    | cons i m => simp only [work, hm, List.length_cons] at hw; omega
  have hs : s.snd = .idle := by
    cases hs : s.snd <;> simp only [work, hs] at hw <;> first | rfl | omega
  simp only [hm, hs, Snd.todo, List.map_nil, List.append_nil] at o
  simp only [owners, hm, hs, Snd.own, List.append_nil] at p
  exact ⟨o, p⟩

/-! ## Examples -/

def demoTopic : Topic := ⟨[109], 13, ⟨fun v => some v, fun w => some w⟩, [1, 2], true⟩

/-- Two topics are encoded before the first one is sent; the buffer of the first one is used again. -/
example : (run St.init [.wake, .encode demoTopic, .post, .fetch, .wake, .encode { demoTopic with buffer := [3] }, .newbuf, .post,
    .send, .release, .fetch, .nobuf, .wake]).map (fun s => (s.out.map Prod.snd, s.posted.length, s.mbox.length, s.pool.length)) =
    some ([true, false], 2, 0, 15) := by decide +kernel

/-- A seventeenth topic is dropped. -/
example : (run St.init ((List.replicate 16 [Ev.wake, .encode demoTopic, .post]).flatten ++ [.wake])).map
    (fun s => (s.dropped, s.mbox.length, s.pool)) = some (1, 16, []) := by decide +kernel

end Verif.Udp
