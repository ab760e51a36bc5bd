import Mathlib.Tactic.Linarith
import Mathlib.Tactic.Ring
import Mathlib.Tactic.FieldSimp
import Mathlib.Tactic.NormNum
import Mathlib.Tactic.Positivity
import Verif.Beacon.Model

/-!
# Pools and mailboxes: properties
-/

namespace Verif.Beacon

/-! ## C68: proximity beacon -/

/-- The objects the publisher holds -/
def Pub.held : Pub → List Nat
  | .idle => []
  | .got sp | .copied sp _ | .sent sp => [sp]

/-- The signal the publisher holds and has not yet sent -/
def Pub.pending (mem : Nat → Signal) : Pub → List Signal
  | .idle | .sent _ => []
  | .got sp => [mem sp]
  | .copied _ s => [s]

/-- The angle of the rotor at time `t`, from the times of its last two passes in microseconds: the part of a turn since the last pass, if the turn before is longer than that -/
def angle (pi : ℚ) (l l' t : BitVec 32) : ℚ :=
  let since : ℚ := (((t - l').toInt : Int) : ℚ)
  let turn : ℚ := (((l' - l).toInt : Int) : ℚ)
  if since < turn then since / turn * (2 * pi) else 0

theorem position_angle (pi : ℚ) (l l' t : BitVec 32) : position pi (Timestamp.durationS l' t) (Timestamp.durationS l l') = angle pi l l' t := by
  unfold position angle Timestamp.durationS Timestamp.durationUs
  simp only
  have e : ∀ a b : ℚ, (a / 1000000 < b / 1000000) = (a < b) := by
    intro a b
    apply propext
    constructor
    · intro h
      rw [div_lt_div_iff_of_pos_right (by norm_num)] at h
      exact h
    · intro h
      rw [div_lt_div_iff_of_pos_right (by norm_num)]
      exact h
  simp only [e]
  split
  · rw [div_div_div_cancel_right₀ (by norm_num), mul_assoc]
  · rfl

/-- The signals an execution should give, from the edges of the sensors alone: each time the light is lost after having been seen, its start and its length. `l`, `l'` are the
last two passes of the rotor. -/
def signals (pi : ℚ) (l l' : BitVec 32) : Option ℚ → List Ev → List Signal
  | _, [] => []
  | s, .pub _ :: es => signals pi l l' s es
  | s, .hall t :: es => signals pi l' t s es
  | _, .light false t :: es => signals pi l l' (some (angle pi l l' t)) es
  | none, .light true _ :: es => signals pi l l' none es
  | some s, .light true t :: es =>
    let d := angle pi l l' t - s
    ⟨s, if d < 0 then d + 2 * pi else d⟩ :: signals pi l l' none es

/-- The objects are the pool's, each in one place. -/
def Owned (st : St) : Prop := (st.free ++ (st.box ++ st.pub.held)).Perm (List.range N)

structure Inv (st : St) : Prop where
  owned : Owned st
  lost : st.lost = false

theorem owned_nodup {st : St} (h : Owned st) : (st.free ++ (st.box ++ st.pub.held)).Nodup := h.nodup_iff.mpr List.nodup_range

theorem owned_length {st : St} (h : Owned st) : st.free.length + (st.box.length + st.pub.held.length) = 14 := by
  have := h.length_eq
  simpa [N] using this

theorem inv_init (mem : Nat → Signal) : Inv (init mem) := ⟨by
  unfold Owned init
  simp only [Pub.held, List.append_nil]
  exact List.reverse_perm _, rfl⟩

/-- What an edge of the sensor does -/
theorem light_cases (pi : ℚ) (pin : Bool) (pos : ℚ) {st : St} (h : Inv st) :
    (pin = false ∧ light pi pin pos st = { st with startAngle := pos, active := true }) ∨
    (pin = true ∧ st.active = false ∧ light pi pin pos st = st) ∨
    (pin = true ∧ st.active = true ∧ st.free = [] ∧ light pi pin pos st = { st with active := false }) ∨
    (∃ sp free, pin = true ∧ st.active = true ∧ st.free = sp :: free ∧ light pi pin pos st =
      { st with active := false, free := free, box := st.box ++ [sp],
                mem := upd st.mem sp ⟨st.startAngle, if pos - st.startAngle < 0 then pos - st.startAngle + 2 * pi else pos - st.startAngle⟩ }) := by
  cases pin with
  | false => exact .inl ⟨rfl, rfl⟩
  | true =>
    right
    cases ha : st.active with
    | false =>
      left
      refine ⟨rfl, rfl, ?_⟩
      unfold light
      rw [ha]
      rfl
    | true =>
      right
      cases hf : st.free with
      | nil =>
        left
        refine ⟨rfl, rfl, rfl, ?_⟩
        unfold light
        rw [ha, hf]
        rfl
      | cons sp free =>
        right
        refine ⟨sp, free, rfl, rfl, rfl, ?_⟩
        have hl := owned_length h.owned
        rw [hf, List.length_cons] at hl
        unfold light
        simp only [Bool.not_true, Bool.false_eq_true, if_false, ha, if_true, hf]
        rw [if_pos (show st.box.length < N by unfold N; omega)]

theorem inv_step (pi : ℚ) {st : St} (h : Inv st) (e : Ev) : Inv (step pi st e) := by
  cases e with
  | hall t => exact ⟨h.owned, h.lost⟩
  | light pin t =>
    show Inv (light pi pin (position pi _ _) st)
    rcases light_cases pi pin (position pi (Timestamp.durationS st.last t) (Timestamp.durationS st.lastLast st.last)) h with ⟨-, e⟩ | ⟨-, -, e⟩ | ⟨-, -, -, e⟩ | ⟨sp, free, -, -, hf, e⟩ <;> rw [e]
    · exact ⟨h.owned, h.lost⟩
    · exact h
    · exact ⟨h.owned, h.lost⟩
    · refine ⟨?_, h.lost⟩
      have ho := h.owned
      unfold Owned at ho ⊢
      rw [hf] at ho
      refine List.Perm.trans ?_ ho
      simp only [List.append_assoc, List.cons_append, List.nil_append]
      rw [← List.append_assoc]
      refine List.perm_middle.trans ?_
      rw [List.append_assoc]
  | pub g =>
    show Inv (pubStep g st)
    have ho := h.owned
    unfold pubStep
    split
    · rename_i hp
      split
      · exact h
      · rename_i sp box hb
        refine ⟨?_, h.lost⟩
        unfold Owned at ho ⊢
        rw [hp, hb] at ho
        refine List.Perm.trans ?_ ho
        simp only [Pub.held, List.append_nil]
        exact List.Perm.append_left _ (List.perm_append_comm)
    · rename_i sp hp
      refine ⟨?_, h.lost⟩
      unfold Owned at ho ⊢
      rw [hp] at ho
      exact ho
    · rename_i sp s hp
      refine ⟨?_, h.lost⟩
      unfold Owned at ho ⊢
      rw [hp] at ho
      exact ho
    · rename_i sp hp
      refine ⟨?_, h.lost⟩
      unfold Owned at ho ⊢
      rw [hp] at ho
      refine List.Perm.trans ?_ ho
      simp only [Pub.held, List.append_nil]
      rw [← List.append_assoc]
      exact (List.perm_append_comm (l₁ := [sp]))

theorem inv_foldl (pi : ℚ) (es : List Ev) {st : St} (h : Inv st) : Inv (es.foldl (step pi) st) := by
  induction es generalizing st with
  | nil => exact h
  | cons e es ih => exact ih (inv_step pi h e)

/-- C68: in every execution each of the 14 objects is in exactly one place: free, in the mailbox or held by the publisher; no post ever fails. -/
theorem conserved (pi : ℚ) (mem : Nat → Signal) (es : List Ev) :
    let st := run pi mem es
    (st.free ++ (st.box ++ st.pub.held)).Perm (List.range 14) ∧ st.free.length + (st.box.length + st.pub.held.length) = 14 ∧ st.lost = false := by
  have h := inv_foldl pi es (inv_init mem)
  exact ⟨h.owned, owned_length h.owned, h.lost⟩

/-- The signals in flight, in order -/
def inFlight (st : St) : List Signal := st.pub.pending st.mem ++ st.box.map st.mem

/-- C68: the signals sent, then those in flight, are a selection, in order, of the signals of the sensor; none is missing as long as there is a free object when the
light is lost. So every signal is sent at most once, unchanged and in order. -/
theorem fifo_from (pi : ℚ) (es : List Ev) {st : St} (h : Inv st) :
    ∃ sel, sel.Sublist (signals pi st.lastLast st.last (if st.active then some st.startAngle else none) es) ∧
      (es.foldl (step pi) st).sent ++ inFlight (es.foldl (step pi) st) = st.sent ++ inFlight st ++ sel ∧
      ((∀ k, k ≤ es.length → ((es.take k).foldl (step pi) st).free ≠ []) → sel = signals pi st.lastLast st.last (if st.active then some st.startAngle else none) es) := by
  induction es generalizing st with
  | nil => exact ⟨[], List.nil_sublist _, by simp, fun _ => by unfold signals; rfl⟩
  | cons e es ih =>
    obtain ⟨sel, s1, s2, s3⟩ := ih (inv_step pi h e)
    have s3' : (∀ k, k ≤ (e :: es).length → (((e :: es).take k).foldl (step pi) st).free ≠ []) → _ :=
      fun hk => s3 (fun k hk' => hk (k + 1) (by simpa using hk'))
    have hnd := owned_nodup h.owned
    rw [List.foldl_cons]
    cases e with
    | hall t =>
      refine ⟨sel, ?_, s2, fun hk => ?_⟩
      · rw [signals]; exact s1
      · rw [signals]; exact s3' hk
    | light pin t =>
      have es' : step pi st (.light pin t) = light pi pin (angle pi st.lastLast st.last t) st := by
        rw [← position_angle]; rfl
      rw [es'] at s1 s2 s3' ⊢
      rcases light_cases pi pin (angle pi st.lastLast st.last t) h with ⟨rfl, e⟩ | ⟨rfl, ha, e⟩ | ⟨rfl, ha, hf, e⟩ | ⟨sp, free, rfl, ha, hf, e⟩
      · rw [e] at s1 s2 s3' ⊢
        refine ⟨sel, ?_, s2, fun hk => ?_⟩
        · rw [signals]; exact s1
        · rw [signals]; exact s3' hk
      · rw [e] at s1 s2 s3' ⊢
        rw [ha] at s1 s3' ⊢
        refine ⟨sel, ?_, s2, fun hk => ?_⟩
        · simp only [Bool.false_eq_true, if_false] at s1 ⊢; rw [signals]; exact s1
        · simp only [Bool.false_eq_true, if_false] at s3' ⊢; rw [signals]; exact s3' hk
      · rw [e] at s1 s2 s3' ⊢
        rw [ha]
        refine ⟨sel, ?_, s2, fun hk => ?_⟩
        · simp only [Bool.false_eq_true, if_false, if_true] at s1 ⊢; rw [signals]; exact .cons _ s1
        · exact absurd hf (hk 0 (Nat.zero_le _))
      · rw [e] at s1 s2 s3' ⊢
        rw [ha]
        have hne : ∀ q ∈ st.box ++ st.pub.held, q ≠ sp := by
          intro q hq he
          rw [hf] at hnd
          rw [List.cons_append, List.nodup_cons] at hnd
          exact hnd.1 (List.mem_append.mpr (.inr (he ▸ hq)))
        have hfl : ∀ x, inFlight { st with active := false, free := free, box := st.box ++ [sp], mem := upd st.mem sp x } = inFlight st ++ [x] := by
          intro x
          unfold inFlight
          simp only [List.map_append, List.map_cons, List.map_nil]
          have e1 : st.box.map (upd st.mem sp x) = st.box.map st.mem := by
            refine List.map_congr_left fun q hq => ?_
            unfold upd
            rw [if_neg (hne q (List.mem_append.mpr (.inl hq)))]
          have e2 : st.pub.pending (upd st.mem sp x) = st.pub.pending st.mem := by
            cases hp : st.pub with
            | idle => rfl
            | got q =>
              have : q ≠ sp := hne q (List.mem_append.mpr (.inr (by rw [hp]; simp [Pub.held])))
              unfold Pub.pending upd
              simp only
              rw [if_neg this]
            | copied q s => rfl
            | sent q => rfl
          have e3 : upd st.mem sp x sp = x := by unfold upd; rw [if_pos rfl]
          rw [e1, e2, e3, List.append_assoc]
        simp only [if_true]
        refine ⟨⟨st.startAngle, if angle pi st.lastLast st.last t - st.startAngle < 0 then angle pi st.lastLast st.last t - st.startAngle + 2 * pi else angle pi st.lastLast st.last t - st.startAngle⟩ :: sel, ?_, ?_, fun hk => ?_⟩
        · rw [signals]
          simp only [Bool.false_eq_true, if_false] at s1
          exact .cons_cons _ s1
        · rw [s2, hfl]
          simp only [List.append_assoc, List.cons_append, List.nil_append]
        · rw [signals]
          simp only [Bool.false_eq_true, if_false] at s3'
          rw [s3' hk]
    | pub g =>
      have es' : step pi st (.pub g) = pubStep g st := rfl
      rw [es'] at s1 s2 s3' ⊢
      have same : ((pubStep g st).lastLast = st.lastLast ∧ (pubStep g st).last = st.last ∧ (pubStep g st).active = st.active) ∧ (pubStep g st).startAngle = st.startAngle ∧ (pubStep g st).sent ++ inFlight (pubStep g st) = st.sent ++ inFlight st := by
        unfold pubStep
        split
        · rename_i hp
          split
          · exact ⟨⟨rfl, rfl, rfl⟩, rfl, rfl⟩
          · rename_i sp box hb
            refine ⟨⟨rfl, rfl, rfl⟩, rfl, ?_⟩
            unfold inFlight
            rw [hp, hb]
            rfl
        · rename_i sp hp
          refine ⟨⟨rfl, rfl, rfl⟩, rfl, ?_⟩
          unfold inFlight
          rw [hp]
          rfl
        · rename_i sp s hp
          refine ⟨⟨rfl, rfl, rfl⟩, rfl, ?_⟩
          unfold inFlight
          rw [hp]
          simp [Pub.pending]
        · rename_i sp hp
          refine ⟨⟨rfl, rfl, rfl⟩, rfl, ?_⟩
          unfold inFlight
          rw [hp]
          simp only [Pub.pending, List.nil_append]
          congr 1
          refine List.map_congr_left fun q hq => ?_
          unfold upd
          rw [if_neg]
          intro he
          rw [hp] at hnd
          have := (List.nodup_append.mp (List.nodup_append.mp hnd).2.1).2.2 q hq sp (by simp [Pub.held])
          exact this he
      rw [same.1.1, same.1.2.1, same.1.2.2, same.2.1] at s1 s3'
      refine ⟨sel, ?_, by rw [s2, same.2.2], fun hk => ?_⟩
      · rw [signals]; exact s1
      · rw [signals]; exact s3' hk

/-- C68: from the start -/
theorem fifo (pi : ℚ) (mem : Nat → Signal) (es : List Ev) :
    ∃ sel, sel.Sublist (signals pi 0#32 1#32 none es) ∧ (run pi mem es).sent ++ inFlight (run pi mem es) = sel ∧
      ((∀ k, k ≤ es.length → (run pi mem (es.take k)).free ≠ []) → sel = signals pi 0#32 1#32 none es) := by
  obtain ⟨sel, h1, h2, h3⟩ := fifo_from pi es (inv_init mem)
  refine ⟨sel, h1, ?_, h3⟩
  rw [show run pi mem es = es.foldl (step pi) (init mem) from rfl, h2]
  simp [init, inFlight, Pub.pending]

/-- Steps the publisher needs until the mailbox is empty -/
def toDrain (st : St) : Nat := 4 * st.box.length + (match st.pub with | .idle => 0 | .got _ => 3 | .copied _ _ => 2 | .sent _ => 1)

/-- C68: left alone, the publisher sends everything in flight, in order, and all 14 objects are free again. -/
theorem drain (pi : ℚ) (g : Signal) {st : St} (h : Inv st) :
    let st' := (List.replicate (toDrain st) (Ev.pub g)).foldl (step pi) st
    st'.sent = st.sent ++ inFlight st ∧ st'.free.Perm (List.range 14) ∧ st'.box = [] ∧ st'.pub = .idle := by
  generalize hn : toDrain st = n
  induction n using Nat.strongRecOn generalizing st with
  | _ n ih =>
    have hflow : (step pi st (.pub g)).sent ++ inFlight (step pi st (.pub g)) = st.sent ++ inFlight st := by
      obtain ⟨sel, e1, e2, -⟩ := fifo_from pi [.pub g] h
      have : sel = [] := by
        simp only [signals, List.sublist_nil] at e1
        exact e1
      rw [this, List.append_nil] at e2
      exact e2
    have go : ∀ st1, step pi st (.pub g) = st1 → n = toDrain st1 + 1 → _ := fun st1 e1 e2 =>
      ih (toDrain st1) (by omega) (st := st1) (e1 ▸ inv_step pi h _) rfl
    cases hp : st.pub with
    | idle =>
      cases hb : st.box with
      | nil =>
        have h0 : n = 0 := by rw [← hn]; unfold toDrain; rw [hp, hb]; rfl
        subst h0
        have ho := h.owned
        unfold Owned at ho
        rw [hp, hb] at ho
        simp only [Pub.held, List.append_nil] at ho
        refine ⟨?_, ho, hb, hp⟩
        unfold inFlight
        rw [hp, hb]
        simp [Pub.pending]
      | cons sp box =>
        have e : step pi st (.pub g) = { st with box := box, pub := .got sp } := by
          show pubStep g st = _
          unfold pubStep
          simp only [hp, hb]
        have hm : n = toDrain { st with box := box, pub := .got sp } + 1 := by
          rw [← hn]; unfold toDrain; rw [hp, hb]; simp only [List.length_cons]; omega
        have := go _ e hm
        rw [hm, List.replicate_succ, List.foldl_cons, e]
        rw [e] at hflow
        rw [← hflow]
        exact this
    | got sp =>
      have e : step pi st (.pub g) = { st with pub := .copied sp (st.mem sp) } := by
        show pubStep g st = _
        unfold pubStep
        rw [hp]
      have hm : n = toDrain { st with pub := .copied sp (st.mem sp) } + 1 := by
        rw [← hn]; unfold toDrain; simp only [hp]
      have := go _ e hm
      rw [hm, List.replicate_succ, List.foldl_cons, e]
      rw [e] at hflow
      rw [← hflow]
      exact this
    | copied sp s =>
      have e : step pi st (.pub g) = { st with pub := .sent sp, sent := st.sent ++ [s] } := by
        show pubStep g st = _
        unfold pubStep
        rw [hp]
      have hm : n = toDrain { st with pub := .sent sp, sent := st.sent ++ [s] } + 1 := by
        rw [← hn]; unfold toDrain; simp only [hp]
      have := go _ e hm
      rw [hm, List.replicate_succ, List.foldl_cons, e]
      rw [e] at hflow
      rw [← hflow]
      exact this
    | sent sp =>
      have e : step pi st (.pub g) = { st with pub := .idle, free := sp :: st.free, mem := upd st.mem sp g } := by
        show pubStep g st = _
        unfold pubStep
        rw [hp]
      have hm : n = toDrain { st with pub := .idle, free := sp :: st.free, mem := upd st.mem sp g } + 1 := by
        rw [← hn]; unfold toDrain; simp only [hp]
      have := go _ e hm
      rw [hm, List.replicate_succ, List.foldl_cons, e]
      rw [e] at hflow
      rw [← hflow]
      exact this

/-- The angle lies within a turn, if the last pass is not more than 2^31 µs (36 minutes) ago. -/
theorem angle_range {pi : ℚ} {l l' t : BitVec 32} (hp : 0 < pi) (h0 : (t - l').toNat < 2 ^ 31) : 0 ≤ angle pi l l' t ∧ angle pi l l' t < 2 * pi := by
  have hs : (0 : ℚ) ≤ (((t - l').toInt : Int) : ℚ) := by
    have : 0 ≤ (t - l').toInt := by
      rw [BitVec.toInt_eq_toNat_cond, if_pos (by omega)]
      exact Int.natCast_nonneg _
    exact_mod_cast this
  unfold angle
  simp only
  split
  · rename_i h
    have hpos : (0 : ℚ) < (((l' - l).toInt : Int) : ℚ) := lt_of_le_of_lt hs h
    have h1 : (((t - l').toInt : Int) : ℚ) / (((l' - l).toInt : Int) : ℚ) < 1 := (div_lt_one₀ hpos).mpr h
    have h2 : 0 ≤ (((t - l').toInt : Int) : ℚ) / (((l' - l).toInt : Int) : ℚ) := div_nonneg hs hpos.le
    constructor
    · positivity
    · nlinarith
  · exact ⟨le_refl _, by linarith⟩

/-- Every edge of the light sensor comes less than 2^31 µs after the last pass of the rotor. -/
def Recent (l' : BitVec 32) : List Ev → Prop
  | [] => True
  | .hall t :: es => Recent t es
  | .light _ t :: es => (t - l').toNat < 2 ^ 31 ∧ Recent l' es
  | .pub _ :: es => Recent l' es

/-- C68: every signal starts within a turn and is shorter than a turn. -/
theorem signals_range {pi : ℚ} (hp : 0 < pi) (es : List Ev) (l l' : BitVec 32) (ht : Recent l' es) (s0 : Option ℚ) (hs : ∀ s, s0 = some s → 0 ≤ s ∧ s < 2 * pi) :
    ∀ s ∈ signals pi l l' s0 es, (0 ≤ s.start ∧ s.start < 2 * pi) ∧ 0 ≤ s.length ∧ s.length < 2 * pi := by
  induction es generalizing s0 l l' with
  | nil => intro s h; unfold signals at h; cases h
  | cons e es ih =>
    intro s h
    cases e with
    | pub g => rw [signals] at h; exact ih l l' ht s0 hs s h
    | hall t => rw [signals] at h; exact ih l' t ht s0 hs s h
    | light pin t =>
      have hpos := angle_range (l := l) hp ht.1
      cases pin with
      | false =>
        rw [signals] at h
        exact ih l l' ht.2 _ (fun s hs => by cases hs; exact hpos) s h
      | true =>
        cases s0 with
        | none => rw [signals] at h; exact ih l l' ht.2 none (fun s hs => by cases hs) s h
        | some st =>
          rw [signals] at h
          rcases List.mem_cons.mp h with rfl | h
          · have hst := hs st rfl
            simp only
            refine ⟨hst, ?_⟩
            split
            · exact ⟨by linarith, by linarith⟩
            · exact ⟨by linarith, by linarith⟩
          · exact ih l l' ht.2 none (fun s hs => by cases hs) s h

/-- C68: what is broadcast lies in these ranges. -/
theorem sent_range {pi : ℚ} (hp : 0 < pi) (mem : Nat → Signal) (es : List Ev) (ht : Recent 1#32 es) :
    ∀ s ∈ (run pi mem es).sent, (0 ≤ s.start ∧ s.start < 2 * pi) ∧ 0 ≤ s.length ∧ s.length < 2 * pi := by
  intro s h
  obtain ⟨sel, h1, h2, -⟩ := fifo pi mem es
  have : s ∈ sel := by rw [← h2]; exact List.mem_append.mpr (.inl h)
  exact signals_range hp es 0#32 1#32 ht none (fun s hs => by cases hs) s (h1.subset this)

/-- Finding: when the rotor has not passed the hall sensor for more than 36 minutes the time since the last pass is negative, and so is the angle. -/
theorem angle_negative : angle 3 0#32 10#32 (10#32 + 0x80000000#32) < 0 := by decide +kernel

/-- Two signals of which the second wraps around, the first sent and the second held by the publisher -/
def trace : List Ev :=
  [.hall 100#32, .hall 200#32, .light false 210#32, .light true 220#32, .pub ⟨0, 0⟩, .light false 290#32, .pub ⟨0, 0⟩, .pub ⟨0, 0⟩, .hall 300#32, .light true 310#32, .pub ⟨0, 0⟩]

example : (run 3 (fun _ => ⟨0, 0⟩) trace).sent = [⟨3/5, 3/5⟩] ∧ inFlight (run 3 (fun _ => ⟨0, 0⟩) trace) = [⟨27/5, 6/5⟩] := by decide +kernel
example : signals 3 0#32 1#32 none trace = [⟨3/5, 3/5⟩, ⟨27/5, 6/5⟩] := by decide +kernel
example : Recent 1#32 trace := by
  unfold trace
  simp only [Recent]
  decide +kernel

/-! ## C68: UDP topic broadcaster -/

def Enc.held : Enc → List Nat
  | .waiting => []
  | .allocated m | .encoded m => [m]

def Snd.held : Snd → List Nat
  | .waiting => []
  | .fetched m | .sent m => [m]

def Snd.pending (mem : Nat → Msg) : Snd → List Msg
  | .fetched m => [mem m]
  | _ => []

structure UInv (st : Udp) : Prop where
  owned : (st.free ++ (st.enc.held ++ (st.box ++ st.snd.held))).Perm (List.range M)
  lost : st.lost = false

theorem UInv.length {st : Udp} (h : UInv st) : st.free.length + (st.enc.held.length + (st.box.length + st.snd.held.length)) = 16 := by
  have := h.owned.length_eq
  simpa [M] using this

theorem UInv.nodup {st : Udp} (h : UInv st) : (st.free ++ (st.enc.held ++ (st.box ++ st.snd.held))).Nodup := h.owned.nodup_iff.mpr List.nodup_range

theorem uinv_init (mem : Nat → Msg) : UInv (Udp.init mem) := ⟨by
  unfold Udp.init
  simp only [Enc.held, Snd.held, List.append_nil]
  exact List.reverse_perm _, rfl⟩

theorem encStep_encoded {st : Udp} (h : UInv st) {p : Nat} (he : st.enc = .encoded p) (m g : Msg) :
    (0 < (st.mem p).length ∧ st.encStep m g = { st with box := st.box ++ [p], enc := .waiting }) ∨
    (st.mem p = [] ∧ st.encStep m g = { st with free := p :: st.free, mem := upd st.mem p g, enc := .waiting }) := by
  have hl := h.length
  rw [he] at hl
  simp only [Enc.held, List.length_singleton] at hl
  unfold Udp.encStep
  rw [he]
  simp only
  by_cases h0 : (st.mem p).length > 0
  · left
    rw [if_pos h0, if_pos (show st.box.length < M by unfold M; omega)]
    exact ⟨h0, rfl⟩
  · right
    rw [if_neg h0]
    exact ⟨List.length_eq_zero_iff.mp (by omega), rfl⟩

theorem uinv_step {st : Udp} (h : UInv st) (e : UdpEv) : UInv (st.step e) := by
  have ho := h.owned
  cases e with
  | enc m g =>
    show UInv (st.encStep m g)
    cases he : st.enc with
    | waiting =>
      rw [he] at ho
      unfold Udp.encStep
      rw [he]
      simp only
      split
      · exact h
      · rename_i p free hf
        refine ⟨?_, h.lost⟩
        rw [hf] at ho
        refine List.Perm.trans ?_ ho
        simp only [Enc.held, List.nil_append, List.cons_append]
        exact List.perm_middle
    | allocated p =>
      rw [he] at ho
      unfold Udp.encStep
      rw [he]
      exact ⟨ho, h.lost⟩
    | encoded p =>
      rw [he] at ho
      rcases encStep_encoded h he m g with ⟨-, e⟩ | ⟨-, e⟩ <;> rw [e]
      · refine ⟨?_, h.lost⟩
        refine List.Perm.trans ?_ ho
        simp only [Enc.held, List.nil_append, List.append_assoc, List.cons_append]
        exact List.Perm.append_left _ List.perm_middle
      · refine ⟨?_, h.lost⟩
        refine List.Perm.trans ?_ ho
        simp only [Enc.held, List.nil_append, List.cons_append]
        exact List.perm_middle.symm
  | snd n g =>
    show UInv (st.sndStep n g)
    unfold Udp.sndStep
    have back : ∀ p, (p :: st.free ++ (st.enc.held ++ (st.box ++ []))).Perm (st.free ++ (st.enc.held ++ (st.box ++ [p]))) := by
      intro p
      rw [List.append_nil]
      have : st.free ++ (st.enc.held ++ (st.box ++ [p])) = (st.free ++ (st.enc.held ++ st.box)) ++ [p] := by simp only [List.append_assoc]
      rw [this]
      exact (List.perm_append_comm (l₁ := [p]))
    split
    · rename_i hs
      split
      · exact h
      · rename_i p box hb
        refine ⟨?_, h.lost⟩
        rw [hs, hb] at ho
        refine List.Perm.trans ?_ ho
        simp only [Snd.held, List.append_nil]
        exact List.Perm.append_left _ (List.Perm.append_left _ List.perm_append_comm)
    · rename_i p hs
      rw [hs] at ho
      split
      · exact ⟨ho, h.lost⟩
      · exact ⟨(back p).trans ho, h.lost⟩
    · rename_i p hs
      rw [hs] at ho
      exact ⟨(back p).trans ho, h.lost⟩

theorem uinv_foldl (es : List UdpEv) {st : Udp} (h : UInv st) : UInv (es.foldl Udp.step st) := by
  induction es generalizing st with
  | nil => exact h
  | cons e es ih => exact ih (uinv_step h e)

/-- C68: in every execution each of the 16 buffers is in exactly one place, and no post fails. -/
theorem udp_conserved (mem : Nat → Msg) (es : List UdpEv) :
    let st := Udp.run mem es
    (st.free ++ (st.enc.held ++ (st.box ++ st.snd.held))).Perm (List.range 16) ∧ st.lost = false := by
  have h := uinv_foldl es (uinv_init mem)
  exact ⟨h.owned, h.lost⟩

/-- What a step encodes: the message, at the step of the encoder that fills a buffer -/
def justEncoded : Enc → UdpEv → List Msg
  | .allocated _, .enc m _ => if m = [] then [] else [m]
  | _, _ => []

/-- What was encoded, in order -/
def encodedIn : Udp → List UdpEv → List Msg
  | _, [] => []
  | st, e :: es =>
    justEncoded st.enc e ++ encodedIn (st.step e) es

/-- The messages in flight -/
def Udp.inFlight (st : Udp) : List Msg :=
  st.snd.pending st.mem ++ st.box.map st.mem ++ (match st.enc with | .encoded p => if st.mem p = [] then [] else [st.mem p] | _ => [])

theorem udp_fifo_from (es : List UdpEv) {st : Udp} (h : UInv st) :
    (es.foldl Udp.step st).out.map Prod.fst ++ (es.foldl Udp.step st).inFlight = st.out.map Prod.fst ++ st.inFlight ++ encodedIn st es := by
  induction es generalizing st with
  | nil => simp [encodedIn]
  | cons e es ih =>
    rw [List.foldl_cons, ih (uinv_step h e)]
    rw [encodedIn, ← List.append_assoc]
    congr 1
    have hnd := h.nodup
    have free_ne : ∀ q ∈ st.enc.held ++ (st.box ++ st.snd.held), q ∉ st.free := by
      intro q hq hf
      exact (List.nodup_append.mp hnd).2.2 q hf q hq rfl
    have hnd2 := (List.nodup_append.mp hnd).2.1
    have enc_ne : ∀ q ∈ st.box ++ st.snd.held, q ∉ st.enc.held := by
      intro q hq hf
      exact (List.nodup_append.mp hnd2).2.2 q hf q hq rfl
    have hnd3 := (List.nodup_append.mp hnd2).2.1
    have snd_ne : ∀ q ∈ st.box, q ∉ st.snd.held := by
      intro q hq hf
      exact (List.nodup_append.mp hnd3).2.2 q hq q hf rfl
    have mapne : ∀ (p : Nat) (x : Msg), p ∉ st.box → st.box.map (upd st.mem p x) = st.box.map st.mem := by
      intro p x hp
      refine List.map_congr_left fun q hq => ?_
      unfold upd
      rw [if_neg (fun (e : q = p) => hp (by rw [← e]; exact hq))]
    have pendne : ∀ (p : Nat) (x : Msg), p ∉ st.snd.held → st.snd.pending (upd st.mem p x) = st.snd.pending st.mem := by
      intro p x hp
      cases hs : st.snd with
      | waiting => rfl
      | sent q => rfl
      | fetched q =>
        unfold Snd.pending upd
        simp only
        rw [if_neg]
        intro e
        subst e
        apply hp
        rw [hs]
        simp [Snd.held]
    cases e with
    | enc m g =>
      show (st.encStep m g).out.map Prod.fst ++ (st.encStep m g).inFlight = _
      cases he : st.enc with
      | waiting =>
        unfold Udp.encStep
        rw [he]
        simp only
        split
        · simp [justEncoded]
        · unfold Udp.inFlight
          rw [he]
          simp [justEncoded]
      | allocated p =>
        have hp1 : p ∉ st.box := fun hb => enc_ne p (List.mem_append.mpr (.inl hb)) (by rw [he]; simp [Enc.held])
        have hp2 : p ∉ st.snd.held := fun hb => enc_ne p (List.mem_append.mpr (.inr hb)) (by rw [he]; simp [Enc.held])
        unfold Udp.encStep
        rw [he]
        unfold Udp.inFlight
        simp only [he]
        rw [mapne p m hp1, pendne p m hp2]
        have : upd st.mem p m p = m := by unfold upd; rw [if_pos rfl]
        simp only [this, List.append_nil, justEncoded]
        rw [← List.append_assoc]
      | encoded p =>
        have hp1 : p ∉ st.box := fun hb => enc_ne p (List.mem_append.mpr (.inl hb)) (by rw [he]; simp [Enc.held])
        have hp2 : p ∉ st.snd.held := fun hb => enc_ne p (List.mem_append.mpr (.inr hb)) (by rw [he]; simp [Enc.held])
        rcases encStep_encoded h he m g with ⟨h0, e⟩ | ⟨h0, e⟩ <;> rw [e] <;> unfold Udp.inFlight <;> simp only [he]
        · rw [if_neg (by intro e; rw [e] at h0; simp at h0)]
          simp [justEncoded]
        · rw [mapne p g hp1, pendne p g hp2, if_pos h0]
          simp [justEncoded]
    | snd n g =>
      show (st.sndStep n g).out.map Prod.fst ++ (st.sndStep n g).inFlight = _
      rw [show justEncoded st.enc (.snd n g) = [] by unfold justEncoded; split <;> simp_all, List.append_nil]
      have encne : ∀ p, p ∈ st.snd.held → (match st.enc with | .encoded q => if upd st.mem p g q = [] then [] else [upd st.mem p g q] | _ => []) =
          (match st.enc with | .encoded q => if st.mem q = [] then [] else [st.mem q] | _ => ([] : List Msg)) := by
        intro p hp
        cases he : st.enc with
        | waiting => rfl
        | allocated q => rfl
        | encoded q =>
          have : q ≠ p := fun e => enc_ne p (List.mem_append.mpr (.inr hp)) (by rw [he, ← e]; simp [Enc.held])
          simp only
          unfold upd
          rw [if_neg this]
      unfold Udp.sndStep
      split
      · rename_i hs
        split
        · rfl
        · rename_i p box hb
          unfold Udp.inFlight
          rw [hs, hb]
          simp [Snd.pending]
      · rename_i p hs
        have hp1 : p ∉ st.box := fun hb => snd_ne p hb (by rw [hs]; simp [Snd.held])
        split
        · unfold Udp.inFlight
          rw [hs]
          simp [Snd.pending]
        · unfold Udp.inFlight
          simp only
          rw [hs, mapne p g hp1, encne p (by rw [hs]; simp [Snd.held])]
          simp [Snd.pending]
      · rename_i p hs
        have hp1 : p ∉ st.box := fun hb => snd_ne p hb (by rw [hs]; simp [Snd.held])
        unfold Udp.inFlight
        simp only
        rw [hs, mapne p g hp1, encne p (by rw [hs]; simp [Snd.held])]
        simp [Snd.pending]

/-- C68: every message that was encoded is handed to the network exactly once, unchanged and in order (or dropped there for lack of a network buffer), or is in flight. -/
theorem udp_fifo (mem : Nat → Msg) (es : List UdpEv) :
    (Udp.run mem es).out.map Prod.fst ++ (Udp.run mem es).inFlight = encodedIn (Udp.init mem) es := by
  exact udp_fifo_from es (uinv_init mem)

example : (Udp.run (fun _ => []) [.enc [] [], .enc [1#8] [], .enc [] [], .enc [] [], .enc [] [], .enc [] [9#8], .snd true [], .snd true [], .snd true []]).out = [([1#8], true)] := by
  decide +kernel

end Verif.Beacon
