import Verif.Pressure.Model
import Verif.Spi.Props
import Mathlib.Tactic.Linarith
import Mathlib.Tactic.NormNum
import Mathlib.Tactic.Ring
import Mathlib.Tactic.FieldSimp
import Mathlib.Tactic.Positivity

/-!
# Pressure sensors: lemmas
-/

namespace Verif.Pressure

open Spi (Ev)

theorem byteBits_eq (b : BitVec 8) : byteBits b = Spi.bits8 b := rfl

theorem flat_eq (l : List (BitVec 8)) : l.flatMap byteBits = Spi.bits l := rfl

/-! ## Bits on the wires -/

/-- Sensor `i` is listening, the other one is not. -/
structure Ready (W : World) (i : Bool) : Prop where
  sck : W.sck = false
  sel : (W.dev i).sel = true
  run : (W.dev i).reset = false
  other : (W.dev (!i)).sel = false

/-- The world after some bits were received -/
def World.fed (W : World) (i : Bool) (bs : List Bool) (m : Bool) : World :=
  { W with mosi := m, dev := fun j => if j = i then { W.dev j with inp := (W.dev j).inp ++ bs, falls := (W.dev j).falls + bs.length } else W.dev j }

theorem fed_ready {W : World} {i : Bool} (h : Ready W i) (bs : List Bool) (m : Bool) : Ready (W.fed i bs m) i := by
  obtain ⟨h1, h2, h3, h4⟩ := h
  refine ⟨h1, ?_, ?_, ?_⟩
  · simp [World.fed, h2]
  · simp [World.fed, h3]
  · cases i <;> simpa [World.fed] using h4

theorem fed_fed (W : World) (i : Bool) (bs bs' : List Bool) (m m' : Bool) : (W.fed i bs m).fed i bs' m' = W.fed i (bs ++ bs') m' := by
  unfold World.fed
  simp only [World.mk.injEq, and_true, true_and]
  funext j
  by_cases e : j = i
  · simp [e, Nat.add_assoc]
  · simp [e]

theorem fed_nil (W : World) (i : Bool) : W.fed i [] W.mosi = W := by
  unfold World.fed
  cases W
  simp only [World.mk.injEq, and_true]
  funext j
  by_cases e : j = i
  · simp [e]
  · simp [e]

theorem edge_off {d : Dev} (h : d.sel = false) (m u : Bool) : d.edge m u = d := by simp [Dev.edge, h]

theorem rise {W : World} {i : Bool} (h : Ready W i) (b : Bool) :
    wire (wire W (.mosi b)) (.sck true) =
      { W with sck := true, mosi := b, dev := fun j => if j = i then { W.dev j with inp := (W.dev j).inp ++ [b] } else W.dev j } := by
  obtain ⟨h1, h2, h3, h4⟩ := h
  simp only [wire, h1, Bool.true_eq_false, if_false, World.mk.injEq, true_and, and_true]
  funext j
  by_cases e : j = i
  · subst e
    simp [Dev.edge, h2, h3]
  · have : j = !i := by cases i <;> cases j <;> simp_all
    subst this
    rw [if_neg e, edge_off h4]

theorem miso_eq {W : World} {i : Bool} (h2 : (W.dev i).sel = true) (h3 : (W.dev i).reset = false) (h4 : (W.dev (!i)).sel = false) :
    miso W = (W.dev i).reply.getD (W.dev i).falls false := by
  unfold miso
  cases i
  · simp only [Bool.not_false] at h4
    simp [h2, h3, h4]
  · simp only [Bool.not_true] at h4
    simp [h2, h3, h4]

theorem bit_cycle {W : World} {i : Bool} (h : Ready W i) (b m : Bool) :
    miso (wire (wire W (.mosi b)) (.sck true)) = (W.dev i).reply.getD (W.dev i).falls false ∧
    wire (wire (wire (wire W (.mosi b)) (.sck true)) (.miso m)) (.sck false) = W.fed i [b] b := by
  rw [rise h]
  obtain ⟨h1, h2, h3, h4⟩ := h
  constructor
  · rw [miso_eq (i := i)]
    · simp
    · simp [h2]
    · simp [h3]
    · cases i <;> simpa using h4
  · simp only [wire, Bool.false_eq_true, if_false]
    unfold World.fed
    simp only [World.mk.injEq, and_true]
    refine ⟨?_, h1.symm⟩
    funext j
    by_cases e : j = i
    · subst e
      simp [Dev.edge, h2, h3]
    · have : j = !i := by cases i <;> cases j <;> simp_all
      subst this
      rw [if_neg e, if_neg e, edge_off h4]

theorem fold_frame (w : World) (i : Bool) (bs : List Bool) : ∀ (before : List Ev) (W : World), before.foldl wire w = W → Ready W i →
    (∃ m, (Spi.clocked (fun h => miso (h.foldl wire w)) before bs).1.foldl wire w = W.fed i bs m) ∧
    (Spi.clocked (fun h => miso (h.foldl wire w)) before bs).2 = (List.range' (W.dev i).falls bs.length).map fun k => (W.dev i).reply.getD k false := by
  induction bs with
  | nil =>
    intro before W hW _
    exact ⟨⟨W.mosi, by rw [fed_nil]; exact hW⟩, rfl⟩
  | cons b bs ih =>
    intro before W hW hR
    have hhigh : (before ++ [Ev.mosi b, Ev.sck true]).foldl wire w = wire (wire W (.mosi b)) (.sck true) := by
      rw [List.foldl_append, hW]
      rfl
    obtain ⟨c1, c2⟩ := bit_cycle hR b (miso ((before ++ [Ev.mosi b, Ev.sck true]).foldl wire w))
    have hnext : (before ++ [Ev.mosi b, Ev.sck true] ++ [Ev.miso (miso ((before ++ [Ev.mosi b, Ev.sck true]).foldl wire w)), Ev.sck false]).foldl wire w = W.fed i [b] b := by
      rw [List.foldl_append, hhigh]
      rw [hhigh] at c2
      exact c2
    obtain ⟨⟨m, i1⟩, i2⟩ := ih _ _ hnext (fed_ready hR _ _)
    refine ⟨⟨m, ?_⟩, ?_⟩
    · rw [fed_fed] at i1
      exact i1
    · show miso ((before ++ [Ev.mosi b, Ev.sck true]).foldl wire w) :: _ = _
      rw [i2, hhigh, c1]
      simp [World.fed, List.range'_succ]

/-- A transfer of up to four bytes: the device gets the bytes and its answer is received. -/
theorem transmit_spec {W : World} {i : Bool} (h : Ready W i) (tx junk ans : List (BitVec 8)) (hj : junk.length = tx.length) (hl : tx.length ≤ ans.length)
    (hf : (W.dev i).falls = 0) (hr : (W.dev i).reply = Spi.bits ans) :
    ∃ m, transmit W tx junk = .ok (W.fed i (Spi.bits tx) m, ans.take tx.length) := by
  unfold transmit
  obtain ⟨st, h1, h2, h3, h4, -⟩ := Spi.send_spec (fun h => miso (h.foldl wire W)) ⟨[], tx ++ junk⟩ 0 tx.length tx.length (by simp) (by simp [hj]) (.inl (by simp))
  have hrange : Spi.range (tx ++ junk) 0 tx.length = tx := by simp [Spi.range]
  rw [hrange] at h2 h3
  obtain ⟨⟨m, f1⟩, f2⟩ := fold_frame W i (Spi.bits tx) [] W rfl h
  refine ⟨m, ?_⟩
  rw [h1]
  simp only [Except.ok.injEq, Prod.mk.injEq]
  constructor
  · rw [h2]
    exact f1
  · have hlen : st.mem.length = (tx ++ junk).length := h4
    have hdrop : Spi.range st.mem tx.length tx.length = st.mem.drop tx.length := by
      unfold Spi.range
      rw [List.take_of_length_le]
      simp [hlen, hj]
    rw [← hdrop]
    apply Spi.bits_injective
    rw [h3, f2, hf, hr]
    apply List.ext_getElem?
    intro n
    by_cases hn : n < 8 * tx.length
    · have e1 : (Spi.bits tx).length = 8 * tx.length := Spi.bits_length tx
      rw [List.getElem?_map, List.getElem?_range' (by omega)]
      simp only [Option.map_some, Nat.zero_add, Nat.one_mul]
      rw [Spi.bits_get, List.getElem?_take_of_lt (by omega)]
      rw [List.getD_eq_getElem?_getD, Spi.bits_get]
      have : n / 8 < ans.length := by omega
      rw [List.getElem?_eq_getElem this]
      rfl
    · rw [List.getElem?_eq_none (by simp [Spi.bits_length]; omega), List.getElem?_eq_none (by simp [Spi.bits_length]; omega)]

/-! ## Commands -/

/-- Between two commands: clock low, nobody selected -/
def Calm (w : World) : Prop := w.sck = false ∧ ∀ j, (w.dev j).sel = false

theorem unselect_fields (f : Nat → Outcome) (d : Dev) : (Dev.unselect f d).sel = false ∧ (Dev.unselect f d).reset = d.reset := by
  unfold Dev.unselect
  split <;> exact ⟨rfl, rfl⟩

theorem busy_iff (d : Dev) : d.busy = false ↔ ∀ p, d.conv = some p → p.2 = 0 := by
  unfold Dev.busy
  cases d.conv with
  | none => simp
  | some p => simp

/-- What a command does to its sensor -/
theorem command_spec {env : Env} {w : World} {i : Bool} (hc : Calm w) (hr : (w.dev i).reset = false) (tx : List (BitVec 8)) (hl : tx.length ≤ 4) :
    ∃ w', command env i w tx = .ok (w', ((w.dev i).answer (env.idle i)).take tx.length) ∧ Calm w' ∧ w'.clash = w.clash ∧ w'.dev (!i) = w.dev (!i) ∧
      (w'.dev i).reset = false ∧
      (w'.dev i).conv = (if tx = [0xaa, 0, 0] ∧ (∀ p, (w.dev i).conv = some p → p.2 = 0) then some (env.outcome i (w.dev i).count, (env.outcome i (w.dev i).count).duration)
        else (w.dev i).conv) ∧
      (w'.dev i).count = (if tx = [0xaa, 0, 0] ∧ (∀ p, (w.dev i).conv = some p → p.2 = 0) then (w.dev i).count + 1 else (w.dev i).count) := by
  have hne : (!i) ≠ i := by cases i <;> decide
  have hR : Ready (select env i w) i := by
    refine ⟨hc.1, ?_, ?_, ?_⟩
    · simp [select, World.modify, Dev.select]
    · simp [select, World.modify, Dev.select, hr]
    · simp [select, World.modify, hne, hc.2]
  have hlen : ((w.dev i).answer (env.idle i)).length = 4 := by
    unfold Dev.answer
    cases (w.dev i).conv with
    | none => exact env.idleLen i
    | some p => rfl
  obtain ⟨m, ht⟩ := transmit_spec hR tx (List.replicate tx.length 0xa5) ((w.dev i).answer (env.idle i)) (by simp) (by omega)
    (by simp [select, World.modify, Dev.select]) (by simp [select, World.modify, Dev.select, flat_eq])
  refine ⟨unselect env i ((select env i w).fed i (Spi.bits tx) m), ?_, ?_⟩
  · unfold command
    rw [ht]
  have hinp : (((select env i w).fed i (Spi.bits tx) m).dev i).inp = Spi.bits tx := by simp [World.fed, select, World.modify, Dev.select]
  have hconv : (((select env i w).fed i (Spi.bits tx) m).dev i).conv = (w.dev i).conv := by simp [World.fed, select, World.modify, Dev.select]
  have hcount : (((select env i w).fed i (Spi.bits tx) m).dev i).count = (w.dev i).count := by simp [World.fed, select, World.modify, Dev.select]
  have hres : (((select env i w).fed i (Spi.bits tx) m).dev i).reset = false := by simp [World.fed, select, World.modify, Dev.select, hr]
  have hdev : (unselect env i ((select env i w).fed i (Spi.bits tx) m)).dev i = Dev.unselect (env.outcome i) (((select env i w).fed i (Spi.bits tx) m).dev i) := by
    simp [unselect, World.modify]
  have hoth : (unselect env i ((select env i w).fed i (Spi.bits tx) m)).dev (!i) = w.dev (!i) := by
    simp [unselect, World.modify, World.fed, select, hne]
  have hcmd : (Spi.bits tx = [0xaa, 0, 0].flatMap byteBits) ↔ tx = [0xaa, 0, 0] := by
    rw [flat_eq]
    exact ⟨Spi.bits_injective, fun h => by rw [h]⟩
  refine ⟨⟨hc.1, ?_⟩, ?_, hoth, ?_, ?_, ?_⟩
  · intro j
    by_cases e : j = i
    · rw [e, hdev]
      exact (unselect_fields _ _).1
    · have : j = !i := by cases i <;> cases j <;> simp_all
      rw [this, hoth]
      exact hc.2 _
  · show (select env i w).clash = w.clash
    have h1 := hc.2 (!i)
    cases i
    · simp only [Bool.not_false] at h1
      simp [select, World.modify, Dev.select, h1]
    · simp only [Bool.not_true] at h1
      simp [select, World.modify, Dev.select, h1]
  · rw [hdev, (unselect_fields _ _).2]
    exact hres
  · rw [hdev]
    unfold Dev.unselect
    simp only [hinp, hcmd, hres, busy_iff, hconv, hcount, and_true]
    by_cases h : tx = [0xaa, 0, 0] ∧ ∀ p, (w.dev i).conv = some p → p.2 = 0
    · rw [if_pos h, if_pos h]
    · rw [if_neg h, if_neg h]
  · rw [hdev]
    unfold Dev.unselect
    simp only [hinp, hcmd, hres, busy_iff, hconv, hcount, and_true]
    by_cases h : tx = [0xaa, 0, 0] ∧ ∀ p, (w.dev i).conv = some p → p.2 = 0
    · rw [if_pos h, if_pos h]
    · rw [if_neg h, if_neg h]

/-! ## Bits of the answer -/

theorem join_bytes (raw : BitVec 24) :
    ((raw.setWidth 8).setWidth 32 ||| (((raw >>> 8).setWidth 8).setWidth 32 <<< 8) ||| (((raw >>> 16).setWidth 8).setWidth 32 <<< 16) : BitVec 32) = raw.setWidth 32 := by
  apply BitVec.eq_of_getLsbD_eq
  intro k hk
  simp only [BitVec.getLsbD_or, BitVec.getLsbD_shiftLeft, BitVec.getLsbD_setWidth, BitVec.getLsbD_ushiftRight]
  by_cases h1 : k < 8
  · have : k < 16 := by omega
    simp [h1, this, hk]
  · by_cases h2 : k < 16
    · have e : 8 + (k - 8) = k := by omega
      have h3 : k - 8 < 8 := by omega
      have h4 : k - 8 < 32 := by omega
      simp [h1, h2, h3, h4, hk, e]
    · by_cases h5 : k < 24
      · have e : 16 + (k - 16) = k := by omega
        have h3 : ¬ k - 8 < 8 := by omega
        have h4 : k - 16 < 8 := by omega
        have h6 : k - 16 < 32 := by omega
        simp [h1, h2, h3, h4, h6, hk, e]
      · have h3 : ¬ k - 8 < 8 := by omega
        have h4 : ¬ k - 16 < 8 := by omega
        have h6 : raw.getLsbD k = false := BitVec.getLsbD_of_ge raw k (by omega)
        simp [h1, h2, h3, h4, h6]

/-- The status says that everything is in order, without bit 1 and the busy bit -/
def StatusGood (s : BitVec 8) : Prop :=
  s.getLsbD 6 = true ∧ s.getLsbD 7 = false ∧ s.getLsbD 4 = false ∧ s.getLsbD 3 = false ∧ s.getLsbD 2 = false ∧ s.getLsbD 0 = false

theorem status_iff (s : BitVec 8) (busy : Bool) :
    (isError ((s &&& 0xdf) ||| (if busy then 0x20 else 0)) || isBusy ((s &&& 0xdf) ||| (if busy then 0x20 else 0))) = false ↔ StatusGood s ∧ busy = false := by
  unfold StatusGood
  revert s busy
  decide +kernel

end Verif.Pressure
