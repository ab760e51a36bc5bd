import Verif.Imu.Model
import Mathlib.Tactic.Linarith
import Mathlib.Tactic.NormNum
import Mathlib.Tactic.FieldSimp
import Mathlib.Tactic.Ring
import Mathlib.Tactic.Positivity
import Mathlib.Tactic.FinCases

/-!
# Property C110: messages of the inertial measurement unit
-/

namespace Verif.Imu

/-! ## What a message should say -/

/-- Within the ranges (500 degrees per second, 4 g), the message has the rates in radians per second and the acceleration in m/s², up to half a step of the converter. -/
def Says (mpi : ℚ) (p : Phys) (m : Msg) : Prop :=
  (∀ i, |p.gyro i| ≤ 500 → |m.gyro i - p.gyro i * (mpi / 180)| ≤ |mpi| / 180 / 131) ∧
  (∀ i, |p.acc i| ≤ 3.9998 → |m.acc i - p.acc i * 9.81| ≤ 9.81 / 16384)

/-- The message has the field in µT, up to half a step. -/
def SaysMag (p : Phys) (m : Msg) : Prop := ∀ i, |p.mag i| ≤ 4912 → |m.mag i - p.mag i| ≤ 0.075

def SaysTemp (p : Phys) (x : ℚ) : Prop := |p.temp - 21| ≤ 98 → |x - p.temp| ≤ 0.0015

/-! ## Conversions -/

theorem adc_toInt {per x : ℚ} (h1 : -32768 ≤ x * per + 1 / 2) (h2 : x * per + 1 / 2 < 32768) : (adc per x).toInt = ⌊x * per + 1 / 2⌋ := by
  have a : (-32768 : Int) ≤ ⌊x * per + 1 / 2⌋ := Int.le_floor.2 (by exact_mod_cast h1)
  have b : ⌊x * per + 1 / 2⌋ < 32768 := Int.floor_lt.2 (by exact_mod_cast h2)
  unfold adc
  rw [min_eq_right (by omega), max_eq_right a, BitVec.toInt_ofInt]
  rw [Int.bmod_def]
  omega

theorem adc_near {per x : ℚ} (hp : 0 < per) (h1 : -32768 ≤ x * per + 1 / 2) (h2 : x * per + 1 / 2 < 32768) : |((adc per x).toInt : ℚ) - x * per| ≤ 1 / 2 := by
  rw [adc_toInt h1 h2, abs_le]
  have a := Int.floor_le (x * per + 1 / 2)
  have b := Int.lt_floor_add_one (x * per + 1 / 2)
  constructor <;> linarith

theorem word_split (w : BitVec 16) : word ((w >>> 8).setWidth 8) (w.setWidth 8) = w.toInt := by
  unfold word
  congr 1
  apply BitVec.eq_of_toNat_eq
  have := w.isLt
  simp only [BitVec.toNat_add, BitVec.toNat_shiftLeft, BitVec.toNat_setWidth, BitVec.toNat_ushiftRight, Nat.shiftLeft_eq, Nat.shiftRight_eq_div_pow]
  omega

/-! ## The configuration -/

def confStep (c : Conf) : Op → Conf
  | .write reg val => c.write reg val
  | .writeUser => c.write 0x6a 0x70
  | _ => c

/-- The registers after `k` operations -/
def confAt (k : Nat) : Conf := (ops.take k).foldl confStep Conf.reset

def final : Conf := ⟨8, 8, 0x20, 1, 0x70, 0x8c, 3, 0x16, 0x87⟩

theorem confAt_final : confAt 24 = final := by decide +kernel
theorem ops_length : ops.length = 24 := by decide

theorem confAt_succ {k : Nat} {op : Op} (h : ops[k]? = some op) : confAt (k + 1) = confStep (confAt k) op := by
  unfold confAt
  rw [List.take_add_one, h, List.foldl_append]
  rfl

def pinOf (c : Conf) (status : Bool) : Bool := (status && c.intEn.getLsbD 0 && c.intPin.getLsbD 5) != c.intPin.getLsbD 7

theorem pin_eq (d : Dev) : d.pin = pinOf d.conf d.status := rfl

/-- During the configuration: the line is high when active, pulses do not occur, and it does not become active because of what is written unless it stays so. -/
theorem conf_facts (k : Fin 24) : (confAt k.val).intPin.getLsbD 7 = false ∧ ((confAt k.val).intEn.getLsbD 0 = true → (confAt k.val).intPin.getLsbD 5 = true) ∧
    (∀ st, pinOf (confAt k.val) st = true → pinOf (confAt (k.val + 1)) st = true) := by
  revert k
  decide +kernel

def plainWrite : Op → Bool
  | .write reg _ => !reg.getLsbD 7 && decide (reg &&& 0x7f = reg) && decide (reg ≠ 0x6b)
  | _ => true

theorem write_facts : ∀ op ∈ ops, plainWrite op = true := by decide +kernel

/-- Quiet: the line is high when active, and there are no pulses. -/
def Quiet (c : Conf) : Prop := c.intPin.getLsbD 7 = false ∧ (c.intEn.getLsbD 0 = true → c.intPin.getLsbD 5 = true)

instance (c : Conf) : Decidable (Quiet c) := by unfold Quiet; infer_instance

theorem sample_conf (d : Dev) (p : Phys) : (d.sample p).conf = d.conf := by
  unfold Dev.sample
  dsimp only
  repeat' split
  all_goals rfl

theorem sample_status (d : Dev) (p : Phys) : (d.sample p).status = true := by
  unfold Dev.sample
  dsimp only
  repeat' split
  all_goals rfl

theorem sample_count (d : Dev) (p : Phys) : (d.sample p).count = d.count + 1 := by
  unfold Dev.sample
  dsimp only
  repeat' split
  all_goals rfl

theorem sample_gyro (d : Dev) (p : Phys) : (d.sample p).gyro = fun i => adc d.conf.gyroScale (p.gyro i) := by
  unfold Dev.sample
  dsimp only
  repeat' split
  all_goals rfl

theorem sample_acc (d : Dev) (p : Phys) : (d.sample p).acc = fun i => adc d.conf.accScale (p.acc i) := by
  unfold Dev.sample
  dsimp only
  repeat' split
  all_goals rfl

theorem sample_temp (d : Dev) (p : Phys) : (d.sample p).temp = adc (33387 / 100) (p.temp - 21) := by
  unfold Dev.sample
  dsimp only
  repeat' split
  all_goals rfl

/-- What a sample does to the rest of the state -/
theorem sampled_eq (env : Env) (s : St) (hq : Quiet s.dev.conf) (hp : s.pending = s.dev.pin) :
    s.sampled env = { s with dev := s.dev.sample (env.phys s.dev.count), pending := (s.dev.sample (env.phys s.dev.count)).pin } := by
  have hc := sample_conf s.dev (env.phys s.dev.count)
  have hs := sample_status s.dev (env.phys s.dev.count)
  unfold St.sampled St.upd
  dsimp only
  generalize s.dev.sample (env.phys s.dev.count) = d' at *
  congr 1
  rw [hp, pin_eq, pin_eq, hc, hs]
  unfold Dev.enabled Dev.latched pinOf
  obtain ⟨h1, h2⟩ := hq
  rw [h1]
  revert h2
  cases s.dev.status <;> cases s.dev.conf.intEn.getLsbD 0 <;> cases s.dev.conf.intPin.getLsbD 5 <;> simp

/-- The rates, acceleration and temperature are those of the last sample, with the right ranges. -/
def RawOk (env : Env) (d : Dev) : Prop :=
  1 ≤ d.count ∧ d.gyro = (fun i => adc (131 / 2) ((env.phys (d.count - 1)).gyro i)) ∧ d.acc = (fun i => adc 8192 ((env.phys (d.count - 1)).acc i)) ∧
  d.temp = adc (33387 / 100) ((env.phys (d.count - 1)).temp - 21)

/-- The field is that of the last sample. -/
def MagOk (env : Env) (d : Dev) : Prop := ∀ i : Fin 8, i.val < 6 → d.ext i = magReg 0x16 (env.phys (d.count - 1)) (3 + i.val)

theorem sample_raw (env : Env) (d : Dev) (h1 : d.conf.gyro = 8) (h2 : d.conf.acc = 8) : RawOk env (d.sample (env.phys d.count)) := by
  refine ⟨by rw [sample_count]; omega, ?_, ?_, ?_⟩
  · rw [sample_gyro, sample_count]
    unfold Conf.gyroScale
    rw [h1, show (((8 : BitVec 8) >>> 3) &&& 3).toNat = 1 from rfl, pow_one]
    rfl
  · rw [sample_acc, sample_count]
    unfold Conf.accScale
    rw [h2, show (((8 : BitVec 8) >>> 3) &&& 3).toNat = 1 from rfl, pow_one]
    funext i
    congr 1
    norm_num
  · rw [sample_temp, sample_count]
    rfl

theorem sample_mag (env : Env) (d : Dev) (h : d.conf = final) (hc : d.cntl1 = 0x16) : MagOk env (d.sample (env.phys d.count)) ∧ (d.sample (env.phys d.count)).cntl1 = 0x16 := by
  have e : (d.sample (env.phys d.count)).ext = (fun i => if i.val < 7 then magReg 0x16 (env.phys d.count) (3 + i.val) else d.ext i) ∧ (d.sample (env.phys d.count)).cntl1 = 0x16 := by
    unfold Dev.sample
    rw [h, hc]
    dsimp only
    rw [if_pos (by decide), if_pos (by decide)]
    have e7 : (final.slvCtrl &&& 15).toNat = 7 := by decide
    have e3 : final.slvReg.toNat = 3 := by decide
    dsimp only
    rw [e7, e3]
    exact ⟨rfl, rfl⟩
  refine ⟨fun i hi => ?_, e.2⟩
  rw [e.1, sample_count]
  show (if i.val < 7 then _ else _) = _
  rw [if_pos (by omega)]
  rfl

/-! ## Histories -/

/-- Rounds are one after the other, and each begins with a sample that the one before has not seen. -/
def Sorted (ages : List (Nat × Nat)) : Prop := (∀ a ∈ ages, 1 ≤ a.1 ∧ a.1 ≤ a.2) ∧ ages.Pairwise fun a b => a.2 < b.1

/-- A message of a round without a sample within says what the last sample before it measured; for the magnetometer from the second message on. -/
def Hist (env : Env) (mpi : ℚ) (out : List Msg) (ages : List (Nat × Nat)) : Prop :=
  out.length = ages.length ∧ ∀ i m a, out[i]? = some m → ages[i]? = some (a, a) → Says mpi (env.phys (a - 1)) m ∧ (0 < i → SaysMag (env.phys (a - 1)) m)

def TempHist (env : Env) (temps : List ℚ) (ages : List (Nat × Nat)) : Prop :=
  ∀ j x a, temps[j]? = some x → ages[101 * j + 100]? = some (a, a) → SaysTemp (env.phys (a - 1)) x

theorem sorted_later {ages : List (Nat × Nat)} {f c : Nat} (h : Sorted (ages ++ [(f, c)])) : Sorted (ages ++ [(f, c + 1)]) := by
  obtain ⟨h1, h2⟩ := h
  refine ⟨fun a ha => ?_, ?_⟩
  · rw [List.mem_append, List.mem_singleton] at ha
    rcases ha with ha | rfl
    · exact h1 a (by simp [ha])
    · have := h1 (f, c) (by simp)
      exact ⟨this.1, by have := this.2; simp only at this ⊢; omega⟩
  · rw [List.pairwise_append] at h2 ⊢
    refine ⟨h2.1, by simp, fun a ha b hb => ?_⟩
    rw [List.mem_singleton] at hb
    subst hb
    exact h2.2.2 a ha (f, c) (by simp)

theorem ages_later {ages : List (Nat × Nat)} {f c : Nat} (hfc : f ≤ c) {i a : Nat} (h : (ages ++ [(f, c + 1)])[i]? = some (a, a)) : (ages ++ [(f, c)])[i]? = some (a, a) := by
  by_cases hi : i < ages.length
  · rw [List.getElem?_append_left hi] at h ⊢; exact h
  · rw [List.getElem?_append_right (by omega)] at h
    by_cases h0 : i - ages.length = 0
    · rw [h0] at h
      simp only [List.getElem?_cons_zero, Option.some.injEq, Prod.mk.injEq] at h
      omega
    · obtain ⟨k, hk⟩ : ∃ k, i - ages.length = k + 1 := ⟨i - ages.length - 1, by omega⟩
      rw [hk] at h
      simp at h

theorem hist_later {env : Env} {mpi : ℚ} {out : List Msg} {ages : List (Nat × Nat)} {f c : Nat} (hfc : f ≤ c) (h : Hist env mpi out (ages ++ [(f, c)])) :
    Hist env mpi out (ages ++ [(f, c + 1)]) := by
  refine ⟨by rw [h.1]; simp, fun i m a hm ha => h.2 i m a hm (ages_later hfc ha)⟩

theorem temp_later {env : Env} {temps : List ℚ} {ages : List (Nat × Nat)} {f c : Nat} (hfc : f ≤ c) (h : TempHist env temps (ages ++ [(f, c)])) :
    TempHist env temps (ages ++ [(f, c + 1)]) := fun j x a hx ha => h j x a hx (ages_later hfc ha)

/-! ## Invariant -/

def Empty (s : St) : Prop := s.out = [] ∧ s.temps = [] ∧ s.ages = [] ∧ s.prescaler = 0

/-- The device while the loop runs -/
def Loop (env : Env) (s : St) : Prop :=
  s.dev.conf = final ∧ s.dev.cntl1 = 0x16 ∧ RawOk env s.dev ∧ (MagOk env s.dev ∨ ∀ a ∈ s.ages, s.dev.count ≤ a.2)

/-- In a round: the line is active, the event was taken. -/
def Round (env : Env) (s : St) : Prop :=
  Loop env s ∧ s.dev.status = true ∧ s.pending = false ∧ Sorted (s.ages ++ [(s.first, s.dev.count)])

def Inv (env : Env) (mpi : ℚ) (s : St) : Prop :=
  match s.pc with
  | .reset => s.pending = false ∧ Quiet s.dev.conf ∧ (s.dev.enabled = true → s.dev.pin = true) ∧ Empty s
  | .nap => s.pending = false ∧ s.dev.conf = Conf.reset ∧ Empty s
  | .ping => s.pending = false ∧ s.dev.conf = Conf.reset ∧ Empty s
  | .ops k => k < 24 ∧ s.dev.conf = confAt k ∧ s.pending = s.dev.pin ∧ (k = 9 → s.ctrl = 0x40) ∧ (16 ≤ k → RawOk env s.dev ∧ s.dev.status = true) ∧ (21 ≤ k → s.dev.cntl1 = 0x16) ∧ Empty s
  | .wait => Loop env s ∧ s.pending = s.dev.status ∧ Sorted s.ages ∧ (∀ a ∈ s.ages, a.2 ≤ s.dev.count) ∧ (s.dev.status = true → ∀ a ∈ s.ages, a.2 < s.dev.count) ∧
      (s.dev.status = false → ∃ a ∈ s.ages, a.2 = s.dev.count) ∧
      Hist env mpi s.out s.ages ∧ TempHist env s.temps s.ages ∧ s.temps.length * 101 + s.prescaler = s.out.length ∧ s.prescaler ≤ 100
  | .data k => Round env s ∧ k < 18 ∧ s.buf.length = k ∧ (s.dev.count = s.first → s.buf = (dataRegs.take k).map (s.dev.value 0)) ∧
      Hist env mpi s.out s.ages ∧ TempHist env s.temps s.ages ∧ s.temps.length * 101 + s.prescaler = s.out.length ∧ s.prescaler ≤ 100
  | .temp k => Round env s ∧ k < 2 ∧ s.buf.length = k ∧ (s.dev.count = s.first → s.buf = ([0x41, 0x42].take k).map (s.dev.value 0)) ∧
      Hist env mpi s.out (s.ages ++ [(s.first, s.dev.count)]) ∧ TempHist env s.temps (s.ages ++ [(s.first, s.dev.count)]) ∧
      s.temps.length * 101 + s.prescaler = s.out.length ∧ s.prescaler = 101
  | .clear => Round env s ∧ Hist env mpi s.out (s.ages ++ [(s.first, s.dev.count)]) ∧ TempHist env s.temps (s.ages ++ [(s.first, s.dev.count)]) ∧
      s.temps.length * 101 + s.prescaler = s.out.length ∧ s.prescaler ≤ 100

theorem quiet_final : Quiet final := by decide
theorem pin_final {d : Dev} (h : d.conf = final) : d.pin = d.status := by
  rw [pin_eq, h]; unfold pinOf
  cases d.status <;> decide

theorem sampled_high (env : Env) (s : St) (hf : s.dev.conf = final) (hs : s.dev.status = true) :
    s.sampled env = { s with dev := s.dev.sample (env.phys s.dev.count) } := by
  unfold St.sampled St.upd
  dsimp only
  congr 1
  rw [pin_final hf, hs]
  unfold Dev.latched
  rw [hf, show final.intPin.getLsbD 5 = true from by decide]
  simp

theorem loop_sample {env : Env} {s : St} (h : Loop env s) (s' : St) (hs : s'.dev = s.dev.sample (env.phys s.dev.count)) : Loop env s' := by
  obtain ⟨h1, h2, -, -⟩ := h
  unfold Loop
  rw [hs]
  refine ⟨(sample_conf _ _).trans h1, (sample_mag env _ h1 h2).2, sample_raw env _ (by rw [h1]; rfl) (by rw [h1]; rfl), .inl (sample_mag env _ h1 h2).1⟩

theorem round_sample {env : Env} {s : St} (h : Round env s) : Round env { s with dev := s.dev.sample (env.phys s.dev.count) } := by
  obtain ⟨h1, h2, h3, h4⟩ := h
  refine ⟨loop_sample h1 _ rfl, sample_status _ _, h3, ?_⟩
  dsimp only
  rw [sample_count]
  exact sorted_later h4

theorem round_first {env : Env} {s : St} (h : Round env s) : s.first ≤ s.dev.count := (h.2.2.2.1 (s.first, s.dev.count) (by simp)).2

theorem sampled_inv {env : Env} {mpi : ℚ} {s : St} (h : Inv env mpi s) : Inv env mpi (s.sampled env) := by
  obtain ⟨pc, d, pend, t, ctrl, buf, pre, out, temps, first, ages⟩ := s
  cases pc with
  | reset =>
    obtain ⟨h1, h2, h3, h4⟩ := h
    dsimp only at h1 h2 h3
    have e : (St.sampled env ⟨.reset, d, pend, t, ctrl, buf, pre, out, temps, first, ages⟩) = ⟨.reset, d.sample (env.phys d.count), false, t, ctrl, buf, pre, out, temps, first, ages⟩ := by
      unfold St.sampled St.upd
      dsimp only
      congr 1
      rw [h1, pin_eq (d.sample _), sample_conf, sample_status]
      by_cases he : d.enabled = true
      · rw [h3 he, he]
        have : d.latched = true := h2.2 he
        rw [this]; rfl
      · have he' : d.conf.intEn.getLsbD 0 = false := by
          unfold Dev.enabled at he; simpa using he
        unfold pinOf Dev.enabled
        rw [h2.1, he']
        simp
    rw [e]
    refine ⟨rfl, by dsimp only; rw [sample_conf]; exact h2, ?_, h4⟩
    dsimp only
    intro he
    rw [pin_eq, sample_conf, sample_status]
    unfold Dev.enabled at he
    rw [sample_conf] at he
    have := h2.2 he
    unfold pinOf
    rw [he, this, h2.1]; rfl
  | nap =>
    obtain ⟨h1, h2, h3⟩ := h
    dsimp only at h1 h2
    rw [sampled_eq env _ (by dsimp only; rw [h2]; decide) (by dsimp only; rw [h1, pin_eq, h2]; cases d.status <;> decide)]
    refine ⟨?_, by dsimp only; rw [sample_conf]; exact h2, h3⟩
    dsimp only
    rw [pin_eq, sample_conf, h2]; cases (d.sample _).status <;> decide
  | ping =>
    obtain ⟨h1, h2, h3⟩ := h
    dsimp only at h1 h2
    rw [sampled_eq env _ (by dsimp only; rw [h2]; decide) (by dsimp only; rw [h1, pin_eq, h2]; cases d.status <;> decide)]
    refine ⟨?_, by dsimp only; rw [sample_conf]; exact h2, h3⟩
    dsimp only
    rw [pin_eq, sample_conf, h2]; cases (d.sample _).status <;> decide
  | ops k =>
    obtain ⟨h0, h1, h2, h3, h4, h5, h6⟩ := h
    dsimp only at h0 h1 h2 h3 h4 h5
    have hq := conf_facts ⟨k, h0⟩
    rw [sampled_eq env _ (by dsimp only; rw [h1]; exact ⟨hq.1, hq.2.1⟩) h2]
    refine ⟨h0, (sample_conf _ _).trans h1, rfl, h3, fun hk => ?_, fun hk => ?_, h6⟩
    · have : ∀ k : Fin 24, 16 ≤ k.val → (confAt k.val).gyro = 8 ∧ (confAt k.val).acc = 8 := by decide +kernel
      have := this ⟨k, h0⟩ hk
      exact ⟨sample_raw env d (by rw [h1]; exact this.1) (by rw [h1]; exact this.2), sample_status _ _⟩
    · have hc := h5 hk
      have hk' : ∀ k : Fin 24, 21 ≤ k.val → (confAt k.val).slvReg = 0x0a → (confAt k.val).slvDo = 0x16 := by decide +kernel
      have hk'' := hk' ⟨k, h0⟩ hk
      dsimp only at hk'' ⊢
      rw [← h1] at hk''
      unfold Dev.sample
      dsimp only
      split
      · split
        · exact hc
        · split
          · next hr => exact hk'' hr
          · exact hc
      · exact hc
  | wait =>
    obtain ⟨h1, h2, h3, h4, h5, -, h6⟩ := h
    have hf := h1.1
    dsimp only at hf h2 h4 h5
    rw [sampled_eq env _ (by dsimp only; rw [hf]; exact quiet_final) (by dsimp only; rw [h2, pin_final hf])]
    refine ⟨loop_sample h1 _ rfl, ?_, h3, ?_, ?_, ?_, h6⟩
    · dsimp only; rw [pin_final ((sample_conf _ _).trans hf)]
    · intro a ha; have := h4 a ha; dsimp only; rw [sample_count]; omega
    · intro _ a ha; have := h4 a ha; dsimp only; rw [sample_count]; omega
    · dsimp only; rw [sample_status]; intro h; cases h
  | data k =>
    obtain ⟨h1, h2, h3, h4, h5⟩ := h
    have hfc := round_first h1
    rw [sampled_high env _ h1.1.1 h1.2.1]
    refine ⟨round_sample h1, h2, h3, ?_, h5⟩
    dsimp only at hfc ⊢
    rw [sample_count]
    intro e; omega
  | temp k =>
    obtain ⟨h1, h2, h3, h4, h5, h6, h7⟩ := h
    have hfc := round_first h1
    rw [sampled_high env _ h1.1.1 h1.2.1]
    refine ⟨round_sample h1, h2, h3, ?_, ?_, ?_, h7⟩
    · dsimp only at hfc ⊢
      rw [sample_count]
      intro e; omega
    · dsimp only at hfc ⊢
      rw [sample_count]; exact hist_later hfc h5
    · dsimp only at hfc ⊢
      rw [sample_count]; exact temp_later hfc h6
  | clear =>
    obtain ⟨h1, h5, h6, h7⟩ := h
    have hfc := round_first h1
    rw [sampled_high env _ h1.1.1 h1.2.1]
    refine ⟨round_sample h1, ?_, ?_, h7⟩
    · dsimp only at hfc ⊢
      rw [sample_count]; exact hist_later hfc h5
    · dsimp only at hfc ⊢
      rw [sample_count]; exact temp_later hfc h6

theorem inv_t {env : Env} {mpi : ℚ} {s : St} (t : Nat) (h : Inv env mpi s) : Inv env mpi { s with t := t } := by
  obtain ⟨pc, d, pend, t, ctrl, buf, pre, out, temps, first, ages⟩ := s
  cases pc <;> exact h

theorem tick_inv {env : Env} {mpi : ℚ} {s : St} (h : Inv env mpi s) : Inv env mpi (s.tick env) := by
  unfold St.tick
  dsimp only
  split
  · exact inv_t _ (sampled_inv h)
  · exact inv_t _ h

/-! ## Values -/

theorem upd_self (s : St) : s.upd s.dev = s := by
  obtain ⟨pc, d, pend, t, ctrl, buf, pre, out, temps, first, ages⟩ := s
  unfold St.upd
  simp

theorem value_id (d : Dev) (id reg : BitVec 8) (h : reg ≠ 0x75) : d.value id reg = d.value 0 reg := by
  have hn : reg.toNat ≠ 0x75 := fun e => h (BitVec.eq_of_toNat_eq e)
  unfold Dev.value
  dsimp only
  split <;> first | rfl | contradiction

theorem rd_plain (env : Env) (s : St) (reg : BitVec 8) (h1 : (reg ||| 0x80).getLsbD 7 = true) (h2 : (reg ||| 0x80) &&& 0x7f = reg) (h3 : reg ≠ 0x3a) :
    s.rd env reg = (s, s.dev.value (env.id s.t) reg) := by
  unfold St.rd Dev.transfer
  dsimp only
  rw [if_pos h1, h2, if_neg h3]
  dsimp only
  rw [upd_self]

theorem data_facts : ∀ reg ∈ dataRegs, (reg ||| 0x80).getLsbD 7 = true ∧ (reg ||| 0x80) &&& 0x7f = reg ∧ reg ≠ 0x3a ∧ reg ≠ 0x75 := by decide +kernel

theorem dataRegs_length : dataRegs.length = 18 := by decide

theorem msg_gyro (mpi : ℚ) (d : Dev) (i : Fin 3) : (toMsg mpi (dataRegs.map (d.value 0))).gyro i = (d.gyro i).toInt * (mpi / (180 * (655 / 10))) := by
  rw [← word_split (d.gyro i)]
  fin_cases i <;> rfl

theorem msg_acc (mpi : ℚ) (d : Dev) (i : Fin 3) : (toMsg mpi (dataRegs.map (d.value 0))).acc i = (d.acc i).toInt * (981 / 100 / 8192) := by
  rw [← word_split (d.acc i)]
  fin_cases i <;> rfl

theorem msg_mag {env : Env} (mpi : ℚ) {d : Dev} (h : MagOk env d) (i : Fin 3) :
    (toMsg mpi (dataRegs.map (d.value 0))).mag i = (adc (32760 / 4912) ((env.phys (d.count - 1)).mag i)).toInt * (4912 / 32760) := by
  rw [← word_split]
  have h0 := h 0 (by decide)
  have h1 := h 1 (by decide)
  have h2 := h 2 (by decide)
  have h3 := h 3 (by decide)
  have h4 := h 4 (by decide)
  have h5 := h 5 (by decide)
  fin_cases i
  · show (word (d.ext 1) (d.ext 0) : ℚ) * _ = _
    rw [h0, h1]; rfl
  · show (word (d.ext 3) (d.ext 2) : ℚ) * _ = _
    rw [h2, h3]; rfl
  · show (word (d.ext 5) (d.ext 4) : ℚ) * _ = _
    rw [h4, h5]; rfl

/-- The conversions of the code undo those of the device. -/
theorem scaled {per x c : ℚ} (hp : 0 < per) (hx : |x| * per ≤ 32767) : |((adc per x).toInt : ℚ) * (c / per) - x * c| ≤ |c| / (2 * per) := by
  have hb : |x * per| ≤ 32767 := by rw [abs_mul, abs_of_pos hp]; exact hx
  rw [abs_le] at hb
  have h := adc_near hp (x := x) (by linarith [hb.1]) (by linarith [hb.2])
  have e : ((adc per x).toInt : ℚ) * (c / per) - x * c = (((adc per x).toInt : ℚ) - x * per) * (c / per) := by
    field_simp
  rw [e, abs_mul, abs_div, abs_of_pos hp]
  calc _ ≤ 1 / 2 * (|c| / per) := mul_le_mul_of_nonneg_right h (div_nonneg (abs_nonneg _) hp.le)
    _ = _ := by field_simp

theorem says_raw {env : Env} (mpi : ℚ) {d : Dev} (h : RawOk env d) : Says mpi (env.phys (d.count - 1)) (toMsg mpi (dataRegs.map (d.value 0))) := by
  obtain ⟨-, hg, ha, -⟩ := h
  refine ⟨fun i hi => ?_, fun i hi => ?_⟩
  · rw [msg_gyro, hg]
    dsimp only
    have := scaled (per := 131 / 2) (c := mpi / 180) (by norm_num) (x := (env.phys (d.count - 1)).gyro i) (by linarith)
    rw [show mpi / (180 * (655 / 10)) = mpi / 180 / (131 / 2) by ring]
    refine this.trans (le_of_eq ?_)
    rw [abs_div, abs_of_pos (show (0 : ℚ) < 180 by norm_num)]
    ring
  · rw [msg_acc, ha]
    dsimp only
    have := scaled (per := 8192) (c := 981 / 100) (by norm_num) (x := (env.phys (d.count - 1)).acc i) (by norm_num at hi ⊢; linarith)
    rw [show (9.81 : ℚ) = 981 / 100 by norm_num]
    refine this.trans (le_of_eq ?_)
    rw [abs_of_pos (by norm_num)]
    norm_num

theorem saysMag {env : Env} (mpi : ℚ) {d : Dev} (h : MagOk env d) : SaysMag (env.phys (d.count - 1)) (toMsg mpi (dataRegs.map (d.value 0))) := by
  intro i hi
  rw [msg_mag mpi h]
  have := scaled (per := 32760 / 4912) (c := 1) (by norm_num) (x := (env.phys (d.count - 1)).mag i) (by norm_num; linarith)
  rw [mul_one] at this
  rw [show (4912 / 32760 : ℚ) = 1 / (32760 / 4912) by norm_num]
  refine this.trans ?_
  norm_num

theorem saysTemp {env : Env} {d : Dev} (h : RawOk env d) : SaysTemp (env.phys (d.count - 1)) (toTemp ([0x41, 0x42].map (d.value 0))) := by
  intro hi
  have e : toTemp ([0x41, 0x42].map (d.value 0)) = 21 + (d.temp.toInt : ℚ) * (1 / (33387 / 100)) := by
    rw [← word_split d.temp]; rfl
  rw [e, h.2.2.2]
  have := scaled (per := 33387 / 100) (c := 1) (by norm_num) (x := (env.phys (d.count - 1)).temp - 21) (by linarith)
  rw [mul_one] at this
  have e2 : ∀ y : ℚ, 21 + y - (env.phys (d.count - 1)).temp = y - ((env.phys (d.count - 1)).temp - 21) := fun y => by ring
  rw [e2]
  refine this.trans ?_
  norm_num

/-! ## Each access keeps the invariant -/

theorem wr_plain (env : Env) (s : St) (reg val : BitVec 8) (h1 : reg.getLsbD 7 = false) (h2 : reg &&& 0x7f = reg) (h3 : reg ≠ 0x6b) :
    s.wr env reg val = s.upd { s.dev with conf := s.dev.conf.write reg val } := by
  unfold St.wr Dev.transfer
  dsimp only
  rw [if_neg (by rw [h1]; decide), h2, if_neg h3]

/-- An operation of the configuration that is not a sleep -/
theorem exec_eq (env : Env) (s : St) {k : Nat} {op : Op} (hop : ops[k]? = some op) (hk : k < 24) (hc : s.dev.conf = confAt k) (hp : s.pending = s.dev.pin) (h9 : k = 9 → s.ctrl = 0x40)
    (hn : op ≠ .nap) : ∃ ctrl, s.exec env op = { s with dev := { s.dev with conf := confAt (k + 1) }, pending := pinOf (confAt (k + 1)) s.dev.status, ctrl := ctrl } ∧
      (k + 1 = 9 → ctrl = 0x40) := by
  have hmem : op ∈ ops := List.mem_of_getElem? hop
  have hw := write_facts op hmem
  have hs := confAt_succ hop
  have hmono := (conf_facts ⟨k, hk⟩).2.2 s.dev.status
  dsimp only at hmono
  have hpend : ∀ c, c = confAt (k + 1) → (s.pending || (!s.dev.pin && Dev.pin { s.dev with conf := c })) = pinOf (confAt (k + 1)) s.dev.status := by
    rintro c rfl
    rw [hp, pin_eq, pin_eq, hc]
    dsimp only
    revert hmono
    cases pinOf (confAt k) s.dev.status <;> cases pinOf (confAt (k + 1)) s.dev.status <;> simp
  cases op with
  | write reg val =>
    refine ⟨s.ctrl, ?_, ?_⟩
    · have h3 : (reg.getLsbD 7 = false ∧ reg &&& 0x7f = reg) ∧ reg ≠ 0x6b := by
        unfold plainWrite at hw; simpa using hw
      show s.wr env reg val = _
      rw [wr_plain env s reg val h3.1.1 h3.1.2 h3.2]
      unfold St.upd
      have e : s.dev.conf.write reg val = confAt (k + 1) := by rw [hs, hc]; rfl
      rw [e, hpend _ rfl]
    · intro h8
      have : k = 8 := by omega
      subst this
      have h8' : ops[8]? = some Op.readUser := by decide
      rw [h8'] at hop
      cases hop
  | readUser =>
    have hk8 : k = 8 := by
      have : ∀ k : Fin 24, ops[k.val]? = some Op.readUser → k.val = 8 := by decide +kernel
      exact this ⟨k, hk⟩ hop
    subst hk8
    refine ⟨0x40, ?_, fun _ => rfl⟩
    show (let (s, v) := s.rd env 0x6a; { s with ctrl := v } : St) = _
    rw [rd_plain env s 0x6a (by decide) (by decide) (by decide)]
    dsimp only
    have e : confAt (8 + 1) = s.dev.conf := by rw [hs, hc]; rfl
    have e2 : s.dev.value (env.id s.t) 0x6a = 0x40 := by
      show s.dev.conf.user = 0x40
      rw [hc]; decide +kernel
    rw [e, e2, ← pin_eq, ← hp]
  | writeUser =>
    have hk9 : k = 9 := by
      have : ∀ k : Fin 24, ops[k.val]? = some Op.writeUser → k.val = 9 := by decide +kernel
      exact this ⟨k, hk⟩ hop
    subst hk9
    refine ⟨s.ctrl, ?_, by omega⟩
    show s.wr env 0x6a (s.ctrl ||| 1 <<< 5 ||| 1 <<< 4) = _
    rw [wr_plain env s _ _ (by decide) (by decide) (by decide)]
    unfold St.upd
    have e : s.dev.conf.write 0x6a (s.ctrl ||| 1 <<< 5 ||| 1 <<< 4) = confAt (9 + 1) := by
      rw [hs, hc, h9 rfl]; decide +kernel
    rw [e, hpend _ rfl]
  | nap => exact absurd rfl hn

theorem sorted_snoc {ages : List (Nat × Nat)} {c : Nat} (h : Sorted ages) (h1 : 1 ≤ c) (h2 : ∀ a ∈ ages, a.2 < c) : Sorted (ages ++ [(c, c)]) := by
  refine ⟨fun a ha => ?_, ?_⟩
  · rw [List.mem_append, List.mem_singleton] at ha
    rcases ha with ha | rfl
    · exact h.1 a ha
    · exact ⟨h1, Nat.le_refl _⟩
  · rw [List.pairwise_append]
    refine ⟨h.2, by simp, fun a ha b hb => ?_⟩
    rw [List.mem_singleton] at hb
    subst hb
    exact h2 a ha

theorem take_map_succ {α β : Type} (f : α → β) {l : List α} {k : Nat} {x : α} (h : l[k]? = some x) : (l.take (k + 1)).map f = (l.take k).map f ++ [f x] := by
  rw [List.take_add_one, h]; simp

theorem data_act (env : Env) (mpi : ℚ) {k : Nat} {reg : BitVec 8} (hget : dataRegs[k]? = some reg) (d : Dev) (pend : Bool) (t : Nat) (ctrl : BitVec 8) (buf : List (BitVec 8)) (pre : Nat)
    (out : List Msg) (temps : List ℚ) (first : Nat) (ages : List (Nat × Nat)) :
    (St.mk (.data k) d pend t ctrl buf pre out temps first ages).act env mpi =
      if k + 1 = 18 then
        if 100 ≤ pre then ⟨.temp 0, d, pend, t, ctrl, [], pre + 1, out ++ [toMsg mpi (buf ++ [d.value 0 reg])], temps, first, ages⟩
        else ⟨.clear, d, pend, t, ctrl, buf ++ [d.value 0 reg], pre + 1, out ++ [toMsg mpi (buf ++ [d.value 0 reg])], temps, first, ages⟩
      else ⟨.data (k + 1), d, pend, t, ctrl, buf ++ [d.value 0 reg], pre, out, temps, first, ages⟩ := by
  obtain ⟨f1, f2, f3, f4⟩ := data_facts _ (List.mem_of_getElem? hget)
  unfold St.act
  simp only [hget, rd_plain env _ reg f1 f2 f3, dataRegs_length, value_id d _ reg f4]
  rfl

theorem act_inv {env : Env} {mpi : ℚ} {s : St} (h : Inv env mpi s) : Inv env mpi (s.act env mpi) := by
  obtain ⟨pc, d, pend, t, ctrl, buf, pre, out, temps, first, ages⟩ := s
  cases pc with
  | reset =>
    obtain ⟨h1, h2, h3, h4⟩ := h
    dsimp only at h1 h2 h3
    have e : (St.mk .reset d pend t ctrl buf pre out temps first ages).act env mpi = ⟨.nap, d.reset, false, t, ctrl, buf, pre, out, temps, first, ages⟩ := by
      unfold St.act
      dsimp only
      have : (St.mk .reset d pend t ctrl buf pre out temps first ages).wr env 0x6b 0x80 = St.upd ⟨.reset, d, pend, t, ctrl, buf, pre, out, temps, first, ages⟩ d.reset := by
        unfold St.wr Dev.transfer
        dsimp only
        rw [if_neg (by decide), if_pos (by decide), if_pos (by decide)]
      rw [this]
      unfold St.upd
      dsimp only
      have hr : d.reset.pin = false := by show pinOf Conf.reset false = false; decide
      rw [h1, hr]
      simp
    rw [e]
    exact ⟨rfl, rfl, h4⟩
  | nap =>
    have hi := sampled_inv h
    have hpc : (St.sampled env ⟨.nap, d, pend, t, ctrl, buf, pre, out, temps, first, ages⟩).pc = .nap := rfl
    unfold St.act
    dsimp only
    generalize St.sampled env _ = s' at hi hpc
    obtain ⟨pc, d, pend, t, ctrl, buf, pre, out, temps, first, ages⟩ := s'
    dsimp only at hpc
    subst hpc
    exact hi
  | ping =>
    obtain ⟨h1, h2, h3⟩ := h
    dsimp only at h1 h2
    unfold St.act
    dsimp only
    rw [rd_plain env _ 0x75 (by decide) (by decide) (by decide)]
    dsimp only
    split
    · have hp : d.pin = false := by rw [pin_eq, h2]; cases d.status <;> decide
      exact ⟨by decide, h2, h1.trans hp.symm, by omega, by omega, by omega, h3⟩
    · exact ⟨h1, h2, h3⟩
  | ops k =>
    have hsamp := sampled_inv h
    obtain ⟨h0, h1, h2, h3, h4, h5, h6⟩ := h
    dsimp only at h0 h1 h2 h3 h4 h5
    have hlt : k < ops.length := by rw [ops_length]; exact h0
    have hget : ops[k]? = some ops[k] := List.getElem?_eq_getElem hlt
    generalize hop : ops[k] = op at hget
    unfold St.act
    dsimp only
    rw [hget]
    dsimp only
    rw [ops_length]
    -- the rest of the invariant after the operation, for whatever comes next
    have key : ∀ s' : St, s'.dev.conf = confAt (k + 1) → s'.pending = s'.dev.pin → (k + 1 = 9 → s'.ctrl = 0x40) → (16 ≤ k + 1 → RawOk env s'.dev ∧ s'.dev.status = true) → (21 ≤ k + 1 → s'.dev.cntl1 = 0x16) →
        Empty s' → Inv env mpi { s' with pc := if k + 1 = 24 then .wait else .ops (k + 1) } := by
      intro s' a b c r e f
      by_cases hk : k + 1 = 24
      · rw [if_pos hk]
        have hf : s'.dev.conf = final := by rw [a, hk, confAt_final]
        obtain ⟨f1, f2, f3, f4⟩ := f
        obtain ⟨pc, d, pend, t, ctrl, buf, pre, out, temps, first, ages⟩ := s'
        dsimp only at *
        subst f1 f2 f3 f4
        refine ⟨⟨hf, e (by omega), (r (by omega)).1, .inr (by simp)⟩, b.trans (pin_final hf), ⟨by simp, by simp⟩, by simp, by simp, (fun h => absurd ((r (by omega)).2.symm.trans h) (by decide)), ⟨rfl, by simp⟩, ?_, rfl, by simp⟩
        intro j x a hx; simp at hx
      · rw [if_neg hk]
        obtain ⟨pc, d, pend, t, ctrl, buf, pre, out, temps, first, ages⟩ := s'
        exact ⟨by omega, a, b, c, r, e, f⟩
    by_cases hn : op = .nap
    · subst hn
      have hkn : k = 15 ∨ k = 20 := by
        have : ∀ k : Fin 24, ops[k.val]? = some Op.nap → k.val = 15 ∨ k.val = 20 := by decide +kernel
        exact this ⟨k, h0⟩ hget
      have hcs : confAt (k + 1) = confAt k := by rw [confAt_succ hget]; rfl
      have hq := conf_facts ⟨k, h0⟩
      show Inv env mpi { (St.sampled env _) with pc := _ }
      rw [sampled_eq env _ (by dsimp only; rw [h1]; exact ⟨hq.1, hq.2.1⟩) h2]
      refine key _ ?_ rfl (by omega) ?_ ?_ h6
      · dsimp only; rw [sample_conf, h1, hcs]
      · intro _
        refine ⟨sample_raw env d ?_ ?_, sample_status _ _⟩ <;> rw [h1] <;> rcases hkn with rfl | rfl <;> decide +kernel
      · intro hk21
        have : k = 20 := by omega
        subst this
        have hca : confAt 20 = ⟨8, 8, 0x20, 1, 0x70, 0x0c, 0x0a, 0x16, 0x81⟩ := by decide +kernel
        rw [hca] at h1
        dsimp only
        unfold Dev.sample
        rw [h1]
        dsimp only
        rw [if_pos (by decide), if_neg (by decide), if_pos (by decide)]
    · obtain ⟨c', he, hc'⟩ := exec_eq env ⟨.ops k, d, pend, t, ctrl, buf, pre, out, temps, first, ages⟩ hget h0 h1 h2 h3 hn
      rw [he]
      refine key _ rfl rfl hc' ?_ ?_ h6
      · intro hk
        by_cases hk15 : k = 15
        · subst hk15
          have : ops[15]? = some Op.nap := by decide
          rw [this] at hget; cases hget; exact absurd rfl hn
        · exact h4 (by omega)
      · intro hk
        by_cases hk20 : k = 20
        · subst hk20
          have : ops[20]? = some Op.nap := by decide
          rw [this] at hget; cases hget; exact absurd rfl hn
        · exact h5 (by omega)
  | wait =>
    obtain ⟨h1, h2, h3, h4, h5, h5', h6, h7, h8, h9⟩ := h
    unfold St.act
    dsimp only at h2 h3 h4 h5 h5' h6 h7 h8 h9 ⊢
    split
    · next hp =>
      have hs : d.status = true := by rw [← h2]; exact hp
      exact ⟨⟨h1, hs, rfl, sorted_snoc h3 h1.2.2.1.1 (h5 hs)⟩, by decide, rfl, fun _ => rfl, h6, h7, h8, h9⟩
    · exact ⟨h1, h2, h3, h4, h5, h5', h6, h7, h8, h9⟩
  | data k =>
    obtain ⟨h1, h2, h3, h4, h5, h6, h7, h8⟩ := h
    dsimp only at h2 h3 h4 h5 h6 h7 h8
    have hlt : k < dataRegs.length := by rw [dataRegs_length]; exact h2
    have hget : dataRegs[k]? = some dataRegs[k] := List.getElem?_eq_getElem hlt
    generalize dataRegs[k] = reg at hget
    rw [data_act env mpi hget]
    have hbuf : d.count = first → buf ++ [d.value 0 reg] = (dataRegs.take (k + 1)).map (d.value 0) := by
      intro e; rw [take_map_succ _ hget, h4 e]
    by_cases hk : k + 1 = 18
    · rw [if_pos hk]
      have hist : Hist env mpi (out ++ [toMsg mpi (buf ++ [d.value 0 reg])]) (ages ++ [(first, d.count)]) := by
        refine ⟨by simp [h5.1], fun i m a hm ha => ?_⟩
        by_cases hi : i < ages.length
        · rw [List.getElem?_append_left (by rw [h5.1]; exact hi)] at hm
          rw [List.getElem?_append_left hi] at ha
          exact h5.2 i m a hm ha
        · rw [List.getElem?_append_right (by omega)] at ha
          rw [List.getElem?_append_right (by rw [h5.1]; omega), h5.1] at hm
          have hi0 : i - ages.length = 0 := by
            cases hz : i - ages.length with
            | zero => rfl
            | succ n => rw [hz] at ha; simp at ha
          rw [hi0] at ha hm
          simp only [List.getElem?_cons_zero, Option.some.injEq, Prod.mk.injEq] at ha hm
          obtain ⟨rfl, hc⟩ := ha
          subst hm
          rw [hbuf hc, hk, show dataRegs.take 18 = dataRegs from rfl, ← hc]
          refine ⟨says_raw mpi h1.1.2.2.1, fun hi => ?_⟩
          refine saysMag mpi ?_
          rcases h1.1.2.2.2 with hm | hm
          · exact hm
          · exfalso
            have hne : 0 < ages.length := by omega
            have hmem : ages[0] ∈ ages := List.getElem_mem hne
            have := hm _ hmem
            have hs := (List.pairwise_append.1 h1.2.2.2.2).2.2 _ hmem (first, d.count) (by simp)
            have hfc := round_first h1
            dsimp only at this hs hfc
            omega
      have htemp : TempHist env temps (ages ++ [(first, d.count)]) := by
        intro j x a hx ha
        refine h6 j x a hx ?_
        have hj : j < temps.length := by
          rcases Nat.lt_or_ge j temps.length with h | h
          · exact h
          · rw [List.getElem?_eq_none h] at hx; cases hx
        have := h5.1
        rw [List.getElem?_append_left (by omega)] at ha
        exact ha
      have hlen : temps.length * 101 + (pre + 1) = (out ++ [toMsg mpi (buf ++ [d.value 0 reg])]).length := by simp; omega
      by_cases hp : 100 ≤ pre
      · rw [if_pos hp]
        exact ⟨h1, by decide, rfl, fun _ => rfl, hist, htemp, hlen, by dsimp only; omega⟩
      · rw [if_neg hp]
        exact ⟨h1, hist, htemp, hlen, by dsimp only; omega⟩
    · rw [if_neg hk]
      refine ⟨h1, by omega, by simp [h3], hbuf, h5, h6, h7, h8⟩
  | temp k =>
    obtain ⟨h1, h2, h3, h4, h5, h6, h7, h8⟩ := h
    dsimp only at h2 h3 h4 h5 h6 h7 h8
    have hlen := h5.1
    rw [List.length_append] at hlen
    simp only [List.length_singleton] at hlen
    unfold St.act
    dsimp only
    by_cases hk : k = 0
    · subst hk
      simp only [if_true, rd_plain env _ 0x41 (by decide) (by decide) (by decide), value_id d _ 0x41 (by decide)]
      refine ⟨h1, by decide, by simp [h3], ?_, h5, h6, h7, h8⟩
      intro e; dsimp only; rw [h4 e]; rfl
    · have : k = 1 := by omega
      subst this
      simp only [hk, if_false, rd_plain env _ 0x42 (by decide) (by decide) (by decide), value_id d _ 0x42 (by decide)]
      refine ⟨h1, h5, ?_, ?_, by dsimp only; omega⟩
      · intro j x a hx ha
        dsimp only at hx ha
        by_cases hj : j < temps.length
        · rw [List.getElem?_append_left hj] at hx
          exact h6 j x a hx ha
        · rw [List.getElem?_append_right (by omega)] at hx
          have hj0 : j - temps.length = 0 := by
            cases hz : j - temps.length with
            | zero => rfl
            | succ n => rw [hz] at hx; simp at hx
          rw [hj0] at hx
          simp only [List.getElem?_cons_zero, Option.some.injEq] at hx
          subst hx
          have hjl : 101 * j + 100 = ages.length := by omega
          rw [hjl, List.getElem?_append_right (Nat.le_refl _), Nat.sub_self] at ha
          simp only [List.getElem?_cons_zero, Option.some.injEq, Prod.mk.injEq] at ha
          obtain ⟨rfl, hc⟩ := ha
          rw [h4 hc, ← hc]
          exact saysTemp h1.1.2.2.1
      · show (temps ++ [_]).length * 101 + 0 = _
        simp; omega
  | clear =>
    obtain ⟨h1, h5, h6, h7, h8⟩ := h
    dsimp only at h5 h6 h7 h8
    unfold St.act
    dsimp only
    have e : (St.mk .clear d pend t ctrl buf pre out temps first ages).rd env 0x3a =
        (⟨.clear, { d with status := false }, false, t, ctrl, buf, pre, out, temps, first, ages⟩, d.value (env.id t) 0x3a) := by
      unfold St.rd Dev.transfer
      dsimp only
      rw [if_pos (by decide), show ((0x3a : BitVec 8) ||| 0x80) &&& 0x7f = 0x3a from by decide, if_pos rfl]
      unfold St.upd
      dsimp only
      have hp : Dev.pin { d with status := false } = false := by rw [pin_final]; exact h1.1.1
      have h3 : pend = false := h1.2.2.1
      rw [hp, h3]
      simp
    rw [e]
    dsimp only
    obtain ⟨⟨l1, l2, l3, l4⟩, r2, r3, r4⟩ := h1
    dsimp only at l1 l2 l3 l4 r2 r3 r4
    have hle : ∀ a ∈ ages ++ [(first, d.count)], a.2 ≤ d.count := by
      intro a ha
      have hfc := (r4.1 (first, d.count) (by simp)).2
      rw [List.mem_append, List.mem_singleton] at ha
      rcases ha with ha | rfl
      · have hs := (List.pairwise_append.1 r4.2).2.2 _ ha (first, d.count) (by simp)
        dsimp only at hs hfc
        omega
      · exact Nat.le_refl _
    refine ⟨⟨l1, l2, l3, ?_⟩, rfl, r4, hle, by simp, fun _ => ⟨(first, d.count), by simp, rfl⟩, h5, h6, h7, h8⟩
    dsimp only
    rcases l4 with l4 | l4
    · exact .inl l4
    · by_cases hne : ages = []
      · subst hne
        right
        intro a ha
        simp at ha
        subst ha
        exact Nat.le_refl _
      · exfalso
        obtain ⟨a, ha⟩ := List.exists_mem_of_ne_nil _ hne
        have := l4 a ha
        have hs := (List.pairwise_append.1 r4.2).2.2 _ ha (first, d.count) (by simp)
        have hfc := (r4.1 (first, d.count) (by simp)).2
        dsimp only at hs hfc
        omega

theorem run_inv {env : Env} {mpi : ℚ} (n : Nat) : ∀ {s : St}, Inv env mpi s → Inv env mpi (run env mpi n s) := by
  induction n with
  | zero => intro s h; exact h
  | succ n ih => intro s h; exact ih (act_inv (tick_inv h))

/-! ## Theorems -/

/-- When the thread starts: nothing announced, and the device either does not use its line or holds it active since before. -/
def Start (d : Dev) : Prop := Quiet d.conf ∧ (d.enabled = true → d.pin = true)

theorem start_inv (env : Env) (mpi : ℚ) {d : Dev} (h : Start d) : Inv env mpi (start d false) := ⟨rfl, h.1, h.2, rfl, rfl, rfl, rfl⟩

/-- C110: at any time, the rounds of reading are one after the other, and each begins with a sample that no earlier round has seen; there is one message for each finished round (and perhaps
one of the round in progress). If the device did not sample within a round, its message has what the last sample before it measured, in the right units (for the magnetometer from the
second message on); so has the temperature, of every 101st round. Missing: the values of rounds in which the device samples, and the first field, for which it is false (`torn`, `first_mag_missing`). -/
theorem messages_partial (env : Env) (mpi : ℚ) {d : Dev} (h : Start d) (n : Nat) :
    Sorted (run env mpi n (start d false)).ages ∧
    (run env mpi n (start d false)).ages.length ≤ (run env mpi n (start d false)).out.length ∧
    (run env mpi n (start d false)).out.length ≤ (run env mpi n (start d false)).ages.length + 1 ∧
    (∀ i m a, (run env mpi n (start d false)).out[i]? = some m → (run env mpi n (start d false)).ages[i]? = some (a, a) →
      Says mpi (env.phys (a - 1)) m ∧ (0 < i → SaysMag (env.phys (a - 1)) m)) ∧
    TempHist env (run env mpi n (start d false)).temps (run env mpi n (start d false)).ages ∧
    (run env mpi n (start d false)).ages.length / 101 ≤ (run env mpi n (start d false)).temps.length ∧
    (run env mpi n (start d false)).temps.length ≤ (run env mpi n (start d false)).out.length / 101 := by
  have hi := run_inv n (start_inv env mpi h)
  generalize run env mpi n (start d false) = s at hi
  have empty : Empty s → _ := fun e => show Sorted s.ages ∧ s.ages.length ≤ s.out.length ∧ s.out.length ≤ s.ages.length + 1 ∧
      (∀ i m a, s.out[i]? = some m → s.ages[i]? = some (a, a) → Says mpi (env.phys (a - 1)) m ∧ (0 < i → SaysMag (env.phys (a - 1)) m)) ∧ TempHist env s.temps s.ages ∧
      s.ages.length / 101 ≤ s.temps.length ∧ s.temps.length ≤ s.out.length / 101 by
    obtain ⟨e1, e2, e3, e4⟩ := e
    rw [e1, e2, e3]
    exact ⟨⟨by simp, by simp⟩, by simp, by simp, by simp, by intro j x a hx; simp at hx, by simp, by simp⟩
  -- a round in progress
  have part : Sorted (s.ages ++ [(s.first, s.dev.count)]) → Sorted s.ages := fun hs =>
    ⟨fun a ha => hs.1 a (by simp [ha]), (List.pairwise_append.1 hs.2).1⟩
  have hget : ∀ {i : Nat} {x : Nat × Nat}, s.ages[i]? = some x → (s.ages ++ [(s.first, s.dev.count)])[i]? = some x := by
    intro i x hx
    have : i < s.ages.length := by
      rcases Nat.lt_or_ge i s.ages.length with h | h
      · exact h
      · rw [List.getElem?_eq_none h] at hx; cases hx
    rw [List.getElem?_append_left this]; exact hx
  unfold Inv at hi
  split at hi
  · exact empty hi.2.2.2
  · exact empty hi.2.2
  · exact empty hi.2.2
  · exact empty hi.2.2.2.2.2.2
  · obtain ⟨-, -, h3, -, -, -, h6, h7, h8, h9⟩ := hi
    have := h6.1
    exact ⟨h3, by omega, by omega, h6.2, h7, by omega, by omega⟩
  · obtain ⟨h1, -, -, -, h5, h6, h7, h8⟩ := hi
    have := h5.1
    exact ⟨part h1.2.2.2, by omega, by omega, h5.2, h6, by omega, by omega⟩
  · obtain ⟨h1, -, -, -, h5, h6, h7, h8⟩ := hi
    have := h5.1
    rw [List.length_append, List.length_singleton] at this
    exact ⟨part h1.2.2.2, by omega, by omega, fun i m a hm ha => h5.2 i m a hm (hget ha), fun j x a hx ha => h6 j x a hx (hget ha), by omega, by omega⟩
  · obtain ⟨h1, h5, h6, h7, h8⟩ := hi
    have := h5.1
    rw [List.length_append, List.length_singleton] at this
    exact ⟨part h1.2.2.2, by omega, by omega, fun i m a hm ha => h5.2 i m a hm (hget ha), fun j x a hx ha => h6 j x a hx (hget ha), by omega, by omega⟩

/-- C110: no wake-up is lost: while the thread waits without an event, every sample made has been seen by a finished round; and the next sample begins a round. -/
theorem no_lost_wakeup (env : Env) (mpi : ℚ) {d : Dev} (h : Start d) (n : Nat) (hw : (run env mpi n (start d false)).pc = .wait) :
    ((run env mpi n (start d false)).pending = false → ∃ a ∈ (run env mpi n (start d false)).ages, a.2 = (run env mpi n (start d false)).dev.count) ∧
    (env.sample (run env mpi n (start d false)).t = true → (run env mpi (n + 1) (start d false)).pc = .data 0) := by
  have hr : run env mpi (n + 1) (start d false) = step env mpi (run env mpi n (start d false)) := by
    have : ∀ (n : Nat) (s : St), run env mpi (n + 1) s = step env mpi (run env mpi n s) := by
      intro n
      induction n with
      | zero => intro s; rfl
      | succ n ih => intro s; exact ih (step env mpi s)
    exact this n _
  rw [hr]
  have hi := run_inv n (start_inv env mpi h)
  generalize run env mpi n (start d false) = s at hi hw
  obtain ⟨pc, d, pend, t, ctrl, buf, pre, out, temps, first, ages⟩ := s
  dsimp only at hw
  subst hw
  have ht := tick_inv hi
  obtain ⟨h1, h2, -, -, -, h5, -⟩ := hi
  refine ⟨fun hp => h5 (by dsimp only at h2 hp ⊢; rw [← h2]; exact hp), fun hs => ?_⟩
  dsimp only at hs
  have hpend : ((St.mk .wait d pend t ctrl buf pre out temps first ages).tick env).pending = true ∧ ((St.mk .wait d pend t ctrl buf pre out temps first ages).tick env).pc = .wait := by
    unfold St.tick
    dsimp only
    rw [hs, if_pos rfl, sampled_eq env _ (by dsimp only; rw [h1.1]; exact quiet_final) (by dsimp only at h2 ⊢; rw [h2, pin_final h1.1])]
    refine ⟨?_, rfl⟩
    dsimp only
    rw [pin_final ((sample_conf _ _).trans h1.1), sample_status]
  unfold step St.act
  generalize (St.mk .wait d pend t ctrl buf pre out temps first ages).tick env = s' at hpend
  obtain ⟨hp, hpc⟩ := hpend
  rw [hpc]
  dsimp only
  rw [if_pos hp]

/-! ## The messages keep coming -/

theorem run_add (env : Env) (mpi : ℚ) (a b : Nat) (s : St) : run env mpi (a + b) s = run env mpi b (run env mpi a s) := by
  induction a generalizing s with
  | zero => simp [run]
  | succ a ih => rw [Nat.succ_add]; exact ih (step env mpi s)

theorem tick_pc (env : Env) (s : St) : (s.tick env).pc = s.pc ∧ (s.tick env).ages = s.ages ∧ (s.tick env).out = s.out ∧ (s.tick env).t = s.t + 1 := by
  unfold St.tick
  dsimp only
  split <;> exact ⟨rfl, rfl, rfl, rfl⟩

theorem act_t (env : Env) (mpi : ℚ) (s : St) : (s.act env mpi).t = s.t := by
  obtain ⟨pc, d, pend, t, ctrl, buf, pre, out, temps, first, ages⟩ := s
  cases pc with
  | reset => rfl
  | nap => rfl
  | ping => rfl
  | ops k =>
    unfold St.act
    dsimp only
    split
    · next op _ => cases op <;> rfl
    · rfl
  | wait => unfold St.act; dsimp only; split <;> rfl
  | data k =>
    cases hg : dataRegs[k]? with
    | some reg => rw [data_act env mpi hg]; (repeat' split) <;> rfl
    | none => unfold St.act; simp only [hg]
  | temp k =>
    unfold St.act
    by_cases hk : k = 0
    · simp only [hk, if_true, rd_plain env _ 0x41 (by decide) (by decide) (by decide)]
    · simp only [hk, if_false, rd_plain env _ 0x42 (by decide) (by decide) (by decide)]
  | clear => rfl

theorem step_t (env : Env) (mpi : ℚ) (s : St) : (step env mpi s).t = s.t + 1 := by
  unfold step
  rw [act_t, (tick_pc env s).2.2.2]

theorem to_ops {env : Env} {mpi : ℚ} {t0 : Nat} (hid : ∀ t, t0 ≤ t → env.id t = 0x71) :
    ∀ (m : Nat) {s : St}, Inv env mpi s → s.pc = .nap → t0 ≤ s.t + m → ∃ n, (run env mpi n s).pc = .ops 0 := by
  intro m
  induction m using Nat.strongRecOn with
  | ind m ih =>
    intro s hi hpc hm
    have p1 : (step env mpi s).pc = .ping := by
      unfold step
      have := (tick_pc env s).1
      generalize s.tick env = s' at this
      unfold St.act
      rw [this, hpc]
    have i1 : Inv env mpi (step env mpi s) := act_inv (tick_inv hi)
    have t1 := step_t env mpi s
    have p2 : (step env mpi (step env mpi s)).pc = if env.id (s.t + 2) = 0x71 then .ops 0 else .nap := by
      generalize step env mpi s = s1 at *
      unfold step
      obtain ⟨a, -, -, b⟩ := tick_pc env s1
      have b' : (s1.tick env).t = s.t + 2 := by omega
      generalize s1.tick env = s' at a b'
      unfold St.act
      rw [a, p1]
      dsimp only
      rw [rd_plain env _ 0x75 (by decide) (by decide) (by decide)]
      dsimp only
      rw [b']
      rfl
    by_cases hx : env.id (s.t + 2) = 0x71
    · rw [if_pos hx] at p2; exact ⟨2, p2⟩
    · rw [if_neg hx] at p2
      have hlt : s.t + 2 < t0 := by
        rcases Nat.lt_or_ge (s.t + 2) t0 with h | h
        · exact h
        · exact absurd (hid _ h) hx
      obtain ⟨n, hn⟩ := ih (m - 2) (by omega) (act_inv (tick_inv i1)) p2 (by rw [show (St.act env mpi ((step env mpi s).tick env)).t = (step env mpi (step env mpi s)).t from rfl, step_t, t1]; omega)
      exact ⟨2 + n, by rw [run_add]; exact hn⟩

theorem to_wait {env : Env} {mpi : ℚ} : ∀ (m : Nat) {s : St} {k : Nat}, s.pc = .ops k → k + m = 23 → ∃ n, (run env mpi n s).pc = .wait := by
  intro m
  induction m with
  | zero =>
    intro s k hpc hk
    refine ⟨1, ?_⟩
    have : k = 23 := by omega
    subst this
    show (step env mpi s).pc = _
    unfold step
    have := (tick_pc env s).1
    generalize s.tick env = s' at this
    unfold St.act
    rw [this, hpc]
    rfl
  | succ m ih =>
    intro s k hpc hk
    have hs : (step env mpi s).pc = .ops (k + 1) := by
      unfold step
      have := (tick_pc env s).1
      generalize s.tick env = s' at this
      have hk' : k < ops.length := by rw [ops_length]; omega
      unfold St.act
      rw [this, hpc]
      simp only [List.getElem?_eq_getElem hk']
      rw [if_neg (by rw [ops_length]; omega)]
    obtain ⟨n, hn⟩ := ih hs (by omega)
    exact ⟨n + 1, hn⟩

/-- From the beginning of a round to its end -/
theorem to_end {env : Env} {mpi : ℚ} : ∀ (m : Nat) {s : St} {k : Nat}, s.pc = .data k → k + m = 17 →
    ∃ n, (run env mpi n s).pc = .wait ∧ (run env mpi n s).ages.length = s.ages.length + 1 := by
  have hclear : ∀ {s : St}, s.pc = .clear → (step env mpi s).pc = .wait ∧ (step env mpi s).ages.length = s.ages.length + 1 := by
    intro s hpc
    unfold step
    obtain ⟨a, b, -⟩ := tick_pc env s
    generalize s.tick env = s' at a b
    unfold St.act
    rw [a, hpc]
    refine ⟨rfl, ?_⟩
    dsimp only
    rw [List.length_append, ← b]
    rfl
  have htemp0 : ∀ {s : St}, s.pc = .temp 0 → (step env mpi s).pc = .temp 1 ∧ (step env mpi s).ages = s.ages := by
    intro s hpc
    unfold step
    obtain ⟨a, b, -⟩ := tick_pc env s
    generalize s.tick env = s' at a b
    unfold St.act
    rw [a, hpc]
    exact ⟨rfl, b⟩
  have htemp1 : ∀ {s : St}, s.pc = .temp 1 → (step env mpi s).pc = .clear ∧ (step env mpi s).ages = s.ages := by
    intro s hpc
    unfold step
    obtain ⟨a, b, -⟩ := tick_pc env s
    generalize s.tick env = s' at a b
    unfold St.act
    rw [a, hpc]
    exact ⟨rfl, b⟩
  intro m
  induction m with
  | zero =>
    intro s k hpc hk
    have : k = 17 := by omega
    subst this
    have hs : ((step env mpi s).pc = .clear ∨ (step env mpi s).pc = .temp 0) ∧ (step env mpi s).ages = s.ages := by
      unfold step
      obtain ⟨a, b, -⟩ := tick_pc env s
      generalize s.tick env = s' at a b
      obtain ⟨pc, d, pend, t, ctrl, buf, pre, out, temps, first, ages⟩ := s'
      dsimp only at a b
      rw [hpc] at a
      subst a
      rw [data_act env mpi (reg := 0x4d) (by decide), if_pos rfl]
      split
      · exact ⟨.inr rfl, b⟩
      · exact ⟨.inl rfl, b⟩
    rcases hs with ⟨h | h, ha⟩
    · refine ⟨2, ?_⟩
      have := hclear h
      rw [ha] at this
      exact this
    · refine ⟨4, ?_⟩
      obtain ⟨x1, x2⟩ := htemp0 h
      obtain ⟨y1, y2⟩ := htemp1 x1
      have := hclear y1
      rw [y2, x2, ha] at this
      exact this
  | succ m ih =>
    intro s k hpc hk
    have hs : (step env mpi s).pc = .data (k + 1) ∧ (step env mpi s).ages = s.ages := by
      unfold step
      obtain ⟨a, b, -⟩ := tick_pc env s
      generalize s.tick env = s' at a b
      obtain ⟨pc, d, pend, t, ctrl, buf, pre, out, temps, first, ages⟩ := s'
      dsimp only at a b
      rw [hpc] at a
      subst a
      have hk' : k < dataRegs.length := by rw [dataRegs_length]; omega
      rw [data_act env mpi (List.getElem?_eq_getElem hk'), if_neg (by omega)]
      exact ⟨rfl, b⟩
    obtain ⟨n, hn⟩ := ih hs.1 (by omega)
    rw [hs.2] at hn
    exact ⟨n + 1, hn⟩

/-- From waiting to the beginning of a round -/
theorem to_data {env : Env} {mpi : ℚ} : ∀ (m : Nat) {s : St}, Inv env mpi s → s.pc = .wait → (∃ t', s.t ≤ t' ∧ t' < s.t + m ∧ env.sample t' = true) →
    ∃ n, (run env mpi n s).pc = .data 0 ∧ (run env mpi n s).ages = s.ages := by
  intro m
  induction m with
  | zero => rintro s - - ⟨t', a, b, -⟩; omega
  | succ m ih =>
    rintro s hi hpc ⟨t', ha, hb, hs⟩
    obtain ⟨a, b, -, c⟩ := tick_pc env s
    have ht := tick_inv hi
    by_cases hp : (s.tick env).pending = true
    · refine ⟨1, ?_⟩
      show (step env mpi s).pc = _ ∧ (step env mpi s).ages = _
      unfold step
      generalize s.tick env = s' at a b hp
      unfold St.act
      rw [a, hpc]
      dsimp only
      rw [if_pos hp]
      exact ⟨rfl, b⟩
    · have e : step env mpi s = s.tick env := by
        unfold step
        generalize s.tick env = s' at a b hp
        unfold St.act
        rw [a, hpc]
        dsimp only
        rw [if_neg hp]
      have hne : s.t ≠ t' := by
        rintro rfl
        apply hp
        have hconf := (by
          obtain ⟨pc, d, pend, t, ctrl, buf, pre, out, temps, first, ages⟩ := s
          dsimp only at hpc; subst hpc
          exact ⟨hi.1.1, hi.2.1⟩ : s.dev.conf = final ∧ s.pending = s.dev.status)
        unfold St.tick
        dsimp only
        rw [hs, if_pos rfl, sampled_eq env _ (by rw [hconf.1]; exact quiet_final) (by rw [hconf.2, pin_final hconf.1])]
        dsimp only
        rw [pin_final ((sample_conf _ _).trans hconf.1), sample_status]
      obtain ⟨n, hn⟩ := ih (s := s.tick env) ht (a.trans hpc) ⟨t', by omega, by omega, hs⟩
      refine ⟨n + 1, ?_⟩
      show (run env mpi n (step env mpi s)).pc = _ ∧ (run env mpi n (step env mpi s)).ages = _
      rw [e]
      exact ⟨hn.1, hn.2.trans b⟩

/-- C110: the thread does not get stuck: if the device answers at last and samples again and again, there are arbitrarily many messages. -/
theorem messages_go_on (env : Env) (mpi : ℚ) {d : Dev} (h : Start d) (hid : ∃ t0, ∀ t, t0 ≤ t → env.id t = 0x71) (hs : ∀ t, ∃ t', t ≤ t' ∧ env.sample t' = true) (m : Nat) :
    ∃ n, m ≤ (run env mpi n (start d false)).out.length := by
  suffices g : ∃ n, (run env mpi n (start d false)).pc = .wait ∧ m ≤ (run env mpi n (start d false)).ages.length by
    obtain ⟨n, -, g⟩ := g
    exact ⟨n, g.trans (messages_partial env mpi h n).2.1⟩
  have inv := fun n => run_inv n (start_inv env mpi h)
  induction m with
  | zero =>
    obtain ⟨t0, hid⟩ := hid
    have p1 : (run env mpi 1 (start d false)).pc = .nap := by
      show (step env mpi _).pc = _
      unfold step
      have := (tick_pc env (start d false)).1
      generalize (start d false).tick env = s' at this
      unfold St.act
      rw [this]
      rfl
    obtain ⟨n, hn⟩ := to_ops hid t0 (inv 1) p1 (by omega)
    rw [← run_add] at hn
    obtain ⟨j, hj⟩ := to_wait (mpi := mpi) 23 hn rfl
    rw [← run_add] at hj
    exact ⟨_, hj, Nat.zero_le _⟩
  | succ m ih =>
    obtain ⟨n, hp, hm⟩ := ih
    obtain ⟨t', ht, hf⟩ := hs (run env mpi n (start d false)).t
    obtain ⟨j, j1, j2⟩ := to_data (t' + 1) (inv n) hp ⟨t', ht, by omega, hf⟩
    rw [← run_add] at j1 j2
    obtain ⟨i, i1, i2⟩ := to_end (mpi := mpi) 17 j1 rfl
    rw [← run_add] at i1 i2
    exact ⟨_, i1, by rw [i2, j2]; omega⟩

/-! ## Findings -/

/-- A device after power on -/
def powerOn : Dev := ⟨Conf.reset, fun _ => 0, 0, fun _ => 0, fun _ => 0, false, 0, 0⟩

theorem powerOn_start : Start powerOn := ⟨by decide, by decide⟩

/-- Rates of 3.9 and 4.0 degrees per second in turn, at rest, field of 30 µT; samples before the accesses given -/
def demo (at_ : List Nat) : Env where
  phys n := ⟨fun _ => if n % 2 = 0 then 39 / 10 else 4, fun i => if i = 2 then 1 else 0, fun _ => 30, 25⟩
  sample t := at_.contains t
  id _ := 0x71

/-- Rates of the messages in hundredths of degrees per second and fields in tenths of µT -/
def digest (s : St) : List (Int × Int) := s.out.map fun m => (⌊m.gyro 0 * 18000⌋, ⌊m.mag 0 * 10⌋)

/-- Two rounds without a sample within: the first one after three samples in the sleeps, the second one after one more -/
example : digest (run (demo [48]) 1 47 (start powerOn false)) = [(389, 0)] ∧ (run (demo [48]) 1 47 (start powerOn false)).ages = [(3, 3)] ∧
    digest (run (demo [48]) 1 68 (start powerOn false)) = [(389, 0), (400, 299)] ∧ (run (demo [48]) 1 68 (start powerOn false)).ages = [(3, 3), (4, 4)] := by decide +kernel

/-- FINDING: the first message does not have the magnetic field: the event that begins the first round was set off by a sample made before the device was told to read the
magnetometer. -/
theorem first_mag_missing : ∃ env d, Start d ∧ ∃ n, (run env 1 n (start d false)).ages = [(3, 3)] ∧ (∀ i, (env.phys 2).mag i = 30) ∧
    (run env 1 n (start d false)).out.map (fun m => m.mag 0) = [0] :=
  ⟨demo [48], powerOn, powerOn_start, 47, by decide +kernel, fun _ => rfl, by decide +kernel⟩

/-- FINDING: the two bytes of a value are read one after the other while the device may sample: with a rate that goes from 3.9 to 4.0 degrees per second (0xff to 0x106), a message says
0.09 degrees per second. -/
theorem torn : ∃ env d, Start d ∧ (∀ n i, 39 / 10 ≤ (env.phys n).gyro i ∧ (env.phys n).gyro i ≤ 4) ∧ ∃ n, (run env 1 n (start d false)).out.map (fun m => m.gyro 0 * 180) = [12 / 131] := by
  refine ⟨demo [29], powerOn, powerOn_start, fun n i => ?_, 47, by decide +kernel⟩
  show 39 / 10 ≤ (if n % 2 = 0 then (39 / 10 : ℚ) else 4) ∧ (if n % 2 = 0 then (39 / 10 : ℚ) else 4) ≤ 4
  split <;> norm_num

end Verif.Imu
