import Verif.Tof.Model

/-!
# Distance and colour sensor: properties (C109)
-/

namespace Verif.Tof

/-! ## Specification -/

/-- The first `n` measurements: distance and error code -/
def results (env : Env) (n : Nat) : List (BitVec 8 × BitVec 8) := (List.range n).map fun k => ((env.result k).1, (env.result k).2.setWidth 8)

/-! ## Registers -/

theorem ready_bit (code : BitVec 4) (noise : BitVec 8) :
    ((code.setWidth 8 <<< 4) ||| (noise &&& 0x0e) ||| 1) &&& 1 ≠ (0 : BitVec 8) ∧ ((code.setWidth 8 <<< 4) ||| (noise &&& 0x0e) ||| 1) >>> 4 = (code.setWidth 8 : BitVec 8) := by
  revert code noise
  decide +kernel

theorem flag_bit (noise : BitVec 8) : ((noise &&& 0xfb) ||| 4) &&& 4 ≠ (0 : BitVec 8) ∧ ((noise &&& 0xfb) ||| 0) &&& 4 = (0 : BitVec 8) := by
  revert noise
  decide +kernel

theorem table_regs : ∀ p ∈ initTab, p.1 ≠ 0x212 ∧ p.1 ≠ 0x016 ∧ p.1 ≠ 0x015 ∧ p.1 ≠ 0x018 := by decide +kernel

theorem table_last : initTab[36]? = some (0x0014, 0x24) := by decide +kernel

theorem table_length : initTab.length = 37 := by decide +kernel

theorem write_table (d : Dev) {p : BitVec 16 × BitVec 8} (hp : p ∈ initTab) : d.write p.1 p.2 = if p.1 = 0x014 then { d with intCfg := p.2 } else d := by
  obtain ⟨h1, h2, h3, h4⟩ := table_regs p hp
  unfold Dev.write
  rw [if_neg h1, if_neg h2, if_neg h3, if_neg h4]

/-- Nothing but booting can happen while no measurement is in progress. -/
theorem progress_none (env : Env) (t : Nat) (d : Dev) (h : d.meas = none) : ∃ b f, d.progress env t = { d with booted := b, fresh := f } := by
  by_cases hb : (env.boot t && !d.booted) = true
  · refine ⟨true, 1, ?_⟩
    unfold Dev.progress
    simp only [hb, if_true, h]
  · refine ⟨d.booted, d.fresh, ?_⟩
    unfold Dev.progress
    simp only [hb, Bool.false_eq_true, if_false, h]
    rw [← h]

theorem progress_some (env : Env) (t : Nat) (d : Dev) (k : Nat) (h : d.meas = some k) (hc : d.intCfg = 0x24) :
    ∃ b f, d.progress env t = if env.finish t then { d with booted := b, fresh := f, meas := none, val := (env.result k).1, code := (env.result k).2, flag := true }
      else { d with booted := b, fresh := f } := by
  have h4 : decide (d.intCfg &&& 7 = 4) = true := by rw [hc]; decide
  by_cases hb : (env.boot t && !d.booted) = true
  · refine ⟨true, 1, ?_⟩
    unfold Dev.progress
    simp only [hb, if_true, h]
    split
    · simp only [h4, Bool.or_true]
    · rw [← h]
  · refine ⟨d.booted, d.fresh, ?_⟩
    unfold Dev.progress
    simp only [hb, Bool.false_eq_true, if_false, h]
    split
    · simp only [h4, Bool.or_true]
    · rw [← h]

/-! ## Invariant -/

def Inv (env : Env) (s : St) : Prop :=
  s.dev.addr = s.addr ∧
  match s.pc with
  | .setAddr | .ping | .fresh | .clearFresh => s.dev.meas = none ∧ s.dev.flag = false ∧ s.dev.count = 0 ∧ s.out = []
  | .table k => s.dev.meas = none ∧ s.dev.flag = false ∧ s.dev.count = 0 ∧ s.out = [] ∧ k < 37
  | .wait1 | .start => s.dev.meas = none ∧ s.dev.flag = false ∧ s.dev.intCfg = 0x24 ∧ s.out = results env s.dev.count
  | .wait2 => s.dev.intCfg = 0x24 ∧ ∃ k, s.dev.count = k + 1 ∧ s.out = results env k ∧
      ((s.dev.meas = some k ∧ s.dev.flag = false) ∨ (s.dev.meas = none ∧ s.dev.flag = true ∧ (s.dev.val, s.dev.code) = env.result k))
  | .value => s.dev.intCfg = 0x24 ∧ ∃ k, s.dev.count = k + 1 ∧ s.out = results env k ∧ s.dev.meas = none ∧ (s.dev.val, s.dev.code) = env.result k
  | .clear => s.dev.intCfg = 0x24 ∧ ∃ k, s.dev.count = k + 1 ∧ s.out = results env k ∧ s.dev.meas = none ∧ (s.mm, s.dev.code) = env.result k
  | .wait3 => s.dev.intCfg = 0x24 ∧ ∃ k, s.dev.count = k + 1 ∧ s.out = results env k ∧ s.dev.meas = none ∧ s.dev.flag = false ∧ (s.mm, s.dev.code) = env.result k

theorem init_inv (env : Env) : Inv env init := ⟨rfl, rfl, rfl, rfl, rfl⟩

theorem results_succ (env : Env) (k : Nat) : results env (k + 1) = results env k ++ [((env.result k).1, (env.result k).2.setWidth 8)] := by
  unfold results
  rw [List.range_succ, List.map_append]
  rfl

/-- Reading while everything works -/
theorem rd_ok {env : Env} (hok : ∀ t, env.ok t = true) {s : St} (ha : s.dev.addr = s.addr) (reg : BitVec 16) : s.rd env reg = s.dev.read (env.noise s.t) reg := by
  unfold St.rd St.acked
  rw [hok, ha]
  simp

theorem wr_ok {env : Env} (hok : ∀ t, env.ok t = true) {s : St} (ha : s.dev.addr = s.addr) (reg : BitVec 16) (v : BitVec 8) : s.wr env reg v = s.dev.write reg v := by
  unfold St.wr St.acked
  rw [hok, ha]
  simp

theorem read_status (d : Dev) (n : BitVec 8) : d.read n 0x04d = (d.code.setWidth 8 <<< 4) ||| (n &&& 0x0e) ||| (if d.meas = none then 1 else 0) := by
  unfold Dev.read
  rw [if_neg (by decide), if_neg (by decide), if_pos rfl]

theorem read_flag (d : Dev) (n : BitVec 8) : d.read n 0x04f = (n &&& 0xfb) ||| (if d.flag then 4 else 0) := by
  unfold Dev.read
  rw [if_neg (by decide), if_neg (by decide), if_neg (by decide), if_pos rfl]

theorem read_val (d : Dev) (n : BitVec 8) : d.read n 0x062 = d.val := by
  unfold Dev.read
  rw [if_neg (by decide), if_neg (by decide), if_neg (by decide), if_neg (by decide), if_pos rfl]

theorem step_inv {env : Env} (hok : ∀ t, env.ok t = true) {s : St} (h : Inv env s) : Inv env (step env s) := by
  obtain ⟨pc, addr, mm, d, t, out⟩ := s
  obtain ⟨ha, h⟩ := h
  simp only at ha h
  cases pc with
  | setAddr =>
    obtain ⟨h1, h2, h3, h4⟩ := h
    obtain ⟨b, f, hp⟩ := progress_none env t d h1
    simp only [step, hp]
    rw [wr_ok hok (by exact ha)]
    exact ⟨rfl, h1, h2, h3, h4⟩
  | ping =>
    obtain ⟨h1, h2, h3, h4⟩ := h
    obtain ⟨b, f, hp⟩ := progress_none env t d h1
    simp only [step, hp]
    exact ⟨ha, h1, h2, h3, h4⟩
  | fresh =>
    obtain ⟨h1, h2, h3, h4⟩ := h
    obtain ⟨b, f, hp⟩ := progress_none env t d h1
    simp only [step, hp]
    split <;> exact ⟨ha, h1, h2, h3, h4⟩
  | clearFresh =>
    obtain ⟨h1, h2, h3, h4⟩ := h
    obtain ⟨b, f, hp⟩ := progress_none env t d h1
    simp only [step, hp]
    rw [wr_ok hok (by exact ha)]
    exact ⟨ha, h1, h2, h3, h4, by decide⟩
  | table k =>
    obtain ⟨h1, h2, h3, h4, h5⟩ := h
    obtain ⟨b, f, hp⟩ := progress_none env t d h1
    simp only [step, hp]
    have hk : k < initTab.length := by rw [table_length]; exact h5
    have hget : initTab[k]? = some initTab[k] := List.getElem?_eq_getElem hk
    have hmem : initTab[k] ∈ initTab := List.getElem_mem hk
    generalize initTab[k] = p at hget hmem
    simp only [hget]
    rw [wr_ok hok (by exact ha), write_table _ hmem]
    by_cases hl : k + 1 = initTab.length
    · rw [if_pos hl]
      have hk36 : k = 36 := by rw [table_length] at hl; omega
      subst hk36
      rw [table_last] at hget
      cases hget
      exact ⟨ha, h1, h2, rfl, by rw [h4]; show [] = results env d.count; rw [h3]; rfl⟩
    · rw [if_neg hl]
      have hk36 : k + 1 < 37 := by rw [table_length] at hl; omega
      by_cases hr : p.1 = 0x014
      · rw [if_pos hr]
        exact ⟨ha, h1, h2, h3, h4, hk36⟩
      · rw [if_neg hr]
        exact ⟨ha, h1, h2, h3, h4, hk36⟩
  | wait1 =>
    obtain ⟨h1, h2, h3, h4⟩ := h
    obtain ⟨b, f, hp⟩ := progress_none env t d h1
    simp only [step, hp]
    split <;> exact ⟨ha, h1, h2, h3, h4⟩
  | start =>
    obtain ⟨h1, h2, h3, h4⟩ := h
    obtain ⟨b, f, hp⟩ := progress_none env t d h1
    simp only [step, hp]
    rw [wr_ok hok (by exact ha)]
    have hw : Dev.write { d with booted := b, fresh := f } 0x018 0x01 = { d with booted := b, fresh := f, meas := some d.count, count := d.count + 1 } := by
      unfold Dev.write
      rw [if_neg (by decide), if_neg (by decide), if_neg (by decide), if_neg (by decide), if_pos rfl, if_pos ⟨by decide, h1⟩]
    rw [hw]
    exact ⟨ha, h3, d.count, rfl, h4, .inl ⟨rfl, h2⟩⟩
  | wait2 =>
    obtain ⟨hc, k, h1, h2, h3⟩ := h
    have hd : ∃ b f, ((d.progress env t) = { d with booted := b, fresh := f } ∧ d.meas = some k ∧ d.flag = false) ∨
        ((d.progress env t).addr = d.addr ∧ (d.progress env t).meas = none ∧ (d.progress env t).flag = true ∧ (d.progress env t).intCfg = d.intCfg ∧
          (d.progress env t).count = d.count ∧ ((d.progress env t).val, (d.progress env t).code) = env.result k) := by
      rcases h3 with ⟨m1, m2⟩ | ⟨m1, m2, m3⟩
      · obtain ⟨b, f, hp⟩ := progress_some env t d k m1 hc
        refine ⟨b, f, ?_⟩
        rw [hp]
        by_cases hf : env.finish t = true
        · rw [if_pos hf]
          exact .inr ⟨rfl, rfl, rfl, rfl, rfl, rfl⟩
        · rw [if_neg hf]
          exact .inl ⟨rfl, m1, m2⟩
      · obtain ⟨b, f, hp⟩ := progress_none env t d m1
        refine ⟨b, f, ?_⟩
        rw [hp]
        exact .inr ⟨rfl, m1, m2, rfl, rfl, m3⟩
    obtain ⟨b, f, ⟨hp, m1, m2⟩ | ⟨p1, p2, p3, p4, p5, p6⟩⟩ := hd
    · simp only [step, hp]
      rw [rd_ok hok (by exact ha), read_flag]
      simp only [m2, Bool.false_eq_true, if_false]
      rw [if_pos (flag_bit _).2]
      exact ⟨ha, hc, k, h1, h2, .inl ⟨m1, rfl⟩⟩
    · have ha' : (d.progress env t).addr = addr := p1.trans ha
      simp only [step]
      rw [rd_ok hok (by exact ha'), read_flag]
      simp only [p3, if_true]
      rw [if_neg (flag_bit _).1]
      exact ⟨ha', p4.trans hc, k, p5.trans h1, h2, p2, p6⟩
  | value =>
    obtain ⟨hc, k, h1, h2, h3, h4⟩ := h
    obtain ⟨b, f, hp⟩ := progress_none env t d h3
    simp only [step, hp]
    rw [rd_ok hok (by exact ha), read_val]
    exact ⟨ha, hc, k, h1, h2, h3, h4⟩
  | clear =>
    obtain ⟨hc, k, h1, h2, h3, h4⟩ := h
    obtain ⟨b, f, hp⟩ := progress_none env t d h3
    simp only [step, hp]
    rw [wr_ok hok (by exact ha)]
    have hw : Dev.write { d with booted := b, fresh := f } 0x015 0x07 = { d with booted := b, fresh := f, flag := false } := by
      unfold Dev.write
      rw [if_neg (by decide), if_neg (by decide), if_neg (by decide), if_pos rfl, if_pos (by decide)]
    rw [hw]
    exact ⟨ha, hc, k, h1, h2, h3, rfl, h4⟩
  | wait3 =>
    obtain ⟨hc, k, h1, h2, h3, h4, h5⟩ := h
    obtain ⟨b, f, hp⟩ := progress_none env t d h3
    simp only [step, hp]
    rw [rd_ok hok (by exact ha), read_status]
    simp only [h3, if_true]
    rw [if_neg (ready_bit _ _).1, (ready_bit _ _).2]
    refine ⟨ha, rfl, h4, hc, ?_⟩
    show out ++ [(mm, d.code.setWidth 8)] = results env d.count
    rw [h1, results_succ, h2, ← h5]

theorem run_inv {env : Env} (hok : ∀ t, env.ok t = true) (n : Nat) : ∀ {s : St}, Inv env s → Inv env (run env n s) := by
  induction n with
  | zero => intro s h; exact h
  | succ n ih => intro s h; exact ih (step_inv hok h)

/-- C109: while no transfer fails, at every time the messages published are the results of the first measurements, each once, in order, distance and error code of the same one, and
there is at most one more measurement, the one in progress. Missing: failing transfers, for which it is false (`junk_published`, `lost_clear`). -/
theorem messages_partial {env : Env} (hok : ∀ t, env.ok t = true) (n : Nat) :
    (run env n init).out = results env (run env n init).out.length ∧
    (run env n init).out.length ≤ (run env n init).dev.count ∧ (run env n init).dev.count ≤ (run env n init).out.length + 1 := by
  have h := run_inv hok n (init_inv env)
  have hl : ∀ k, (results env k).length = k := by intro k; simp [results]
  generalize run env n init = s at h
  obtain ⟨pc, addr, mm, d, t, out⟩ := s
  obtain ⟨-, h⟩ := h
  cases pc <;> simp only at h ⊢
  · obtain ⟨-, -, h3, rfl⟩ := h; exact ⟨rfl, by simp, by simp; omega⟩
  · obtain ⟨-, -, h3, rfl⟩ := h; exact ⟨rfl, by simp, by simp; omega⟩
  · obtain ⟨-, -, h3, rfl⟩ := h; exact ⟨rfl, by simp, by simp; omega⟩
  · obtain ⟨-, -, h3, rfl⟩ := h; exact ⟨rfl, by simp, by simp; omega⟩
  · obtain ⟨-, -, h3, rfl, -⟩ := h; exact ⟨rfl, by simp, by simp; omega⟩
  · obtain ⟨-, -, -, rfl⟩ := h; rw [hl]; exact ⟨rfl, by omega, by omega⟩
  · obtain ⟨-, -, -, rfl⟩ := h; rw [hl]; exact ⟨rfl, by omega, by omega⟩
  · obtain ⟨-, k, h1, rfl, -⟩ := h; rw [hl]; exact ⟨rfl, by omega, by omega⟩
  · obtain ⟨-, k, h1, rfl, -⟩ := h; rw [hl]; exact ⟨rfl, by omega, by omega⟩
  · obtain ⟨-, k, h1, rfl, -⟩ := h; rw [hl]; exact ⟨rfl, by omega, by omega⟩
  · obtain ⟨-, k, h1, rfl, -⟩ := h; rw [hl]; exact ⟨rfl, by omega, by omega⟩

/-! ## The messages keep coming -/

theorem step_t (env : Env) (s : St) : (step env s).t = s.t + 1 := by
  obtain ⟨pc, addr, mm, d, t, out⟩ := s
  cases pc <;> simp only [step] <;> (repeat' split) <;> rfl

theorem run_add (env : Env) (a b : Nat) (s : St) : run env (a + b) s = run env b (run env a s) := by
  induction a generalizing s with
  | zero => simp [run]
  | succ a ih => rw [Nat.succ_add]; exact ih (step env s)

theorem write_booted (d : Dev) (r v) : (d.write r v).booted = d.booted := by
  unfold Dev.write
  repeat' split
  all_goals rfl

theorem wr_booted (env : Env) (s : St) (r v) : (s.wr env r v).booted = s.dev.booted := by
  unfold St.wr
  split
  · exact write_booted _ _ _
  · rfl

theorem progress_booted (env : Env) (t : Nat) (d : Dev) : (d.progress env t).booted = (d.booted || env.boot t) := by
  unfold Dev.progress
  cases hd : d.booted <;> cases hb : env.boot t <;> cases hm : d.meas <;> cases hf : env.finish t <;> simp [hd, hm]

theorem progress_fresh (env : Env) (t : Nat) (d : Dev) (h : d.booted = true → d.fresh = 1) :
    (d.progress env t).booted = true → (d.progress env t).fresh = 1 := by
  unfold Dev.progress
  cases hd : d.booted <;> cases hb : env.boot t <;> cases hm : d.meas <;> cases hf : env.finish t <;> simp [hd, hm] <;> exact h hd

/-- Before `clearFresh`: a device that has booted says so, and it has booted once the time of booting has passed -/
def Booting (t0 : Nat) (s : St) : Prop := (s.dev.booted = true → s.dev.fresh = 1) ∧ (s.t ≤ t0 ∨ s.dev.booted = true)

theorem booting_progress {env : Env} {t0 : Nat} (hb : env.boot t0 = true) {d : Dev} {t : Nat} (h1 : d.booted = true → d.fresh = 1) (h2 : t ≤ t0 ∨ d.booted = true) :
    ((d.progress env t).booted = true → (d.progress env t).fresh = 1) ∧ (t + 1 ≤ t0 ∨ (d.progress env t).booted = true) := by
  refine ⟨progress_fresh env t d h1, ?_⟩
  rw [progress_booted]
  rcases h2 with h2 | h2
  · by_cases he : t = t0
    · subst he; right; rw [hb]; simp
    · left; omega
  · right; rw [h2]; rfl

theorem to_fresh {env : Env} (hok : ∀ t, env.ok t = true) {t0 : Nat} (hb : env.boot t0 = true) : (run env 2 init).pc = .fresh ∧ Booting t0 (run env 2 init) := by
  refine ⟨rfl, ?_⟩
  have a := booting_progress hb (d := init.dev) (t := 0) (by intro h; exact absurd h (by decide)) (.inl (Nat.zero_le _))
  have hw : (step env init).dev = (init.dev.progress env 0).write 0x212 0x2a := by
    simp only [step, init]
    obtain ⟨b, f, hp⟩ := progress_none env 0 (⟨0x29, false, 0, none, false, 0, 0, 0, 0⟩ : Dev) rfl
    rw [hp, wr_ok hok rfl]
  have a' : ((step env init).dev.booted = true → (step env init).dev.fresh = 1) ∧ ((step env init).t ≤ t0 ∨ (step env init).dev.booted = true) := by
    rw [hw, step_t]
    exact a
  exact booting_progress hb a'.1 a'.2

theorem to_clearFresh {env : Env} (hok : ∀ t, env.ok t = true) {t0 : Nat} (hb : env.boot t0 = true) :
    ∀ (m : Nat) {s : St}, t0 + 1 - s.t ≤ m → Inv env s → s.pc = .fresh → Booting t0 s → ∃ n, (run env n s).pc = .clearFresh := by
  intro m
  induction m with
  | zero =>
    intro s hm hi hpc hB
    refine ⟨1, ?_⟩
    obtain ⟨pc, addr, mm, d, t, out⟩ := s
    obtain ⟨ha, h⟩ := hi
    simp only at hpc hm ha
    subst hpc
    obtain ⟨h1, -⟩ := h
    obtain ⟨b1, b2⟩ := hB
    have hbt : d.booted = true := by
      rcases b2 with b2 | b2
      · exfalso; simp only at b2; omega
      · exact b2
    obtain ⟨b, f, hp⟩ := progress_none env t d h1
    have hf := progress_fresh env t d b1 (by rw [progress_booted, hbt]; rfl)
    rw [hp] at hf
    show (step env _).pc = _
    simp only [step, hp]
    rw [rd_ok hok (by exact ha)]
    have : Dev.read { d with booted := b, fresh := f } (env.noise t) 0x016 = f := by
      unfold Dev.read; rw [if_neg (by decide), if_pos rfl]
    rw [this]
    simp only at hf
    subst hf
    rfl
  | succ m ih =>
    intro s hm hi hpc hB
    obtain ⟨pc, addr, mm, d, t, out⟩ := s
    have hi' := step_inv hok hi
    obtain ⟨ha, h⟩ := hi
    simp only at hpc hm ha
    subst hpc
    by_cases hr : (St.mk .fresh addr mm (d.progress env t) t out).rd env 0x016 = 0x01
    · refine ⟨1, ?_⟩
      show (step env _).pc = _
      simp only [step, hr, ne_eq, not_true, if_false]
    · have hs : step env ⟨.fresh, addr, mm, d, t, out⟩ = ⟨.fresh, addr, mm, d.progress env t, t + 1, out⟩ := by
        simp only [step]
        rw [if_pos hr]
      rw [hs] at hi'
      obtain ⟨n, hn⟩ := ih (s := ⟨.fresh, addr, mm, d.progress env t, t + 1, out⟩) (by simp only; omega) hi' rfl (booting_progress hb hB.1 hB.2)
      refine ⟨n + 1, ?_⟩
      show (run env n (step env _)).pc = _
      rw [hs]
      exact hn

theorem to_wait1 {env : Env} : ∀ (m : Nat) {s : St} {k : Nat}, s.pc = .table k → k + m = 36 → ∃ n, (run env n s).pc = .wait1 := by
  intro m
  induction m with
  | zero =>
    intro s k hpc hk
    refine ⟨1, ?_⟩
    obtain ⟨pc, addr, mm, d, t, out⟩ := s
    simp only at hpc
    subst hpc
    have : k = 36 := by omega
    subst this
    rfl
  | succ m ih =>
    intro s k hpc hk
    have hs : (step env s).pc = .table (k + 1) := by
      obtain ⟨pc, addr, mm, d, t, out⟩ := s
      simp only at hpc
      subst hpc
      have hk' : k < initTab.length := by rw [table_length]; omega
      simp only [step, List.getElem?_eq_getElem hk']
      rw [if_neg (by rw [table_length]; omega)]
    obtain ⟨n, hn⟩ := ih hs (by omega)
    exact ⟨n + 1, hn⟩

/-- One measurement -/
theorem to_message {env : Env} (hok : ∀ t, env.ok t = true) (hfin : ∀ t, ∃ t', t ≤ t' ∧ env.finish t' = true) {s : St} (hi : Inv env s) (hpc : s.pc = .wait1) :
    ∃ n, (run env n s).pc = .wait1 ∧ (run env n s).out.length = s.out.length + 1 := by
  -- to wait2
  have h2 : (run env 2 s).pc = .wait2 ∧ (run env 2 s).out = s.out := by
    obtain ⟨pc, addr, mm, d, t, out⟩ := s
    simp only at hpc
    subst hpc
    obtain ⟨ha, h1, h2, h3, h4⟩ := hi
    have hs : (step env ⟨.wait1, addr, mm, d, t, out⟩).pc = .start ∧ (step env ⟨.wait1, addr, mm, d, t, out⟩).out = out := by
      obtain ⟨b, f, hp⟩ := progress_none env t d h1
      simp only [step, hp]
      rw [rd_ok hok (by exact ha), read_status]
      simp only [show d.meas = none from h1, if_true]
      rw [if_neg (ready_bit _ _).1]
      exact ⟨rfl, rfl⟩
    show (step env (step env _)).pc = _ ∧ (step env (step env _)).out = _
    generalize step env ⟨.wait1, addr, mm, d, t, out⟩ = s' at hs
    obtain ⟨pc, addr', mm', d', t', out'⟩ := s'
    obtain ⟨rfl, rfl⟩ := hs
    exact ⟨rfl, rfl⟩
  -- to value
  have h3 : ∀ (m : Nat) {s : St}, Inv env s → s.pc = .wait2 → (∃ t', s.t ≤ t' ∧ t' < s.t + m ∧ env.finish t' = true) →
      ∃ n, (run env n s).pc = .value ∧ (run env n s).out = s.out := by
    intro m
    induction m with
    | zero => rintro s - - ⟨t', a, b, -⟩; omega
    | succ m ih =>
      rintro s hi hpc ⟨t', a, b, hf⟩
      obtain ⟨pc, addr, mm, d, t, out⟩ := s
      simp only at hpc a b
      subst hpc
      by_cases hr : (St.mk .wait2 addr mm (d.progress env t) t out).rd env 0x04f &&& 4 = 0
      · have hs : step env ⟨.wait2, addr, mm, d, t, out⟩ = ⟨.wait2, addr, mm, d.progress env t, t + 1, out⟩ := by
          simp only [step]
          rw [if_pos hr]
        have hi' := step_inv hok hi
        rw [hs] at hi'
        have hne : t ≠ t' := by
          rintro rfl
          obtain ⟨ha, hc, k, -, -, h3⟩ := hi
          rw [rd_ok hok (by exact (hi'.1)), read_flag] at hr
          simp only at hr
          have hflag : (d.progress env t).flag = true := by
            rcases h3 with ⟨m1, m2⟩ | ⟨m1, m2, m3⟩
            · obtain ⟨b, f, hp⟩ := progress_some env t d k m1 hc
              rw [hp, if_pos hf]
            · obtain ⟨b, f, hp⟩ := progress_none env t d m1
              rw [hp]; exact m2
          rw [hflag] at hr
          exact (flag_bit _).1 hr
        obtain ⟨n, hn⟩ := ih (s := ⟨.wait2, addr, mm, d.progress env t, t + 1, out⟩) hi' rfl ⟨t', by simp only; omega, by simp only; omega, hf⟩
        refine ⟨n + 1, ?_⟩
        show (run env n (step env _)).pc = _ ∧ (run env n (step env _)).out = _
        rw [hs]
        exact hn
      · refine ⟨1, ?_⟩
        show (step env _).pc = _ ∧ (step env _).out = _
        simp only [step, hr, if_false]
        exact ⟨trivial, trivial⟩
  -- the rest
  have h4 : ∀ {s : St}, Inv env s → s.pc = .value → (run env 3 s).pc = .wait1 ∧ (run env 3 s).out.length = s.out.length + 1 := by
    intro s hi hpc
    have i1 := step_inv hok hi
    have i2 := step_inv hok i1
    obtain ⟨pc, addr, mm, d, t, out⟩ := s
    simp only at hpc
    subst hpc
    show (step env (step env (step env _))).pc = _ ∧ (step env (step env (step env _))).out.length = _
    have e : (step env (step env ⟨.value, addr, mm, d, t, out⟩)).pc = .wait3 ∧ (step env (step env ⟨.value, addr, mm, d, t, out⟩)).out = out := ⟨rfl, rfl⟩
    generalize step env (step env ⟨.value, addr, mm, d, t, out⟩) = s' at e i2
    obtain ⟨pc, addr', mm', d', t', out'⟩ := s'
    obtain ⟨rfl, rfl⟩ := e
    obtain ⟨ha, hc, k, h1, h2, h3, h4, h5⟩ := i2
    obtain ⟨b, f, hp⟩ := progress_none env t' d' h3
    simp only [step, hp]
    rw [rd_ok hok (by exact ha), read_status]
    simp only [show d'.meas = none from h3, if_true]
    rw [if_neg (ready_bit _ _).1]
    exact ⟨rfl, by simp⟩
  have hi2 := run_inv hok 2 hi
  obtain ⟨t', ht, hf⟩ := hfin (run env 2 s).t
  obtain ⟨n, hn, ho⟩ := h3 (t' + 1) hi2 h2.1 ⟨t', ht, by omega, hf⟩
  have h5 := h4 (run_inv hok n hi2) hn
  refine ⟨2 + n + 3, ?_⟩
  rw [run_add, run_add]
  refine ⟨h5.1, ?_⟩
  rw [h5.2, ho, h2.2]

/-- C109: the board does not get stuck: if the device boots at some time and every measurement ends at some time, then any number of messages is published. -/
theorem messages_go_on {env : Env} (hok : ∀ t, env.ok t = true) (hboot : ∃ t, env.boot t = true) (hfin : ∀ t, ∃ t', t ≤ t' ∧ env.finish t' = true) (m : Nat) :
    ∃ n, m ≤ (run env n init).out.length := by
  suffices h : ∃ n, (run env n init).pc = .wait1 ∧ m ≤ (run env n init).out.length by
    obtain ⟨n, -, h⟩ := h; exact ⟨n, h⟩
  induction m with
  | zero =>
    obtain ⟨t0, hb⟩ := hboot
    obtain ⟨p1, B⟩ := to_fresh hok hb
    obtain ⟨n, hn⟩ := to_clearFresh hok hb _ (Nat.le_refl _) (run_inv hok 2 (init_inv env)) p1 B
    rw [← run_add] at hn
    have hn' : (run env (2 + n + 1) init).pc = .table 0 := by
      rw [run_add]
      show (step env _).pc = _
      generalize run env (2 + n) init = s at hn
      obtain ⟨pc, addr, mm, d, t, out⟩ := s
      simp only at hn
      subst hn
      rfl
    obtain ⟨j, hj⟩ := to_wait1 36 hn' rfl
    rw [← run_add] at hj
    exact ⟨_, hj, Nat.zero_le _⟩
  | succ m ih =>
    obtain ⟨n, hp, hm⟩ := ih
    obtain ⟨j, j1, j2⟩ := to_message hok hfin (run_inv hok n (init_inv env)) hp
    rw [← run_add] at j1 j2
    exact ⟨_, j1, by omega⟩

/-! ## Failed transfers -/

/-- FINDING: without the sensor (no transfer succeeds), `vl6180x_configure` repeats reading the register for ever, unless the byte on the stack happens to be 1: main does not reach
`uavcan_start`, and the board never appears on the bus. -/
theorem hangs {env : Env} (hok : ∀ t, env.ok t = false) (hj : ∀ t, env.junk t ≠ 1) (n : Nat) : (run env (2 + n) init).pc = .fresh ∧ (run env (2 + n) init).out = [] := by
  rw [run_add]
  have h2 : (run env 2 init).pc = .fresh ∧ (run env 2 init).out = [] := ⟨rfl, rfl⟩
  generalize run env 2 init = s at h2
  induction n generalizing s with
  | zero => exact h2
  | succ n ih =>
    apply ih
    obtain ⟨pc, addr, mm, d, t, out⟩ := s
    obtain ⟨rfl, rfl⟩ := h2
    have hr : (St.mk .fresh addr mm (d.progress env t) t []).rd env 0x016 = env.junk t := by
      unfold St.rd St.acked
      simp [hok t]
    simp only [step, hr]
    rw [if_pos (hj t)]
    exact ⟨rfl, rfl⟩

/-- Boots at once, each measurement is finished at the next access; measurement `k` gives `10 * (k + 1)` millimetres -/
def quick : Env := ⟨fun _ => true, fun _ => true, fun k => (BitVec.ofNat 8 (10 * (k + 1)), 0), fun t => BitVec.ofNat 8 (7 * t), fun _ => true, fun _ => 0⟩

example : (run quick 53 init).out = [(10, 0), (20, 0)] := by decide +kernel

/-- FINDING: the distance of a failed transfer is what was on the stack, published with the status "no error" of the measurement. -/
theorem junk_published : ∃ env : Env, env.result 0 = (10, 0) ∧ (run env 47 init).out = [(77, 0)] :=
  ⟨{ quick with ok := fun t => decide (t ≠ 44), junk := fun _ => 77 }, by decide +kernel, by decide +kernel⟩

/-- FINDING: if only the write that clears the flag is lost, the next call does not wait for its measurement and publishes the distance of the one before with the status of its own; here
the second measurement failed (status 11) at another distance. -/
theorem lost_clear : ∃ env : Env, env.result 0 = (10, 0) ∧ env.result 1 = (200, 11) ∧ (∀ t, t ≠ 45 → env.ok t = true) ∧ (run env 53 init).out = [(10, 0), (10, 11)] :=
  ⟨{ quick with ok := fun t => decide (t ≠ 45), result := fun k => if k = 0 then (10, 0) else (200, 11), finish := fun t => decide (t = 43 ∨ t ≥ 51) },
    by decide +kernel, by decide +kernel, fun t h => by simp [h], by decide +kernel⟩

/-! ## Colour -/

/-- C109: each channel is the 16 bit number that the sensor sent for it, low byte first, in the order clear, red, green, blue. -/
theorem color_spec (stack : Color) (clear red green blue : BitVec 16) (rx : Fin 8 → BitVec 8)
    (h : ∀ i : Fin 8, (rx i).toNat = ([clear, red, green, blue][i.val / 2]!).toNat / 256 ^ (i.val % 2) % 256) :
    colorPublish stack (some rx) = ⟨red, green, blue, clear⟩ := by
  have key : ∀ (l u : BitVec 8) (w : BitVec 16), l.toNat = w.toNat / 256 ^ 0 % 256 → u.toNat = w.toNat / 256 ^ 1 % 256 → l.setWidth 16 ||| (u.setWidth 16 <<< 8) = w := by
    intro l u w hl hu
    have hl' : l = w.extractLsb' 0 8 := by apply BitVec.eq_of_toNat_eq; rw [hl]; simp
    have hu' : u = w.extractLsb' 8 8 := by apply BitVec.eq_of_toNat_eq; rw [hu]; simp [Nat.shiftRight_eq_div_pow]
    subst hl' hu'
    apply BitVec.eq_of_getLsbD_eq
    intro i hi
    simp only [BitVec.getLsbD_or, BitVec.getLsbD_setWidth, BitVec.getLsbD_extractLsb', BitVec.getLsbD_shiftLeft]
    by_cases h8 : i < 8
    · simp [h8, hi]
    · have : i - 8 < 8 := by omega
      have e : 8 + (i - 8) = i := by omega
      simp [h8, hi, this, e]
      intro _; omega
  simp only [colorPublish]
  rw [key (rx 2) (rx 3) red (h 2) (h 3), key (rx 4) (rx 5) green (h 4) (h 5), key (rx 6) (rx 7) blue (h 6) (h 7), key (rx 0) (rx 1) clear (h 0) (h 1)]

example : colorPublish ⟨0, 0, 0, 0⟩ (some fun i => [0x34, 0x12, 0x01, 0x00, 0xff, 0x00, 0x00, 0x80][i.val]!) = ⟨1, 255, 0x8000, 0x1234⟩ := by decide

/-- FINDING: the result of `TCS3472_read_color` is ignored: after a failed transfer the message has what was on the stack, any colour at all. -/
theorem color_stack (c : Color) : ∃ stack, colorPublish stack none = c := ⟨c, rfl⟩

end Verif.Tof
