import Verif.Fat.AllocProps

/-!
# FatFs: the number of free clusters — properties

C122: `f_getfree` returns the number of free clusters, which is the number of clusters of the volume without those of the files.
-/

namespace Verif.Fat

open Spec (Ty Chain Files order freeCount)

/-! ## Lemmas -/

theorem Fs.win_tab (fs : Fs) (i : Nat) (h : fs.winsect = fs.fatbase + i / 512) : fs.win (i % 512) = fs.tab i := by
  unfold Fs.tab Fs.look
  rw [if_pos h.symm]

/-- The number of entries that are 0, from entry `j` on -/
def zeros (f : Nat → Nat) (j m : Nat) : Nat := (List.range' j m).countP fun c => f c == 0

theorem zeros_succ (f : Nat → Nat) (j m : Nat) : zeros f j (m + 1) = (if f j = 0 then 1 else 0) + zeros f (j + 1) m := by
  unfold zeros
  rw [List.range'_succ, List.countP_cons]
  by_cases e : f j = 0
  · simp [e]; omega
  · simp [e]

theorem count12_spec {env : Env} (hq : Quiet env) (m : Nat) (fs : Fs) (h : fs.Ok) (j n : Nat) (h2 : 2 ≤ j) (hj : j + m = fs.nFatent)
    (hno : ∀ c, 2 ≤ c → c < fs.nFatent → fs.entryAt c ≠ 1) :
    ∃ fs', Fs.count12 env m fs j n = (fs', .ok, n + zeros fs.entryAt j m) ∧ Step fs fs' fs.entryAt := by
  induction m generalizing fs j n with
  | zero => exact ⟨fs, by unfold Fs.count12 zeros; simp, Step.refl h⟩
  | succ m ih =>
    unfold Fs.count12
    obtain ⟨f1, g1, g2, _, _⟩ := fs.get_step hq h j h2 (by omega)
    rw [g1]
    dsimp only
    have hlt := fs.entryAt_lt j
    rw [if_neg (by omega), if_neg (hno j h2 (by omega))]
    obtain ⟨fs', s1, s2⟩ := ih f1 g2.ok (j + 1) (if fs.entryAt j = 0 then n + 1 else n) (by omega) (by rw [g2.nFatent]; omega) (fun c c1 c2 => by
      rw [g2.nFatent] at c2
      rw [g2.entries c c2]
      exact hno c c1 c2)
    refine ⟨fs', ?_, (g2.trans s2).congr fun c hc => g2.entries c hc⟩
    have e : zeros f1.entryAt (j + 1) m = zeros fs.entryAt (j + 1) m := by
      unfold zeros
      apply List.countP_congr
      intro x hx
      rw [List.mem_range'_1] at hx
      rw [g2.entries x (by omega)]
    rw [s1, zeros_succ, e]
    by_cases e0 : fs.entryAt j = 0
    · simp [e0]; omega
    · simp [e0]

/-- Where the count of larger entries is when entry `j` is next -/
structure At (fs : Fs) (w j sect off : Nat) : Prop where
  le : off ≤ 512
  pos : off < 512 → off = j * w % 512 ∧ fs.winsect = fs.fatbase + j * w / 512 ∧ sect = fs.fatbase + j * w / 512 + 1
  full : off = 512 → j * w % 512 = 0 ∧ sect = fs.fatbase + j * w / 512

theorem count_spec {env : Env} (hq : Quiet env) (w mask : Nat) (hw : w = 2 ∨ w = 4) (m : Nat) (fs : Fs) (h : fs.Ok) (j n sect off : Nat) (hj : j + m = fs.nFatent)
    (hb : fs.nFatent * w ≤ 512 * fs.fsize) (hat : At fs w j sect off)
    (hv : ∀ (f : Fs), f.ty = fs.ty → ∀ c, c < fs.nFatent → f.winsect = f.fatbase + c * w / 512 →
      (if w = 2 then ldWord f.win (c * w % 512) else ldDword f.win (c * w % 512)) &&& mask = f.entryAt c) :
    ∃ fs', Fs.count env w mask m fs sect off n = (fs', .ok, n + zeros fs.entryAt j m) ∧ Step fs fs' fs.entryAt := by
  induction m generalizing fs j n sect off with
  | zero => exact ⟨fs, by unfold Fs.count zeros; simp, Step.refl h⟩
  | succ m ih =>
    have hend := Fs.layout_fatend h.layout
    have hjb : j * w + w ≤ fs.nFatent * w := by
      rw [← Nat.succ_mul]
      exact Nat.mul_le_mul_right _ (by omega)
    have hw1 : 2 ≤ w := by omega
    -- the window is at the sector of the entry
    obtain ⟨f1, m1, m2, m3⟩ : ∃ f1, (if off = 512 then fs.move env sect else (fs, true)) = (f1, true) ∧ Step fs f1 fs.entryAt ∧ f1.winsect = f1.fatbase + j * w / 512 := by
      by_cases ho : off = 512
      · rw [if_pos ho]
        obtain ⟨f0, f0'⟩ := hat.full ho
        obtain ⟨a, b, c⟩ := fs.move_quiet hq h sect (by omega) (by unfold Fs.InCopies; omega)
        refine ⟨(fs.move env sect).1, Prod.ext rfl a, c.step h.layout (fun _ _ => rfl) (by unfold Fs.InTable; rw [b]; omega), ?_⟩
        rw [b, c.same.fatbase, f0']
      · rw [if_neg ho]
        have hl := hat.le
        exact ⟨fs, rfl, Step.refl h, (hat.pos (by omega)).2.1⟩
    unfold Fs.count
    rw [m1]
    dsimp only
    rw [if_pos rfl]
    have eoff : (if off = 512 then 0 else off) = j * w % 512 := by
      have hl := hat.le
      by_cases ho : off = 512
      · rw [if_pos ho, (hat.full ho).1]
      · rw [if_neg ho, (hat.pos (by omega)).1]
    have esect : (if off = 512 then u32 (sect + 1) else sect) = fs.fatbase + j * w / 512 + 1 := by
      have hl := hat.le
      by_cases ho : off = 512
      · rw [if_pos ho, (hat.full ho).2, u32_of (by omega)]
      · rw [if_neg ho, (hat.pos (by omega)).2.2]
    rw [eoff, esect]
    have val : (if w = 2 then ldWord f1.win (j * w % 512) else ldDword f1.win (j * w % 512)) &&& mask = fs.entryAt j := by
      rw [hv f1 m2.ty j (by omega) m3, m2.entries j (by omega)]
    rw [val]
    have hdiv : j * w % 512 + w ≤ 512 := by
      rcases hw with rfl | rfl <;> omega
    have hat' : At f1 w (j + 1) (fs.fatbase + j * w / 512 + 1) (j * w % 512 + w) := by
      refine ⟨hdiv, fun hlt => ?_, fun heq => ?_⟩
      · rw [Nat.succ_mul, m3, m2.fatbase]
        omega
      · rw [Nat.succ_mul, m2.fatbase]
        omega
    obtain ⟨fs', s1, s2⟩ := ih f1 m2.ok (j + 1) (if fs.entryAt j = 0 then n + 1 else n) _ _ (by rw [m2.nFatent]; omega) (by rw [m2.nFatent, m2.fsize]; exact hb) hat'
      (fun f hf c hc hws => hv f (hf.trans m2.ty) c (by rw [m2.nFatent] at hc; exact hc) hws)
    refine ⟨fs', ?_, (m2.trans s2).congr fun c hc => m2.entries c hc⟩
    have e : zeros f1.entryAt (j + 1) m = zeros fs.entryAt (j + 1) m := by
      unfold zeros
      apply List.countP_congr
      intro x hx
      rw [List.mem_range'_1] at hx
      rw [m2.entries x (by omega)]
    rw [s1, zeros_succ, e]
    by_cases e0 : fs.entryAt j = 0
    · simp [e0]; omega
    · simp [e0]

theorem word_entry (f : Fs) (hty : f.ty = .fat16) (c : Nat) (hs : f.winsect = f.fatbase + c * 2 / 512) : ldWord f.win (c * 2 % 512) &&& 0xFFFF = f.entryAt c := by
  rw [ldWord_eq, show (0xFFFF : Nat) = 2 ^ 16 - 1 from rfl, Nat.and_two_pow_sub_one_eq_mod, f.win_tab (c * 2) hs, show c * 2 % 512 + 1 = (c * 2 + 1) % 512 by omega,
    f.win_tab (c * 2 + 1) (by omega)]
  unfold Fs.entryAt
  rw [hty]
  unfold Spec.entry
  dsimp only
  rw [Nat.mul_comm c 2]
  have h0 := (f.tab (2 * c)).isLt
  have h1 := (f.tab (2 * c + 1)).isLt
  omega

theorem dword_entry (f : Fs) (hty : f.ty = .fat32) (c : Nat) (hs : f.winsect = f.fatbase + c * 4 / 512) : ldDword f.win (c * 4 % 512) &&& 0x0FFFFFFF = f.entryAt c := by
  rw [ldDword_eq, and_28, f.win_tab (c * 4) hs, show c * 4 % 512 + 1 = (c * 4 + 1) % 512 by omega, show c * 4 % 512 + 2 = (c * 4 + 2) % 512 by omega,
    show c * 4 % 512 + 3 = (c * 4 + 3) % 512 by omega, f.win_tab (c * 4 + 1) (by omega), f.win_tab (c * 4 + 2) (by omega), f.win_tab (c * 4 + 3) (by omega)]
  unfold Fs.entryAt
  rw [hty]
  unfold Spec.entry
  dsimp only
  rw [Nat.mul_comm c 4]

theorem zeros_all {f : Nat → Nat} {n : Nat} (hn : 3 ≤ n) (h0 : f 0 ≠ 0) (h1 : f 1 ≠ 0) : zeros f 0 n = freeCount f n := by
  obtain ⟨m, rfl⟩ : ∃ m, n = m + 2 := ⟨n - 2, by omega⟩
  rw [zeros_succ, zeros_succ, if_neg h0, if_neg h1]
  unfold zeros freeCount
  rw [Nat.zero_add, Nat.zero_add, Nat.add_sub_cancel]

/-! ## Theorems -/

/-- The number of free clusters of a volume with the files `F` -/
theorem free_of_files {f : Nat → Nat} {n : Nat} {F : List (List Nat)} (h : Files f n F) : freeCount f n + F.flatten.length = n - 2 := by
  have hp : ((List.range' 2 (n - 2)).filter fun c => !(f c == 0)).Perm F.flatten := by
    rw [List.perm_ext_iff_of_nodup (List.Nodup.filter _ List.nodup_range') h.apart]
    intro c
    rw [List.mem_filter, List.mem_range'_1]
    constructor
    · rintro ⟨⟨c1, c2⟩, hc⟩
      exact h.used c (by omega) (by omega) (by simpa using hc)
    · intro hm
      obtain ⟨L, hL, hc⟩ := List.mem_flatten.mp hm
      obtain ⟨x, hx⟩ := h.chains L hL
      have := hx.mem hc
      exact ⟨by omega, by simp; omega⟩
  rw [← hp.length_eq, ← List.countP_eq_length_filter]
  unfold freeCount
  have := List.length_eq_countP_add_countP (fun c => f c == 0) (l := List.range' 2 (n - 2))
  rw [List.length_range'] at this
  refine Eq.trans ?_ this.symm
  congr 1
  apply List.countP_congr
  intro x _
  simp

/-- `f_getfree` returns the number of free clusters: if the number that the volume carries is right or unknown, no entry is 1, and the two entries before the first cluster
are not 0. Missing of C122, because false: an interrupted count (`interrupted_count`), and tables with 0 in the entries before the first cluster (`reserved_counted`). -/
theorem getfree_right_partial {env : Env} (hq : Quiet env) (fs : Fs) (h : fs.Ok) (hc : fs.Counted) (hno : ∀ c, 2 ≤ c → c < fs.nFatent → fs.entryAt c ≠ 1)
    (h0 : fs.entryAt 0 ≠ 0) (h1 : fs.entryAt 1 ≠ 0) :
    ∃ fs', fs.getFree env = (fs', .ok, freeCount fs.entryAt fs.nFatent) ∧ Step fs fs' fs.entryAt ∧ fs'.Counted ∧ fs'.freeClust = freeCount fs.entryAt fs.nFatent := by
  have hent := Fs.ents_lt h
  have hle := freeCount_le fs.entryAt fs.nFatent
  have esub : sub32 fs.nFatent 2 = fs.nFatent - 2 := by
    unfold sub32 u32
    rw [show fs.nFatent + 4294967296 - 2 = (fs.nFatent - 2) + 4294967296 by omega, Nat.add_mod_right, Nat.mod_eq_of_lt (by omega)]
  unfold Fs.getFree
  rw [esub]
  have hc' := hc
  unfold Fs.Counted at hc'
  rcases hc' with hu | hk
  · rw [if_neg (by omega)]
    have fin : ∀ f1, Step fs f1 fs.entryAt →
        ∃ fs', (({ f1 with freeClust := freeCount fs.entryAt fs.nFatent, fsiFlag := f1.fsiFlag ||| 1 } : Fs), Fr.ok, freeCount fs.entryAt fs.nFatent) = (fs', .ok, freeCount fs.entryAt fs.nFatent) ∧
          Step fs fs' fs.entryAt ∧ fs'.Counted ∧ fs'.freeClust = freeCount fs.entryAt fs.nFatent := by
      intro f1 s
      have st := (s.trans (Step.counters s.ok (f1.fsiFlag ||| 1) f1.lastClust (freeCount fs.entryAt fs.nFatent))).congr fun c hc => s.entries c hc
      refine ⟨_, rfl, st, Or.inr ?_, rfl⟩
      show freeCount fs.entryAt fs.nFatent = freeCount _ f1.nFatent
      rw [s.nFatent]
      exact (freeCount_congr fun c _ hc => st.entries c hc).symm
    have htab := h.layout.table
    have hat : ∀ w, At fs w 0 fs.fatbase 512 := fun w => ⟨Nat.le_refl _, fun k => absurd k (by decide), fun _ => by rw [Nat.zero_mul]; exact ⟨rfl, rfl⟩⟩
    cases hty : fs.ty <;> dsimp only <;> rw [hty] at htab <;> unfold Spec.bytes at htab <;> dsimp only at htab
    · obtain ⟨f1, s1, s2⟩ := count12_spec hq (fs.nFatent - 2) fs h 2 0 (by omega) (by omega) hno
      rw [s1]
      have e : 0 + zeros fs.entryAt 2 (fs.nFatent - 2) = freeCount fs.entryAt fs.nFatent := by unfold zeros freeCount; rw [Nat.zero_add]
      rw [e]
      exact fin f1 s2
    · obtain ⟨f1, s1, s2⟩ := count_spec hq 2 0xFFFF (Or.inl rfl) fs.nFatent fs h 0 0 fs.fatbase 512 (by omega) (by omega) (hat 2)
        (fun f hf c _ hs => by rw [if_pos rfl]; exact word_entry f (hf.trans hty) c hs)
      rw [s1, Nat.zero_add, zeros_all hent.2 h0 h1]
      exact fin f1 s2
    · obtain ⟨f1, s1, s2⟩ := count_spec hq 4 0x0FFFFFFF (Or.inr rfl) fs.nFatent fs h 0 0 fs.fatbase 512 (by omega) (by omega) (hat 4)
        (fun f hf c _ hs => by rw [if_neg (by decide)]; exact dword_entry f (hf.trans hty) c hs)
      rw [s1, Nat.zero_add, zeros_all hent.2 h0 h1]
      exact fin f1 s2
  · rw [if_pos (by omega)]
    exact ⟨fs, by rw [hk], Step.refl h, hc, hk⟩

/-- The volume's clusters without those of the files. Missing: as above. -/
theorem getfree_files_partial {env : Env} (hq : Quiet env) (fs : Fs) (h : fs.Ok) (hc : fs.Counted) (F : List (List Nat)) (hF : Files fs.entryAt fs.nFatent F)
    (h0 : fs.entryAt 0 ≠ 0) (h1 : fs.entryAt 1 ≠ 0) : ∃ fs' n, fs.getFree env = (fs', .ok, n) ∧ n + F.flatten.length = fs.nFatent - 2 := by
  obtain ⟨fs', e, _, _, _⟩ := getfree_right_partial hq fs h hc (fun c c1 c2 => (files_entries hF c c1 c2).1) h0 h1
  exact ⟨fs', _, e, free_of_files hF⟩

/-- A volume of 500 clusters of which all are free -/
def empty : Fs :=
  { vol with win := fun i => if i < 4 then 255#8 else 0#8, disk := fun s i => if (s = 1 ∨ s = 3) ∧ i < 4 then 255#8 else 0#8 }

/-- A count that is interrupted by an error is kept as if it were right: the error is reported once, the next call reports success and 254 free clusters of 498. -/
theorem interrupted_count : (empty.getFree flaky).2.1 = .diskErr ∧ (((empty.getFree flaky).1.getFree calm).2) = (.ok, 254) ∧ freeCount empty.entryAt 500 = 498 := by
  decide +kernel

/-- The entries before the first cluster are counted too: if they are 0 there are too many free clusters, 500 on a volume that has 498. -/
theorem reserved_counted : ({ empty with win := fun _ => 0#8, disk := fun _ _ => 0#8 }.getFree calm).2 = (.ok, 500) := by
  decide +kernel

/-! ## Examples -/

theorem empty_ok : empty.Ok := by
  refine ⟨⟨by decide, by decide, by decide, by decide, by decide, by decide, by decide⟩, fun _ => ?_, ?_, by decide⟩
  · funext i
    simp [empty, vol]
  · unfold Fs.InCopies
    decide

theorem empty_files : Files empty.entryAt empty.nFatent [] :=
  ⟨fun _ h => by simp at h, by simp, fun c h1 h2 h0 => by
    have e : ∀ c, c < 500 → 2 ≤ c → empty.entryAt c = 0 := by decide +kernel
    exact absurd (e c h2 h1) h0⟩

example : ∃ fs' n, empty.getFree calm = (fs', .ok, n) ∧ n + ([] : List (List Nat)).flatten.length = 500 - 2 :=
  getfree_files_partial calm_quiet empty empty_ok (Or.inl rfl) [] empty_files (by decide +kernel) (by decide +kernel)

/-- A file of two clusters and one of one cluster -/
def two : Option (Fs × List Nat) := do
  let (fs, a) ← empty.createChain calm 0
  let (fs, b) ← fs.createChain calm 0
  let (fs, a2) ← fs.createChain calm a
  pure (fs, [a, b, a2])

example : two.map (·.2) = some [2, 3, 4] := by decide +kernel

/-- Their entries; with the first file removed; and with its clusters taken again after the end of the table has been reached -/
example : two.map (fun r => [2, 3, 4].map r.1.entryAt) = some [4, 65535, 65535] := by decide +kernel
example : ((two.bind fun r => r.1.removeChain calm 2).map fun r => (r.2, [2, 3, 4].map r.1.entryAt)) = some (.ok, [0, 65535, 0]) := by decide +kernel
example : ((two.bind fun r => ({ r.1 with lastClust := 499 }).createChain calm 0).map (·.2)) = some 5 := by decide +kernel

/-- A ring of two clusters: it is removed, and the loop ends. -/
def ring : Fs := (((empty.putFat calm 10 11).1).putFat calm 11 10).1

example : (ring.removeChain calm 10).map (fun r => (r.2, [10, 11].map r.1.entryAt)) = some (.ok, [0, 0]) := by decide +kernel

end Verif.Fat
