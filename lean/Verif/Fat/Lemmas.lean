import Verif.Fat.Model

/-!
# FatFs: lemmas on the window
-/

namespace Verif.Fat

open Spec (Ty)

def Quiet (env : Env) : Prop := ∀ t, env.fail t = false

/-- Where the sectors and entries are: what a mounted volume has -/
structure Fs.Layout (fs : Fs) : Prop where
  fats : 1 ≤ fs.nFats
  base : 1 ≤ fs.fatbase
  area : fs.fatbase + fs.nFats * fs.fsize ≤ fs.database
  data : fs.database + fs.csize * (fs.nFatent - 2) ≤ 4294967296
  table : Spec.bytes fs.ty fs.nFatent ≤ 512 * fs.fsize
  ents : 3 ≤ fs.nFatent ∧ fs.nFatent + 9 ≤ Spec.range fs.ty
  clus : 1 ≤ fs.csize

/-- The sectors of the copies of the table -/
def Fs.InCopies (fs : Fs) (s : Nat) : Prop := fs.fatbase + fs.fsize ≤ s ∧ s < fs.fatbase + fs.nFats * fs.fsize

def Fs.InTable (fs : Fs) (s : Nat) : Prop := fs.fatbase ≤ s ∧ s < fs.fatbase + fs.fsize

structure Fs.Ok (fs : Fs) : Prop where
  layout : fs.Layout
  clean : fs.wflag = false → fs.win = fs.disk fs.winsect
  away : ¬ fs.InCopies fs.winsect
  small : fs.winsect < 4294967296

/-- A sector as the file system sees it: the window stands for its sector. -/
def Fs.look (fs : Fs) (s : Nat) : Sector := if s = fs.winsect then fs.win else fs.disk s

/-- Byte `i` of the table -/
def Fs.tab (fs : Fs) (i : Nat) : BitVec 8 := fs.look (fs.fatbase + i / 512) (i % 512)

/-- The copies of the table agree with it, apart from a sector that is changed in the window only. -/
def Fs.Copies (fs : Fs) : Prop :=
  ∀ i, i < fs.fsize → (fs.wflag = true → fs.winsect ≠ fs.fatbase + i) → ∀ k, k < fs.nFats → fs.disk (fs.fatbase + i + k * fs.fsize) = fs.disk (fs.fatbase + i)

/-- What describes the volume has not changed. -/
structure Same (fs fs' : Fs) : Prop where
  ty : fs'.ty = fs.ty
  csize : fs'.csize = fs.csize
  nFats : fs'.nFats = fs.nFats
  fsiFlag : fs'.fsiFlag = fs.fsiFlag
  lastClust : fs'.lastClust = fs.lastClust
  freeClust : fs'.freeClust = fs.freeClust
  nFatent : fs'.nFatent = fs.nFatent
  fsize : fs'.fsize = fs.fsize
  fatbase : fs'.fatbase = fs.fatbase
  database : fs'.database = fs.database

theorem Same.rfl {fs : Fs} : Same fs fs := ⟨Eq.refl _, Eq.refl _, Eq.refl _, Eq.refl _, Eq.refl _, Eq.refl _, Eq.refl _, Eq.refl _, Eq.refl _, Eq.refl _⟩

theorem Same.trans {a b c : Fs} (h : Same a b) (g : Same b c) : Same a c :=
  ⟨g.ty.trans h.ty, g.csize.trans h.csize, g.nFats.trans h.nFats, g.fsiFlag.trans h.fsiFlag, g.lastClust.trans h.lastClust, g.freeClust.trans h.freeClust,
    g.nFatent.trans h.nFatent, g.fsize.trans h.fsize, g.fatbase.trans h.fatbase, g.database.trans h.database⟩

theorem Same.layout {a b : Fs} (h : Same a b) (l : a.Layout) : b.Layout := by
  constructor
  · rw [h.nFats]; exact l.fats
  · rw [h.fatbase]; exact l.base
  · rw [h.fatbase, h.nFats, h.fsize, h.database]; exact l.area
  · rw [h.database, h.csize, h.nFatent]; exact l.data
  · rw [h.ty, h.nFatent, h.fsize]; exact l.table
  · rw [h.ty, h.nFatent]; exact l.ents
  · rw [h.csize]; exact l.clus

theorem Same.inCopies {a b : Fs} (h : Same a b) (s : Nat) : b.InCopies s ↔ a.InCopies s := by
  unfold Fs.InCopies
  rw [h.fatbase, h.fsize, h.nFats]

theorem Same.inTable {a b : Fs} (h : Same a b) (s : Nat) : b.InTable s ↔ a.InTable s := by
  unfold Fs.InTable
  rw [h.fatbase, h.fsize]

theorem set_same {α : Type} (f : Nat → α) (i : Nat) (v : α) : set f i v i = v := if_pos rfl

theorem set_other {α : Type} (f : Nat → α) {i j : Nat} (v : α) (h : j ≠ i) : set f i v j = f j := if_neg h

theorem u32_of {x : Nat} (h : x < 4294967296) : u32 x = x := Nat.mod_eq_of_lt h

theorem Fs.write_quiet {env : Env} (hq : Quiet env) (fs : Fs) (s : Nat) (d : Sector) :
    fs.write env s d = ({ fs with disk := set fs.disk s d, t := fs.t + 1 }, true) := by
  unfold Fs.write
  rw [hq fs.t]
  rfl

theorem Fs.read_quiet {env : Env} (hq : Quiet env) (fs : Fs) (s : Nat) :
    fs.read env s = ({ fs with t := fs.t + 1 }, fs.disk s, true) := by
  unfold Fs.read
  rw [hq fs.t]
  rfl

theorem mirror_quiet {env : Env} (hq : Quiet env) (n : Nat) (fs : Fs) (w : Nat) (h : w + n * fs.fsize < 4294967296) :
    ∃ D T, fs.mirror env w n = { fs with disk := D, t := T } ∧ (∀ s, (∀ k, 1 ≤ k → k ≤ n → s ≠ w + k * fs.fsize) → D s = fs.disk s) ∧
      (∀ k, 1 ≤ k → k ≤ n → D (w + k * fs.fsize) = fs.win) := by
  induction n generalizing fs w with
  | zero => exact ⟨fs.disk, fs.t, rfl, fun _ _ => rfl, fun k h1 h2 => by omega⟩
  | succ n ih =>
    have e : (n + 1) * fs.fsize = n * fs.fsize + fs.fsize := Nat.succ_mul _ _
    unfold Fs.mirror
    rw [fs.write_quiet hq, u32_of (by omega)]
    obtain ⟨D, T, e1, e2, e3⟩ := ih { fs with disk := set fs.disk (w + fs.fsize) fs.win, t := fs.t + 1 } (w + fs.fsize) (by dsimp only; omega)
    dsimp only at e2 e3
    refine ⟨D, T, e1, fun s hs => ?_, fun k h1 h2 => ?_⟩
    · rw [e2 s (fun k k1 k2 => ?_)]
      · exact set_other _ _ (by have := hs 1 (by omega) (by omega); omega)
      · have := hs (k + 1) (by omega) (by omega)
        rw [Nat.succ_mul] at this
        omega
    · by_cases hk : ∃ j, 1 ≤ j ∧ j ≤ n ∧ w + k * fs.fsize = w + fs.fsize + j * fs.fsize
      · obtain ⟨j, j1, j2, j3⟩ := hk
        rw [j3]
        exact e3 j j1 j2
      · have hk1 : k = 1 := by
          by_cases h1' : k = 1
          · exact h1'
          · exfalso
            apply hk
            refine ⟨k - 1, by omega, by omega, ?_⟩
            obtain ⟨j, rfl⟩ : ∃ j, k = j + 1 := ⟨k - 1, by omega⟩
            rw [Nat.succ_mul]
            simp only [Nat.add_sub_cancel]
            omega
        subst hk1
        rw [e2 _ (fun j j1 j2 hj => hk ⟨j, j1, j2, hj⟩), Nat.one_mul, set_same]

theorem Fs.sync_quiet {env : Env} (hq : Quiet env) (fs : Fs) (h : fs.Ok) :
    ∃ D T, fs.sync env = ({ fs with wflag := false, disk := D, t := T }, true) ∧ D fs.winsect = fs.win ∧
      (∀ s, ¬ fs.InCopies s → s ≠ fs.winsect → D s = fs.disk s) ∧ (fs.Copies → ∀ i, i < fs.fsize → ∀ k, k < fs.nFats → D (fs.fatbase + i + k * fs.fsize) = D (fs.fatbase + i)) := by
  unfold Fs.sync
  cases hw : fs.wflag with
  | false =>
    refine ⟨fs.disk, fs.t, ?_, (h.clean hw).symm, fun _ _ _ => rfl, fun hc i hi k hk => hc i hi (fun e => by rw [hw] at e; cases e) k hk⟩
    rw [if_neg (by decide), ← hw]
  | true =>
    rw [if_pos rfl, fs.write_quiet hq]
    dsimp only
    rw [if_pos rfl]
    have hsmall := h.small
    have hl := h.layout
    have hdat := hl.data
    have harea := hl.area
    have haway := h.away
    by_cases ht : sub32 fs.winsect fs.fatbase < fs.fsize
    · rw [if_pos ht]
      have hin : fs.InTable fs.winsect := by
        unfold sub32 u32 at ht
        unfold Fs.InTable
        have : fs.nFats * fs.fsize ≥ fs.fsize := Nat.le_mul_of_pos_left _ hl.fats
        constructor
        · rcases Nat.lt_or_ge fs.winsect fs.fatbase with hlt | hge
          · rw [Nat.mod_eq_of_lt (by omega)] at ht
            omega
          · exact hge
        · rcases Nat.lt_or_ge fs.winsect fs.fatbase with hlt | hge
          · omega
          · rw [show fs.winsect + 4294967296 - fs.fatbase = (fs.winsect - fs.fatbase) + 4294967296 by omega, Nat.add_mod_right, Nat.mod_eq_of_lt (by omega)] at ht
            omega
      obtain ⟨i0, hi0⟩ : ∃ i0, fs.winsect = fs.fatbase + i0 := ⟨fs.winsect - fs.fatbase, by unfold Fs.InTable at hin; omega⟩
      have hi1 : i0 < fs.fsize := by unfold Fs.InTable at hin; omega
      obtain ⟨m, hm⟩ : ∃ m, fs.nFats = m + 1 := ⟨fs.nFats - 1, by have := hl.fats; omega⟩
      have hm' : fs.nFats * fs.fsize = m * fs.fsize + fs.fsize := by rw [hm, Nat.succ_mul]
      obtain ⟨D, T, e1, e2, e3⟩ := mirror_quiet hq (fs.nFats - 1)
        { fs with wflag := false, disk := set fs.disk fs.winsect fs.win, t := fs.t + 1 } fs.winsect (by
          dsimp only
          rw [hm, Nat.add_sub_cancel]
          omega)
      dsimp only at e2 e3
      have far : ∀ k, 1 ≤ k → k ≤ fs.nFats - 1 → fs.InCopies (fs.winsect + k * fs.fsize) := by
        intro k k1 k2
        have a1 : 1 * fs.fsize ≤ k * fs.fsize := Nat.mul_le_mul_right _ k1
        have a2 : k * fs.fsize ≤ m * fs.fsize := Nat.mul_le_mul_right _ (by omega)
        unfold Fs.InCopies
        omega
      refine ⟨D, T, by rw [e1], ?_, fun s hs hne => ?_, fun hc i hi k hk => ?_⟩
      · rw [e2 fs.winsect (fun k k1 k2 he => haway (by rw [he]; exact far k k1 k2)), set_same]
      · rw [e2 s (fun k k1 k2 he => hs (he ▸ far k k1 k2)), set_other _ _ hne]
      · by_cases hii : i = i0
        · subst hii
          rw [← hi0]
          have d0 : D fs.winsect = fs.win := by rw [e2 fs.winsect (fun k k1 k2 he => haway (by rw [he]; exact far k k1 k2)), set_same]
          rw [d0]
          rcases Nat.eq_zero_or_pos k with h0 | h0
          · rw [h0, Nat.zero_mul, Nat.add_zero, d0]
          · exact e3 k h0 (by omega)
        · have away : ∀ j, ∀ k', 1 ≤ k' → k' ≤ fs.nFats - 1 → fs.fatbase + i + j * fs.fsize ≠ fs.winsect + k' * fs.fsize := by
            intro j k' _ _ he
            rw [hi0] at he
            have he' : i + fs.fsize * j = i0 + fs.fsize * k' := by rw [Nat.mul_comm fs.fsize j, Nat.mul_comm fs.fsize k']; omega
            have := congrArg (· % fs.fsize) he'
            simp only [Nat.add_mul_mod_self_left] at this
            rw [Nat.mod_eq_of_lt hi, Nat.mod_eq_of_lt hi1] at this
            exact hii this
          have away0 : ∀ k', 1 ≤ k' → k' ≤ fs.nFats - 1 → fs.fatbase + i ≠ fs.winsect + k' * fs.fsize := by
            intro k' a b
            have := away 0 k' a b
            rwa [Nat.zero_mul, Nat.add_zero] at this
          rw [e2 _ (away k), e2 _ away0]
          have hne0 : fs.fatbase + i ≠ fs.winsect := by omega
          have hnek : fs.fatbase + i + k * fs.fsize ≠ fs.winsect := by
            rcases Nat.eq_zero_or_pos k with h0 | h0
            · rw [h0, Nat.zero_mul]; omega
            · have : 1 * fs.fsize ≤ k * fs.fsize := Nat.mul_le_mul_right _ h0
              omega
          rw [set_other _ _ hne0, set_other _ _ hnek]
          exact hc i hi (fun _ e => hne0 e.symm) k hk
    · rw [if_neg ht]
      refine ⟨_, _, rfl, set_same _ _ _, fun s _ hne => set_other _ _ hne, fun hc i hi k hk => ?_⟩
      have hout : ¬ fs.InTable fs.winsect := by
        intro hin
        apply ht
        unfold Fs.InTable at hin
        unfold sub32 u32
        rw [show fs.winsect + 4294967296 - fs.fatbase = (fs.winsect - fs.fatbase) + 4294967296 by omega, Nat.add_mod_right, Nat.mod_eq_of_lt (by omega)]
        omega
      unfold Fs.InTable at hout
      unfold Fs.InCopies at haway
      have a2 : k * fs.fsize + fs.fsize ≤ fs.nFats * fs.fsize := by
        rw [← Nat.succ_mul]
        exact Nat.mul_le_mul_right _ hk
      have hne0 : fs.fatbase + i ≠ fs.winsect := by omega
      have hnek : fs.fatbase + i + k * fs.fsize ≠ fs.winsect := by omega
      show set fs.disk fs.winsect fs.win (fs.fatbase + i + k * fs.fsize) = set fs.disk fs.winsect fs.win (fs.fatbase + i)
      rw [set_other _ _ hne0, set_other _ _ hnek]
      exact hc i hi (fun _ e => hne0 e.symm) k hk

/-- What an operation does: the volume is the same, the table is `T` afterwards, nothing is seen to change outside of it, and the copies follow. -/
structure Eff (fs fs' : Fs) (T : Nat → BitVec 8) : Prop where
  same : Same fs fs'
  ok : fs'.Ok
  copies : fs.Copies → fs'.Copies
  outside : ∀ s, ¬ fs.InCopies s → ¬ fs.InTable s → fs'.look s = fs.look s
  table : ∀ i, i < 512 * fs.fsize → fs'.tab i = T i

theorem Fs.move_quiet {env : Env} (hq : Quiet env) (fs : Fs) (h : fs.Ok) (s : Nat) (hs : s < 4294967296) (hc : ¬ fs.InCopies s) :
    (fs.move env s).2 = true ∧ (fs.move env s).1.winsect = s ∧ Eff fs (fs.move env s).1 fs.tab := by
  unfold Fs.move
  by_cases he : s = fs.winsect
  · rw [if_neg (by simp [he])]
    exact ⟨rfl, he.symm, Same.rfl, h, id, fun _ _ _ => rfl, fun _ _ => rfl⟩
  · rw [if_pos he]
    obtain ⟨D, T, e, d1, d2, d3⟩ := fs.sync_quiet hq h
    rw [e]
    dsimp only
    rw [if_pos rfl, Fs.read_quiet hq]
    dsimp only
    rw [if_pos rfl]
    have look : ∀ s', ¬ fs.InCopies s' → (if s' = s then D s else D s') = fs.look s' := by
      intro s' hs'
      unfold Fs.look
      by_cases h1 : s' = s
      · rw [if_pos h1, h1, if_neg he, d2 s hc he]
      · rw [if_neg h1]
        by_cases h2 : s' = fs.winsect
        · rw [if_pos h2, h2, d1]
        · rw [if_neg h2, d2 s' hs' h2]
    refine ⟨rfl, rfl, ⟨rfl, rfl, rfl, rfl, rfl, rfl, rfl, rfl, rfl, rfl⟩, ⟨?_, fun _ => rfl, hc, hs⟩, ?_, fun s' hs' _ => look s' hs', fun i hi => ?_⟩
    · exact Same.layout (a := fs) ⟨rfl, rfl, rfl, rfl, rfl, rfl, rfl, rfl, rfl, rfl⟩ h.layout
    · intro hcop i hi _ k hk
      exact d3 hcop i hi k hk
    · unfold Fs.tab
      refine congrFun (look (fs.fatbase + i / 512) ?_) (i % 512)
      unfold Fs.InCopies
      omega

theorem Eff.trans {a b c : Fs} {T T' : Nat → BitVec 8} (h : Eff a b T) (g : Eff b c T') : Eff a c T' := by
  refine ⟨h.same.trans g.same, g.ok, fun k => g.copies (h.copies k), fun s h1 h2 => ?_, fun i hi => g.table i (by rw [h.same.fsize]; exact hi)⟩
  rw [g.outside s (by rw [h.same.inCopies]; exact h1) (by rw [h.same.inTable]; exact h2), h.outside s h1 h2]

/-- A change of the table may be told for its own bytes only. -/
theorem Eff.congr {a b : Fs} {T T' : Nat → BitVec 8} (h : Eff a b T) (e : ∀ i, i < 512 * a.fsize → T i = T' i) : Eff a b T' :=
  ⟨h.same, h.ok, h.copies, h.outside, fun i hi => (h.table i hi).trans (e i hi)⟩

/-- A byte of the window is changed. -/
def Fs.poke (fs : Fs) (j : Nat) (v : BitVec 8) : Fs := { fs with win := set fs.win (j % 512) v, wflag := true }

theorem Fs.poke_eff (fs : Fs) (h : fs.Ok) (j : Nat) (v : BitVec 8) (hj : j < 512 * fs.fsize) (hw : fs.winsect = fs.fatbase + j / 512) :
    Eff fs (fs.poke j v) (set fs.tab j v) := by
  refine ⟨⟨rfl, rfl, rfl, rfl, rfl, rfl, rfl, rfl, rfl, rfl⟩, ⟨?_, fun e => by simp [Fs.poke] at e, h.away, h.small⟩, ?_, fun s _ h2 => ?_, fun i hi => ?_⟩
  · exact Same.layout (a := fs) ⟨rfl, rfl, rfl, rfl, rfl, rfl, rfl, rfl, rfl, rfl⟩ h.layout
  · intro hc i hi hne k hk
    exact hc i hi (fun _ => hne rfl) k hk
  · unfold Fs.look Fs.poke
    dsimp only
    have : s ≠ fs.winsect := by
      intro e
      apply h2
      unfold Fs.InTable
      omega
    rw [if_neg this, if_neg this]
  · unfold Fs.tab Fs.look Fs.poke set
    dsimp only
    by_cases h1 : i = j
    · subst h1
      rw [if_pos hw.symm]
      simp
    · rw [if_neg h1]
      by_cases h2 : fs.fatbase + i / 512 = fs.winsect
      · rw [if_pos h2, if_pos h2]
        rw [if_neg (by omega)]
      · rw [if_neg h2, if_neg h2]

/-! ## Bits -/

theorem or_shift (a b i : Nat) (h : b < 2 ^ i) : a <<< i ||| b = a * 2 ^ i + b := by
  rw [← Nat.shiftLeft_add_eq_or_of_lt h, Nat.shiftLeft_eq]

theorem ldWord_eq (w : Sector) (i : Nat) : ldWord w i = (w i).toNat + 256 * (w (i + 1)).toNat := by
  unfold ldWord
  rw [or_shift _ _ 8 (w i).isLt]
  omega

theorem ldDword_eq (w : Sector) (i : Nat) :
    ldDword w i = (w i).toNat + 256 * (w (i + 1)).toNat + 65536 * (w (i + 2)).toNat + 16777216 * (w (i + 3)).toNat := by
  unfold ldDword
  have h0 := (w i).isLt
  have h1 := (w (i + 1)).isLt
  have h2 := (w (i + 2)).isLt
  have h3 := (w (i + 3)).isLt
  rw [Nat.or_assoc, Nat.or_assoc, or_shift _ _ 8 h0, or_shift _ _ 16 (by omega), or_shift _ _ 24 (by omega)]
  omega

theorem and_1 (x : Nat) : x &&& 1 = x % 2 := Nat.and_two_pow_sub_one_eq_mod x 1
theorem and_F (x : Nat) : x &&& 0x0F = x % 16 := Nat.and_two_pow_sub_one_eq_mod x 4
theorem and_FFF (x : Nat) : x &&& 0xFFF = x % 4096 := Nat.and_two_pow_sub_one_eq_mod x 12
theorem and_28 (x : Nat) : x &&& 0x0FFFFFFF = x % 268435456 := Nat.and_two_pow_sub_one_eq_mod x 28

/-- The bits from `k` on of a number with `n` bits -/
theorem and_high (x k n : Nat) (hx : x < 2 ^ n) (hk : k ≤ n) : x &&& (2 ^ n - 2 ^ k) = x / 2 ^ k * 2 ^ k := by
  apply Nat.eq_of_testBit_eq
  intro i
  rw [Nat.testBit_and, show x / 2 ^ k * 2 ^ k = 2 ^ k * (x / 2 ^ k) from Nat.mul_comm _ _, Nat.testBit_two_pow_mul, Nat.testBit_div_two_pow]
  have e : 2 ^ n - 2 ^ k = 2 ^ k * (2 ^ (n - k) - 1) := by
    rw [Nat.mul_sub, ← Nat.pow_add, Nat.mul_one]
    congr 2
    omega
  rw [e, Nat.testBit_two_pow_mul, Nat.testBit_two_pow_sub_one]
  by_cases h1 : k ≤ i
  · rw [show i - k + k = i by omega]
    by_cases h2 : i < n
    · simp [h1, show i - k < n - k by omega]
    · have : x.testBit i = false := Nat.testBit_lt_two_pow (Nat.lt_of_lt_of_le hx (Nat.pow_le_pow_right (by decide) (by omega)))
      simp [this]
  · simp [h1]

theorem and_F0 (x : Nat) (h : x < 256) : x &&& 0xF0 = x / 16 * 16 := and_high x 4 8 h (by decide)
theorem and_top (x : Nat) (h : x < 4294967296) : x &&& 0xF0000000 = x / 268435456 * 268435456 := and_high x 28 32 h (by decide)

theorem byte_toNat (x : Nat) : (byte x).toNat = x % 256 := by
  unfold byte
  rw [BitVec.toNat_ofNat]

end Verif.Fat
