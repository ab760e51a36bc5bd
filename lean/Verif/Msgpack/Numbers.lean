import Verif.Msgpack.ReadLemmas

/-!
# Whole numbers in messages (C21, C22)

The sender may write a whole number in any of the forms of the MessagePack format, also where a parameter is a `float`.
-/

namespace Verif.Msgpack

open Verif.Param
open Verif.CmpMem (Mem)

/-- `Spec.Whole d n`: the bytes `d` are one of the forms of the whole number `n` (MessagePack specification, "int format
family"). -/
inductive Spec.Whole : List Nat → Int → Prop
  | posFix (n : Nat) : n < 128 → Whole [n] n
  | negFix (n : Nat) : 1 ≤ n → n ≤ 32 → Whole [256 - n] (-n)
  | u8 (n : Nat) : n < 2 ^ 8 → Whole (0xCC :: Spec.be 1 n) n
  | u16 (n : Nat) : n < 2 ^ 16 → Whole (0xCD :: Spec.be 2 n) n
  | u32 (n : Nat) : n < 2 ^ 32 → Whole (0xCE :: Spec.be 4 n) n
  | u64 (n : Nat) : n < 2 ^ 64 → Whole (0xCF :: Spec.be 8 n) n
  | s8 (n : Int) : -2 ^ 7 ≤ n → n < 2 ^ 7 → Whole (0xD0 :: Spec.be 1 (n % 2 ^ 8).toNat) n
  | s16 (n : Int) : -2 ^ 15 ≤ n → n < 2 ^ 15 → Whole (0xD1 :: Spec.be 2 (n % 2 ^ 16).toNat) n
  | s32 (n : Int) : -2 ^ 31 ≤ n → n < 2 ^ 31 → Whole (0xD2 :: Spec.be 4 (n % 2 ^ 32).toNat) n
  | s64 (n : Int) : -2 ^ 63 ≤ n → n < 2 ^ 63 → Whole (0xD3 :: Spec.be 8 (n % 2 ^ 64).toNat) n

theorem sext_mod {k : Nat} (hk : 0 < k) {n : Int} (h1 : -2 ^ (k - 1) ≤ n) (h2 : n < 2 ^ (k - 1)) :
    sext k (n % 2 ^ k).toNat = n := by
  obtain ⟨k, rfl⟩ : ∃ j, k = j + 1 := ⟨k - 1, by omega⟩
  simp only [Nat.add_sub_cancel] at h1 h2
  unfold sext
  have hp : (0 : Int) < 2 ^ k := Int.pow_pos (by decide)
  have hs : (2 : Int) ^ (k + 1) = 2 ^ k * 2 := Int.pow_succ ..
  have e : BitVec.ofNat (k + 1) (n % 2 ^ (k + 1)).toNat = BitVec.ofInt (k + 1) n := by
    apply BitVec.eq_of_toNat_eq
    rw [BitVec.toNat_ofNat, BitVec.toNat_ofInt]
    have hc : ((2 ^ (k + 1) : Nat) : Int) = 2 ^ (k + 1) := by norm_cast
    rw [hc]
    apply Nat.mod_eq_of_lt
    have := Int.emod_lt_of_pos n (b := 2 ^ (k + 1)) (by omega)
    have := Int.emod_nonneg n (b := 2 ^ (k + 1)) (by omega)
    have hc2 : ((2 ^ (k + 1) : Nat) : Int) = 2 ^ (k + 1) := by norm_cast
    omega
  rw [e, BitVec.toInt_ofInt]
  have hb : ((2 ^ (k + 1) : Nat) : Int) = 2 * 2 ^ k := by rw [show ((2 ^ (k + 1) : Nat) : Int) = 2 ^ (k + 1) by norm_cast, hs]; omega
  rw [Int.bmod_eq_of_le_mul_two] <;> rw [hb] <;> omega

/-- What the code makes of an object for a parameter that is a `float`, and for one that is an `int`. `short` tells that
the number was not written in one of the forms with 64 bits. -/
def Spec.Understood (en : Env) (o : Obj) (n : Int) (short : Bool) : Prop :=
  (asLong o = if n < 2 ^ 63 then some n else none) ∧
  (getFloat en o = if n < 2 ^ 63 then some (en.i2f n) else none) ∧
  (asInt o = if short = true ∧ -2 ^ 31 ≤ n ∧ n < 2 ^ 31 then some (BitVec.ofInt 32 n) else none)

theorem understood_of {en : Env} {o : Obj} {n : Int} {s : Bool} (h1 : asLong o = if n < 2 ^ 63 then some n else none)
    (hf : ∀ v, o ≠ .float v)
    (h2 : asInt o = if s = true ∧ -2 ^ 31 ≤ n ∧ n < 2 ^ 31 then some (BitVec.ofInt 32 n) else none) :
    Spec.Understood en o n s := by
  refine ⟨h1, ?_, h2⟩
  have : getFloat en o = (asLong o).map en.i2f := by
    cases o <;> first | rfl | exact absurd rfl (hf _)
  rw [this, h1]
  split <;> rfl

/-- C21, C22: a whole number in any form is read as that number: a `float` gets its conversion whenever it fits in 64 bits
with sign, an `int` exactly when it fits in 32 bits with sign and is not written with 64 bits. -/
theorem read_whole {W B : Nat} {en : Env} {m : Mem} {d e : List Nat} {n : Int} (hd : Spec.Whole d n) (h : At m (d ++ e))
    (hW : m.buf.length + B < W) (hB : 8 ≤ B) :
    ∃ o, readObject W m = .ok (some o, adv m d.length) ∧ At (adv m d.length) e ∧
      Spec.Understood en o n (decide (d.length ≤ 5)) := by
  have hs7 : ∀ v : Nat, v < 128 → sext 8 v = v := fun v hv => by
    have := sext_mod (k := 8) (by decide) (n := v) (by omega) (by omega)
    have e : ((v : Int) % 2 ^ 8).toNat = v := by omega
    rwa [e] at this
  cases hd with
  | posFix n hn =>
    have ht := readObject_tag h hW (by omega)
    refine ⟨.posFix n, ?_, At.adv (d := [n]) h, understood_of ?_ (by simp) ?_⟩
    · simp only [readObject, ht, bind, Except.bind, beNum_one]
      rw [if_pos (by omega)]; rfl
    · rw [if_pos (by omega)]
      show some (sext 8 n) = _
      rw [hs7 n hn]
    · rw [if_pos ⟨by simp, by omega, by omega⟩]
      show some (BitVec.ofInt 32 (sext 8 n)) = _
      rw [hs7 n hn]
  | negFix n h1 h2 =>
    have ht := readObject_tag h hW (by omega)
    have hv : sext 8 (256 - n) = -n := by
      have := sext_mod (k := 8) (by decide) (n := -n) (by omega) (by omega)
      have e : ((-n : Int) % 2 ^ 8).toNat = 256 - n := by omega
      rwa [e] at this
    refine ⟨.negFix (256 - n), ?_, At.adv (d := [256 - n]) h, understood_of ?_ (by simp) ?_⟩
    · simp only [readObject, ht, bind, Except.bind, beNum_one]
      repeat rw [if_neg (by omega)]
      rw [if_pos (by omega)]; rfl
    · rw [if_pos (by omega)]
      show some (sext 8 (256 - n)) = _
      rw [hv]
    · rw [if_pos ⟨by simp, by omega, by omega⟩]
      show some (BitVec.ofInt 32 (sext 8 (256 - n))) = _
      rw [hv]
  | u8 n hn =>
    obtain ⟨a, b⟩ := tag_num (k := 1) (mk := .u8) h hW (by omega) (by omega) (by omega) (fun ht => by
      simp only [readObject, ht, bind, Except.bind, beNum_one]; rfl)
    refine ⟨.u8 n, a, b, understood_of ?_ (by simp) ?_⟩
    · rw [if_pos (by omega)]; rfl
    · rw [if_pos ⟨by simp [be_length], by omega, by omega⟩]; show some (BitVec.ofNat 32 n) = _; rw [BitVec.ofInt_natCast]
  | u16 n hn =>
    obtain ⟨a, b⟩ := tag_num (k := 2) (mk := .u16) h hW (by omega) (by omega) (by omega) (fun ht => by
      simp only [readObject, ht, bind, Except.bind, beNum_one]; rfl)
    refine ⟨.u16 n, a, b, understood_of ?_ (by simp) ?_⟩
    · rw [if_pos (by omega)]; rfl
    · rw [if_pos ⟨by simp [be_length], by omega, by omega⟩]; show some (BitVec.ofNat 32 n) = _; rw [BitVec.ofInt_natCast]
  | u32 n hn =>
    obtain ⟨a, b⟩ := tag_num (k := 4) (mk := .u32) h hW (by omega) (by omega) (by omega) (fun ht => by
      simp only [readObject, ht, bind, Except.bind, beNum_one]; rfl)
    refine ⟨.u32 n, a, b, understood_of ?_ (by simp) ?_⟩
    · rw [if_pos (by omega)]; rfl
    · show (if n ≤ 2147483647 then some (BitVec.ofNat 32 n) else none) = _
      by_cases hc : n ≤ 2147483647
      · rw [if_pos hc, if_pos ⟨by simp [be_length], by omega, by omega⟩, BitVec.ofInt_natCast]
      · rw [if_neg hc, if_neg (by rintro ⟨_, _, h⟩; omega)]
  | u64 n hn =>
    obtain ⟨a, b⟩ := tag_num (k := 8) (mk := .u64) h hW (by omega) (by omega) (by omega) (fun ht => by
      simp only [readObject, ht, bind, Except.bind, beNum_one]; rfl)
    refine ⟨.u64 n, a, b, understood_of ?_ (by simp) ?_⟩
    · show (if n ≤ 9223372036854775807 then some (n : Int) else none) = _
      by_cases hc : n ≤ 9223372036854775807
      · rw [if_pos hc, if_pos (by omega)]
      · rw [if_neg hc, if_neg (by omega)]
    · rw [if_neg (by rintro ⟨h, _⟩; revert h; simp [be_length])]; rfl
  | s8 n h1 h2 =>
    obtain ⟨a, b⟩ := tag_num (k := 1) (mk := .s8) h hW (by omega) (by omega) (by omega) (fun ht => by
      simp only [readObject, ht, bind, Except.bind, beNum_one]; rfl)
    have hv := sext_mod (k := 8) (by decide) (n := n) h1 h2
    refine ⟨.s8 (n % 2 ^ 8).toNat, a, b, understood_of ?_ (by simp) ?_⟩
    · rw [if_pos (by omega)]; show some (sext 8 (n % 2 ^ 8).toNat) = _; rw [hv]
    · rw [if_pos ⟨by simp [be_length], by omega, by omega⟩]; show some (BitVec.ofInt 32 (sext 8 (n % 2 ^ 8).toNat)) = _; rw [hv]
  | s16 n h1 h2 =>
    obtain ⟨a, b⟩ := tag_num (k := 2) (mk := .s16) h hW (by omega) (by omega) (by omega) (fun ht => by
      simp only [readObject, ht, bind, Except.bind, beNum_one]; rfl)
    have hv := sext_mod (k := 16) (by decide) (n := n) h1 h2
    refine ⟨.s16 (n % 2 ^ 16).toNat, a, b, understood_of ?_ (by simp) ?_⟩
    · rw [if_pos (by omega)]; show some (sext 16 (n % 2 ^ 16).toNat) = _; rw [hv]
    · rw [if_pos ⟨by simp [be_length], by omega, by omega⟩]; show some (BitVec.ofInt 32 (sext 16 (n % 2 ^ 16).toNat)) = _; rw [hv]
  | s32 n h1 h2 =>
    obtain ⟨a, b⟩ := tag_num (k := 4) (mk := .s32) h hW (by omega) (by omega) (by omega) (fun ht => by
      simp only [readObject, ht, bind, Except.bind, beNum_one]; rfl)
    have hv := sext_mod (k := 32) (by decide) (n := n) h1 h2
    refine ⟨.s32 (n % 2 ^ 32).toNat, a, b, understood_of ?_ (by simp) ?_⟩
    · rw [if_pos (by omega)]; show some (sext 32 (n % 2 ^ 32).toNat) = _; rw [hv]
    · rw [if_pos ⟨by simp [be_length], h1, h2⟩]
      show some (BitVec.ofNat 32 (n % 2 ^ 32).toNat) = _
      congr 1
      apply BitVec.eq_of_toInt_eq
      unfold sext at hv
      rw [hv, BitVec.toInt_ofInt, Int.bmod_eq_of_le_mul_two] <;> omega
  | s64 n h1 h2 =>
    obtain ⟨a, b⟩ := tag_num (k := 8) (mk := .s64) h hW (by omega) (by omega) (by omega) (fun ht => by
      simp only [readObject, ht, bind, Except.bind, beNum_one]; rfl)
    have hv := sext_mod (k := 64) (by decide) (n := n) h1 h2
    refine ⟨.s64 (n % 2 ^ 64).toNat, a, b, understood_of ?_ (by simp) ?_⟩
    · rw [if_pos h2]; show some (sext 64 (n % 2 ^ 64).toNat) = _; rw [hv]
    · rw [if_neg (by rintro ⟨h, _⟩; revert h; simp [be_length])]; rfl

/-- A message of one number in each form. -/
example : Spec.Whole [0xD1, 0xFE, 0x0C] (-500) := by
  have := Spec.Whole.s16 (-500) (by decide) (by decide)
  simpa [Spec.be] using this

end Verif.Msgpack
