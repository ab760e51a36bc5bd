import Verif.Fat.Lemmas

/-!
# FatFs: lemmas on the entries of the table
-/

namespace Verif.Fat

open Spec (Ty)

/-- An entry of a table is read from the bytes of the table. -/
theorem entry_congr {ty : Ty} {T T' : Nat → BitVec 8} {n N c : Nat} (hb : Spec.bytes ty n ≤ N) (h : ∀ i, i < N → T i = T' i) (hc : c < n) :
    Spec.entry ty T c = Spec.entry ty T' c := by
  cases ty <;> unfold Spec.entry Spec.bytes at * <;> dsimp only at *
  · rw [h _ (by omega), h _ (by omega)]
  · rw [h _ (by omega), h _ (by omega)]
  · rw [h _ (by omega), h _ (by omega), h _ (by omega), h _ (by omega)]

theorem entry_lt (ty : Ty) (T : Nat → BitVec 8) (c : Nat) : Spec.entry ty T c < Spec.range ty := by
  cases ty <;> unfold Spec.entry Spec.range <;> dsimp only
  · exact Nat.mod_lt _ (by decide)
  · have h1 := (T (2 * c)).isLt
    have h2 := (T (2 * c + 1)).isLt
    omega
  · exact Nat.mod_lt _ (by decide)

theorem Fs.layout_fatend {fs : Fs} (l : fs.Layout) : fs.fatbase + fs.fsize ≤ fs.database ∧ fs.database < 4294967296 := by
  have h1 := l.area
  have h2 := l.data
  have h3 : 1 * fs.fsize ≤ fs.nFats * fs.fsize := Nat.mul_le_mul_right _ l.fats
  have h4 : 1 * (fs.nFatent - 2) ≤ fs.csize * (fs.nFatent - 2) := Nat.mul_le_mul_right _ l.clus
  have h5 := l.ents.1
  omega

/-- Moving the window to the sector of a byte of the table -/
theorem Fs.move_tab {env : Env} (hq : Quiet env) (fs : Fs) (h : fs.Ok) (i : Nat) (hi : i < 512 * fs.fsize) :
    (fs.move env (u32 (fs.fatbase + i / 512))).2 = true ∧ (fs.move env (u32 (fs.fatbase + i / 512))).1.winsect = fs.fatbase + i / 512 ∧
      Eff fs (fs.move env (u32 (fs.fatbase + i / 512))).1 fs.tab ∧
      ∀ j, j < 512 * fs.fsize → j / 512 = i / 512 → (fs.move env (u32 (fs.fatbase + i / 512))).1.win (j % 512) = fs.tab j := by
  have hl := Fs.layout_fatend h.layout
  rw [u32_of (by omega)]
  obtain ⟨a, b, c⟩ := fs.move_quiet hq h (fs.fatbase + i / 512) (by omega) (by unfold Fs.InCopies; omega)
  refine ⟨a, b, c, fun j hj hji => ?_⟩
  rw [← c.table j hj]
  unfold Fs.tab Fs.look
  rw [if_pos (by rw [c.same.fatbase, b, hji])]

/-- The bytes of the table after `put_fat` -/
def written (ty : Ty) (T : Nat → BitVec 8) (c val : Nat) : Nat → BitVec 8 :=
  match ty with
  | .fat12 =>
    let i := c + c / 2
    let T1 := set T i (byte (if c &&& 1 ≠ 0 then (T i).toNat &&& 0x0F ||| (byte val).toNat <<< 4 else val))
    set T1 (i + 1) (byte (if c &&& 1 ≠ 0 then val >>> 4 else (T (i + 1)).toNat &&& 0xF0 ||| (byte (val >>> 8)).toNat &&& 0x0F))
  | .fat16 => set (set T (2 * c) (byte val)) (2 * c + 1) (byte (val >>> 8))
  | .fat32 =>
    let v := val ||| (ldDword T (4 * c) &&& 0xF0000000)
    set (set (set (set T (4 * c) (byte v)) (4 * c + 1) (byte (v >>> 8))) (4 * c + 2) (byte (v >>> 16))) (4 * c + 3) (byte (v >>> 24))

theorem byte_8 (x : Nat) : byte ((x % 65536) >>> 8) = byte (x >>> 8) := by
  apply BitVec.eq_of_toNat_eq
  rw [byte_toNat, byte_toNat, Nat.shiftRight_eq_div_pow, Nat.shiftRight_eq_div_pow]
  omega

theorem byte_16 (x : Nat) : byte (u32 x >>> 16) = byte (x >>> 16) := by
  unfold u32
  apply BitVec.eq_of_toNat_eq
  rw [byte_toNat, byte_toNat, Nat.shiftRight_eq_div_pow, Nat.shiftRight_eq_div_pow]
  omega

theorem byte_24 (x : Nat) : byte (u32 x >>> 24) = byte (x >>> 24) := by
  unfold u32
  apply BitVec.eq_of_toNat_eq
  rw [byte_toNat, byte_toNat, Nat.shiftRight_eq_div_pow, Nat.shiftRight_eq_div_pow]
  omega

theorem set_congr {α : Type} {f g : Nat → α} {N i : Nat} {v w : α} (h : ∀ j, j < N → f j = g j) (hv : v = w) : ∀ j, j < N → set f i v j = set g i w j := by
  intro j hj
  unfold set
  rw [hv, h j hj]

theorem Fs.get_eff {env : Env} (hq : Quiet env) (fs : Fs) (h : fs.Ok) (c : Nat) (h2 : 2 ≤ c) (hc : c < fs.nFatent) :
    (fs.getFat env c).2 = Spec.entry fs.ty fs.tab c ∧ Eff fs (fs.getFat env c).1 fs.tab ∧ fs.InTable (fs.getFat env c).1.winsect := by
  have hl := Fs.layout_fatend h.layout
  have ht := h.layout.table
  unfold Fs.getFat
  rw [if_neg (by omega)]
  have he := h.layout.ents.2
  cases hty : fs.ty <;> rw [hty] at ht he <;> unfold Spec.bytes at ht <;> unfold Spec.range at he <;> dsimp only at ht he ⊢
  · rw [u32_of (x := c + c / 2) (by omega), u32_of (x := c + c / 2 + 1) (by omega)]
    obtain ⟨a1, a2, a3, a4⟩ := fs.move_tab hq h (c + c / 2) (by omega)
    rw [if_pos a1]
    have b := (fs.move env (u32 (fs.fatbase + (c + c / 2) / 512))).1.move_tab hq a3.ok (c + c / 2 + 1) (by rw [a3.same.fsize]; omega)
    rw [a3.same.fatbase] at b
    obtain ⟨b1, b2, b3, b4⟩ := b
    rw [if_pos b1]
    refine ⟨?_, (a3.trans b3).congr fun i hi => a3.table i hi, by unfold Fs.InTable; dsimp only; rw [b2]; omega⟩
    dsimp only
    rw [a4 _ (by omega) rfl, b4 _ (by rw [a3.same.fsize]; omega) rfl, a3.table _ (by omega), and_1, Nat.or_comm, or_shift _ _ 8 (fs.tab _).isLt, and_FFF, Nat.shiftRight_eq_div_pow]
    unfold Spec.entry
    dsimp only
    rw [show 3 * c / 2 = c + c / 2 by omega]
    have x1 := (fs.tab (c + c / 2)).isLt
    have x2 := (fs.tab (c + c / 2 + 1)).isLt
    by_cases hodd : c % 2 = 1
    · rw [if_pos (by omega), if_pos hodd]
      omega
    · rw [if_neg (by omega), if_neg hodd]
      omega
  · rw [show c / 256 = (2 * c) / 512 by omega, show u32 (c * 2) = 2 * c by rw [u32_of (by omega)]; omega]
    obtain ⟨a1, a2, a3, a4⟩ := fs.move_tab hq h (2 * c) (by omega)
    rw [if_pos a1]
    refine ⟨?_, a3, by unfold Fs.InTable; dsimp only; rw [a2]; omega⟩
    dsimp only
    rw [ldWord_eq, show 2 * c % 512 + 1 = (2 * c + 1) % 512 by omega, a4 (2 * c) (by omega) rfl, a4 (2 * c + 1) (by omega) (by omega)]
    rfl
  · rw [show c / 128 = (4 * c) / 512 by omega, show u32 (c * 4) = 4 * c by rw [u32_of (by omega)]; omega]
    obtain ⟨a1, a2, a3, a4⟩ := fs.move_tab hq h (4 * c) (by omega)
    rw [if_pos a1]
    refine ⟨?_, a3, by unfold Fs.InTable; dsimp only; rw [a2]; omega⟩
    dsimp only
    rw [ldDword_eq, show 4 * c % 512 + 1 = (4 * c + 1) % 512 by omega, show 4 * c % 512 + 2 = (4 * c + 2) % 512 by omega, show 4 * c % 512 + 3 = (4 * c + 3) % 512 by omega,
      a4 (4 * c) (by omega) rfl, a4 (4 * c + 1) (by omega) (by omega), a4 (4 * c + 2) (by omega) (by omega), a4 (4 * c + 3) (by omega) (by omega), and_28]
    rfl

theorem Fs.put_eff {env : Env} (hq : Quiet env) (fs : Fs) (h : fs.Ok) (c val : Nat) (h2 : 2 ≤ c) (hc : c < fs.nFatent) :
    (fs.putFat env c val).2 = .ok ∧ Eff fs (fs.putFat env c val).1 (written fs.ty fs.tab c val) ∧ fs.InTable (fs.putFat env c val).1.winsect := by
  have hl := Fs.layout_fatend h.layout
  have ht := h.layout.table
  unfold Fs.putFat
  rw [if_neg (by omega)]
  have he := h.layout.ents.2
  cases hty : fs.ty <;> rw [hty] at ht he <;> unfold Spec.bytes at ht <;> unfold Spec.range at he <;> dsimp only at ht he ⊢
  · rw [u32_of (x := c + c / 2) (by omega), u32_of (x := c + c / 2 + 1) (by omega)]
    obtain ⟨a1, a2, a3, a4⟩ := fs.move_tab hq h (c + c / 2) (by omega)
    rw [if_pos a1, a4 _ (by omega) rfl]
    generalize hr : (fs.move env (u32 (fs.fatbase + (c + c / 2) / 512))).1 = r at *
    generalize hv : byte (if c &&& 1 ≠ 0 then (fs.tab (c + c / 2)).toNat &&& 0x0F ||| (byte val).toNat <<< 4 else val) = v
    have p := r.poke_eff a3.ok (c + c / 2) v (by rw [a3.same.fsize]; omega) (by rw [a2, a3.same.fatbase])
    change (if ((r.poke (c + c / 2) v).move env (u32 (fs.fatbase + (c + c / 2 + 1) / 512))).2 = true then
        (((r.poke (c + c / 2) v).move env (u32 (fs.fatbase + (c + c / 2 + 1) / 512))).1.poke (c + c / 2 + 1)
          (byte (if c &&& 1 ≠ 0 then val >>> 4 else (((r.poke (c + c / 2) v).move env (u32 (fs.fatbase + (c + c / 2 + 1) / 512))).1.win ((c + c / 2 + 1) % 512)).toNat &&& 0xF0 ||| (byte (val >>> 8)).toNat &&& 0x0F)), Fr.ok) else _ : Fs × Fr).2 = _ ∧ 
      Eff _ (if ((r.poke (c + c / 2) v).move env (u32 (fs.fatbase + (c + c / 2 + 1) / 512))).2 = true then
        (((r.poke (c + c / 2) v).move env (u32 (fs.fatbase + (c + c / 2 + 1) / 512))).1.poke (c + c / 2 + 1)
          (byte (if c &&& 1 ≠ 0 then val >>> 4 else (((r.poke (c + c / 2) v).move env (u32 (fs.fatbase + (c + c / 2 + 1) / 512))).1.win ((c + c / 2 + 1) % 512)).toNat &&& 0xF0 ||| (byte (val >>> 8)).toNat &&& 0x0F)), Fr.ok) else _ : Fs × Fr).1 _ ∧ fs.InTable (if ((r.poke (c + c / 2) v).move env (u32 (fs.fatbase + (c + c / 2 + 1) / 512))).2 = true then
        (((r.poke (c + c / 2) v).move env (u32 (fs.fatbase + (c + c / 2 + 1) / 512))).1.poke (c + c / 2 + 1)
          (byte (if c &&& 1 ≠ 0 then val >>> 4 else (((r.poke (c + c / 2) v).move env (u32 (fs.fatbase + (c + c / 2 + 1) / 512))).1.win ((c + c / 2 + 1) % 512)).toNat &&& 0xF0 ||| (byte (val >>> 8)).toNat &&& 0x0F)), Fr.ok) else _ : Fs × Fr).1.winsect
    have ap := a3.trans p
    have b := (r.poke (c + c / 2) v).move_tab hq p.ok (c + c / 2 + 1) (by rw [ap.same.fsize]; omega)
    rw [ap.same.fatbase] at b
    obtain ⟨b1, b2, b3, b4⟩ := b
    rw [if_pos b1]
    refine ⟨rfl, ?_, by unfold Fs.InTable; show _ ≤ (Fs.move _ _ _).1.winsect ∧ (Fs.move _ _ _).1.winsect < _; rw [b2]; omega⟩
    dsimp only
    rw [b4 _ (by rw [ap.same.fsize]; omega) rfl, ap.table _ (by omega), set_other _ _ (by omega), a3.table _ (by omega)]
    have q := ((r.poke (c + c / 2) v).move env (u32 (fs.fatbase + (c + c / 2 + 1) / 512))).1.poke_eff b3.ok (c + c / 2 + 1)
      (byte (if c &&& 1 ≠ 0 then val >>> 4 else (fs.tab (c + c / 2 + 1)).toNat &&& 0xF0 ||| (byte (val >>> 8)).toNat &&& 0x0F))
      (by rw [b3.same.fsize, ap.same.fsize]; omega) (by rw [b2, b3.same.fatbase, ap.same.fatbase])
    have abp := ap.trans b3
    refine ((abp).trans q).congr ?_
    unfold written
    dsimp only
    rw [hv]
    refine set_congr (fun j hj => ?_) rfl
    rw [abp.table j hj, ap.table j hj]
    exact set_congr (fun j hj => a3.table j hj) rfl j hj
  · rw [show c / 256 = (2 * c) / 512 by omega, show u32 (c * 2) = 2 * c by rw [u32_of (by omega)]; omega]
    obtain ⟨a1, a2, a3, a4⟩ := fs.move_tab hq h (2 * c) (by omega)
    rw [if_pos a1]
    generalize hr : (fs.move env (u32 (fs.fatbase + 2 * c / 512))).1 = r at *
    refine ⟨rfl, ?_, by unfold Fs.InTable; dsimp only; rw [a2]; omega⟩
    dsimp only
    have p := r.poke_eff a3.ok (2 * c) (byte val) (by rw [a3.same.fsize]; omega) (by rw [a2, a3.same.fatbase])
    have p' := (r.poke (2 * c) (byte val)).poke_eff p.ok (2 * c + 1) (byte (val >>> 8)) (by rw [p.same.fsize, a3.same.fsize]; omega)
      (by show r.winsect = _; rw [a2, p.same.fatbase, a3.same.fatbase]; omega)
    have e : ({ r with win := stWord r.win (2 * c % 512) val, wflag := true } : Fs) = (r.poke (2 * c) (byte val)).poke (2 * c + 1) (byte (val >>> 8)) := by
      unfold Fs.poke stWord
      dsimp only
      rw [show (2 * c + 1) % 512 = 2 * c % 512 + 1 by omega, byte_8]
    rw [e]
    refine ((a3.trans p).trans p').congr ?_
    refine set_congr (fun j hj => ?_) rfl
    rw [(a3.trans p).table j hj]
    exact set_congr (fun j hj => a3.table j hj) rfl j hj
  · rw [show c / 128 = (4 * c) / 512 by omega, show u32 (c * 4) = 4 * c by rw [u32_of (by omega)]; omega]
    obtain ⟨a1, a2, a3, a4⟩ := fs.move_tab hq h (4 * c) (by omega)
    rw [if_pos a1]
    have ld : ldDword (fs.move env (u32 (fs.fatbase + 4 * c / 512))).1.win (4 * c % 512) = ldDword fs.tab (4 * c) := by
      rw [ldDword_eq, ldDword_eq, show 4 * c % 512 + 1 = (4 * c + 1) % 512 by omega, show 4 * c % 512 + 2 = (4 * c + 2) % 512 by omega, show 4 * c % 512 + 3 = (4 * c + 3) % 512 by omega,
        a4 (4 * c) (by omega) rfl, a4 (4 * c + 1) (by omega) (by omega), a4 (4 * c + 2) (by omega) (by omega), a4 (4 * c + 3) (by omega) (by omega)]
    rw [ld]
    unfold written
    dsimp only
    generalize hv : val ||| (ldDword fs.tab (4 * c) &&& 0xF0000000) = v
    generalize hr : (fs.move env (u32 (fs.fatbase + 4 * c / 512))).1 = r at *
    refine ⟨rfl, ?_, by unfold Fs.InTable; rw [a2]; omega⟩
    have p1 := r.poke_eff a3.ok (4 * c) (byte v) (by rw [a3.same.fsize]; omega) (by rw [a2, a3.same.fatbase])
    have q1 := a3.trans p1
    have p2 := (r.poke (4 * c) (byte v)).poke_eff p1.ok (4 * c + 1) (byte (v >>> 8)) (by rw [q1.same.fsize]; omega)
      (by show r.winsect = _; rw [a2, q1.same.fatbase]; omega)
    have q2 := q1.trans p2
    have p3 := ((r.poke (4 * c) (byte v)).poke (4 * c + 1) (byte (v >>> 8))).poke_eff p2.ok (4 * c + 2) (byte (v >>> 16)) (by rw [q2.same.fsize]; omega)
      (by show r.winsect = _; rw [a2, q2.same.fatbase]; omega)
    have q3 := q2.trans p3
    have p4 := (((r.poke (4 * c) (byte v)).poke (4 * c + 1) (byte (v >>> 8))).poke (4 * c + 2) (byte (v >>> 16))).poke_eff p3.ok (4 * c + 3) (byte (v >>> 24))
      (by rw [q3.same.fsize]; omega) (by show r.winsect = _; rw [a2, q3.same.fatbase]; omega)
    have e : ({ r with win := stDword r.win (4 * c % 512) v, wflag := true } : Fs) =
        (((r.poke (4 * c) (byte v)).poke (4 * c + 1) (byte (v >>> 8))).poke (4 * c + 2) (byte (v >>> 16))).poke (4 * c + 3) (byte (v >>> 24)) := by
      unfold Fs.poke stDword
      dsimp only
      rw [show (4 * c + 1) % 512 = 4 * c % 512 + 1 by omega, show (4 * c + 2) % 512 = 4 * c % 512 + 2 by omega, show (4 * c + 3) % 512 = 4 * c % 512 + 3 by omega, byte_8, byte_16, byte_24]
    rw [e]
    refine (q3.trans p4).congr ?_
    refine set_congr (fun j hj => ?_) rfl
    rw [q3.table j hj]
    refine set_congr (fun j hj => ?_) rfl j hj
    rw [q2.table j hj]
    refine set_congr (fun j hj => ?_) rfl j hj
    rw [q1.table j hj]
    exact set_congr (fun j hj => a3.table j hj) rfl j hj

theorem or_top (x y : Nat) (hx : x < 268435456) (hy : y < 4294967296) : x ||| (y &&& 0xF0000000) = y / 268435456 * 268435456 + x := by
  rw [and_top y hy, Nat.or_comm, show y / 268435456 * 268435456 = (y / 268435456) <<< 28 by rw [Nat.shiftLeft_eq], or_shift _ _ 28 hx, Nat.shiftLeft_eq]

/-- The entry is the value, and the others are what they were. -/
theorem entry_written (ty : Ty) (T : Nat → BitVec 8) (c val c' : Nat) (hval : val < 268435456) :
    Spec.entry ty (written ty T c val) c' = if c' = c then val % Spec.range ty else Spec.entry ty T c' := by
  cases ty <;> unfold Spec.range <;> unfold Spec.entry written <;> dsimp only
  · have x1 := (T (c + c / 2)).isLt
    have x2 := (T (c + c / 2 + 1)).isLt
    rw [show 3 * c' / 2 = c' + c' / 2 by omega]
    simp only [and_1, and_F, Nat.shiftRight_eq_div_pow]
    rw [and_F0 _ x2]
    have o1 : (T (c + c / 2)).toNat % 16 ||| (byte val).toNat <<< 4 = (byte val).toNat * 16 + (T (c + c / 2)).toNat % 16 := by
      rw [Nat.or_comm, or_shift _ _ 4 (Nat.mod_lt _ (by decide))]
    have o2 : (T (c + c / 2 + 1)).toNat / 16 * 16 ||| (byte (val / 2 ^ 8)).toNat % 16 = (T (c + c / 2 + 1)).toNat / 16 * 16 + (byte (val / 2 ^ 8)).toNat % 16 := by
      rw [show (T (c + c / 2 + 1)).toNat / 16 * 16 = ((T (c + c / 2 + 1)).toNat / 16) <<< 4 by rw [Nat.shiftLeft_eq], or_shift _ _ 4 (Nat.mod_lt _ (by decide)), Nat.shiftLeft_eq]
    rw [o1, o2]
    by_cases hcc : c' = c
    · subst hcc
      rw [if_pos rfl, set_same, set_other _ _ (by omega), set_same, byte_toNat, byte_toNat]
      by_cases hodd : c' % 2 = 1
      · rw [if_pos (by omega), if_pos (by omega), if_pos hodd, byte_toNat]
        omega
      · rw [if_neg (by omega), if_neg (by omega), if_neg hodd, byte_toNat]
        rw [Nat.div_one, byte_toNat]
        omega
    · rw [if_neg hcc]
      by_cases hodd : c % 2 = 1
      · rw [if_pos (by omega), if_pos (by omega)]
        by_cases hp : c' + 1 = c
        · rw [if_neg (by omega)]
          have e1 : c' + c' / 2 + 1 = c + c / 2 := by omega
          rw [e1, set_other _ _ (by omega), set_other _ _ (by omega), set_other _ _ (by omega), set_same, byte_toNat, byte_toNat]
          omega
        · rw [set_other _ _ (by omega), set_other _ _ (by omega), set_other _ _ (by omega), set_other _ _ (by omega)]
      · rw [if_neg (by omega), if_neg (by omega)]
        by_cases hp : c' = c + 1
        · rw [if_pos (by omega)]
          have e1 : c' + c' / 2 = c + c / 2 + 1 := by omega
          rw [e1, set_same, set_other _ _ (by omega), set_other _ _ (by omega), byte_toNat, byte_toNat]
          have x3 := (T (c + c / 2 + 1 + 1)).isLt
          omega
        · rw [set_other _ _ (by omega), set_other _ _ (by omega), set_other _ _ (by omega), set_other _ _ (by omega)]
  · by_cases hcc : c' = c
    · subst hcc
      rw [if_pos rfl, set_same, set_other _ _ (by omega), set_same, byte_toNat, byte_toNat, Nat.shiftRight_eq_div_pow]
      omega
    · rw [if_neg hcc]
      repeat rw [set_other _ _ (by omega)]
  · have hld : ldDword T (4 * c) < 4294967296 := by
      rw [ldDword_eq]
      have h0 := (T (4 * c)).isLt
      have h1 := (T (4 * c + 1)).isLt
      have h2 := (T (4 * c + 2)).isLt
      have h3 := (T (4 * c + 3)).isLt
      omega
    rw [or_top _ _ hval hld]
    simp only [Nat.shiftRight_eq_div_pow]
    by_cases hcc : c' = c
    · subst hcc
      simp only [set, if_true, Nat.add_right_cancel_iff, Nat.add_left_cancel_iff, byte_toNat, reduceIte]
      simp [byte_toNat]
      generalize ldDword T (4 * c') / 268435456 = k
      omega
    · rw [if_neg hcc]
      repeat rw [set_other _ _ (by omega)]

end Verif.Fat
