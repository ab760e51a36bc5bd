import Verif.Fat.Table

/-!
# FatFs: the file allocation table — properties

The table is kept on the disk in several copies; the program sees it through a window of one sector, shared with directories and changed lazily. C119: as long as the
operations of the disk succeed, the window is transparent. Entries are what `Spec.entry` says of the bytes of the table, a change of one entry is a change of that entry
only, also where two entries share a byte or an entry crosses two sectors, and after a synchronisation every copy of the table is the table.
-/

namespace Verif.Fat

open Spec (Ty)

/-! ## The specification: a table is a map from clusters to values -/

/-- What is asked of the table -/
inductive Op where
  | get (c : Nat)
  | put (c val : Nat)
  /-- Another sector is looked at: one of a directory. -/
  | visit (s : Nat)
  | sync
deriving DecidableEq, Repr

/-- The requests that are legal on a volume with `n` entries of values below `r` -/
def Op.Legal (r n lo : Nat) : Op → Prop
  | .get c => 2 ≤ c ∧ c < n
  | .put c val => 2 ≤ c ∧ c < n ∧ val < r
  | .visit s => lo ≤ s ∧ s < 4294967296
  | .sync => True

/-- The answers of a map, and the map afterwards -/
def ideal (tbl : Nat → Nat) : List Op → List Nat × (Nat → Nat)
  | [] => ([], tbl)
  | .get c :: l => (tbl c :: (ideal tbl l).1, (ideal tbl l).2)
  | .put c val :: l => ideal (fun c' => if c' = c then val else tbl c') l
  | .visit _ :: l => ideal tbl l
  | .sync :: l => ideal tbl l

/-- The same requests to the code: answers, whether every request succeeded, and the state -/
def run (env : Env) (fs : Fs) : List Op → List Nat × Bool × Fs
  | [] => ([], true, fs)
  | .get c :: l => let r := fs.getFat env c; let q := run env r.1 l; (r.2 :: q.1, q.2)
  | .put c val :: l => let r := fs.putFat env c val; let q := run env r.1 l; (q.1, (r.2 == .ok) && q.2.1, q.2.2)
  | .visit s :: l => let r := fs.move env s; let q := run env r.1 l; (q.1, r.2 && q.2.1, q.2.2)
  | .sync :: l => let r := fs.sync env; let q := run env r.1 l; (q.1, r.2 && q.2.1, q.2.2)

/-- Entry `c` of the table, as the file system sees it -/
def Fs.entryAt (fs : Fs) (c : Nat) : Nat := Spec.entry fs.ty fs.tab c

/-- Entry `c` of the table number `k` on the disk -/
def Fs.diskEntry (fs : Fs) (k c : Nat) : Nat := Spec.entry fs.ty (fun i => fs.disk (fs.fatbase + k * fs.fsize + i / 512) (i % 512)) c

theorem range_le (ty : Ty) : Spec.range ty ≤ 268435456 := by cases ty <;> decide

theorem Eff.entry {a b : Fs} {T : Nat → BitVec 8} (h : Eff a b T) (l : a.Layout) {c : Nat} (hc : c < a.nFatent) : b.entryAt c = Spec.entry a.ty T c := by
  unfold Fs.entryAt
  rw [h.same.ty]
  exact entry_congr l.table h.table hc

/-! ## Theorems -/

/-- `get_fat` returns the entry and changes nothing: neither the table nor any other sector, as the file system sees them. -/
theorem get_fat_entry {env : Env} (hq : Quiet env) (fs : Fs) (h : fs.Ok) (c : Nat) (h2 : 2 ≤ c) (hc : c < fs.nFatent) :
    (fs.getFat env c).2 = fs.entryAt c ∧ (fs.getFat env c).1.Ok ∧ Same fs (fs.getFat env c).1 ∧
      (∀ c', c' < fs.nFatent → (fs.getFat env c).1.entryAt c' = fs.entryAt c') ∧
      ∀ s, ¬ fs.InCopies s → ¬ fs.InTable s → (fs.getFat env c).1.look s = fs.look s := by
  obtain ⟨e, f, _⟩ := fs.get_eff hq h c h2 hc
  exact ⟨e, f.ok, f.same, fun c' hc' => f.entry h.layout hc', f.outside⟩

/-- `put_fat` changes the entry, no other entry and no other sector. Of a value that is too large for the entry, such as the mark 0x0FFFFFFF of the last cluster of a
chain, the low bits remain. -/
theorem put_fat_entry {env : Env} (hq : Quiet env) (fs : Fs) (h : fs.Ok) (c val : Nat) (h2 : 2 ≤ c) (hc : c < fs.nFatent) (hv : val < 268435456) :
    (fs.putFat env c val).2 = .ok ∧ (fs.putFat env c val).1.Ok ∧ Same fs (fs.putFat env c val).1 ∧
      (∀ c', c' < fs.nFatent → (fs.putFat env c val).1.entryAt c' = if c' = c then val % Spec.range fs.ty else fs.entryAt c') ∧
      ∀ s, ¬ fs.InCopies s → ¬ fs.InTable s → (fs.putFat env c val).1.look s = fs.look s := by
  obtain ⟨e, f, _⟩ := fs.put_eff hq h c val h2 hc
  refine ⟨e, f.ok, f.same, fun c' hc' => ?_, f.outside⟩
  rw [f.entry h.layout hc', entry_written _ _ _ _ _ hv]
  rfl

/-- The four bits of an entry of 32 bits that are reserved stay as they are. -/
theorem put_fat_reserved {env : Env} (hq : Quiet env) (fs : Fs) (h : fs.Ok) (ht : fs.ty = .fat32) (c val : Nat) (h2 : 2 ≤ c) (hc : c < fs.nFatent)
    (hv : val < 268435456) : ((fs.putFat env c val).1.tab (4 * c + 3)).toNat / 16 = (fs.tab (4 * c + 3)).toNat / 16 := by
  obtain ⟨_, f, _⟩ := fs.put_eff hq h c val h2 hc
  have hl := h.layout.table
  rw [ht] at hl
  unfold Spec.bytes at hl
  dsimp only at hl
  rw [f.table _ (by omega), ht]
  unfold written
  dsimp only
  rw [set_same, byte_toNat, Nat.shiftRight_eq_div_pow]
  have h0 := (fs.tab (4 * c)).isLt
  have h1 := (fs.tab (4 * c + 1)).isLt
  have h2 := (fs.tab (4 * c + 2)).isLt
  have h3 := (fs.tab (4 * c + 3)).isLt
  rw [or_top _ _ hv (by rw [ldDword_eq]; omega), ldDword_eq]
  omega

/-- Clusters that the volume does not have are refused, without any operation of the disk: `get_fat` answers 1, `put_fat` fails. -/
theorem refused (env : Env) (fs : Fs) (c val : Nat) (h : c < 2 ∨ fs.nFatent ≤ c) :
    fs.getFat env c = (fs, 1) ∧ fs.putFat env c val = (fs, .intErr) := by
  unfold Fs.getFat Fs.putFat
  rw [if_pos (by omega), if_pos (by omega)]
  exact ⟨rfl, rfl⟩

theorem sync_eff {env : Env} (hq : Quiet env) (fs : Fs) (h : fs.Ok) :
    (fs.sync env).2 = true ∧ Eff fs (fs.sync env).1 fs.tab ∧ (fs.sync env).1.wflag = false := by
  obtain ⟨D, T, e, d1, d2, d3⟩ := fs.sync_quiet hq h
  rw [e]
  have look : ∀ s', ¬ fs.InCopies s' → (if s' = fs.winsect then fs.win else D s') = fs.look s' := by
    intro s' hs'
    unfold Fs.look
    by_cases h2 : s' = fs.winsect
    · rw [if_pos h2, if_pos h2]
    · rw [if_neg h2, if_neg h2, d2 s' hs' h2]
  refine ⟨rfl, ⟨⟨rfl, rfl, rfl, rfl, rfl, rfl, rfl, rfl, rfl, rfl⟩, ⟨?_, fun _ => d1.symm, h.away, h.small⟩, fun hc i hi _ k hk => d3 hc i hi k hk,
    fun s' hs' _ => look s' hs', fun i hi => ?_⟩, rfl⟩
  · exact Same.layout (a := fs) ⟨rfl, rfl, rfl, rfl, rfl, rfl, rfl, rfl, rfl, rfl⟩ h.layout
  · unfold Fs.tab
    refine congrFun (look (fs.fatbase + i / 512) ?_) (i % 512)
    unfold Fs.InCopies
    omega

theorem ideal_congr {n r lo : Nat} (l : List Op) (hl : ∀ o ∈ l, o.Legal r n lo) (f g : Nat → Nat) (h : ∀ c, c < n → f c = g c) :
    (ideal f l).1 = (ideal g l).1 ∧ ∀ c, c < n → (ideal f l).2 c = (ideal g l).2 c := by
  induction l generalizing f g with
  | nil => exact ⟨rfl, h⟩
  | cons o l ih =>
    have hl' := fun o' ho' => hl o' (List.mem_cons_of_mem _ ho')
    cases o with
    | get c =>
      have := ih hl' f g h
      have hc := hl _ (List.mem_cons_self ..)
      exact ⟨by simp only [ideal]; rw [h c hc.2, this.1], this.2⟩
    | put c val =>
      refine ih hl' _ _ fun c' hc' => ?_
      by_cases e : c' = c
      · simp [e]
      · simp [e, h c' hc']
    | visit s => exact ih hl' f g h
    | sync => exact ih hl' f g h

/-- Any legal requests, in any order: the code answers like a map from clusters to values, every request succeeds, the entries at the end are those of the map,
what is outside of the tables is not seen to change, and the copies are kept. -/
theorem table_is_map {env : Env} (hq : Quiet env) (fs : Fs) (h : fs.Ok) (l : List Op) (hl : ∀ o ∈ l, o.Legal (Spec.range fs.ty) fs.nFatent fs.database) :
    (run env fs l).1 = (ideal fs.entryAt l).1 ∧ (run env fs l).2.1 = true ∧ (∀ c, c < fs.nFatent → (run env fs l).2.2.entryAt c = (ideal fs.entryAt l).2 c) ∧
      (∀ s, ¬ fs.InCopies s → ¬ fs.InTable s → (run env fs l).2.2.look s = fs.look s) ∧ Same fs (run env fs l).2.2 ∧ (run env fs l).2.2.Ok ∧
      (fs.Copies → (run env fs l).2.2.Copies) := by
  induction l generalizing fs with
  | nil => exact ⟨rfl, rfl, fun _ _ => rfl, fun _ _ _ => rfl, Same.rfl, h, id⟩
  | cons o l ih =>
    have ho := hl o (List.mem_cons_self ..)
    have hl' := fun o' ho' => hl o' (List.mem_cons_of_mem _ ho')
    have next : ∀ (fs' : Fs) (T : Nat → BitVec 8) (f : Nat → Nat), Eff fs fs' T → (∀ c, c < fs.nFatent → fs'.entryAt c = f c) →
        (run env fs' l).1 = (ideal f l).1 ∧ (run env fs' l).2.1 = true ∧ (∀ c, c < fs.nFatent → (run env fs' l).2.2.entryAt c = (ideal f l).2 c) ∧
        (∀ s, ¬ fs.InCopies s → ¬ fs.InTable s → (run env fs' l).2.2.look s = fs.look s) ∧ Same fs (run env fs' l).2.2 ∧ (run env fs' l).2.2.Ok ∧
        (fs.Copies → (run env fs' l).2.2.Copies) := by
      intro fs' T f e hf
      have hl2 : ∀ o ∈ l, o.Legal (Spec.range fs'.ty) fs'.nFatent fs'.database := by
        rw [e.same.ty, e.same.nFatent, e.same.database]
        exact hl'
      obtain ⟨r1, r2, r3, r4, r5, r6, r7⟩ := ih fs' e.ok hl2
      have cg := ideal_congr l hl' fs'.entryAt f hf
      refine ⟨r1.trans cg.1, r2, fun c hc => (r3 c (by rw [e.same.nFatent]; exact hc)).trans (cg.2 c hc), fun s h1 h2 => ?_, e.same.trans r5, r6, fun k => r7 (e.copies k)⟩
      rw [r4 s (by rw [e.same.inCopies]; exact h1) (by rw [e.same.inTable]; exact h2), e.outside s h1 h2]
    cases o with
    | get c =>
      obtain ⟨e, f, _⟩ := fs.get_eff hq h c ho.1 ho.2
      obtain ⟨r1, r2⟩ := next _ _ fs.entryAt f (fun c' hc' => f.entry h.layout hc')
      refine ⟨?_, r2⟩
      simp only [run, ideal]
      rw [e, r1]
      rfl
    | put c val =>
      obtain ⟨e, f, _⟩ := fs.put_eff hq h c val ho.1 ho.2.1
      obtain ⟨r1, r2, r3⟩ := next _ _ (fun c' => if c' = c then val else fs.entryAt c') f (fun c' hc' => by
        rw [f.entry h.layout hc', entry_written _ _ _ _ _ (Nat.lt_of_lt_of_le ho.2.2 (range_le _)), Nat.mod_eq_of_lt ho.2.2]
        rfl)
      refine ⟨r1, ?_, r3⟩
      simp only [run]
      rw [e, r2]
      rfl
    | visit s =>
      have hend := h.layout.area
      obtain ⟨e, _, f⟩ := fs.move_quiet hq h s ho.2 (by unfold Fs.InCopies; have := ho.1; omega)
      obtain ⟨r1, r2, r3⟩ := next _ _ fs.entryAt f (fun c' hc' => f.entry h.layout hc')
      refine ⟨r1, ?_, r3⟩
      simp only [run]
      rw [e, r2]
      rfl
    | sync =>
      obtain ⟨e, f, _⟩ := sync_eff hq fs h
      obtain ⟨r1, r2, r3⟩ := next _ _ fs.entryAt f (fun c' hc' => f.entry h.layout hc')
      refine ⟨r1, ?_, r3⟩
      simp only [run]
      rw [e, r2]
      rfl

/-- After a synchronisation the disk has the table, and every copy of it is the same: the volume can be read with any of them. -/
theorem synced_copies {env : Env} (hq : Quiet env) (fs : Fs) (h : fs.Ok) (hc : fs.Copies) (k c : Nat) (hk : k < fs.nFats) (hcn : c < fs.nFatent) :
    (fs.sync env).1.diskEntry k c = fs.entryAt c := by
  obtain ⟨_, f, hw⟩ := sync_eff hq fs h
  have e : (fs.sync env).1.entryAt c = fs.entryAt c := f.entry h.layout hcn
  rw [← e]
  unfold Fs.diskEntry Fs.entryAt
  refine entry_congr (N := 512 * (fs.sync env).1.fsize) (n := (fs.sync env).1.nFatent) (Same.layout f.same h.layout).table (fun i hi => ?_) (by rw [f.same.nFatent]; exact hcn)
  have cp := f.copies hc (i / 512) (by omega) (fun e => by rw [hw] at e; cases e) k (by rw [f.same.nFats]; exact hk)
  rw [show (fs.sync env).1.fatbase + k * (fs.sync env).1.fsize + i / 512 = (fs.sync env).1.fatbase + i / 512 + k * (fs.sync env).1.fsize by omega, cp]
  unfold Fs.tab Fs.look
  by_cases hi' : (fs.sync env).1.fatbase + i / 512 = (fs.sync env).1.winsect
  · rw [if_pos hi', f.ok.clean hw, hi']
  · rw [if_neg hi']

/-! ## Operations of the disk that fail -/

/-- A sector that cannot be written back does no harm: the window keeps it, and the flag that says so. Missing of C120, because false: the same of a sector that cannot be
read (`failed_read_lies`, `failed_put_destroys`) and of a copy that cannot be written (`failed_copy_unnoticed`). -/
theorem failed_write_keeps_partial (env : Env) (fs : Fs) (s : Nat) (hw : fs.wflag = true) (hs : s ≠ fs.winsect) (hf : env.fail fs.t = true) :
    (fs.move env s).2 = false ∧ (fs.move env s).1 = { fs with t := fs.t + 1, disk := (fs.move env s).1.disk } ∧
      (∀ s', s' ≠ fs.winsect → (fs.move env s).1.disk s' = fs.disk s') := by
  unfold Fs.move
  rw [if_pos hs]
  unfold Fs.sync
  rw [if_pos hw]
  unfold Fs.write
  rw [hf]
  refine ⟨by simp, ?_, ?_⟩
  · simp [hw]
  · intro s' hs'
    exact set_other _ _ hs'

/-- A sector that cannot be read, on the contrary, leaves whatever the driver has put into the window under the number of the old sector. -/
theorem failed_read_junk (env : Env) (fs : Fs) (s : Nat) (hw : fs.wflag = false) (hs : s ≠ fs.winsect) (hf : env.fail fs.t = true) :
    fs.move env s = ({ fs with win := env.junk fs.t, t := fs.t + 1 }, false) := by
  have hy : fs.sync env = (fs, true) := by
    unfold Fs.sync
    simp [hw]
  unfold Fs.move
  rw [if_pos hs, hy]
  dsimp only
  unfold Fs.read
  rw [hf]
  rfl

/-- A volume of 500 clusters with two tables of two sectors -/
def vol : Fs :=
  { ty := .fat16, csize := 1, nFats := 2, fsiFlag := 0, lastClust := 4294967295, freeClust := 4294967295, nFatent := 500, fsize := 2, fatbase := 1, database := 10,
    wflag := false, winsect := 1, win := fun i => byte i, disk := fun _ i => byte i, t := 0 }

/-- A disk whose first operation fails -/
def flaky : Env := { fail := fun t => t == 0, junk := fun _ _ => 0#8 }

/-- A disk that never fails -/
def calm : Env := { fail := fun _ => false, junk := fun _ _ => 0#8 }

theorem vol_ok : vol.Ok := by
  refine ⟨⟨by decide, by decide, by decide, by decide, by decide, by decide, by decide⟩, fun _ => rfl, ?_, by decide⟩
  unfold Fs.InCopies
  decide

/-- The error is reported once; the next entry is then read from the junk, without any error: the cluster after 5 is said to be 0, free, while it is 2826. -/
theorem failed_read_lies : (vol.getFat flaky 300).2 = 0xFFFFFFFF ∧ ((vol.getFat flaky 300).1.getFat flaky 5).2 = 0 ∧ vol.entryAt 5 = 2826 := by
  decide +kernel

/-- `put_fat` marks the window as changed also when it has failed: the junk is then written over the old sector, here the first sector of the table and its copy, and every
entry in it is lost. -/
theorem failed_put_destroys :
    (vol.putFat flaky 300 7).2 = .diskErr ∧ ((vol.putFat flaky 300 7).1.sync flaky).2 = true ∧
      (∀ c, 2 ≤ c → c < 256 → ((vol.putFat flaky 300 7).1.sync flaky).1.diskEntry 0 c = 0 ∧ ((vol.putFat flaky 300 7).1.sync flaky).1.diskEntry 1 c = 0) ∧
      ∀ c, 2 ≤ c → c < 256 → vol.diskEntry 0 c ≠ 0 := by
  refine ⟨by decide +kernel, by decide +kernel, fun c h1 h2 => ?_, fun c h1 h2 => ?_⟩
  · have e : ∀ c, c < 256 → ((vol.putFat flaky 300 7).1.sync flaky).1.diskEntry 0 c = 0 ∧ ((vol.putFat flaky 300 7).1.sync flaky).1.diskEntry 1 c = 0 := by decide +kernel
    exact e c h2
  · have e : ∀ c, c < 256 → 2 ≤ c → vol.diskEntry 0 c ≠ 0 := by decide +kernel
    exact e c h2 h1

/-- A disk on which the second operation fails -/
def flaky2 : Env := { fail := fun t => t == 1, junk := fun _ _ => 0#8 }

/-- A copy of the table that cannot be written is not noticed: success is reported, and the tables differ. -/
theorem failed_copy_unnoticed :
    ((vol.putFat flaky2 5 7).1.sync flaky2).2 = true ∧ ((vol.putFat flaky2 5 7).1.sync flaky2).1.diskEntry 0 5 = 7 ∧
      ((vol.putFat flaky2 5 7).1.sync flaky2).1.diskEntry 1 5 ≠ 7 := by
  decide +kernel

/-! ## Examples -/

theorem calm_quiet : Quiet calm := fun _ => rfl

theorem vol_copies : vol.Copies := fun _ _ _ _ _ => rfl

/-- The requests of the theorem above on the volume: an entry is chained to another one in the second sector, and both are read back. -/
example : (run calm vol [.put 5 300, .get 5, .put 300 65535, .visit 20, .get 300, .sync, .get 5, .get 6]).1 = [300, 65535, 300, 3340] := by decide +kernel

example : ∀ o ∈ [Op.put 5 300, .get 5, .put 300 65535, .visit 20, .get 300, .sync, .get 5, .get 6], o.Legal (Spec.range vol.ty) vol.nFatent vol.database := by
  simp [Op.Legal, vol, Spec.range]

example : (vol.sync calm).1.diskEntry 1 5 = vol.entryAt 5 := synced_copies calm_quiet vol vol_ok vol_copies 1 5 (by decide) (by decide)

/-- The same volume with entries of 12 bits: entry 341 has its first byte in one sector and its second byte in the next one. -/
def vol12 : Fs := { vol with ty := .fat12 }

theorem vol12_ok : vol12.Ok := by
  refine ⟨⟨by decide, by decide, by decide, by decide, by decide, by decide, by decide⟩, fun _ => rfl, ?_, by decide⟩
  unfold Fs.InCopies
  decide

example : (run calm vol12 [.put 341 0xABC, .get 341, .get 340, .get 342]).1 = [0xABC, vol12.entryAt 340, vol12.entryAt 342] := by decide +kernel

/-- And with entries of 32 bits, of which there is room for 256 -/
def vol32 : Fs := { vol with ty := .fat32, nFatent := 256 }

theorem vol32_ok : vol32.Ok := by
  refine ⟨⟨by decide, by decide, by decide, by decide, by decide, by decide, by decide⟩, fun _ => rfl, ?_, by decide⟩
  unfold Fs.InCopies
  decide

example : ((vol32.putFat calm 30 0x0FFFFFFF).1.tab 123).toNat / 16 = (vol32.tab 123).toNat / 16 :=
  put_fat_reserved calm_quiet vol32 vol32_ok rfl 30 0x0FFFFFFF (by decide) (by decide) (by decide)

/-- A sector of the directory cannot be written back: the window still has it. -/
example : ({ vol with wflag := true, winsect := 20 }.move flaky 30).1.win = vol.win := by
  rw [(failed_write_keeps_partial flaky { vol with wflag := true, winsect := 20 } 30 rfl (by decide) rfl).2.1]

end Verif.Fat
