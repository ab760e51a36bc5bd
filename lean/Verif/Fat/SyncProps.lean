import Verif.Fat.SyncLemmas
import Verif.Fat.SeekProps

/-!
# FatFs: what is on the disk after `f_sync`, and opening — properties
-/

namespace Verif.Fat

open Spec (Ty Chain Files le2 le4)

/-- Where the directory entry of a file may be: in a sector outside of the tables that is not one of the data of the file and, on volumes with entries of 32 bits, not the FSINFO sector
(which is before the tables) -/
structure Place (fs : Fs) (vol : Nat) (O : List (List Nat)) (sl : Slot) : Prop where
  sect : sl.sect < 4294967296
  table : ¬ fs.InTable sl.sect
  copies : ¬ fs.InCopies sl.sect
  aside : fs.Aside O sl.sect
  off : sl.off + 32 ≤ 512
  info : fs.ty = .fat32 → vol + 1 < fs.fatbase ∧ sl.sect ≠ vol + 1

/-- A volume that has been mounted anew from the disk `D`: it has the same shape, and the window holds a sector before the tables. -/
structure Remounted (fs : Fs) (D : Nat → Sector) (f : Fs) : Prop where
  ty : f.ty = fs.ty
  csize : f.csize = fs.csize
  nFats : f.nFats = fs.nFats
  nFatent : f.nFatent = fs.nFatent
  fsize : f.fsize = fs.fsize
  fatbase : f.fatbase = fs.fatbase
  database : f.database = fs.database
  disk : f.disk = D
  clean : f.wflag = false
  win : f.win = D f.winsect
  before : f.winsect < f.fatbase

theorem sclust_lt {fs : Fs} {fp : Fil} {L : List Nat} {O : List (List Nat)} (h : Core fs fp L O) : fp.sclust < Spec.range fs.ty := by
  have hr := h.ok.layout.ents
  rw [h.start]
  cases L with
  | nil =>
    show 0 < _
    omega
  | cons a K =>
    have := (files_bounds h.files).2.1 a (by simp)
    show a < _
    omega

/-- The shape of the volume is the same. -/
def Shape (fs fs' : Fs) : Prop :=
  fs'.ty = fs.ty ∧ fs'.csize = fs.csize ∧ fs'.nFats = fs.nFats ∧ fs'.nFatent = fs.nFatent ∧ fs'.fsize = fs.fsize ∧ fs'.fatbase = fs.fatbase ∧ fs'.database = fs.database

theorem Shape.refl (fs : Fs) : Shape fs fs := ⟨rfl, rfl, rfl, rfl, rfl, rfl, rfl⟩

theorem Shape.trans {a b c : Fs} (h : Shape a b) (k : Shape b c) : Shape a c := by
  obtain ⟨h1, h2, h3, h4, h5, h6, h7⟩ := h
  obtain ⟨k1, k2, k3, k4, k5, k6, k7⟩ := k
  exact ⟨k1.trans h1, k2.trans h2, k3.trans h3, k4.trans h4, k5.trans h5, k6.trans h6, k7.trans h7⟩

/-- The state after `f_sync` -/
structure Synced (fs : Fs) (vol : Nat) (fp : Fil) (L : List Nat) (O : List (List Nat)) (sl : Slot) (fs' : Fs) (fp' : Fil) : Prop where
  opened : Opened fs' fp' L O
  content : content fs' fp' L = content fs fp L
  fptr : fp'.fptr = fp.fptr
  modes : fp'.rd = fp.rd ∧ fp'.wr = fp.wr
  clean : fp'.written = false ∧ fp'.dirty = false ∧ fs'.wflag = false
  copies : fs.Copies → fs'.Copies
  /-- of the rest of the volume only the sectors of the file, the tables and the FSINFO sector change -/
  others : ∀ s, ¬ fs.InCopies s → ¬ fs.InTable s → ¬ fs.Mine L s → s ≠ sl.sect → (fs.ty = .fat32 → s ≠ vol + 1) → fs'.disk s = fs.look s
  entries : ∀ c, c < fs.nFatent → fs'.entryAt c = fs.entryAt c
  /-- the entry has the size and the first cluster -/
  size : Spec.size (fs'.disk sl.sect) sl.off = fp.fsize
  start : Spec.start fs.ty (fs'.disk sl.sect) sl.off = fp.sclust
  attr : fs'.disk sl.sect (sl.off + 11) = fs.look sl.sect (sl.off + 11) ||| 0x20
  /-- of its sector only the entry changes, and not its name -/
  entry : ∀ j, j < sl.off + 11 ∨ sl.off + 32 ≤ j → fs'.disk sl.sect j = fs.look sl.sect j
  shape : Shape fs fs'

/-- After `f_sync` of a changed file everything is on the disk. -/
theorem f_sync_writes_partial {env : Env} (hq : Quiet env) (vol tm : Nat) (fs : Fs) (fp : Fil) (L : List Nat) (O : List (List Nat)) (sl : Slot) (h : Opened fs fp L O) (hp : Place fs vol O sl)
    (hw : fp.written = true) : ∃ fs' fp', fSync env vol tm fs fp sl = (fs', fp', .ok) ∧ Synced fs vol fp L O sl fs' fp' := by
  have hsz := h.core.size
  obtain ⟨f1, a1, a2, a3, a4, a5, a6⟩ := h.core.flushed hq
  have asd1 : ∀ s, f1.Aside O s ↔ fs.Aside O s := by
    intro s
    unfold Fs.Aside
    rw [a3.database, a3.csize]
    simp only [a3.first]
  have hmine : ¬ fs.Mine L sl.sect := by
    intro hm
    have hb := mine_bounds h.core.ok.layout h.core.files hm
    rcases hp.aside with z | ⟨c, c1, c2⟩
    · have := hb.1; omega
    · exact hb.2.2.2 c c1 c2
  unfold fSync
  rw [if_pos hw, a1]
  dsimp only
  rw [if_neg (by decide)]
  obtain ⟨f2, b1, b2, b3, b4, b5, b6, b7⟩ := move_shift hq f1 a3.ok O sl.sect hp.sect (by rw [a3.inCopies]; exact hp.copies) ((asd1 _).mpr hp.aside)
  rw [b1]
  dsimp only
  rw [if_pos rfl]
  have s12 := b3.mono (Z := fun s => s = sl.sect ∨ (fs.ty = .fat32 ∧ s = vol + 1)) fun _ x => x.elim
  have p1 := poke_shift f2 b3.ok O (putEntry f2.win sl.off { fp with dirty := false } tm) (by rw [b3.aside_iff]; exact b3.aside) (by rw [b2, b3.inTable, a3.inTable]; exact hp.table)
  have s23 := p1.mono (Z := fun s => s = sl.sect ∨ (fs.ty = .fat32 ∧ s = vol + 1)) fun s x => Or.inl (x.trans b2)
  have s13 := s12.trans s23
  have t13 : ({ f2 with win := putEntry f2.win sl.off { fp with dirty := false } tm, wflag := true } : Fs).ty = fs.ty := s13.ty.trans a3.ty
  have fb13 : ({ f2 with win := putEntry f2.win sl.off { fp with dirty := false } tm, wflag := true } : Fs).fatbase = fs.fatbase := s13.fatbase.trans a3.fatbase
  have w3 : ({ f2 with win := putEntry f2.win sl.off { fp with dirty := false } tm, wflag := true } : Fs).look sl.sect = putEntry f2.win sl.off { fp with dirty := false } tm := by
    unfold Fs.look
    rw [if_pos b2.symm]
  generalize ({ f2 with win := putEntry f2.win sl.off { fp with dirty := false } tm, wflag := true } : Fs) = f3 at *
  obtain ⟨f4, c1, c2, c3, c4⟩ := syncFs_shift hq vol f3 p1.ok O ((s13.aside_iff _).mpr s13.aside) (fun e => by rw [fb13]; exact (hp.info (by rw [← t13]; exact e)).1)
  rw [c1]
  have s34 := c3.mono (Z := fun s => s = sl.sect ∨ (fs.ty = .fat32 ∧ s = vol + 1)) fun s x => Or.inr ⟨by rw [← t13]; exact x.1, x.2⟩
  have s14 := s13.trans s34
  have hY : ∀ s, (s = sl.sect ∨ (fs.ty = .fat32 ∧ s = vol + 1)) → f1.Aside O s := by
    rintro s (rfl | ⟨e1, e2⟩)
    · exact (asd1 _).mpr hp.aside
    · refine Or.inl ?_
      have := (hp.info e1).1
      have hl := Fs.layout_fatend h.core.ok.layout
      rw [a3.database]
      omega
  obtain ⟨k1, k2⟩ := a2.shift (g := { fp with dirty := false, written := false }) s14 hY rfl
  have hlook : ∀ s, ¬ fs.InCopies s → ¬ fs.InTable s → (fs.ty = .fat32 → s ≠ vol + 1) → f4.disk s = f3.look s := by
    intro s h1 h2 h3
    rw [← look_clean c3.ok c2]
    refine c3.outside s ?_ ?_ fun x => h3 (by rw [← t13]; exact x.1) x.2
    · rw [s13.inCopies, a3.inCopies]; exact h1
    · rw [s13.inTable, a3.inTable]; exact h2
  have hd4 : f4.disk sl.sect = putEntry f2.win sl.off { fp with dirty := false } tm := by
    rw [hlook sl.sect hp.copies hp.table fun e => (hp.info e).2, w3]
  have hw2 : f2.win = fs.look sl.sect := by
    rw [b4, b3.outside sl.sect (by rw [a3.inCopies]; exact hp.copies) (by rw [a3.inTable]; exact hp.table) id, a3.outside sl.sect hp.copies hp.table hmine]
  obtain ⟨e1, e2, e3, e4⟩ := putEntry_spec fs.ty f2.win sl.off { fp with dirty := false } tm h.small (sclust_lt (fp := fp) h.core)
  rw [← hd4] at e1 e2 e3 e4
  refine ⟨f4, _, rfl, ⟨k1, h.inside, h.small, h.err⟩, content_eq rfl fun o ho => ?_, rfl, ⟨rfl, rfl⟩, ⟨rfl, rfl, c2⟩, fun hc => s14.copies (a3.copies hc), fun s h1 h2 h3 h4 h5 => ?_, fun c hc => ?_, e1, e2,
    by rw [e3, hw2], fun j hj => by rw [e4 j hj, hw2],
    ⟨s14.ty.trans a3.ty, s14.csize.trans a3.csize, s14.nFats.trans a3.nFats, s14.nFatent.trans a3.nFatent, s14.fsize.trans a3.fsize, s14.fatbase.trans a3.fatbase, s14.database.trans a3.database⟩⟩
  · rw [k2 o (by rw [a3.csize]; omega), a6 o (by omega)]
  · rw [hlook s h1 h2 h5, s13.outside s (by rw [a3.inCopies]; exact h1) (by rw [a3.inTable]; exact h2) (by rintro (x | x); exact h4 x; exact h5 x.1 x.2), a3.outside s h1 h2 h3]
  · rw [s14.entries c (by rw [a3.nFatent]; exact hc), a4 c hc]

/-- A file that has not been changed since the last time is left. -/
theorem f_sync_idle (env : Env) (vol tm : Nat) (fs : Fs) (fp : Fil) (sl : Slot) (h : fp.written = false) : fSync env vol tm fs fp sl = (fs, fp, .ok) := by
  unfold fSync
  rw [if_neg (by rw [h]; decide)]

/-- With entries of 32 bits and a changed number of free clusters, the FSINFO sector tells it, and the cluster taken last. -/
theorem info_told {env : Env} (hq : Quiet env) (vol : Nat) (fs : Fs) (h : fs.Ok) (hs : fs.winsect < fs.database) (hv : vol + 1 < fs.fatbase) (h32 : fs.ty = .fat32) (hf : fs.fsiFlag = 1)
    (h1 : fs.freeClust < 4294967296) (h2 : fs.lastClust < 4294967296) :
    ∃ fs', fs.syncFs env vol = (fs', .ok) ∧ le4 (fs'.disk (vol + 1)) 488 = fs.freeClust ∧ le4 (fs'.disk (vol + 1)) 492 = fs.lastClust ∧
      le4 (fs'.disk (vol + 1)) 0 = 0x41615252 ∧ le4 (fs'.disk (vol + 1)) 484 = 0x61417272 ∧ le2 (fs'.disk (vol + 1)) 510 = 0xAA55 := by
  obtain ⟨f, c1, _, _, c4⟩ := syncFs_shift hq vol fs h [] (Or.inl hs) fun _ => hv
  refine ⟨f, c1, ?_⟩
  rw [c4 h32 hf]
  unfold Fs.infoSector
  dsimp only
  refine ⟨?_, ?_, ?_, ?_, ?_⟩
  · rw [le4_congr fun j a b => stDword_other _ 492 _ (by omega), le4_st]; omega
  · rw [le4_st]; omega
  · rw [le4_congr fun j a b => stDword_other _ 492 _ (by omega), le4_congr fun j a b => stDword_other _ 488 _ (by omega), le4_congr fun j a b => stDword_other _ 484 _ (by omega), le4_st]
  · rw [le4_congr fun j a b => stDword_other _ 492 _ (by omega), le4_congr fun j a b => stDword_other _ 488 _ (by omega), le4_st]
  · rw [le2_congr fun j a b => stDword_other _ 492 _ (by omega), le2_congr fun j a b => stDword_other _ 488 _ (by omega), le2_congr fun j a b => stDword_other _ 484 _ (by omega),
      le2_congr fun j a b => stDword_other _ 0 _ (by omega), le2_st]

/-! ## Opening -/

/-- The volume has a file with the clusters `L` and the bytes `data` whose entry is at `sl`, as the file system sees it. -/
structure Entry (fs : Fs) (L : List Nat) (O : List (List Nat)) (sl : Slot) (data : List (BitVec 8)) : Prop where
  ok : fs.Ok
  pow : ∃ p, p ≤ 7 ∧ fs.csize = 2 ^ p
  files : Files fs.entryAt fs.nFatent (own L ++ O)
  away : fs.Aside O fs.winsect
  start : Spec.start fs.ty (fs.look sl.sect) sl.off = L.headD 0
  size : Spec.size (fs.look sl.sect) sl.off = data.length
  fits : data.length ≤ 512 * (L.length * fs.csize)
  bytes : ∀ o, o < data.length → some (fs.disk (fs.sec L (o / 512)) (o % 512)) = data[o]?

theorem Shift.shape {a b : Fs} {O : List (List Nat)} {Y : Nat → Prop} (h : Shift a b O Y) : Shape a b := ⟨h.ty, h.csize, h.nFats, h.nFatent, h.fsize, h.fatbase, h.database⟩

/-- The file object after the window has been moved to the entry: the bytes of the file, at the start. -/
theorem opened_reads {env : Env} (hq : Quiet env) (fs : Fs) (vol : Nat) (L : List Nat) (O : List (List Nat)) (sl : Slot) (data : List (BitVec 8)) (h : Entry fs L O sl data) (hp : Place fs vol O sl)
    (m : Mode) (old : Fil) :
    ∃ f, fs.move env sl.sect = (f, true) ∧ f.win = fs.look sl.sect ∧ Opened f (f.opened sl m old) L O ∧ content f (f.opened sl m old) L = data ∧ Shift fs f O (fun _ => False) := by
  obtain ⟨f1, b1, b2, b3, b4, _⟩ := move_shift hq fs h.ok O sl.sect hp.sect hp.copies hp.aside
  have hw : f1.win = fs.look sl.sect := by rw [b4, b3.outside sl.sect hp.copies hp.table id]
  have hc : Core f1 (f1.opened sl m old) L O := by
    refine ⟨b3.ok, by rw [b3.csize]; exact h.pow, by rw [b3.nFatent]; exact files_congr h.files b3.entries, ?_, Nat.zero_le _, ?_, Nat.zero_lt_succ _, fun x => absurd x (Nat.lt_irrefl 0), fun x => absurd rfl x, fun _ => Or.inl rfl,
      fun x => Bool.noConfusion x, (b3.aside_iff _).mpr b3.aside, Nat.zero_lt_succ _⟩
    · show ldClust f1.ty f1.win sl.off = _
      rw [ldClust_start, hw, b3.ty, h.start]
    · show ldDword f1.win (sl.off + 28) ≤ _
      rw [ld_le4, hw, b3.csize]
      exact Nat.le_trans (Nat.le_of_eq h.size) h.fits
  have hsz : (f1.opened sl m old).fsize = data.length := by
    show ldDword f1.win (sl.off + 28) = _
    rw [ld_le4, hw]
    exact h.size
  have hcont : content f1 (f1.opened sl m old) L = data := by
    apply List.ext_getElem?
    intro o
    rw [content_get, hsz]
    by_cases k : o < data.length
    · rw [if_pos k, ← h.bytes o k]
      have hf := h.fits
      have ho' : o / 512 < L.length * fs.csize := by
        generalize L.length * fs.csize = N at *
        omega
      have hmm : fs.Mine L (fs.sec L (o / 512)) := ⟨_, ho', rfl⟩
      have hb := mine_bounds h.ok.layout h.files hmm
      have e : f1.disk (fs.sec L (o / 512)) = fs.disk (fs.sec L (o / 512)) := b3.disk h.ok.layout h.away (fun _ x => x.elim) ⟨hb.1, hb.2.2.2⟩
      unfold view cell
      rw [b3.sec, e, if_neg (fun x => Bool.noConfusion x.1)]
    · rw [if_neg k, List.getElem?_eq_none (by omega)]
  have ho : Opened f1 (f1.opened sl m old) L O := ⟨hc, Nat.zero_le _, by
    show ldDword f1.win (sl.off + 28) < _
    rw [ld_le4]
    exact le4_lt _ _, rfl⟩
  exact ⟨f1, b1, hw, ho, hcont, b3⟩

/-- An existing file without attributes that forbid it is opened with its bytes, at the start. -/
theorem f_open_reads {env : Env} (hq : Quiet env) (fs : Fs) (vol : Nat) (L : List Nat) (O : List (List Nat)) (sl : Slot) (data : List (BitVec 8)) (h : Entry fs L O sl data) (hp : Place fs vol O sl)
    (m : Mode) (tm : Nat) (old : Fil) (hm : m.always = false ∧ m.new = false) (ha : fs.look sl.sect (sl.off + 11) &&& 0x11 = 0) :
    ∃ fs' fp, fOpen env fs sl m tm old = some (fs', fp, .ok) ∧ Opened fs' fp L O ∧ content fs' fp L = data ∧ fp.fptr = 0 ∧ fp.rd = m.rd ∧ fp.wr = m.wr ∧ fp.written = false ∧ fp.dirty = false ∧ Shape fs fs' ∧
      ∀ s, ¬ fs.InCopies s → ¬ fs.InTable s → fs'.look s = fs.look s := by
  obtain ⟨f1, b1, hw, ho, hcont, b3⟩ := opened_reads hq fs vol L O sl data h hp m old
  have hbits : ∀ a : BitVec 8, a &&& 0x11 = 0 → a &&& 0x10 = 0 ∧ a &&& 0x01 = 0 := by decide +kernel
  obtain ⟨z1, z2⟩ := hbits _ ha
  refine ⟨f1, f1.opened sl m old, ?_, ho, hcont, rfl, rfl, rfl, hm.1, rfl, b3.shape, fun s h1 h2 => b3.outside s h1 h2 id⟩
  unfold fOpen
  rw [b1]
  dsimp only
  rw [if_neg (by decide), hw, ha, z1, z2, hm.1, hm.2]
  simp

/-- The rest of `Fs.reset` after the change of the window; `q` is the new `last_clust`. -/
def resetRest (env : Env) (f1 : Fs) (cl q : Nat) : Option (Fs × Fr) :=
  if cl ≠ 0 then
    match f1.removeChain env cl with
    | none => none
    | some (f2, res) =>
      if res = .ok then
        some ((({ f2 with lastClust := q } : Fs).move env f1.winsect).1, if (({ f2 with lastClust := q } : Fs).move env f1.winsect).2 then .ok else .diskErr)
      else some (f2, res)
  else some (f1, .ok)

theorem reset_eq (env : Env) (fs : Fs) (sl : Slot) (tm : Nat) :
    ∃ q, fs.reset env sl tm = resetRest env { fs with win := resetEntry fs.win sl.off tm, wflag := true } (ldClust fs.ty fs.win sl.off) q := ⟨_, rfl⟩

theorem resetRest_spec {env : Env} (hq : Quiet env) (f2 : Fs) (g8 : f2.Ok) (L : List Nat) (O : List (List Nat)) (hF : Files f2.entryAt f2.nFatent (own L ++ O)) (ht : ¬ f2.InTable f2.winsect)
    (ha : f2.Aside O f2.winsect) (q : Nat) :
    ∃ f5, resetRest env f2 (L.headD 0) q = some (f5, .ok) ∧ f5.Ok ∧ Shape f2 f5 ∧ f5.winsect = f2.winsect ∧
      f5.win = f2.look f2.winsect ∧ Files f5.entryAt f2.nFatent O ∧ (∀ s, ¬ f2.InCopies s → ¬ f2.InTable s → f5.look s = f2.look s) ∧ ∀ c, c < f2.nFatent → f5.entryAt c = if c ∈ L then 0 else f2.entryAt c := by
  unfold resetRest
  cases L with
  | nil =>
    rw [if_neg (fun x => x rfl)]
    exact ⟨f2, rfl, g8, .refl _, rfl, by unfold Fs.look; rw [if_pos rfl], hF, fun _ _ _ => rfl, fun _ _ => by simp⟩
  | cons a K =>
    have hb := (files_bounds hF).2.1 a (by simp)
    rw [show (a :: K).headD 0 = a from rfl, if_pos (show a ≠ 0 by omega)]
    have hF' : Files f2.entryAt f2.nFatent ([] ++ (a :: K) :: O) := by rwa [own_cons (by simp)] at hF
    obtain ⟨f3, q1, q2, q3, _⟩ := remove_file hq f2 g8 [] O a K hF'
    rw [q1]
    dsimp only
    rw [if_pos rfl]
    have k1 : ({ f3 with lastClust := q } : Fs).Ok := ⟨Fs.layout_with q2.ok.layout rfl rfl rfl rfl rfl rfl rfl, q2.ok.clean, q2.ok.away, q2.ok.small⟩
    have k2 : ∀ s, ({ f3 with lastClust := q } : Fs).look s = f3.look s := fun _ => rfl
    have k3 : ∀ s, ({ f3 with lastClust := q } : Fs).InCopies s ↔ f2.InCopies s := fun s => q2.inCopies s
    have k4 : ∀ s, ({ f3 with lastClust := q } : Fs).InTable s ↔ f2.InTable s := fun s => q2.inTable s
    have k5 : ∀ c, ({ f3 with lastClust := q } : Fs).entryAt c = f3.entryAt c := fun _ => rfl
    have k6 : ({ f3 with lastClust := q } : Fs).csize = f2.csize := q2.csize
    have k7 : ({ f3 with lastClust := q } : Fs).nFatent = f2.nFatent := q2.nFatent
    have k8 : ({ f3 with lastClust := q } : Fs).database = f2.database := q2.database
    have k9 : ({ f3 with lastClust := q } : Fs).ty = f2.ty := q2.ty
    have k10 : ({ f3 with lastClust := q } : Fs).nFats = f2.nFats := q2.nFats
    have k11 : ({ f3 with lastClust := q } : Fs).fsize = f2.fsize := q2.fsize
    have k12 : ({ f3 with lastClust := q } : Fs).fatbase = f2.fatbase := q2.fatbase
    generalize ({ f3 with lastClust := q } : Fs) = f4 at *
    have hA : f4.Aside O f2.winsect := by
      have := ha
      unfold Fs.Aside Fs.first at *
      rw [k8, k6]
      exact this
    obtain ⟨f5, m1, m2, m3, m4, _⟩ := move_shift hq f4 k1 O f2.winsect g8.small (by rw [k3]; exact g8.away) hA
    rw [m1]
    dsimp only
    rw [if_pos rfl]
    refine ⟨f5, rfl, m3.ok, Shape.trans ⟨k9, k6, k10, k7, k11, k12, k8⟩ m3.shape, m2, ?_, ?_, fun s h1 h2 => ?_, fun c hc => ?_⟩
    · rw [m4, m3.outside _ (by rw [k3]; exact g8.away) (by rw [k4]; exact ht) id, k2, q2.outside _ g8.away ht]
    · rw [q2.nFatent] at q3
      refine files_congr q3 fun c hc => ?_
      rw [m3.entries c (by rw [k7]; exact hc), k5]
    · rw [m3.outside s (by rw [k3]; exact h1) (by rw [k4]; exact h2) id, k2, q2.outside s h1 h2]
    · rw [m3.entries c (by rw [k7]; exact hc), k5, q2.entries c hc]

/-- Overwriting: the file is empty, its clusters are free, the other files are left. -/
theorem f_open_overwrites {env : Env} (hq : Quiet env) (fs : Fs) (vol : Nat) (L : List Nat) (O : List (List Nat)) (sl : Slot) (data : List (BitVec 8)) (h : Entry fs L O sl data) (hp : Place fs vol O sl)
    (m : Mode) (tm : Nat) (old : Fil) (hm : m.always = true ∧ m.new = false) (ha : fs.look sl.sect (sl.off + 11) &&& 0x11 = 0) :
    ∃ fs' fp, fOpen env fs sl m tm old = some (fs', fp, .ok) ∧ Opened fs' fp [] O ∧ content fs' fp [] = [] ∧ fp.fptr = 0 ∧ fp.rd = m.rd ∧ fp.wr = m.wr ∧ fp.written = true ∧ Shape fs fs' ∧ (∀ c ∈ L, fs'.entryAt c = 0) ∧
      (∀ s, ¬ fs.InCopies s → ¬ fs.InTable s → s ≠ sl.sect → fs'.look s = fs.look s) ∧ (∀ j, j < sl.off + 11 ∨ sl.off + 32 ≤ j → fs'.look sl.sect j = fs.look sl.sect j) := by
  obtain ⟨f1, b1, b2, b3, b4, _⟩ := move_shift hq fs h.ok O sl.sect hp.sect hp.copies hp.aside
  have hw : f1.win = fs.look sl.sect := by rw [b4, b3.outside sl.sect hp.copies hp.table id]
  have ht1 : ¬ f1.InTable sl.sect := by rw [b3.inTable]; exact hp.table
  have hc1 : ¬ f1.InCopies sl.sect := by rw [b3.inCopies]; exact hp.copies
  obtain ⟨r1, r2, r3, r4⟩ := resetEntry_spec f1.ty f1.win sl.off tm
  have p1 := poke_shift f1 b3.ok O (resetEntry f1.win sl.off tm) ((b3.aside_iff _).mpr b3.aside) (by rw [b2]; exact ht1)
  have hcl : ldClust f1.ty f1.win sl.off = L.headD 0 := by rw [ldClust_start, hw, b3.ty, h.start]
  have hF1 : Files ({ f1 with win := resetEntry f1.win sl.off tm, wflag := true } : Fs).entryAt fs.nFatent (own L ++ O) :=
    files_congr h.files fun c hc => by rw [p1.entries c (by rw [b3.nFatent]; exact hc), b3.entries c hc]
  have lk1 : ({ f1 with win := resetEntry f1.win sl.off tm, wflag := true } : Fs).look sl.sect = resetEntry f1.win sl.off tm := by
    unfold Fs.look
    rw [if_pos b2.symm]
  have ws1 : ({ f1 with win := resetEntry f1.win sl.off tm, wflag := true } : Fs).winsect = sl.sect := b2
  -- the volume after the reset
  have hres : ∃ f5, f1.reset env sl tm = some (f5, .ok) ∧ f5.Ok ∧ Shape fs f5 ∧ f5.Aside O sl.sect ∧ f5.winsect = sl.sect ∧
      f5.win = resetEntry f1.win sl.off tm ∧ Files f5.entryAt fs.nFatent O ∧ ∀ s, ¬ fs.InCopies s → ¬ fs.InTable s → s ≠ sl.sect → f5.look s = fs.look s := by
    obtain ⟨q, hq1⟩ := reset_eq env f1 sl tm
    rw [hq1, hcl]
    have hout : ∀ s, ¬ fs.InCopies s → ¬ fs.InTable s → s ≠ sl.sect → ({ f1 with win := resetEntry f1.win sl.off tm, wflag := true } : Fs).look s = fs.look s := by
      intro s h1 h2 h3
      rw [p1.outside s (by rw [b3.inCopies]; exact h1) (by rw [b3.inTable]; exact h2) (by rw [b2]; exact h3), b3.outside s h1 h2 id]
    have g0 : Shape fs ({ f1 with win := resetEntry f1.win sl.off tm, wflag := true } : Fs) := b3.shape.trans p1.shape
    have g2 : ({ f1 with win := resetEntry f1.win sl.off tm, wflag := true } : Fs).csize = fs.csize := b3.csize
    have g3 : ({ f1 with win := resetEntry f1.win sl.off tm, wflag := true } : Fs).nFatent = fs.nFatent := b3.nFatent
    have g4 : ({ f1 with win := resetEntry f1.win sl.off tm, wflag := true } : Fs).database = fs.database := b3.database
    have g5 : ∀ s, ({ f1 with win := resetEntry f1.win sl.off tm, wflag := true } : Fs).InCopies s ↔ fs.InCopies s := fun s => (p1.inCopies s).trans (b3.inCopies s)
    have g6 : ∀ s, ({ f1 with win := resetEntry f1.win sl.off tm, wflag := true } : Fs).InTable s ↔ fs.InTable s := fun s => (p1.inTable s).trans (b3.inTable s)
    have g8 := p1.ok
    generalize ({ f1 with win := resetEntry f1.win sl.off tm, wflag := true } : Fs) = f2 at *
    have hA : ∀ f : Fs, f.database = fs.database → f.csize = fs.csize → f.Aside O sl.sect := by
      intro f e1 e2
      have := hp.aside
      unfold Fs.Aside Fs.first at *
      rw [e1, e2]
      exact this
    obtain ⟨f5, t1, t2, t3, t7, t8, t9, t10, _⟩ := resetRest_spec hq f2 g8 L O (by rw [g3]; exact hF1) (by rw [ws1, g6]; exact hp.table) (by rw [ws1]; exact hA f2 g4 g2) q
    have hsh := g0.trans t3
    refine ⟨f5, t1, t2, hsh, hA f5 hsh.2.2.2.2.2.2 hsh.2.1, t7.trans ws1, ?_, g3 ▸ t9, fun s h1 h2 h3 => ?_⟩
    · rw [t8, ws1, lk1]
    · rw [t10 s (by rw [g5]; exact h1) (by rw [g6]; exact h2), hout s h1 h2 h3]
  obtain ⟨f5, t1, t2, hsh, t6, t7, t8, t9, t10⟩ := hres
  have t5 := hsh.1
  have t3 := hsh.2.1
  have t4 := hsh.2.2.2.1
  have hsc : (f5.opened sl m old).sclust = 0 := by
    show ldClust f5.ty f5.win sl.off = 0
    rw [ldClust_start, t8, t5, ← b3.ty]
    exact r2
  have hsz : (f5.opened sl m old).fsize = 0 := by
    show ldDword f5.win (sl.off + 28) = 0
    rw [ld_le4, t8]
    exact r1
  have hc : Core f5 (f5.opened sl m old) [] O := by
    refine ⟨t2, by rw [t3]; exact h.pow, by rw [t4]; exact t9, hsc, Nat.zero_le _, by rw [hsz]; exact Nat.zero_le _, Nat.zero_lt_succ _, fun x => absurd x (Nat.lt_irrefl 0), fun x => absurd rfl x, fun _ => Or.inl rfl,
      fun x => Bool.noConfusion x, by rw [t7]; exact t6, Nat.zero_lt_succ _⟩
  refine ⟨f5, f5.opened sl m old, ?_, ⟨hc, Nat.zero_le _, by rw [hsz]; decide, rfl⟩, ?_, rfl, rfl, rfl, hm.1, hsh, fun c hc => ?_, t10, fun j hj => ?_⟩
  · unfold fOpen
    rw [b1]
    dsimp only
    rw [if_neg (by decide), hw, ha, hm.1, hm.2, t1]
    simp
  · unfold content
    rw [hsz]
    rfl
  · obtain ⟨b1, b2, b3⟩ := (files_bounds h.files).2.1 c hc
    exact Classical.byContradiction fun hne => b3 (t9.used c b1 b2 hne)
  · unfold Fs.look
    rw [if_pos t7.symm, t8, r4 j hj, hw]
    rfl

/-- What is refused: nothing changes but the position of the window. -/
theorem f_open_refused {env : Env} (hq : Quiet env) (fs : Fs) (vol : Nat) (L : List Nat) (O : List (List Nat)) (sl : Slot) (data : List (BitVec 8)) (h : Entry fs L O sl data) (hp : Place fs vol O sl)
    (m : Mode) (tm : Nat) (old : Fil) :
    ∃ fs', Entry fs' L O sl data ∧
      (m.always = true ∨ m.orNew = true ∨ m.new = true → fs.look sl.sect (sl.off + 11) &&& 0x11 ≠ 0 → fOpen env fs sl m tm old = some (fs', old, .denied)) ∧
      (m.new = true → fs.look sl.sect (sl.off + 11) &&& 0x11 = 0 → fOpen env fs sl m tm old = some (fs', old, .exist)) ∧
      (m.always = false → m.orNew = false → m.new = false → fs.look sl.sect (sl.off + 11) &&& 0x10 ≠ 0 → fOpen env fs sl m tm old = some (fs', old, .noFile)) ∧
      (m.always = false → m.orNew = false → m.new = false → m.wr = true → fs.look sl.sect (sl.off + 11) &&& 0x10 = 0 → fs.look sl.sect (sl.off + 11) &&& 0x01 ≠ 0 →
        fOpen env fs sl m tm old = some (fs', old, .denied)) := by
  obtain ⟨f1, b1, b2, b3, b4, _⟩ := move_shift hq fs h.ok O sl.sect hp.sect hp.copies hp.aside
  have hl : f1.look sl.sect = fs.look sl.sect := b3.outside sl.sect hp.copies hp.table id
  have hw : f1.win = fs.look sl.sect := by rw [b4, hl]
  refine ⟨f1, ⟨b3.ok, by rw [b3.csize]; exact h.pow, by rw [b3.nFatent]; exact files_congr h.files b3.entries, (b3.aside_iff _).mpr b3.aside, by rw [hl, b3.ty]; exact h.start, by rw [hl]; exact h.size,
    by rw [b3.csize]; exact h.fits, fun o ho => ?_⟩, fun h1 h2 => ?_, fun h1 h2 => ?_, fun h1 h2 h3 h4 => ?_, fun h1 h2 h3 h4 h5 h6 => ?_⟩
  · have hf := h.fits
    have ho' : o / 512 < L.length * fs.csize := by
      generalize L.length * fs.csize = N at *
      omega
    have hb := mine_bounds h.ok.layout h.files (⟨_, ho', rfl⟩ : fs.Mine L (fs.sec L (o / 512)))
    rw [b3.sec, b3.disk h.ok.layout h.away (fun _ x => x.elim) ⟨hb.1, hb.2.2.2⟩]
    exact h.bytes o ho
  all_goals
    unfold fOpen
    rw [b1]
    dsimp only
    rw [if_neg (by decide), hw]
  · rw [if_pos h1, if_pos h2]
  · rw [if_pos (Or.inr (Or.inr h1)), if_neg (fun x => x h2), if_pos h1]
  · rw [h1, h2, h3, if_neg (by simp), if_pos h4]
  · rw [h1, h2, h3, if_neg (by simp), if_neg (fun x => x h5), if_pos ⟨h4, h6⟩]

/-! ## Together -/

/-- After `f_sync` a volume that is mounted anew from the disk has the file, with the bytes it had, whatever was in the memory. -/
theorem synced_survives {fs : Fs} {vol : Nat} {fp : Fil} {L : List Nat} {O : List (List Nat)} {sl : Slot} {fs' f : Fs} {fp' : Fil} (h0 : Opened fs fp L O) (hp : Place fs vol O sl)
    (h : Synced fs vol fp L O sl fs' fp') (hr : Remounted fs fs'.disk f) :
    Entry f L O sl (content fs fp L) ∧ Place f vol O sl ∧ f.look sl.sect (sl.off + 11) = fs.look sl.sect (sl.off + 11) ||| 0x20 := by
  obtain ⟨e1, e2, e3, e4, e5, e6, e7⟩ := h.shape
  have hk := h.opened.core
  have hfl : f.Layout := Fs.layout_with hk.ok.layout (hr.ty.trans e1.symm) (hr.csize.trans e2.symm) (hr.nFats.trans e3.symm) (hr.nFatent.trans e4.symm) (hr.fsize.trans e5.symm) (hr.fatbase.trans e6.symm)
    (hr.database.trans e7.symm)
  have hend := Fs.layout_fatend hfl
  have hbefore := hr.before
  have hok : f.Ok := ⟨hfl, fun _ => by rw [hr.disk]; exact hr.win, by unfold Fs.InCopies; omega, by omega⟩
  have hlook : ∀ s, f.look s = fs'.disk s := fun s => by rw [look_clean hok hr.clean, hr.disk]
  have hlook' : ∀ s, fs'.look s = fs'.disk s := fun s => look_clean hk.ok h.clean.2.2 s
  have hfirst : ∀ c, f.first c = fs.first c := fun c => by unfold Fs.first; rw [hr.csize, hr.database]
  have hsec : ∀ i, f.sec L i = fs'.sec L i := fun i => by unfold Fs.sec Fs.first; rw [hr.csize, hr.database, e2, e7]
  have hasd : ∀ s, f.Aside O s ↔ fs.Aside O s := fun s => by unfold Fs.Aside; simp only [hfirst, hr.csize, hr.database]
  have hsize : fp'.fsize = fp.fsize := by
    have := congrArg List.length h.content
    rwa [content_length, content_length] at this
  have hent : ∀ c, c < fs.nFatent → f.entryAt c = fs'.entryAt c := fun c hc =>
    entries_of_look hk.ok.layout (hr.ty.trans e1.symm) (hr.fatbase.trans e6.symm) (fun s _ j _ => by rw [hlook, hlook']) c (by rw [e4]; exact hc)
  refine ⟨⟨hok, by rw [hr.csize]; exact h0.core.pow, ?_, Or.inl (by omega), ?_, ?_, ?_, fun o ho => ?_⟩, ⟨hp.sect, ?_, ?_, (hasd _).mpr hp.aside, hp.off, fun e => ?_⟩, ?_⟩
  · rw [hr.nFatent]
    exact files_congr (e4 ▸ hk.files) hent
  · rw [hlook, hr.ty, h.start, h0.core.start]
  · rw [hlook, h.size, content_length]
  · rw [content_length, hr.csize]
    exact h0.core.size
  · rw [content_length] at ho
    rw [← h.content, content_get, if_pos (by omega), hr.disk, hsec]
    unfold view cell
    rw [if_neg (fun x => by rw [h.clean.2.1] at x; exact Bool.noConfusion x.1)]
  · unfold Fs.InTable
    rw [hr.fatbase, hr.fsize]
    exact hp.table
  · unfold Fs.InCopies
    rw [hr.fatbase, hr.fsize, hr.nFats]
    exact hp.copies
  · rw [hr.fatbase]
    exact hp.info (by rw [← hr.ty]; exact e)
  · rw [hlook, h.attr]

/-- The round trip: the bytes of a changed file are read after `f_sync`, a loss of the memory and `f_open`. -/
theorem sync_then_open_partial {env env' : Env} (hq : Quiet env) (hq' : Quiet env') (vol tm tm' : Nat) (fs : Fs) (fp : Fil) (L : List Nat) (O : List (List Nat)) (sl : Slot) (h : Opened fs fp L O)
    (hp : Place fs vol O sl) (hw : fp.written = true) (ha : fs.look sl.sect (sl.off + 11) &&& 0x11 = 0) (m : Mode) (hm : m.always = false ∧ m.new = false) (old : Fil) :
    ∃ fs' fp', fSync env vol tm fs fp sl = (fs', fp', .ok) ∧ ∀ f, Remounted fs fs'.disk f →
      ∃ f' fp'', fOpen env' f sl m tm' old = some (f', fp'', .ok) ∧ Opened f' fp'' L O ∧ content f' fp'' L = content fs fp L ∧ fp''.fptr = 0 ∧ fp''.rd = m.rd ∧ fp''.wr = m.wr := by
  obtain ⟨fs', fp', s1, s2⟩ := f_sync_writes_partial hq vol tm fs fp L O sl h hp hw
  refine ⟨fs', fp', s1, fun f hr => ?_⟩
  obtain ⟨k1, k2, k3⟩ := synced_survives h hp s2 hr
  have hbits : ∀ a : BitVec 8, a &&& 0x11 = 0 → (a ||| 0x20) &&& 0x11 = 0 := by decide +kernel
  obtain ⟨f', fp'', t1, t2, t3, t4, t5, t6, _⟩ := f_open_reads hq' f vol L O sl _ k1 k2 m tm' old hm (by rw [k3]; exact hbits _ ha)
  exact ⟨f', fp'', t1, t2, t3, t4, t5, t6⟩

/-! ## Examples -/

/-- The entry number 1 of the directory in sector 6 -/
def place : Slot := ⟨6, 32⟩

def plain : Mode := { rd := true, wr := true, always := false, orNew := false, new := false }

theorem empty_place : Place empty 0 [] place := by
  refine ⟨by decide, ?_, ?_, Or.inl (by decide), by decide, fun e => Ty.noConfusion e⟩
  · unfold Fs.InTable; decide
  · unfold Fs.InCopies; decide

/-- What a volume with 16-bit entries is after it has been mounted from a disk: the window holds the boot sector -/
def mounted (D : Nat → Sector) : Fs := { empty with disk := D, winsect := 0, win := D 0, t := 0 }

theorem mounted_remounted (D : Nat → Sector) : Remounted empty D (mounted D) := ⟨rfl, rfl, rfl, rfl, rfl, rfl, rfl, rfl, rfl, rfl, by show 0 < 1; decide⟩

/-- 700 bytes are written and synced; the volume is mounted anew, the file opened, and part of it read. -/
def again : Option (Fr × Fr × Nat × List (Spec.Answer (BitVec 8))) := do
  let (fs, fp, _) ← performAll calm empty newFile [.write (letters 700)]
  let (fs, _, r) := fSync calm 0 0x5000 fs fp place
  let (fs, fp, q) ← fOpen calm (mounted fs.disk) place plain 0 newFile
  let (_, fp, as) ← performAll calm fs fp [.seek 508, .read 8]
  pure (r, q, fp.fsize, as)

example : again = some (.ok, .ok, 700, [.moved 508, .got [111, 112, 113, 114, 115, 116, 117, 118]]) := by decide +kernel

/-- Opened for overwriting it is empty, and its clusters are free. -/
def anew : Option (Fr × Nat × List Nat) := do
  let (fs, fp, _) ← performAll calm empty newFile [.write (letters 700)]
  let (fs, _, _) := fSync calm 0 0x5000 fs fp place
  let (fs, fp, q) ← fOpen calm (mounted fs.disk) place { plain with always := true } 0 newFile
  pure (q, fp.fsize, [2, 3, 4].map fs.entryAt)

example : anew = some (.ok, 0, [0, 0, 0]) := by decide +kernel

/-- The hypotheses of `sync_then_open_partial` hold for a new file that is marked as changed, and for the volume `mounted`. -/
example : ∃ fs' fp', fSync calm 0 7 empty { newFile with written := true } place = (fs', fp', .ok) ∧
    ∃ f' fp'', fOpen calm (mounted fs'.disk) place plain 9 newFile = some (f', fp'', .ok) ∧ content f' fp'' [] = content empty { newFile with written := true } [] := by
  have h : Opened empty { newFile with written := true } [] [] := ⟨⟨empty_ok, newFile_opened.core.pow, empty_files, rfl, by decide, by decide, by decide, fun h => absurd h (by decide),
    fun h => absurd h (by decide), fun _ => Or.inl rfl, fun h => Bool.noConfusion h, Or.inl (by decide), by decide⟩, by decide, by decide, rfl⟩
  obtain ⟨fs', fp', h1, h2⟩ := sync_then_open_partial calm_quiet calm_quiet 0 7 9 empty _ [] [] place h empty_place rfl (by decide +kernel) plain ⟨rfl, rfl⟩ newFile
  obtain ⟨f', fp'', k1, _, k2, _⟩ := h2 (mounted fs'.disk) (mounted_remounted _)
  exact ⟨fs', fp', h1, f', fp'', k1, k2⟩

/-- A directory cannot be opened, a file that may only be read cannot be written or overwritten, and an existing file is not new. -/
def tagged (a : BitVec 8) : Fs := { empty with disk := fun s i => if s = 6 ∧ i = 43 then a else empty.disk s i }

def refusal (a : BitVec 8) (m : Mode) : Option Fr := (fOpen calm (tagged a) place m 0 newFile).map (·.2.2)

example : refusal 0x10 plain = some .noFile ∧ refusal 0x01 plain = some .denied ∧ refusal 0x01 { plain with wr := false } = some .ok ∧
    refusal 0x01 { plain with always := true } = some .denied ∧ refusal 0x20 { plain with new := true } = some .exist := by decide +kernel

/-! ## What does not hold -/

/-- 100 bytes are written; `f_sync` on a disk whose operation number `k` fails, then once more on a disk that works again -/
def twice (k : Nat) : Option (Fr × Fr × Nat × Nat) := do
  let (fs, fp, _) ← performAll calm empty newFile [.write (letters 100)]
  let (fs, fp, r) := fSync { calm with fail := fun t => t == k } 0 0 fs fp place
  let (fs, fp, q) := fSync calm 0 0 fs fp place
  pure (r, q, fp.fsize, Spec.size (fs.disk place.sect) place.off)

/-- The directory entry could not be written: `f_sync` reports the error once. Called again it reports success, and does nothing: on the disk the file still has no bytes. -/
theorem sync_error_forgotten : twice 4 = some (.diskErr, .ok, 100, 0) := by decide +kernel

/-- Without `f_sync` the bytes are not in the directory, and the clusters with them belong to no file. -/
def forgotten : Option (Nat × Nat × Nat) := do
  let (fs, _, _) ← performAll calm empty newFile [.write (letters 700), .seek 0, .read 1]
  pure (Spec.size (fs.disk place.sect) place.off, Spec.start .fat16 (fs.disk place.sect) place.off, fs.entryAt 2)

theorem unsynced_lost : forgotten = some (0, 0, 3) := by decide +kernel

end Verif.Fat
