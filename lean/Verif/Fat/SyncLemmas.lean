import Verif.Fat.SyncSpec
import Verif.Fat.SyncModel
import Verif.Fat.FileSeek

/-!
# FatFs: lemmas on directory entries
-/

namespace Verif.Fat

open Spec (Ty Chain Files le2 le4)

/-! ## Bytes -/

theorem ld_le2 (w : Sector) (i : Nat) : ldWord w i = le2 w i := ldWord_eq w i
theorem ld_le4 (w : Sector) (i : Nat) : ldDword w i = le4 w i := ldDword_eq w i

theorem le2_lt (w : Sector) (i : Nat) : le2 w i < 65536 := by
  unfold le2
  have h1 := (w i).isLt
  have h2 := (w (i + 1)).isLt
  omega

theorem le4_lt (w : Sector) (i : Nat) : le4 w i < 4294967296 := by
  unfold le4
  have h1 := (w i).isLt
  have h2 := (w (i + 1)).isLt
  have h3 := (w (i + 2)).isLt
  have h4 := (w (i + 3)).isLt
  omega

theorem le2_congr {w w' : Sector} {i : Nat} (h : ∀ j, i ≤ j → j < i + 2 → w j = w' j) : le2 w i = le2 w' i := by
  unfold le2
  rw [h i (by omega) (by omega), h (i + 1) (by omega) (by omega)]

theorem le4_congr {w w' : Sector} {i : Nat} (h : ∀ j, i ≤ j → j < i + 4 → w j = w' j) : le4 w i = le4 w' i := by
  unfold le4
  rw [h i (by omega) (by omega), h (i + 1) (by omega) (by omega), h (i + 2) (by omega) (by omega), h (i + 3) (by omega) (by omega)]

theorem stWord_other (w : Sector) (i v : Nat) {j : Nat} (h : j < i ∨ i + 2 ≤ j) : stWord w i v j = w j := by
  unfold stWord
  rw [set_other _ _ (by omega), set_other _ _ (by omega)]

theorem stDword_other (w : Sector) (i v : Nat) {j : Nat} (h : j < i ∨ i + 4 ≤ j) : stDword w i v j = w j := by
  unfold stDword
  rw [set_other _ _ (by omega), set_other _ _ (by omega), set_other _ _ (by omega), set_other _ _ (by omega)]

theorem le2_st (w : Sector) (i v : Nat) : le2 (stWord w i v) i = v % 65536 := by
  unfold le2 stWord
  rw [set_other _ _ (by omega), set_same, set_same, byte_toNat, byte_toNat, Nat.shiftRight_eq_div_pow]
  omega

theorem le4_st (w : Sector) (i v : Nat) : le4 (stDword w i v) i = v % 4294967296 := by
  unfold le4 stDword u32
  rw [set_same, set_other _ _ (by omega), set_other _ _ (by omega), set_other _ _ (by omega), set_same, set_other _ _ (by omega), set_other _ _ (by omega), set_same,
    set_other _ _ (by omega), set_same, byte_toNat, byte_toNat, byte_toNat, byte_toNat, Nat.shiftRight_eq_div_pow, Nat.shiftRight_eq_div_pow, Nat.shiftRight_eq_div_pow]
  omega

theorem ldClust_start (ty : Ty) (w : Sector) (o : Nat) : ldClust ty w o = Spec.start ty w o := by
  unfold ldClust Spec.start
  cases ty <;> dsimp only
  · rw [ld_le2, if_neg (by decide)]; rfl
  · rw [ld_le2, if_neg (by decide)]; rfl
  · rw [ld_le2, ld_le2, if_pos rfl, Nat.or_comm, or_shift _ _ 16 (le2_lt _ _)]
    omega

theorem stClust_other (w : Sector) (o v : Nat) {j : Nat} (h : (j < o + 20 ∨ o + 22 ≤ j) ∧ (j < o + 26 ∨ o + 28 ≤ j)) : stClust w o v j = w j := by
  unfold stClust
  rw [stWord_other _ _ _ h.1, stWord_other _ _ _ h.2]

theorem start_congr {ty : Ty} {w w' : Sector} {o : Nat} (h : ∀ j, (o + 20 ≤ j ∧ j < o + 22) ∨ (o + 26 ≤ j ∧ j < o + 28) → w j = w' j) : Spec.start ty w o = Spec.start ty w' o := by
  unfold Spec.start
  rw [le2_congr (i := o + 26) fun j a b => h j (Or.inr ⟨a, by omega⟩), le2_congr (i := o + 20) fun j a b => h j (Or.inl ⟨a, by omega⟩)]

theorem start_st (ty : Ty) (w : Sector) (o v : Nat) (hv : v < Spec.range ty) : Spec.start ty (stClust w o v) o = v := by
  unfold Spec.start stClust
  rw [le2_st, le2_congr (w' := stWord w (o + 26) v) fun j a b => stWord_other _ _ _ (by omega), le2_st, Nat.shiftRight_eq_div_pow]
  cases ty <;> unfold Spec.range at hv <;> dsimp only at hv
  · rw [if_neg (by decide)]; omega
  · rw [if_neg (by decide)]; omega
  · rw [if_pos rfl]; omega

/-- The entry after `f_sync` -/
theorem putEntry_spec (ty : Ty) (w : Sector) (o : Nat) (fp : Fil) (tm : Nat) (h1 : fp.fsize < 4294967296) (h2 : fp.sclust < Spec.range ty) :
    Spec.size (putEntry w o fp tm) o = fp.fsize ∧ Spec.start ty (putEntry w o fp tm) o = fp.sclust ∧ putEntry w o fp tm (o + 11) = w (o + 11) ||| 0x20 ∧
      (∀ j, j < o + 11 ∨ o + 32 ≤ j → putEntry w o fp tm j = w j) := by
  unfold putEntry
  dsimp only
  refine ⟨?_, ?_, ?_, fun j hj => ?_⟩
  · unfold Spec.size
    rw [le4_congr (w' := stDword (set w (o + 11) (w (o + 11) ||| 0x20)) (o + 28) fp.fsize), le4_st]
    · omega
    · intro j a b
      rw [stWord_other _ _ _ (by omega), stDword_other _ _ _ (by omega), stClust_other _ _ _ (by omega)]
  · rw [start_congr (w' := stClust (stDword (set w (o + 11) (w (o + 11) ||| 0x20)) (o + 28) fp.fsize) o fp.sclust), start_st _ _ _ _ h2]
    intro j hj
    rw [stWord_other _ _ _ (by omega), stDword_other _ _ _ (by omega)]
  · rw [stWord_other _ _ _ (by omega), stDword_other _ _ _ (by omega), stClust_other _ _ _ (by omega), stDword_other _ _ _ (by omega), set_same]
  · rw [stWord_other _ _ _ (by omega), stDword_other _ _ _ (by omega), stClust_other _ _ _ (by omega), stDword_other _ _ _ (by omega), set_other _ _ (by omega)]

/-- The entry of an overwritten file -/
theorem resetEntry_spec (ty : Ty) (w : Sector) (o tm : Nat) :
    Spec.size (resetEntry w o tm) o = 0 ∧ Spec.start ty (resetEntry w o tm) o = 0 ∧ resetEntry w o tm (o + 11) = 0 ∧ (∀ j, j < o + 11 ∨ o + 32 ≤ j → resetEntry w o tm j = w j) := by
  unfold resetEntry
  dsimp only
  refine ⟨?_, start_st _ _ _ _ (by cases ty <;> decide), ?_, fun j hj => ?_⟩
  · unfold Spec.size
    rw [le4_congr (w' := stDword (set (stDword w (o + 14) tm) (o + 11) 0) (o + 28) 0), le4_st]
    · intro j a b
      rw [stClust_other _ _ _ (by omega)]
  · rw [stClust_other _ _ _ (by omega), stDword_other _ _ _ (by omega), set_same]
  · rw [stClust_other _ _ _ (by omega), stDword_other _ _ _ (by omega), set_other _ _ (by omega), stDword_other _ _ _ (by omega)]

/-! ## Moving the window -/

/-- A sector before the data area or in a cluster of the other files: where the window may be -/
def Fs.Aside (fs : Fs) (O : List (List Nat)) (s : Nat) : Prop := s < fs.database ∨ ∃ c, c ∈ O.flatten ∧ fs.first c ≤ s ∧ s < fs.first c + fs.csize

/-- The window moves, the table and all sectors outside of `Y` stay. -/
structure Shift (fs fs' : Fs) (O : List (List Nat)) (Y : Nat → Prop) : Prop where
  ty : fs'.ty = fs.ty
  csize : fs'.csize = fs.csize
  nFats : fs'.nFats = fs.nFats
  nFatent : fs'.nFatent = fs.nFatent
  fsize : fs'.fsize = fs.fsize
  fatbase : fs'.fatbase = fs.fatbase
  database : fs'.database = fs.database
  ok : fs'.Ok
  copies : fs.Copies → fs'.Copies
  outside : ∀ s, ¬ fs.InCopies s → ¬ fs.InTable s → ¬ Y s → fs'.look s = fs.look s
  entries : ∀ c, c < fs.nFatent → fs'.entryAt c = fs.entryAt c
  aside : fs.Aside O fs'.winsect

theorem Shift.inCopies {a b : Fs} {O : List (List Nat)} {Y : Nat → Prop} (h : Shift a b O Y) (s : Nat) : b.InCopies s ↔ a.InCopies s := by
  unfold Fs.InCopies
  rw [h.fatbase, h.fsize, h.nFats]

theorem Shift.inTable {a b : Fs} {O : List (List Nat)} {Y : Nat → Prop} (h : Shift a b O Y) (s : Nat) : b.InTable s ↔ a.InTable s := by
  unfold Fs.InTable
  rw [h.fatbase, h.fsize]

theorem Shift.first {a b : Fs} {O : List (List Nat)} {Y : Nat → Prop} (h : Shift a b O Y) (c : Nat) : b.first c = a.first c := by
  unfold Fs.first
  rw [h.csize, h.database]

theorem Shift.sec {a b : Fs} {O : List (List Nat)} {Y : Nat → Prop} (h : Shift a b O Y) (L : List Nat) (i : Nat) : b.sec L i = a.sec L i := by
  unfold Fs.sec
  rw [h.first, h.csize]

theorem Shift.aside_iff {a b : Fs} {O : List (List Nat)} {Y : Nat → Prop} (h : Shift a b O Y) (s : Nat) : b.Aside O s ↔ a.Aside O s := by
  unfold Fs.Aside
  rw [h.database, h.csize]
  simp only [h.first]

theorem Shift.loose {a b : Fs} {O : List (List Nat)} {Y : Nat → Prop} (h : Shift a b O Y) (s : Nat) : b.Loose O s ↔ a.Loose O s := by
  unfold Fs.Loose
  rw [h.database, h.csize]
  simp only [h.first]

theorem Shift.trans {a b c : Fs} {O : List (List Nat)} {Y : Nat → Prop} (h : Shift a b O Y) (k : Shift b c O Y) : Shift a c O Y := by
  refine ⟨k.ty.trans h.ty, k.csize.trans h.csize, k.nFats.trans h.nFats, k.nFatent.trans h.nFatent, k.fsize.trans h.fsize, k.fatbase.trans h.fatbase,
    k.database.trans h.database, k.ok, fun x => k.copies (h.copies x), fun s h1 h2 h3 => ?_, fun c hc => ?_, (h.aside_iff _).mp k.aside⟩
  · rw [k.outside s (by rw [h.inCopies]; exact h1) (by rw [h.inTable]; exact h2) h3, h.outside s h1 h2 h3]
  · rw [k.entries c (by rw [h.nFatent]; exact hc), h.entries c hc]

theorem Shift.mono {a b : Fs} {O : List (List Nat)} {Y Z : Nat → Prop} (h : Shift a b O Y) (hYZ : ∀ s, Y s → Z s) : Shift a b O Z :=
  ⟨h.ty, h.csize, h.nFats, h.nFatent, h.fsize, h.fatbase, h.database, h.ok, h.copies, fun s h1 h2 h3 => h.outside s h1 h2 fun x => h3 (hYZ s x), h.entries, h.aside⟩

/-- Same volume, other window and disk -/
theorem Fs.layout_with {fs : Fs} (h : fs.Layout) {f : Fs} (e1 : f.ty = fs.ty) (e2 : f.csize = fs.csize) (e3 : f.nFats = fs.nFats) (e4 : f.nFatent = fs.nFatent) (e5 : f.fsize = fs.fsize)
    (e6 : f.fatbase = fs.fatbase) (e7 : f.database = fs.database) : f.Layout := by
  constructor
  · rw [e3]; exact h.fats
  · rw [e6]; exact h.base
  · rw [e6, e3, e5, e7]; exact h.area
  · rw [e7, e2, e4]; exact h.data
  · rw [e1, e4, e5]; exact h.table
  · rw [e1, e4]; exact h.ents
  · rw [e2]; exact h.clus

/-- Entries are read from the sectors of the table. -/
theorem entries_of_look {fs f : Fs} (h : fs.Layout) (e1 : f.ty = fs.ty) (e6 : f.fatbase = fs.fatbase) (hl : ∀ s, fs.InTable s → ∀ j, j < 512 → f.look s j = fs.look s j) :
    ∀ c, c < fs.nFatent → f.entryAt c = fs.entryAt c := by
  intro c hc
  unfold Fs.entryAt
  rw [e1]
  refine entry_congr h.table (fun i hi => ?_) hc
  unfold Fs.tab
  rw [e6]
  exact hl _ (by unfold Fs.InTable; omega) _ (Nat.mod_lt _ (by decide))

theorem move_shift {env : Env} (hq : Quiet env) (fs : Fs) (h : fs.Ok) (O : List (List Nat)) (s : Nat) (hs : s < 4294967296) (hc : ¬ fs.InCopies s) (ha : fs.Aside O s) :
    ∃ fs', fs.move env s = (fs', true) ∧ fs'.winsect = s ∧ Shift fs fs' O (fun _ => False) ∧ fs'.win = fs'.look s ∧ fs'.lastClust = fs.lastClust ∧ fs'.freeClust = fs.freeClust ∧ fs'.fsiFlag = fs.fsiFlag := by
  obtain ⟨a, b, c⟩ := fs.move_quiet hq h s hs hc
  refine ⟨(fs.move env s).1, Prod.ext rfl a, b, ⟨c.same.ty, c.same.csize, c.same.nFats, c.same.nFatent, c.same.fsize, c.same.fatbase, c.same.database, c.ok, c.copies,
    fun s' h1 h2 _ => c.outside s' h1 h2, fun x hx => ?_, by rw [b]; exact ha⟩, ?_, c.same.lastClust, c.same.freeClust, c.same.fsiFlag⟩
  · unfold Fs.entryAt
    rw [c.same.ty]
    exact entry_congr h.layout.table (fun i hi => c.table i hi) hx
  · unfold Fs.look
    rw [if_pos b.symm]

theorem sync_shift {env : Env} (hq : Quiet env) (fs : Fs) (h : fs.Ok) (O : List (List Nat)) (ha : fs.Aside O fs.winsect) :
    ∃ fs', fs.sync env = (fs', true) ∧ fs'.winsect = fs.winsect ∧ fs'.wflag = false ∧ Shift fs fs' O (fun _ => False) ∧ fs'.lastClust = fs.lastClust ∧ fs'.freeClust = fs.freeClust ∧
      fs'.fsiFlag = fs.fsiFlag := by
  obtain ⟨D, T, e, d1, d2, d3⟩ := fs.sync_quiet hq h
  have look : ∀ s, ¬ fs.InCopies s → ({ fs with wflag := false, disk := D, t := T } : Fs).look s = fs.look s := by
    intro s hs
    unfold Fs.look
    dsimp only
    by_cases k : s = fs.winsect
    · rw [if_pos k, if_pos k]
    · rw [if_neg k, if_neg k, d2 s hs k]
  refine ⟨_, e, rfl, rfl, ⟨rfl, rfl, rfl, rfl, rfl, rfl, rfl, ⟨Fs.layout_with h.layout rfl rfl rfl rfl rfl rfl rfl, fun _ => d1.symm, h.away, h.small⟩,
    fun hc i hi _ k hk => d3 hc i hi k hk, fun s h1 _ _ => look s h1, entries_of_look h.layout rfl rfl fun s hs j _ => ?_, ha⟩, rfl, rfl, rfl⟩
  rw [look s (by unfold Fs.InCopies Fs.InTable at *; omega)]

/-- The window is changed at a sector outside of the tables. -/
theorem poke_shift (fs : Fs) (h : fs.Ok) (O : List (List Nat)) (w : Sector) (ha : fs.Aside O fs.winsect) (ht : ¬ fs.InTable fs.winsect) :
    Shift fs { fs with win := w, wflag := true } O (fun s => s = fs.winsect) := by
  have look : ∀ s, s ≠ fs.winsect → ({ fs with win := w, wflag := true } : Fs).look s = fs.look s := by
    intro s hs
    unfold Fs.look
    dsimp only
    rw [if_neg hs, if_neg hs]
  refine ⟨rfl, rfl, rfl, rfl, rfl, rfl, rfl, ⟨Fs.layout_with h.layout rfl rfl rfl rfl rfl rfl rfl, fun x => Bool.noConfusion x, h.away, h.small⟩,
    fun hc i hi hne k hk => hc i hi (fun _ => hne rfl) k hk, fun s _ _ h3 => look s h3, entries_of_look h.layout rfl rfl fun s hs j _ => ?_, ha⟩
  rw [look s (fun e => ht (e ▸ hs))]

theorem look_clean {fs : Fs} (h : fs.Ok) (hw : fs.wflag = false) (s : Nat) : fs.look s = fs.disk s := by
  unfold Fs.look
  split
  · rename_i e
    rw [e]
    exact h.clean hw
  · rfl

/-- The FSINFO sector is written. -/
theorem info_shift {env : Env} (hq : Quiet env) (vol : Nat) (fs : Fs) (h : fs.Ok) (O : List (List Nat)) (hw : fs.wflag = false) (hv : vol + 1 < fs.fatbase) :
    Shift fs (fs.info env vol) O (fun s => s = vol + 1) ∧ (fs.info env vol).wflag = false ∧ (fs.info env vol).disk (vol + 1) = fs.infoSector ∧
      ∀ s, s ≠ vol + 1 → (fs.info env vol).disk s = fs.disk s := by
  have hl := Fs.layout_fatend h.layout
  have harea := h.layout.area
  have hu : u32 (vol + 1) = vol + 1 := u32_of (by omega)
  unfold Fs.info
  rw [Fs.write_quiet hq, hu]
  dsimp only
  refine ⟨⟨rfl, rfl, rfl, rfl, rfl, rfl, rfl, ⟨Fs.layout_with h.layout rfl rfl rfl rfl rfl rfl rfl, fun _ => (set_same _ _ _).symm, ?_, ?_⟩, fun hc i hi _ k hk => ?_, fun s _ _ h3 => ?_,
    entries_of_look h.layout rfl rfl fun s hs j _ => ?_, Or.inl ?_⟩, hw, set_same _ _ _, fun s hs => set_other _ _ hs⟩
  · unfold Fs.InCopies
    dsimp only
    omega
  · dsimp only
    omega
  · dsimp only at hi hk ⊢
    rw [set_other _ _ (by omega), set_other _ _ (by omega)]
    exact hc i hi (fun e => by rw [hw] at e; exact Bool.noConfusion e) k hk
  · rw [look_clean h hw]
    unfold Fs.look
    dsimp only
    rw [if_neg h3, set_other _ _ h3]
  · rw [look_clean h hw]
    unfold Fs.InTable at hs
    unfold Fs.look
    dsimp only
    rw [if_neg (by omega), set_other _ _ (by omega)]
  · dsimp only
    omega

/-- `sync_fs` -/
theorem syncFs_shift {env : Env} (hq : Quiet env) (vol : Nat) (fs : Fs) (h : fs.Ok) (O : List (List Nat)) (ha : fs.Aside O fs.winsect) (hv : fs.ty = .fat32 → vol + 1 < fs.fatbase) :
    ∃ fs', fs.syncFs env vol = (fs', .ok) ∧ fs'.wflag = false ∧ Shift fs fs' O (fun s => fs.ty = .fat32 ∧ s = vol + 1) ∧
      (fs.ty = .fat32 → fs.fsiFlag = 1 → fs'.disk (vol + 1) = fs.infoSector) := by
  obtain ⟨f1, a1, a2, a3, a4, a5, a6, a7⟩ := sync_shift hq fs h O ha
  unfold Fs.syncFs
  rw [a1]
  dsimp only
  rw [if_pos rfl]
  have tick : ∀ f : Fs, f.Ok → f.wflag = false → (fs.Aside O f.winsect) → Shift fs f O (fun s => fs.ty = .fat32 ∧ s = vol + 1) → Shift fs { f with t := f.t + 1 } O (fun s => fs.ty = .fat32 ∧ s = vol + 1) :=
    fun f hk _ _ s => ⟨s.ty, s.csize, s.nFats, s.nFatent, s.fsize, s.fatbase, s.database, ⟨Fs.layout_with hk.layout rfl rfl rfl rfl rfl rfl rfl, hk.clean, hk.away, hk.small⟩, s.copies, s.outside, s.entries, s.aside⟩
  by_cases k : f1.ty = .fat32 ∧ f1.fsiFlag = 1
  · rw [if_pos k, hq, if_neg (by decide)]
    have h32 : fs.ty = .fat32 := by rw [← a4.ty]; exact k.1
    obtain ⟨b1, b2, b3, b4⟩ := info_shift hq vol f1 a4.ok O a3 (by rw [a4.fatbase]; exact hv h32)
    have hs := (a4.mono (Z := fun s => fs.ty = .fat32 ∧ s = vol + 1) fun _ x => x.elim).trans (b1.mono fun s x => ⟨h32, x⟩)
    refine ⟨_, rfl, b2, tick _ b1.ok b2 hs.aside hs, fun _ _ => ?_⟩
    rw [b3]
    unfold Fs.infoSector
    rw [a5, a6]
  · rw [if_neg k, hq, if_neg (by decide)]
    have hs := a4.mono (Z := fun s => fs.ty = .fat32 ∧ s = vol + 1) fun _ x => x.elim
    refine ⟨_, rfl, a3, tick _ a4.ok a3 hs.aside hs, fun x1 x2 => absurd ⟨by rw [a4.ty]; exact x1, by rw [a7]; exact x2⟩ k⟩

/-! ## The file -/

theorem Shift.disk {a b : Fs} {O : List (List Nat)} {Y : Nat → Prop} (h : Shift a b O Y) (hl : a.Layout) (ha : a.Aside O a.winsect) (hY : ∀ s, Y s → a.Aside O s) {s : Nat} (hs : a.Loose O s) :
    b.disk s = a.disk s := by
  have harea := hl.area
  have hend := Fs.layout_fatend hl
  have hno : ∀ x, a.Aside O x → s ≠ x := by
    rintro x hx rfl
    rcases hx with hx | ⟨c, c1, c2⟩
    · have := hs.1; omega
    · exact hs.2 c c1 c2
  have hd := hs.1
  have e := h.outside s (by unfold Fs.InCopies; omega) (by unfold Fs.InTable; omega) (fun hy => hno s (hY s hy) rfl)
  unfold Fs.look at e
  rwa [if_neg (hno _ h.aside), if_neg (hno _ ha)] at e

theorem Core.shift {fs f1 : Fs} {fp g : Fil} {L : List Nat} {O : List (List Nat)} {Y : Nat → Prop} (h : Core fs fp L O) (hs : Shift fs f1 O Y) (hY : ∀ s, Y s → fs.Aside O s)
    (hg : g = { fp with written := g.written }) : Core f1 g L O ∧ ∀ o, o < 512 * (L.length * fs.csize) → view f1 g L o = view fs fp L o := by
  have hl := h.ok.layout
  have hlo : ∀ {s}, fs.Mine L s → fs.Loose O s := fun hs => ⟨(mine_bounds hl h.files hs).1, (mine_bounds hl h.files hs).2.2.2⟩
  rw [hg]
  constructor
  · refine ⟨hs.ok, by rw [hs.csize]; exact h.pow, by rw [hs.nFatent]; exact files_congr h.files hs.entries, h.start, by rw [hs.csize]; exact h.ptr, by rw [hs.csize]; exact h.size,
      h.p32, fun hp => by rw [hs.csize]; exact h.clust hp, fun hp => by rw [hs.sec]; exact h.sect hp, fun hd => ?_, fun hd => ?_, (hs.aside_iff _).mpr hs.aside, h.d32⟩
    · rcases h.cache hd with z | z
      · exact Or.inl z
      · exact Or.inr ⟨(hs.loose _).mpr z.1, by rw [hs.disk hl h.away hY z.1]; exact z.2⟩
    · obtain ⟨i, i1, i2⟩ := h.mine hd
      exact ⟨i, by rw [hs.csize]; exact i1, by rw [hs.sec]; exact i2⟩
  · intro o ho
    have ho' : o / 512 < L.length * fs.csize := by
      generalize L.length * fs.csize = N at *
      omega
    unfold view cell
    rw [hs.sec]
    show (if fp.dirty = true ∧ _ = fp.dsect then fp.buf else _) _ = _
    rw [hs.disk hl h.away hY (hlo ⟨_, ho', rfl⟩)]

/-- The buffer of the file is written back. -/
theorem Core.flushed {env : Env} (hq : Quiet env) {fs : Fs} {fp : Fil} {L : List Nat} {O : List (List Nat)} (h : Core fs fp L O) :
    ∃ f1, fp.flush env fs = (f1, { fp with dirty := false }, true) ∧ Core f1 { fp with dirty := false } L O ∧ Mv fs f1 (fs.Mine L) ∧ (∀ c, c < fs.nFatent → f1.entryAt c = fs.entryAt c) ∧
      f1.winsect = fs.winsect ∧ ∀ o, o < 512 * (L.length * fs.csize) → view f1 { fp with dirty := false } L o = view fs fp L o := by
  obtain ⟨f1, a1, a2, a3, a4, a5, a6⟩ := flush_spec hq fs fp L O h.ok h.files h.away h.mine h.cache
  refine ⟨f1, a1, ⟨a2.ok, by rw [a2.csize]; exact h.pow, by rw [a2.nFatent]; exact files_congr h.files a3, h.start, by rw [a2.csize]; exact h.ptr, by rw [a2.csize]; exact h.size,
    h.p32, fun hp => by rw [a2.csize]; exact h.clust hp, fun hp => by rw [a2.sec]; exact h.sect hp, fun _ => ?_, fun hd => Bool.noConfusion hd, a2.away h.ok.layout h.away, h.d32⟩, a2, a3, a6, fun o ho => ?_⟩
  · rcases a5 with z | z
    · exact Or.inl z
    · exact Or.inr ⟨(a2.loose ..).mpr z.1, z.2⟩
  · unfold view
    rw [a2.sec]
    show cell f1 _ _ _ = _
    have : cell f1 { fp with dirty := false } (fs.sec L (o / 512)) = f1.disk (fs.sec L (o / 512)) := if_neg fun x => Bool.noConfusion x.1
    rw [this, a4]

end Verif.Fat
