import Verif.Fat.FreeProps
import Verif.Fat.FileModel

/-!
# FatFs: lemmas on open files
-/

namespace Verif.Fat

open Spec (Ty Chain Files order freeCount)

/-- The chains of a file: none if it has no cluster -/
def own (L : List Nat) : List (List Nat) := if L = [] then [] else [L]

theorem own_flatten (L : List Nat) : (own L).flatten = L := by
  unfold own
  split
  · rename_i h; rw [h]; rfl
  · simp

theorem own_cons {L : List Nat} (h : L ≠ []) : own L = [L] := if_neg h

/-- The first sector of cluster `c` -/
def Fs.first (fs : Fs) (c : Nat) : Nat := (c - 2) * fs.csize + fs.database

/-- Sector number `i` of the file with the clusters `L` -/
def Fs.sec (fs : Fs) (L : List Nat) (i : Nat) : Nat := fs.first (L.getD (i / fs.csize) 0) + i % fs.csize

/-- A sector as the file sees it: the buffer stands for its sector while it is changed. -/
def cell (fs : Fs) (fp : Fil) (s : Nat) : Sector := if fp.dirty = true ∧ s = fp.dsect then fp.buf else fs.disk s

/-- Byte `o` of the file -/
def view (fs : Fs) (fp : Fil) (L : List Nat) (o : Nat) : BitVec 8 := cell fs fp (fs.sec L (o / 512)) (o % 512)

/-- What an operation on a file leaves: the volume, and every sector outside of the tables and of `X` -/
structure Mv (fs fs' : Fs) (X : Nat → Prop) : Prop where
  ty : fs'.ty = fs.ty
  csize : fs'.csize = fs.csize
  nFats : fs'.nFats = fs.nFats
  nFatent : fs'.nFatent = fs.nFatent
  fsize : fs'.fsize = fs.fsize
  fatbase : fs'.fatbase = fs.fatbase
  database : fs'.database = fs.database
  ok : fs'.Ok
  copies : fs.Copies → fs'.Copies
  outside : ∀ s, ¬ fs.InCopies s → ¬ fs.InTable s → ¬ X s → fs'.look s = fs.look s
  wins : fs'.winsect = fs.winsect ∨ fs.InTable fs'.winsect

theorem Step.mv {a b : Fs} {f : Nat → Nat} (h : Step a b f) (X : Nat → Prop) : Mv a b X :=
  ⟨h.ty, h.csize, h.nFats, h.nFatent, h.fsize, h.fatbase, h.database, h.ok, h.copies, fun s h1 h2 _ => h.outside s h1 h2, h.wins⟩

theorem Mv.refl {a : Fs} (h : a.Ok) (X : Nat → Prop) : Mv a a X := ⟨rfl, rfl, rfl, rfl, rfl, rfl, rfl, h, id, fun _ _ _ _ => rfl, Or.inl rfl⟩

theorem Mv.inCopies {a b : Fs} {X : Nat → Prop} (h : Mv a b X) (s : Nat) : b.InCopies s ↔ a.InCopies s := by
  unfold Fs.InCopies
  rw [h.fatbase, h.fsize, h.nFats]

theorem Mv.inTable {a b : Fs} {X : Nat → Prop} (h : Mv a b X) (s : Nat) : b.InTable s ↔ a.InTable s := by
  unfold Fs.InTable
  rw [h.fatbase, h.fsize]

theorem Mv.trans {a b c : Fs} {X : Nat → Prop} (h : Mv a b X) (k : Mv b c X) : Mv a c X := by
  refine ⟨k.ty.trans h.ty, k.csize.trans h.csize, k.nFats.trans h.nFats, k.nFatent.trans h.nFatent, k.fsize.trans h.fsize, k.fatbase.trans h.fatbase,
    k.database.trans h.database, k.ok, fun x => k.copies (h.copies x), fun s h1 h2 h3 => ?_, ?_⟩
  · rw [k.outside s (by rw [h.inCopies]; exact h1) (by rw [h.inTable]; exact h2) h3, h.outside s h1 h2 h3]
  · rcases k.wins with e | e
    · rw [e]; exact h.wins
    · exact Or.inr ((h.inTable _).mp e)

theorem Mv.mono {a b : Fs} {X Y : Nat → Prop} (h : Mv a b X) (hXY : ∀ s, X s → Y s) : Mv a b Y :=
  ⟨h.ty, h.csize, h.nFats, h.nFatent, h.fsize, h.fatbase, h.database, h.ok, h.copies, fun s h1 h2 h3 => h.outside s h1 h2 fun hx => h3 (hXY s hx), h.wins⟩

theorem Mv.first {a b : Fs} {X : Nat → Prop} (h : Mv a b X) (c : Nat) : b.first c = a.first c := by
  unfold Fs.first
  rw [h.csize, h.database]

theorem Mv.sec {a b : Fs} {X : Nat → Prop} (h : Mv a b X) (L : List Nat) (i : Nat) : b.sec L i = a.sec L i := by
  unfold Fs.sec
  rw [h.first, h.csize]

/-- Sectors of the data area, apart from the one in the window, are written directly. -/
theorem data_mv {fs : Fs} (h : fs.Ok) (D : Nat → Sector) (T : Nat) (X : Nat → Prop) (hX : ∀ s, X s → fs.database ≤ s ∧ s ≠ fs.winsect) (hD : ∀ s, ¬ X s → D s = fs.disk s) :
    Mv fs { fs with disk := D, t := T } X ∧ ∀ c, c < fs.nFatent → ({ fs with disk := D, t := T } : Fs).entryAt c = fs.entryAt c := by
  have harea := h.layout.area
  have hend := Fs.layout_fatend h.layout
  have hw : ∀ s, ¬ X s → ({ fs with disk := D, t := T } : Fs).look s = fs.look s := by
    intro s hs
    unfold Fs.look
    dsimp only
    rw [hD s hs]
  constructor
  · refine ⟨rfl, rfl, rfl, rfl, rfl, rfl, rfl, ⟨⟨h.layout.fats, h.layout.base, h.layout.area, h.layout.data, h.layout.table, h.layout.ents, h.layout.clus⟩, fun hf => ?_, h.away, h.small⟩,
      fun hc i hi hne k hk => ?_, fun s _ _ hs => hw s hs, Or.inl rfl⟩
    · show fs.win = D fs.winsect
      rw [hD _ (fun hx => (hX _ hx).2 rfl)]
      exact h.clean hf
    · have a2 : k * fs.fsize + fs.fsize ≤ fs.nFats * fs.fsize := by
        rw [← Nat.succ_mul]
        exact Nat.mul_le_mul_right _ hk
      dsimp only at hi
      show D (fs.fatbase + i + k * fs.fsize) = D (fs.fatbase + i)
      rw [hD _ (fun hx => by have := (hX _ hx).1; omega), hD _ (fun hx => by have := (hX _ hx).1; omega)]
      exact hc i hi hne k hk
  · intro c hc
    unfold Fs.entryAt
    refine entry_congr h.layout.table (fun i hi => ?_) hc
    unfold Fs.tab
    exact congrFun (hw _ fun hx => by
      have := (hX _ hx).1
      dsimp only at this
      omega) _

/-! ## Sectors of a file -/

theorem first_bounds {fs : Fs} (l : fs.Layout) {c : Nat} (h1 : 2 ≤ c) (h2 : c < fs.nFatent) :
    fs.database ≤ fs.first c ∧ fs.first c + fs.csize ≤ 4294967296 := by
  have hd := l.data
  have e : (c - 2) * fs.csize + fs.csize ≤ fs.csize * (fs.nFatent - 2) := by
    rw [← Nat.succ_mul, Nat.mul_comm fs.csize]
    exact Nat.mul_le_mul_right _ (by omega)
  unfold Fs.first
  omega

/-- Sectors of different clusters are different. -/
theorem first_inj {fs : Fs} {c d x y : Nat} (hc : 2 ≤ c) (hd : 2 ≤ d) (hx : x < fs.csize) (hy : y < fs.csize) (h : fs.first c + x = fs.first d + y) : c = d ∧ x = y := by
  unfold Fs.first at h
  rcases Nat.lt_trichotomy c d with k | k | k
  · have : (c - 2) * fs.csize + fs.csize ≤ (d - 2) * fs.csize := by
      rw [← Nat.succ_mul]
      exact Nat.mul_le_mul_right _ (by omega)
    omega
  · subst k
    exact ⟨rfl, by omega⟩
  · have : (d - 2) * fs.csize + fs.csize ≤ (c - 2) * fs.csize := by
      rw [← Nat.succ_mul]
      exact Nat.mul_le_mul_right _ (by omega)
    omega

theorem clust2sect_eq {fs : Fs} (l : fs.Layout) {c : Nat} (h1 : 2 ≤ c) (h2 : c < fs.nFatent) : fs.clust2sect c = fs.first c ∧ fs.first c ≠ 0 := by
  have hb := first_bounds l h1 h2
  have hent := l.ents
  have hr := range_le fs.ty
  have hc := l.clus
  have hbase := l.base
  have hend := Fs.layout_fatend l
  have s2 : ∀ x, 2 ≤ x → x < 4294967296 → sub32 x 2 = x - 2 := by
    intro x a b
    unfold sub32 u32
    rw [show x + 4294967296 - 2 = (x - 2) + 4294967296 by omega, Nat.add_mod_right, Nat.mod_eq_of_lt (by omega)]
  unfold Fs.clust2sect
  dsimp only
  rw [s2 c h1 (by omega), s2 fs.nFatent (by omega) (by omega), if_neg (by omega)]
  constructor
  · exact u32_of (by unfold Fs.first at hb; omega)
  · omega

theorem sec_mem {fs : Fs} {L : List Nat} {i : Nat} (hi : i < L.length * fs.csize) (hc : 1 ≤ fs.csize) :
    i / fs.csize < L.length ∧ L.getD (i / fs.csize) 0 ∈ L ∧ i % fs.csize < fs.csize := by
  have h1 : i / fs.csize < L.length := (Nat.div_lt_iff_lt_mul hc).mpr hi
  refine ⟨h1, ?_, Nat.mod_lt _ hc⟩
  rw [List.getD_eq_getElem?_getD, List.getElem?_eq_getElem h1]
  exact List.getElem_mem h1

theorem sec_add {fs : Fs} {L : List Nat} {i q : Nat} (h : i % fs.csize + q < fs.csize) : fs.sec L (i + q) = fs.sec L i + q := by
  have e := Nat.div_add_mod i fs.csize
  have hc : 0 < fs.csize := by omega
  have e1 : (i + q) / fs.csize = i / fs.csize := by
    rw [show i + q = fs.csize * (i / fs.csize) + (i % fs.csize + q) by omega, Nat.mul_add_div hc, Nat.div_eq_of_lt h, Nat.add_zero]
  have e2 : (i + q) % fs.csize = i % fs.csize + q := by
    rw [show i + q = fs.csize * (i / fs.csize) + (i % fs.csize + q) by omega, Nat.mul_add_mod, Nat.mod_eq_of_lt h]
  unfold Fs.sec
  rw [e1, e2]
  omega

theorem sec_prefix {fs : Fs} {L M : List Nat} {i : Nat} (hi : i < L.length * fs.csize) (hc : 1 ≤ fs.csize) : fs.sec (L ++ M) i = fs.sec L i := by
  have h1 : i / fs.csize < L.length := (Nat.div_lt_iff_lt_mul hc).mpr hi
  unfold Fs.sec
  rw [List.getD_eq_getElem?_getD, List.getD_eq_getElem?_getD, List.getElem?_append_left h1]

theorem nodup_getD {L : List Nat} (h : L.Nodup) {i j : Nat} (hi : i < L.length) (hj : j < L.length) (e : L.getD i 0 = L.getD j 0) : i = j := by
  rw [List.getD_eq_getElem?_getD, List.getD_eq_getElem?_getD, List.getElem?_eq_getElem hi, List.getElem?_eq_getElem hj] at e
  exact (List.Nodup.getElem_inj_iff h).mp e

theorem sec_inj {fs : Fs} {L : List Nat} (hn : L.Nodup) (h2 : ∀ c ∈ L, 2 ≤ c) (hc : 1 ≤ fs.csize) {i j : Nat} (hi : i < L.length * fs.csize) (hj : j < L.length * fs.csize)
    (e : fs.sec L i = fs.sec L j) : i = j := by
  obtain ⟨i1, i2, i3⟩ := sec_mem hi hc
  obtain ⟨j1, j2, j3⟩ := sec_mem hj hc
  unfold Fs.sec at e
  obtain ⟨a, b⟩ := first_inj (h2 _ i2) (h2 _ j2) i3 j3 e
  have d := nodup_getD hn i1 j1 a
  have ei := Nat.div_add_mod i fs.csize
  have ej := Nat.div_add_mod j fs.csize
  rw [← ei, ← ej, d, b]

/-! ## The state of an open file -/

/-- A sector of the data area that belongs to none of the chains `O` -/
def Fs.Loose (fs : Fs) (O : List (List Nat)) (s : Nat) : Prop := fs.database ≤ s ∧ ∀ c ∈ O.flatten, ¬ (fs.first c ≤ s ∧ s < fs.first c + fs.csize)

/-- The volume and the open file with the clusters `L` beside the chains `O` of the other files; sectors are counted from the start of the file. -/
structure Core (fs : Fs) (fp : Fil) (L : List Nat) (O : List (List Nat)) : Prop where
  ok : fs.Ok
  pow : ∃ p, p ≤ 7 ∧ fs.csize = 2 ^ p
  files : Files fs.entryAt fs.nFatent (own L ++ O)
  start : fp.sclust = L.headD 0
  ptr : fp.fptr ≤ 512 * (L.length * fs.csize)
  size : fp.fsize ≤ 512 * (L.length * fs.csize)
  p32 : fp.fptr < 4294967296
  clust : 0 < fp.fptr → fp.clust = L.getD ((fp.fptr - 1) / 512 / fs.csize) 0
  sect : fp.fptr % 512 ≠ 0 → fp.dsect = fs.sec L (fp.fptr / 512)
  cache : fp.dirty = false → fp.dsect = 0 ∨ fs.Loose O fp.dsect ∧ fp.buf = fs.disk fp.dsect
  mine : fp.dirty = true → ∃ i, i < L.length * fs.csize ∧ fp.dsect = fs.sec L i
  away : fs.winsect < fs.database ∨ ∃ c, c ∈ O.flatten ∧ fs.first c ≤ fs.winsect ∧ fs.winsect < fs.first c + fs.csize
  d32 : fp.dsect < 4294967296

/-- The sectors of the file -/
def Fs.Mine (fs : Fs) (L : List Nat) (s : Nat) : Prop := ∃ i, i < L.length * fs.csize ∧ s = fs.sec L i

theorem files_bounds {fs : Fs} {L : List Nat} {O : List (List Nat)} (h : Files fs.entryAt fs.nFatent (own L ++ O)) :
    L.Nodup ∧ (∀ c ∈ L, 2 ≤ c ∧ c < fs.nFatent ∧ c ∉ O.flatten) ∧ (∀ c ∈ O.flatten, 2 ≤ c ∧ c < fs.nFatent) := by
  have hap := h.apart
  rw [List.flatten_append, own_flatten, List.nodup_append] at hap
  obtain ⟨a, b, c⟩ := hap
  have key : ∀ c ∈ (own L ++ O).flatten, 2 ≤ c ∧ c < fs.nFatent := by
    intro c hc
    obtain ⟨M, hM, hcM⟩ := List.mem_flatten.mp hc
    obtain ⟨x, hx⟩ := h.chains M hM
    exact ⟨(hx.mem hcM).1, (hx.mem hcM).2.1⟩
  rw [List.flatten_append, own_flatten] at key
  exact ⟨a, fun x hx => ⟨(key x (List.mem_append_left _ hx)).1, (key x (List.mem_append_left _ hx)).2, fun hO => c x hx x hO rfl⟩,
    fun x hx => key x (List.mem_append_right _ hx)⟩

theorem mine_bounds {fs : Fs} {L : List Nat} {O : List (List Nat)} (hl : fs.Layout) (h : Files fs.entryAt fs.nFatent (own L ++ O)) {s : Nat} (hs : fs.Mine L s) :
    fs.database ≤ s ∧ s < 4294967296 ∧ s ≠ 0 ∧ ∀ c ∈ O.flatten, ¬ (fs.first c ≤ s ∧ s < fs.first c + fs.csize) := by
  obtain ⟨i, hi, rfl⟩ := hs
  obtain ⟨n, b, b'⟩ := files_bounds h
  obtain ⟨h1, h2, h3⟩ := sec_mem hi hl.clus
  obtain ⟨c1, c2, c3⟩ := b _ h2
  obtain ⟨d1, d2⟩ := first_bounds hl c1 c2
  have hbase := hl.base
  have hend := Fs.layout_fatend hl
  refine ⟨?_, ?_, ?_, fun c hc hin => ?_⟩
  · unfold Fs.sec; omega
  · unfold Fs.sec; omega
  · unfold Fs.sec; omega
  · obtain ⟨e1, e2⟩ := b' c hc
    unfold Fs.sec at hin
    obtain ⟨k, hk⟩ : ∃ k, fs.first (L.getD (i / fs.csize) 0) + i % fs.csize = fs.first c + k := ⟨_, (Nat.add_sub_cancel' hin.1).symm⟩
    have := first_inj (fs := fs) c1 e1 h3 (by omega) hk
    exact c3 (this.1 ▸ hc)

/-- The window has no sector of the file. -/
theorem mine_away {fs : Fs} {L : List Nat} {O : List (List Nat)} (hl : fs.Layout) (h : Files fs.entryAt fs.nFatent (own L ++ O))
    (ha : fs.winsect < fs.database ∨ ∃ c, c ∈ O.flatten ∧ fs.first c ≤ fs.winsect ∧ fs.winsect < fs.first c + fs.csize) {s : Nat} (hs : fs.Mine L s) : s ≠ fs.winsect := by
  obtain ⟨b1, b2, b3, b4⟩ := mine_bounds hl h hs
  rintro rfl
  rcases ha with ha | ⟨c, c1, c2⟩
  · omega
  · exact b4 c c1 c2

/-- Sectors of the data area are not moved by operations on the table. -/
theorem Mv.disk {a b : Fs} {X : Nat → Prop} (h : Mv a b X) (hl : a.Layout) {s : Nat} (hs : a.database ≤ s) (hw : s ≠ a.winsect) (hX : ¬ X s) : b.disk s = a.disk s := by
  have harea := hl.area
  have hend := Fs.layout_fatend hl
  have h1 : ¬ a.InCopies s := by unfold Fs.InCopies; omega
  have h2 : ¬ a.InTable s := by unfold Fs.InTable; omega
  have e := h.outside s h1 h2 hX
  unfold Fs.look at e
  have hw' : s ≠ b.winsect := by
    rcases h.wins with k | k
    · rw [k]; exact hw
    · rintro rfl; exact h2 k
  rwa [if_neg hw, if_neg hw'] at e

theorem Mv.away {a b : Fs} {X : Nat → Prop} (h : Mv a b X) (hl : a.Layout) {O : List (List Nat)}
    (ha : a.winsect < a.database ∨ ∃ c, c ∈ O.flatten ∧ a.first c ≤ a.winsect ∧ a.winsect < a.first c + a.csize) :
    b.winsect < b.database ∨ ∃ c, c ∈ O.flatten ∧ b.first c ≤ b.winsect ∧ b.winsect < b.first c + b.csize := by
  rcases h.wins with e | e
  · rw [e, h.database, h.csize]
    rcases ha with ha | ⟨c, c1, c2⟩
    · exact Or.inl ha
    · exact Or.inr ⟨c, c1, by rw [h.first]; exact c2⟩
  · left
    have hend := Fs.layout_fatend hl
    rw [h.database]
    unfold Fs.InTable at e
    omega

theorem Mv.loose {a b : Fs} {X : Nat → Prop} (h : Mv a b X) (O : List (List Nat)) (s : Nat) : b.Loose O s ↔ a.Loose O s := by
  unfold Fs.Loose
  simp only [h.database, h.first, h.csize]

theorem loose_away {fs : Fs} {O : List (List Nat)}
    (ha : fs.winsect < fs.database ∨ ∃ c, c ∈ O.flatten ∧ fs.first c ≤ fs.winsect ∧ fs.winsect < fs.first c + fs.csize) {s : Nat} (hs : fs.Loose O s) : s ≠ fs.winsect := by
  rintro rfl
  rcases ha with ha | ⟨c, c1, c2⟩
  · have := hs.1
    omega
  · exact hs.2 c c1 c2

theorem Core.csect {fs : Fs} {fp : Fil} {L : List Nat} {O : List (List Nat)} (h : Core fs fp L O) : Verif.Fat.csect fs fp = fp.fptr / 512 % fs.csize ∧ fs.csize ≤ 128 := by
  obtain ⟨p, hp, e⟩ := h.pow
  have h1 : fs.csize ≤ 128 := by
    rw [e]
    exact Nat.pow_le_pow_right (n := 2) (by decide) hp
  have h2 := h.ok.layout.clus
  refine ⟨?_, h1⟩
  unfold Verif.Fat.csect
  have e' : fp.fptr / 512 &&& (fs.csize - 1) = fp.fptr / 512 % fs.csize := by
    rw [e]
    exact Nat.and_two_pow_sub_one_eq_mod _ _
  rw [e']
  have : fp.fptr / 512 % fs.csize < fs.csize := Nat.mod_lt _ h2
  exact Nat.mod_eq_of_lt (by omega)

/-! ## The write back of the buffer -/

theorem Fs.writeMany_quiet {env : Env} (hq : Quiet env) (fs : Fs) (s n : Nat) (src : Nat → BitVec 8) :
    fs.writeMany env s n src = ({ fs with disk := fun x => if s ≤ x ∧ x < s + n then fun j => src ((x - s) * 512 + j) else fs.disk x, t := fs.t + 1 }, true) := by
  unfold Fs.writeMany
  rw [hq fs.t]
  rfl

theorem Fs.readMany_quiet {env : Env} (hq : Quiet env) (fs : Fs) (s : Nat) :
    fs.readMany env s = ({ fs with t := fs.t + 1 }, fun i => fs.disk (s + i / 512) (i % 512), true) := by
  unfold Fs.readMany
  rw [hq fs.t]
  rfl


theorem flush_spec {env : Env} (hq : Quiet env) (fs : Fs) (fp : Fil) (L : List Nat) (O : List (List Nat)) (hok : fs.Ok) (hf : Files fs.entryAt fs.nFatent (own L ++ O))
    (ha : fs.winsect < fs.database ∨ ∃ c, c ∈ O.flatten ∧ fs.first c ≤ fs.winsect ∧ fs.winsect < fs.first c + fs.csize)
    (hm : fp.dirty = true → fs.Mine L fp.dsect) (hcache : fp.dirty = false → fp.dsect = 0 ∨ fs.Loose O fp.dsect ∧ fp.buf = fs.disk fp.dsect) :
    ∃ fs', fp.flush env fs = (fs', { fp with dirty := false }, true) ∧ Mv fs fs' (fs.Mine L) ∧ (∀ c, c < fs.nFatent → fs'.entryAt c = fs.entryAt c) ∧
      (∀ s, fs'.disk s = cell fs fp s) ∧ (fp.dsect = 0 ∨ fs.Loose O fp.dsect ∧ fp.buf = fs'.disk fp.dsect) ∧ fs'.winsect = fs.winsect := by
  unfold Fil.flush
  cases hd : fp.dirty with
  | false =>
    refine ⟨fs, ?_, Mv.refl hok _, fun _ _ => rfl, fun s => ?_, hcache hd, rfl⟩
    · simp only [Bool.false_eq_true, if_false]
      rw [← hd]
    · unfold cell
      rw [hd]
      simp
  | true =>
    rw [if_pos rfl, fs.write_quiet hq]
    dsimp only
    rw [if_pos rfl]
    have hmd := hm hd
    have hb := mine_bounds hok.layout hf hmd
    have haw := mine_away hok.layout hf ha hmd
    obtain ⟨m1, m2⟩ := data_mv hok (set fs.disk fp.dsect fp.buf) (fs.t + 1) (fs.Mine L) (fun s hs => ⟨(mine_bounds hok.layout hf hs).1, mine_away hok.layout hf ha hs⟩)
      (fun s hs => set_other _ _ (by rintro rfl; exact hs hmd))
    refine ⟨_, rfl, m1, m2, fun s => ?_, Or.inr ⟨⟨hb.1, hb.2.2.2⟩, (set_same _ _ _).symm⟩, rfl⟩
    unfold cell set
    dsimp only
    rw [hd]
    by_cases e : s = fp.dsect
    · simp [e]
    · simp [e]

end Verif.Fat
