import Verif.Fat.ChangeModel
import Verif.Fat.ChangeSpec
import Verif.Fat.MkdirProps

/-!
# FatFs: attributes and times of files — properties
-/

namespace Verif.Fat

open Spec (Ty Item named FoundAt proper isDir readOnly Chain Files Text Origin Trail Walks Outcome Resolves nameOf stored Flagged Stamped le2)

/-- Entry `i` of the directory is `x` now. All else is as before, and all is on the disk. -/
structure Changed (fs fs' : Fs) (rt : Root) (cl : Nat) (L : List Nat) (S : Nat → Nat) (n : Nat) (O : List (List Nat)) (i : Nat) (x : Item) : Prop where
  holds : Holds fs' rt cl L S n O
  shape : Shape fs fs'
  dir : dirOf fs' S n = (dirOf fs S n).set i x
  names : ∀ gn j, FoundAt (dirOf fs' S n) gn j ↔ FoundAt (dirOf fs S n) gn j
  others : Others fs fs' O
  /-- also the root, if the directory is another one -/
  below : L ≠ [] → Below fs fs'
  entries : ∀ c, c < fs.nFatent → fs'.entryAt c = fs.entryAt c
  written : ∀ s, fs'.disk s = fs'.look s

/-- An entry is changed in the window, but not its name. -/
theorem edit_spec {rt : Root} {cl n : Nat} {L : List Nat} {S : Nat → Nat} {O : List (List Nat)} (fs : Fs) (h : Holds fs rt cl L S n O) (dp : Dir) {i : Nat}
    (hd : AtItem fs cl L S n dp i) (hwin : fs.winsect = dp.sect) {e : Item} (he : (dirOf fs S n)[i]? = some e) (w : Sector) (x : Item)
    (hg1 : ∀ j, j < 32 → w (dp.off + j) = x j) (hx : ∀ j, 32 ≤ j → x j = 0) (hg2 : ∀ j, ¬ (dp.off ≤ j ∧ j < dp.off + 32) → w j = fs.win j) (h0 : x 0 = e 0) (hn : ∀ gn, named gn x ↔ named gn e) :
    Holds { fs with win := w, wflag := true } rt cl L S n O ∧ dirOf { fs with win := w, wflag := true } S n = (dirOf fs S n).set i x ∧ Shape fs { fs with win := w, wflag := true } ∧ Others fs { fs with win := w, wflag := true } O ∧
      (∀ c, c < fs.nFatent → ({ fs with win := w, wflag := true } : Fs).entryAt c = fs.entryAt c) ∧ ({ fs with win := w, wflag := true } : Fs).winsect = S (i / 16) ∧
      (L ≠ [] → Below fs { fs with win := w, wflag := true }) := by
  have hl := h.ok.layout
  have hi := hd.inside
  obtain ⟨q1, q2, q3, q4⟩ := h.area.sector hl (i := i / 16) (by omega)
  have hsect : fs.winsect = S (i / 16) := hwin.trans hd.sect
  have hE := edit_window h.ok (by rw [hsect]; exact q4) w
  have w4 : ({ fs with win := w, wflag := true } : Fs).winsect = fs.winsect := rfl
  generalize ({ fs with win := w, wflag := true } : Fs) = f4 at *
  rw [hsect] at hE w4
  have hD4 : dirOf f4 S n = (dirOf fs S n).set i x := by
    refine dirOf_edited h.area hl hi hE _ (fun j hj => ?_) hx fun j hj => ?_
    · rw [← hd.off]
      exact hg1 j hj
    · rw [hg2 j (by rw [hd.off]; omega)]
      unfold Fs.look
      rw [if_pos hsect.symm]
  refine ⟨⟨h.area.edited hE, hE.ok, by rw [hE.shape.2.1]; exact h.pow, files_edited hE h.files, ?_, ?_⟩, hD4, hE.shape, others_edited h.area hl h.files (i := i / 16) (by omega) hE, hE.entries, w4, fun hL => hE.below hl (area_high h.area hl hL (by omega))⟩
  · rw [hD4]
    exact same_tidy he h0 hn h.tidy
  · rw [hD4]
    exact same_distinct he h0 hn h.distinct

/-- All is written to the disk. -/
theorem settle_spec {env : Env} (hq : Quiet env) {rt : Root} {vol cl n : Nat} {L : List Nat} {S : Nat → Nat} {O : List (List Nat)} (fs : Fs) (h : Holds fs rt cl L S n O) (hv : fs.ty = .fat32 → vol + 1 < fs.fatbase) {k : Nat} (hk : k < n)
    (hw : fs.winsect = S k) :
    ∃ fs', fs.syncFs env vol = (fs', .ok) ∧ Holds fs' rt cl L S n O ∧ dirOf fs' S n = dirOf fs S n ∧ Shape fs fs' ∧ Others fs fs' O ∧ (∀ c, c < fs.nFatent → fs'.entryAt c = fs.entryAt c) ∧ (∀ s, fs'.disk s = fs'.look s) ∧ Below fs fs' := by
  have h4 : Holds fs rt cl L S n (own [] ++ O) := h
  obtain ⟨f5, e5, wf5, s5, _⟩ := syncFs_shift hq vol fs h.ok (own L ++ O) (by rw [hw]; exact window_aside _ h.area h.ok.layout hk) hv
  have sh5 : Shape fs f5 := ⟨s5.ty, s5.csize, s5.nFats, s5.nFatent, s5.fsize, s5.fatbase, s5.database⟩
  have hF5 : Files f5.entryAt f5.nFatent (own L ++ O) := by
    rw [s5.nFatent]
    exact files_congr h4.files s5.entries
  obtain ⟨h5, hD5, ot5⟩ := tables_only (M := []) h4 sh5 s5.ok
    (fun s k1 k2 k3 => by
      rw [s5.outside s k2 k3]
      rintro ⟨k4, k5⟩
      have := hv k4
      omega)
    (fun x hx => by rw [s5.entries x hx, if_neg (by simp)]) hF5
  refine ⟨f5, e5, h5, hD5, sh5, ot5, s5.entries, fun s => ?_, fun s h1 h2 => s5.outside s (below_tables h.ok.layout h1).1 (below_tables h.ok.layout h1).2 ?_⟩
  · unfold Fs.look
    by_cases hs : s = f5.winsect
    · rw [if_pos hs, hs, s5.ok.clean wf5]
    · rw [if_neg hs]
  · rintro ⟨k4, k5⟩
    have := hv k4
    generalize fs.nFats * fs.fsize = N at *
    omega

/-- An entry is changed in the window, but not its name, and written. -/
theorem change_spec {env : Env} (hq : Quiet env) {rt : Root} {vol cl n : Nat} {L : List Nat} {S : Nat → Nat} {O : List (List Nat)} (fs : Fs) (h : Holds fs rt cl L S n O) (hv : fs.ty = .fat32 → vol + 1 < fs.fatbase) (dp : Dir) {i : Nat}
    (hd : AtItem fs cl L S n dp i) (hwin : fs.winsect = dp.sect) {e : Item} (he : (dirOf fs S n)[i]? = some e) (g : Sector → Nat → Sector) (x : Item)
    (hg1 : ∀ j, j < 32 → g fs.win dp.off (dp.off + j) = x j) (hx : ∀ j, 32 ≤ j → x j = 0) (hg2 : ∀ j, ¬ (dp.off ≤ j ∧ j < dp.off + 32) → g fs.win dp.off j = fs.win j) (h0 : x 0 = e 0) (hn : ∀ gn, named gn x ↔ named gn e) :
    ∃ fs', ({ fs with win := g fs.win dp.off, wflag := true } : Fs).syncFs env vol = (fs', .ok) ∧ Changed fs fs' rt cl L S n O i x := by
  have hi := hd.inside
  obtain ⟨h4, hD4, sh4, ot4, en4, w4, bl4⟩ := edit_spec fs h dp hd hwin he _ x hg1 hx hg2 h0 hn
  generalize ({ fs with win := g fs.win dp.off, wflag := true } : Fs) = f4 at *
  obtain ⟨f5, e5, h5, hD5, sh5, ot5, en5, wr5, bl5⟩ := settle_spec hq (vol := vol) f4 h4 (by rw [sh4.1, sh4.2.2.2.2.2.1]; exact hv) (k := i / 16) (by omega) w4
  have hD : dirOf f5 S n = (dirOf fs S n).set i x := hD5.trans hD4
  refine ⟨f5, e5, h5, sh4.trans sh5, hD, ?_, others_trans ot4 ot5 sh4.2.1 sh4.2.2.2.2.2.2, fun x => (bl4 x).trans bl5 sh4, fun c hc => ?_, wr5⟩
  · rw [hD]
    exact fun gn j => same_found he h0 hn gn j
  · rw [en5 c (by rw [sh4.2.2.2.1]; exact hc), en4 c hc]

/-- What a change is to do for a path that leads to `o` -/
inductive Changes (fs fs' : Fs) (rt : Root) (dir : Nat → List Item) (P : Item → Item → Prop) : Outcome → OpenRes → Prop
  | there {cl i n : Nat} {L : List Nat} {S : Nat → Nat} {M : List Nat} {O : List (List Nat)} {e x : Item} : (dir cl)[i]? = some e → dir cl = dirOf fs S n → Holds fs rt cl L S n (own M ++ O) → P e x →
      Changed fs fs' rt cl L S n (own M ++ O) i x → Changes fs fs' rt dir P (.found cl i) (.fr .ok)
  | missing {cl : Nat} : Seen fs fs' → Changes fs fs' rt dir P (.missing cl) (.fr .noFile)
  | noPath : Seen fs fs' → Changes fs fs' rt dir P .noPath .noPath

theorem change_path {env : Env} (hq : Quiet env) {rt : Root} {K : Nat → Prop} {dir : Nat → List Item} {fs : Fs} (h : Tree fs rt K dir) (hk : Whole fs rt K dir) (vol : Nat) (hv : fs.ty = .fat32 → vol + 1 < fs.fatbase)
    (dp : Dir) (old : Nat → BitVec 8) {path : List (BitVec 8)} {ns : List (List (BitVec 8))} (ht : Text (fun c => ¬ odd c) path ns) (g : Sector → Nat → Sector) (P : Item → Item → Prop)
    (hg : ∀ (w : Sector) (o : Nat) (e : Item), (∀ j, j < 32 → w (o + j) = e j) → (∀ j, 32 ≤ j → e j = 0) →
      ∃ x, P e x ∧ (∀ j, j < 32 → g w o (o + j) = x j) ∧ (∀ j, 32 ≤ j → x j = 0) ∧ (∀ j, ¬ (o ≤ j ∧ j < o + 32) → g w o j = w j) ∧ x 0 = e 0 ∧ ∀ gn, named gn x ↔ named gn e) :
    ∃ fs' r o, fChange env rt vol fs dp old path g = some (fs', r) ∧ Resolves dir fs.ty 0 ns o ∧ Changes fs fs' rt dir P o r := by
  obtain ⟨f, d, fn, r, o, a, s, b, c, q⟩ := follow_right_partial hq h dp old ht
  obtain ⟨hp, hdot⟩ := text_proper ht
  unfold fChange
  rw [a]
  dsimp only
  cases o with
  | noPath =>
    have c : r = .noPath := c
    subst c
    exact ⟨f, _, _, rfl, b, .noPath s⟩
  | missing cl =>
    obtain ⟨rfl, c⟩ := c
    dsimp only
    rw [if_neg (by simp)]
    exact ⟨f, _, _, rfl, b, .missing s⟩
  | found cl i =>
    obtain ⟨rfl, c⟩ := c
    dsimp only
    rw [if_pos rfl]
    obtain ⟨hcl, hf⟩ := resolves_place h b (text_names ht) h.root cl i rfl
    obtain ⟨e, he, hnm⟩ := hf.hit
    obtain ⟨L, S, n, M, O, k1, k2, k3, kf⟩ := hk.files cl hcl _ i e hp hdot hf he
    obtain ⟨k4, k5⟩ := k1.seen s
    obtain ⟨L', S', n', p1, p2, p3⟩ := c.place
    obtain ⟨rfl, rfl, rfl⟩ := area_unique p1 k4.area
    have he' : (dirOf f S' n')[i]? = some e := by rw [← p3]; exact he
    have he32 : ∀ j, 32 ≤ j → e j = 0 := by
      intro j hj
      rw [dirOf_get, if_pos p2.inside] at he'
      rw [← Option.some.inj he']
      exact if_neg (by omega)
    obtain ⟨x, x1, x2, x3, x4, x5, x6⟩ := hg f.win d.off e (c.entry e he) he32
    obtain ⟨f', t1, t2⟩ := change_spec hq (vol := vol) f k4 (by rw [s.shape.1, s.shape.2.2.2.2.2.1]; exact hv) d p2 c.window he' g x x2 x3 x4 x5 x6
    rw [t1]
    refine ⟨f', _, _, rfl, b, .there he k2 k1 x1 ⟨t2.holds, s.shape.trans t2.shape, by rw [← k5]; exact t2.dir, by rw [← k5]; exact t2.names,
      others_trans (others_seen k1.ok.layout k1.files s) t2.others s.shape.2.1 s.shape.2.2.2.2.2.2, fun x => (s.below k1.ok.layout).trans (t2.below x) s.shape, fun c hc => ?_, t2.written⟩⟩
    rw [t2.entries c (by rw [s.shape.2.2.2.1]; exact hc), s.entries c hc]

/-- **Attributes.** On a consistent volume, if no read or write fails, for paths of names of the form 8.3 without the letters that `create_name` takes for others (`odd`): `f_chmod` sets the given attributes of what the path leads to,
of those that may be changed; nothing else changes. -/
theorem chmod_partial {env : Env} (hq : Quiet env) {rt : Root} {K : Nat → Prop} {dir : Nat → List Item} {fs : Fs} (h : Tree fs rt K dir) (hk : Whole fs rt K dir) (vol : Nat) (hv : fs.ty = .fat32 → vol + 1 < fs.fatbase)
    (dp : Dir) (old : Nat → BitVec 8) {path : List (BitVec 8)} {ns : List (List (BitVec 8))} (ht : Text (fun c => ¬ odd c) path ns) (value mask : BitVec 8) :
    ∃ fs' r o, fChmod env rt vol fs dp old path value mask = some (fs', r) ∧ Resolves dir fs.ty 0 ns o ∧ Changes fs fs' rt dir (fun e x => Flagged e x value mask) o r := by
  refine change_path hq h hk vol hv dp old ht _ _ fun w o e hw he => ?_
  have bit : ∀ (v m a : BitVec 8) (k : Nat), ((v &&& (m &&& 0x27)) ||| (a &&& ~~~(m &&& 0x27))).getLsbD k = if (k = 0 ∨ k = 1 ∨ k = 2 ∨ k = 5) ∧ m.getLsbD k = true then v.getLsbD k else a.getLsbD k := by
    intro v m a k
    by_cases hk : k < 8
    · have hc : k = 0 ∨ k = 1 ∨ k = 2 ∨ k = 3 ∨ k = 4 ∨ k = 5 ∨ k = 6 ∨ k = 7 := by omega
      have hd : (0x27 : BitVec 8).getLsbD 0 = true ∧ (0x27 : BitVec 8).getLsbD 1 = true ∧ (0x27 : BitVec 8).getLsbD 2 = true ∧ (0x27 : BitVec 8).getLsbD 3 = false ∧ (0x27 : BitVec 8).getLsbD 4 = false ∧
          (0x27 : BitVec 8).getLsbD 5 = true ∧ (0x27 : BitVec 8).getLsbD 6 = false ∧ (0x27 : BitVec 8).getLsbD 7 = false := by decide
      obtain ⟨d0, d1, d2, d3, d4, d5, d6, d7⟩ := hd
      rcases hc with rfl | rfl | rfl | rfl | rfl | rfl | rfl | rfl <;>
        rw [BitVec.getLsbD_or, BitVec.getLsbD_and, BitVec.getLsbD_and, BitVec.getLsbD_and, BitVec.getLsbD_not, BitVec.getLsbD_and] <;>
        simp only [d0, d1, d2, d3, d4, d5, d6, d7] <;> generalize m.getLsbD _ = x <;> cases x <;> simp
    · rw [BitVec.getLsbD_of_ge _ _ (by omega), BitVec.getLsbD_of_ge v k (by omega), BitVec.getLsbD_of_ge a k (by omega), ite_self]
  have b8 : ∀ a : BitVec 8, (a &&& 8 = 0) ↔ a.getLsbD 3 = false := by decide +kernel
  let y : Item := fun j => if j = 11 then (value &&& (mask &&& 0x27)) ||| (e 11 &&& ~~~(mask &&& 0x27)) else e j
  have y11 : y 11 = (value &&& (mask &&& 0x27)) ||| (e 11 &&& ~~~(mask &&& 0x27)) := if_pos rfl
  have yj : ∀ j, j ≠ 11 → y j = e j := fun j hj => if_neg hj
  refine ⟨y, ⟨fun k k1 k2 => ?_, fun k k1 => ?_, yj⟩, fun j hj => ?_, fun j hj => ?_, fun j hj => ?_, yj 0 (by decide), fun gn => ?_⟩
  · rw [y11, bit, if_pos (show (k = 0 ∨ k = 1 ∨ k = 2 ∨ k = 5) ∧ mask.getLsbD k = true from ⟨k1, k2⟩)]
  · rw [y11, bit, if_neg (show ¬ ((k = 0 ∨ k = 1 ∨ k = 2 ∨ k = 5) ∧ mask.getLsbD k = true) from k1)]
  · unfold chmodEntry set
    by_cases e11 : j = 11
    · rw [if_pos (by omega), e11, hw 11 (by decide)]
      exact y11.symm
    · rw [if_neg (by omega), yj j e11, hw j hj]
  · rw [yj j (by omega)]
    exact he j hj
  · unfold chmodEntry set
    rw [if_neg (by omega)]
  · have e3 : (y 11 &&& 8 = 0) ↔ (e 11 &&& 8 = 0) := by
      rw [b8, b8, y11, bit, if_neg (fun x => by have := x.1; omega)]
    unfold named
    rw [e3]
    refine and_congr_right fun _ => ⟨fun k j hj => ?_, fun k j hj => ?_⟩
    · rw [← yj j (by omega)]
      exact k j hj
    · rw [yj j (by omega)]
      exact k j hj

/-- **Times.** On a consistent volume, if no read or write fails, for such paths: `f_utime` sets the time and the date of what the path leads to; nothing else changes. -/
theorem utime_partial {env : Env} (hq : Quiet env) {rt : Root} {K : Nat → Prop} {dir : Nat → List Item} {fs : Fs} (h : Tree fs rt K dir) (hk : Whole fs rt K dir) (vol : Nat) (hv : fs.ty = .fat32 → vol + 1 < fs.fatbase)
    (dp : Dir) (old : Nat → BitVec 8) {path : List (BitVec 8)} {ns : List (List (BitVec 8))} (ht : Text (fun c => ¬ odd c) path ns) (ftime fdate : Nat) :
    ∃ fs' r o, fUtime env rt vol fs dp old path ftime fdate = some (fs', r) ∧ Resolves dir fs.ty 0 ns o ∧ Changes fs fs' rt dir (fun e x => Stamped e x ftime fdate) o r := by
  refine change_path hq h hk vol hv dp old ht _ _ fun w o e hw he => ?_
  have word : ∀ v : Nat, (byte v).toNat + 256 * (byte ((v % 65536) >>> 8)).toNat = v % 65536 := by
    intro v
    unfold byte
    rw [BitVec.toNat_ofNat, BitVec.toNat_ofNat, Nat.shiftRight_eq_div_pow]
    omega
  let y : Item := fun j => if j = 22 then byte ftime else if j = 23 then byte ((ftime % 65536) >>> 8) else if j = 24 then byte fdate else if j = 25 then byte ((fdate % 65536) >>> 8) else e j
  have yj : ∀ j, ¬ (22 ≤ j ∧ j < 26) → y j = e j := fun j hj => by
    dsimp only [y]
    rw [if_neg (by omega), if_neg (by omega), if_neg (by omega), if_neg (by omega)]
  refine ⟨y, ⟨word ftime, word fdate, yj⟩, fun j hj => ?_, fun j hj => ?_, fun j hj => ?_, yj 0 (by decide), fun gn => ?_⟩
  · unfold utimeEntry stWord set
    rw [hw j hj]
    dsimp only [y]
    by_cases h1 : j = 25
    · rw [if_pos (by omega), if_neg (by omega), if_neg (by omega), if_neg (by omega), if_pos h1]
    rw [if_neg (by omega)]
    by_cases h2 : j = 24
    · rw [if_pos (by omega), if_neg (by omega), if_neg (by omega), if_pos h2]
    rw [if_neg (by omega)]
    by_cases h3 : j = 23
    · rw [if_pos (by omega), if_neg (by omega), if_pos h3]
    rw [if_neg (by omega)]
    by_cases h4 : j = 22
    · rw [if_pos (by omega), if_pos h4]
    · rw [if_neg (by omega), if_neg h4, if_neg h3, if_neg h2, if_neg h1]
  · rw [yj j (by omega)]
    exact he j hj
  · unfold utimeEntry stWord set
    rw [if_neg (by omega), if_neg (by omega), if_neg (by omega), if_neg (by omega)]
  · unfold named
    rw [yj 11 (by decide)]
    refine and_congr_right fun _ => ⟨fun k j hj => ?_, fun k j hj => ?_⟩
    · rw [← yj j (by omega)]
      exact k j hj
    · rw [yj j (by omega)]
      exact k j hj

/-- The root has no entry to change. -/
theorem change_root {env : Env} (hq : Quiet env) {rt : Root} {K : Nat → Prop} {dir : Nat → List Item} {fs : Fs} (h : Tree fs rt K dir) (vol : Nat) (dp : Dir) (old : Nat → BitVec 8) {path : List (BitVec 8)} (ho : Origin path)
    (value mask : BitVec 8) (ftime fdate : Nat) : (∃ fs', fChmod env rt vol fs dp old path value mask = some (fs', .invalidName) ∧ Seen fs fs') ∧ ∃ fs', fUtime env rt vol fs dp old path ftime fdate = some (fs', .invalidName) ∧ Seen fs fs' := by
  obtain ⟨f, d, a, s, _⟩ := root_path hq h dp old ho
  unfold fChmod fUtime fChange
  rw [a]
  exact ⟨⟨f, rfl, s⟩, f, rfl, s⟩

/-- Paths that end without a proper name change nothing. -/
theorem change_refused_partial {env : Env} (hq : Quiet env) {rt : Root} {K : Nat → Prop} {dir : Nat → List Item} {fs : Fs} (h : Tree fs rt K dir) (vol : Nat) (dp : Dir) (old : Nat → BitVec 8) {path : List (BitVec 8)}
    {ns : List (List (BitVec 8))} (ht : Trail (fun c => ¬ odd c) path ns) (ho : ¬ Origin path) (value mask : BitVec 8) (ftime fdate : Nat) :
    ∃ fs' r, fChmod env rt vol fs dp old path value mask = some (fs', r) ∧ fUtime env rt vol fs dp old path ftime fdate = some (fs', r) ∧ Seen fs fs' ∧
      (((∃ cl', Walks dir fs.ty 0 ns cl') ∧ r = .invalidName) ∨ ((¬ ∃ cl', Walks dir fs.ty 0 ns cl') ∧ r = .noPath)) := by
  obtain ⟨f, d, fn, r, a, s, c⟩ := refused_partial hq h dp old ht ho
  unfold fChmod fUtime fChange
  rw [a]
  rcases c with ⟨c, rfl⟩ | ⟨c, rfl⟩
  · exact ⟨f, _, rfl, rfl, s, Or.inl ⟨c, rfl⟩⟩
  · exact ⟨f, _, rfl, rfl, s, Or.inr ⟨c, rfl⟩⟩

/-! ## An example -/

/-- `a` becomes read only: it cannot be removed; then it is not any more. The bit of directories is not changed by any mask. -/
def chmodStory : Option (OpenRes × UnlinkRes × OpenRes × OpenRes × OpenRes × UnlinkRes) := do
  let (fs, r1) ← fChmod calm root 0 home ⟨0, 0, 0, 0, 0⟩ (fun _ => 0) [0x61] 0xFF 0xFF
  let (fs, r2) ← fUnlink calm root 0 fs ⟨0, 0, 0, 0, 0⟩ (fun _ => 0) [0x61]
  let (fs, _, _, r3) ← openAt fs [0x61] forReading
  let (fs, r4) ← fChmod calm root 0 fs ⟨0, 0, 0, 0, 0⟩ (fun _ => 0) [0x61] 0x00 0x01
  let (fs, r5) ← fUtime calm root 0 fs ⟨0, 0, 0, 0, 0⟩ (fun _ => 0) [0x61] 1 2
  let (_, r6) ← fUnlink calm root 0 fs ⟨0, 0, 0, 0, 0⟩ (fun _ => 0) [0x61]
  pure (r1, r2, r3, r4, r5, r6)

example : chmodStory = some (.fr .ok, .fr .denied, .fr .ok, .fr .ok, .fr .ok, .fr .ok) := by decide +kernel

/-- The theorem holds for `home` and the path `a`. -/
example : ∃ fs' r o, fChmod calm root 0 home ⟨0, 0, 0, 0, 0⟩ (fun _ => 0) ([] ++ [0x61] ++ []) 1 1 = some (fs', r) ∧ Resolves homes home.ty 0 [stored [0x61] []] o ∧ Changes home fs' root homes (fun e x => Flagged e x 1 1) o r :=
  chmod_partial calm_quiet home_tree home_whole 0 (by decide) ⟨0, 0, 0, 0, 0⟩ (fun _ => 0)
    (.last (seps := []) (s := [0x61]) (tail := []) (body := [0x61]) (ext := []) (by simp) ⟨Or.inl ⟨rfl, rfl⟩, by decide, by decide⟩ (by decide) (by simp)) 1 1

end Verif.Fat
