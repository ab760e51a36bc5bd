import Verif.Fat.MkdirModel
import Verif.Fat.MkdirSpec
import Verif.Fat.OpenProps

/-!
# FatFs: making directories — lemmas
-/

namespace Verif.Fat

open Spec (Ty Item named FoundAt Absent Full alike proper Tidy Distinct Chain Files part folder dot dotDot bare)

/-! ## The bytes -/

theorem part0 (v : Nat) : byte v = part v 0 := by
  unfold part
  rw [Nat.pow_zero, Nat.div_one]
  rfl

theorem part1 (v : Nat) : byte ((v % 65536) >>> 8) = part v 1 := by
  apply BitVec.eq_of_toNat_eq
  unfold byte part
  rw [BitVec.toNat_ofNat, BitVec.toNat_ofNat, Nat.shiftRight_eq_div_pow]
  omega

theorem part2 (v : Nat) : byte (u32 v >>> 16) = part v 2 := by
  apply BitVec.eq_of_toNat_eq
  unfold byte part u32
  rw [BitVec.toNat_ofNat, BitVec.toNat_ofNat, Nat.shiftRight_eq_div_pow]
  omega

theorem part3 (v : Nat) : byte (u32 v >>> 24) = part v 3 := by
  apply BitVec.eq_of_toNat_eq
  unfold byte part u32
  rw [BitVec.toNat_ofNat, BitVec.toNat_ofNat, Nat.shiftRight_eq_div_pow]
  omega

theorem part2' (v : Nat) : byte (v >>> 16) = part v 2 := by
  apply BitVec.eq_of_toNat_eq
  unfold byte part
  rw [BitVec.toNat_ofNat, BitVec.toNat_ofNat, Nat.shiftRight_eq_div_pow]

theorem part3' (v : Nat) : byte (((v >>> 16) % 65536) >>> 8) = part v 3 := by
  apply BitVec.eq_of_toNat_eq
  unfold byte part
  rw [BitVec.toNat_ofNat, BitVec.toNat_ofNat, Nat.shiftRight_eq_div_pow, Nat.shiftRight_eq_div_pow]
  omega

theorem dirEntry_bytes (w : Sector) (o c tm : Nat) (fn : Nat → BitVec 8) (h : ∀ j, j < 32 → w (o + j) = Spec.fresh fn j) : ∀ j, j < 32 → dirEntry w o c tm (o + j) = folder fn c tm j := by
  intro j hj
  have hw := h j hj
  unfold dirEntry stClust stWord stDword set folder
  rw [part2 tm, part3 tm, part3' c, part1 tm, part1 c, part2' c, part0 tm, part0 c, hw]
  unfold Spec.fresh
  generalize w (o + j) = b at *
  rcases j with _ | _ | _ | _ | _ | _ | _ | _ | _ | _ | _ | _ | _ | _ | _ | _ | _ | _ | _ | _ | _ | _ | _ | _ | _ | _ | _ | _ | _ | _ | _ | _ | j <;>
    first | omega | (simp [Nat.add_left_cancel_iff]; done) | (simp [Nat.add_left_cancel_iff]; rfl) | (simp [Nat.add_left_cancel_iff]; repeat (rw [if_neg (by omega)]))

theorem dirEntry_outside (w : Sector) (o c tm : Nat) : ∀ j, ¬ (o ≤ j ∧ j < o + 32) → dirEntry w o c tm j = w j := by
  intro j hj
  unfold dirEntry stClust stWord stDword set
  repeat rw [if_neg (by omega)]

theorem dotSector_bytes (c p tm : Nat) : (∀ j, j < 32 → dotSector c p tm j = folder dot c tm j) ∧ (∀ j, j < 32 → dotSector c p tm (32 + j) = folder dotDot p tm j) ∧ ∀ j, 64 ≤ j → dotSector c p tm j = 0 := by
  unfold dotSector stClust stWord stDword set folder dot dotDot
  dsimp only
  rw [part2 tm, part3 tm, part3' c, part1 tm, part1 c, part2' c, part0 tm, part0 c, part3' p, part1 p, part2' p, part0 p]
  refine ⟨fun j hj => ?_, fun j hj => ?_, fun j hj => ?_⟩
  · rcases j with _ | _ | _ | _ | _ | _ | _ | _ | _ | _ | _ | _ | _ | _ | _ | _ | _ | _ | _ | _ | _ | _ | _ | _ | _ | _ | _ | _ | _ | _ | _ | _ | j <;> first | omega | rfl
  · rcases j with _ | _ | _ | _ | _ | _ | _ | _ | _ | _ | _ | _ | _ | _ | _ | _ | _ | _ | _ | _ | _ | _ | _ | _ | _ | _ | _ | _ | _ | _ | _ | _ | j <;> first | omega | rfl
  · repeat rw [if_neg (by omega)]

theorem folder_named {fn : Nat → BitVec 8} {c tm : Nat} {gn : Nat → BitVec 8} : named gn (folder fn c tm) ↔ named gn (Spec.fresh fn) := by
  have h1 : folder fn c tm 11 &&& 8 = 0 := by
    unfold folder
    rw [if_neg (by decide), if_pos rfl]
    decide
  have h2 : Spec.fresh fn 11 &&& 8 = 0 := by
    unfold Spec.fresh
    rw [if_neg (by decide)]
    decide
  have h3 : ∀ j, j < 11 → folder fn c tm j = Spec.fresh fn j := fun j hj => by
    unfold folder Spec.fresh
    rw [if_pos hj, if_pos hj]
  unfold named
  constructor
  · rintro ⟨_, k⟩
    exact ⟨h2, fun j hj => by rw [← h3 j hj, k j hj]⟩
  · rintro ⟨_, k⟩
    exact ⟨h1, fun j hj => by rw [h3 j hj, k j hj]⟩

theorem folder_zero {fn : Nat → BitVec 8} {c tm : Nat} : folder fn c tm 0 = Spec.fresh fn 0 := by
  unfold folder Spec.fresh
  rw [if_pos (by decide), if_pos (by decide)]

theorem folder_end {fn : Nat → BitVec 8} {c tm j : Nat} (h : 32 ≤ j) : folder fn c tm j = 0 := by
  unfold folder
  rw [if_neg (by omega), if_neg (by omega), if_neg (by omega), if_neg (by omega), if_neg (by omega)]

/-! ## The sectors -/

theorem layLoop_spec {env : Env} (hq : Quiet env) : ∀ (c dsc : Nat) (fs : Fs), c ≠ 0 → fs.Layout → fs.database ≤ dsc → dsc + c ≤ 4294967296 →
    ∃ D T, layLoop env c dsc fs = ({ fs with win := fun _ => 0, winsect := dsc + c - 1, wflag := false, disk := D, t := T }, true) ∧ D dsc = fs.win ∧ (∀ s, dsc < s → s < dsc + c → D s = fun _ => 0) ∧
      (∀ s, ¬ fs.InCopies s → ¬ (dsc ≤ s ∧ s < dsc + c) → D s = fs.disk s) := by
  intro c
  induction c with
  | zero =>
    intro _ fs h0
    exact absurd rfl h0
  | succ c ih =>
    intro dsc fs _ hl hd he
    have harea := hl.area
    have hok : ({ fs with winsect := dsc, wflag := true } : Fs).Ok := ⟨⟨hl.1, hl.2, hl.3, hl.4, hl.5, hl.6, hl.7⟩, fun x => Bool.noConfusion x, fun x => by have := x.2; dsimp only at this; omega, by dsimp only; omega⟩
    obtain ⟨D, T, s1, s2, s3, _⟩ := Fs.sync_quiet hq _ hok
    have haway : ∀ s, dsc ≤ s → ¬ fs.InCopies s := fun s hs x => by have := x.2; omega
    unfold layLoop
    rw [s1]
    dsimp only at s2 s3 ⊢
    rw [if_pos rfl]
    by_cases hc0 : c = 0
    · subst hc0
      unfold layLoop
      refine ⟨D, T, rfl, s2, fun s h1 h2 => absurd h2 (by omega), fun s h1 h2 => s3 s h1 (by omega)⟩
    · obtain ⟨D', T', q1, q2, q3, q4⟩ := ih (u32 (dsc + 1)) { fs with win := fun _ => 0, winsect := dsc, wflag := false, disk := D, t := T } hc0 ⟨hl.1, hl.2, hl.3, hl.4, hl.5, hl.6, hl.7⟩
        (by dsimp only; rw [u32_of (by omega)]; omega) (by rw [u32_of (by omega)]; omega)
      rw [q1]
      dsimp only at q2 q3 q4 ⊢
      rw [u32_of (by omega : dsc + 1 < 4294967296)] at q2 q3 q4
      rw [u32_of (by omega : dsc + 1 < 4294967296)]
      refine ⟨D', T', ?_, ?_, fun s h1 h2 => ?_, fun s h1 h2 => ?_⟩
      · have e : dsc + 1 + c - 1 = dsc + (c + 1) - 1 := by omega
        rw [e]
      · rw [q4 dsc (haway _ (by omega)) (by omega), s2]
      · by_cases hs : s = dsc + 1
        · rw [hs, q2]
        · exact q3 s (by omega) (by omega)
      · rw [q4 s h1 (by omega), s3 s h1 (by omega)]

/-- The cluster `c` begins with the sector `w`, zeros follow; nothing else is seen to change. -/
structure Laid (fs fs' : Fs) (c : Nat) (w : Sector) : Prop where
  shape : Shape fs fs'
  ok : fs'.Ok
  head : fs'.look (fs.first c) = w
  rest : ∀ k, 0 < k → k < fs.csize → fs'.look (fs.first c + k) = fun _ => 0
  outside : ∀ s, ¬ fs.InCopies s → (∀ k, k < fs.csize → s ≠ fs.first c + k) → fs'.look s = fs.look s
  entries : ∀ x, x < fs.nFatent → fs'.entryAt x = fs.entryAt x
  clean : fs'.wflag = false
  at_ : fs'.winsect = fs.first c + fs.csize - 1

theorem lay_spec {env : Env} (hq : Quiet env) (rt : Root) (f : Fs) (h : f.Ok) {c : Nat} (h1 : 2 ≤ c) (h2 : c < f.nFatent) (sclust tm : Nat) :
    ∃ f2 v, layDir env rt f c sclust tm = ({ f2 with win := v }, .ok) ∧ Laid f f2 c (dotSector c (if f.ty = .fat32 ∧ sclust = rt.dirbase then 0 else sclust) tm) := by
  have hl := h.layout
  have hcs := hl.clus
  have hent := Fs.ents_lt h
  obtain ⟨D, T, s1, s2, s3, _⟩ := f.sync_quiet hq h
  obtain ⟨b1, b2⟩ := first_bounds hl h1 h2
  have hl1 : ({ f with wflag := false, disk := D, t := T } : Fs).Layout := ⟨hl.1, hl.2, hl.3, hl.4, hl.5, hl.6, hl.7⟩
  have hcl : ({ f with wflag := false, disk := D, t := T } : Fs).clust2sect c = f.first c := (clust2sect_eq hl1 h1 h2).1
  unfold layDir
  rw [if_neg (by omega), if_neg (by omega), if_neg (by omega), s1]
  dsimp only
  rw [if_neg (by simp), hcl]
  generalize dotSector c (if f.ty = .fat32 ∧ sclust = rt.dirbase then 0 else sclust) tm = w
  obtain ⟨D', T', q1, q2, q3, q4⟩ := layLoop_spec hq f.csize (f.first c) { f with wflag := false, disk := D, t := T, win := w } (by omega) ⟨hl.1, hl.2, hl.3, hl.4, hl.5, hl.6, hl.7⟩ b1 b2
  rw [q1]
  dsimp only at q2 q3 q4 ⊢
  rw [if_pos rfl]
  have harea := hl.area
  have hm : f.fsize ≤ f.nFats * f.fsize := Nat.le_mul_of_pos_left _ hl.fats
  refine ⟨{ f with win := D' (f.first c + f.csize - 1), winsect := f.first c + f.csize - 1, wflag := false, disk := D', t := T' }, fun _ => 0, rfl, ?_⟩
  have hlk : ∀ s, ({ f with win := D' (f.first c + f.csize - 1), winsect := f.first c + f.csize - 1, wflag := false, disk := D', t := T' } : Fs).look s = D' s := fun s => by
    unfold Fs.look
    dsimp only
    by_cases hs : s = f.first c + f.csize - 1
    · rw [if_pos hs, hs]
    · rw [if_neg hs]
  have hout : ∀ s, ¬ f.InCopies s → (∀ k, k < f.csize → s ≠ f.first c + k) → D' s = f.look s := fun s k1 k2 => by
    have u1 : ¬ (f.first c ≤ s ∧ s < f.first c + f.csize) := fun x => k2 (s - f.first c) (by omega) (by omega)
    rw [q4 s k1 u1]
    unfold Fs.look
    by_cases hs : s = f.winsect
    · rw [if_pos hs, hs, s2]
    · rw [if_neg hs, s3 s k1 hs]
  refine ⟨⟨rfl, rfl, rfl, rfl, rfl, rfl, rfl⟩, ⟨⟨hl.1, hl.2, hl.3, hl.4, hl.5, hl.6, hl.7⟩, fun _ => rfl, fun x => ?_, ?_⟩, ?_, fun k k1 k2 => ?_, fun s k1 k2 => ?_, ?_, rfl, rfl⟩
  · have := x.2
    dsimp only at this
    omega
  · dsimp only
    omega
  · rw [hlk, q2]
  · rw [hlk, q3 _ (by omega) (by omega)]
  · rw [hlk, hout s k1 k2]
  · refine look_entry hl rfl rfl fun i hi => ?_
    rw [hlk]
    exact hout _ (fun x => by have := x.1; omega) fun k hk => by omega

/-! ## The window holds zeros that are not those of the disk -/

theorem sdi_first (env : Env) (rt : Root) (d : Dir) (f : Fs) (hcs : 1 ≤ f.csize) :
    ∃ g : Option (Dir × Fr), ∀ v : Sector, dirSdi env rt { f with win := v } d 0 = g.map fun x => ({ f with win := v }, x.1, x.2) := by
  by_cases h1 : d.sclust = 1 ∨ d.sclust ≥ f.nFatent
  · refine ⟨some ({ d with index := 0 % 65536 }, .intErr), fun v => ?_⟩
    unfold dirSdi
    dsimp only
    rw [if_pos h1]
    rfl
  · by_cases h2 : (if d.sclust = 0 ∧ f.ty = .fat32 then rt.dirbase else d.sclust) = 0
    · by_cases h3 : 0 ≥ rt.nRoot
      · refine ⟨some ({ d with index := 0 % 65536 }, .intErr), fun v => ?_⟩
        unfold dirSdi
        dsimp only
        rw [if_neg h1, if_pos h2, if_pos h3]
        rfl
      · refine ⟨(placed f { d with index := 0 % 65536 } (if d.sclust = 0 ∧ f.ty = .fat32 then rt.dirbase else d.sclust) rt.dirbase 0).map fun x => (x.2.1, x.2.2), fun v => ?_⟩
        unfold dirSdi
        dsimp only
        rw [if_neg h1, if_pos h2, if_neg h3]
        unfold placed
        dsimp only
        split <;> rfl
    · refine ⟨(placed f { d with index := 0 % 65536 } (if d.sclust = 0 ∧ f.ty = .fat32 then rt.dirbase else d.sclust) (f.clust2sect (if d.sclust = 0 ∧ f.ty = .fat32 then rt.dirbase else d.sclust)) 0).map fun x => (x.2.1, x.2.2), fun v => ?_⟩
      unfold dirSdi
      dsimp only
      rw [if_neg h1, if_neg h2]
      unfold sdiLoop
      rw [if_neg (by omega)]
      dsimp only
      unfold placed
      dsimp only
      have e : ({ f with win := v } : Fs).clust2sect (if d.sclust = 0 ∧ f.ty = .fat32 then rt.dirbase else d.sclust) = f.clust2sect (if d.sclust = 0 ∧ f.ty = .fat32 then rt.dirbase else d.sclust) := rfl
      rw [e]
      generalize f.clust2sect (if d.sclust = 0 ∧ f.ty = .fat32 then rt.dirbase else d.sclust) = s
      by_cases hs : s = 0
      · rw [if_pos hs, if_pos hs]
        rfl
      · rw [if_neg hs, if_neg hs]
        rfl

theorem move_stale (env : Env) (f : Fs) (v : Sector) (s : Nat) (hw : f.wflag = false) (hs : s ≠ f.winsect) : ({ f with win := v } : Fs).move env s = f.move env s := by
  obtain ⟨ty, csize, nFats, fsiFlag, lastClust, freeClust, nFatent, fsize, fatbase, database, wflag, winsect, win, disk, t⟩ := f
  dsimp only at hw hs ⊢
  subst hw
  unfold Fs.move Fs.sync Fs.read
  dsimp only
  rw [if_pos hs, if_pos hs]
  by_cases hf : env.fail t = true
  · simp [hf]
  · simp [hf]

theorem register_stale {env : Env} (hq : Quiet env) (rt : Root) (fn : Nat → BitVec 8) {f : Fs} {cl n : Nat} {L : List Nat} {S : Nat → Nat} (h : Area f rt cl L S n) (hok : f.Ok) (d : Dir) (hd : d.sclust = cl)
    (hw : f.wflag = false) (hs : S 0 ≠ f.winsect) (v : Sector) : dirRegister env rt fn { f with win := v } d = dirRegister env rt fn f d := by
  have hpos := h.pos hok.layout
  obtain ⟨g, hg⟩ := sdi_first env rt d f hok.layout.clus
  obtain ⟨f', d', e1, _, e3⟩ := sdi_spec hq rt h hok d hd 0 ⟨by omega, by omega⟩
  have g0 := hg f.win
  have ef : ({ f with win := f.win } : Fs) = f := rfl
  rw [ef, e1] at g0
  cases g with
  | none => cases g0
  | some x =>
    obtain ⟨x1, x2⟩ := x
    have g0 := Option.some.inj g0
    simp only [Prod.mk.injEq] at g0
    obtain ⟨rfl, rfl, rfl⟩ := g0
    have g1 := hg v
    have e0 : d'.sect ≠ f.winsect := by
      rw [e3.sect]
      exact hs
    have e1' : dirSdi env rt f d 0 = some (f, d', .ok) := e1
    have g1' : dirSdi env rt { f with win := v } d 0 = some ({ f with win := v }, d', .ok) := g1
    unfold dirRegister dirAlloc
    rw [g1', e1']
    dsimp only
    rw [if_pos rfl, if_pos rfl]
    have ea : allocLoop env rt 65537 { f with win := v } d' = allocLoop env rt 65537 f d' := by
      rw [allocLoop, allocLoop, move_stale env f v _ hw e0]
    rw [ea]

/-! ## The volume with the new cluster -/

/-- The directory has no sector in a free cluster. -/
theorem apart_free {fs : Fs} {rt : Root} {cl n : Nat} {L : List Nat} {S : Nat → Nat} {O : List (List Nat)} (h : Holds fs rt cl L S n O) {c : Nat} (h2 : 2 ≤ c) (h0 : fs.entryAt c = 0) {i : Nat} (hi : i < n) {k : Nat}
    (hk : k < fs.csize) : S i ≠ fs.first c + k := by
  have hl := h.ok.layout
  have hb : fs.database ≤ fs.first c := Nat.le_add_left _ _
  intro e
  have hF := h.files
  cases h.area with
  | static g1 g2 g3 g4 g5 => dsimp only at e; omega
  | chain g hc =>
    obtain ⟨_, s2, s3⟩ := sec_mem hi hl.clus
    obtain ⟨m1, m2, _⟩ := hc.mem s2
    have e1 : fs.sec L i = fs.first (L.getD (i / fs.csize) 0) + i % fs.csize := rfl
    rw [e1] at e
    obtain ⟨e2, _⟩ := first_inj m1 h2 s3 hk e
    rw [e2] at m2 s2
    refine (files_entries hF c h2 m2).2.mp h0 ?_
    rw [List.flatten_append, own_flatten]
    exact List.mem_append_left _ s2

/-- The new directory is beside the one it is in. -/
theorem aside_spec {fs f f2 : Fs} {rt : Root} {cl n : Nat} {L : List Nat} {S : Nat → Nat} {O : List (List Nat)} (h : Holds fs rt cl L S n O) {c : Nat} (h2 : 2 ≤ c) (h0 : fs.entryAt c = 0)
    (hs : Step fs f (fun x => if x = c then lastMark fs.ty else fs.entryAt x)) (hF : Files f.entryAt f.nFatent ([c] :: (own L ++ O))) {w : Sector} (hL : Laid f f2 c w) :
    Holds f2 rt cl L S n ([c] :: O) ∧ dirOf f2 S n = dirOf fs S n ∧ Others fs f2 O ∧ Shape fs f2 ∧ (∀ x, x < fs.nFatent → f2.entryAt x = if x = c then lastMark fs.ty else fs.entryAt x) ∧ Below fs f2 := by
  have hl := h.ok.layout
  have sh1 : Shape fs f := ⟨hs.ty, hs.csize, hs.nFats, hs.nFatent, hs.fsize, hs.fatbase, hs.database⟩
  have sh : Shape fs f2 := sh1.trans hL.shape
  have hfirst : f.first c = fs.first c := sh1.first c
  have hout : ∀ s, ¬ fs.InCopies s → ¬ fs.InTable s → (∀ k, k < fs.csize → s ≠ fs.first c + k) → f2.look s = fs.look s := fun s k1 k2 k3 => by
    rw [hL.outside s (by rw [sh1.inCopies]; exact k1) (by rw [hfirst, sh1.2.1]; exact k3), hs.outside s k1 k2]
  have hent : ∀ x, x < fs.nFatent → f2.entryAt x = if x = c then lastMark fs.ty else fs.entryAt x := fun x hx => by
    rw [hL.entries x (by rw [hs.nFatent]; exact hx), hs.entries x hx]
  have hD : dirOf f2 S n = dirOf fs S n := by
    refine List.ext_getElem? fun i => ?_
    rw [dirOf_get, dirOf_get]
    by_cases hi : i < 16 * n ∧ i < 65536
    · rw [if_pos hi, if_pos hi]
      obtain ⟨_, _, s3, s4⟩ := h.area.sector hl (i := i / 16) (by omega)
      unfold entryOf
      rw [hout _ s3 s4 fun k hk => apart_free h h2 h0 (by omega) hk]
    · rw [if_neg hi, if_neg hi]
  have hA : Area f2 rt cl L S n := by
    obtain ⟨h1, h3, h4, h5, h6, h7, h8⟩ := sh
    have hs' : Shape fs f2 := ⟨h1, h3, h4, h5, h6, h7, h8⟩
    have hF0 := h.files
    cases h.area with
    | static g1 g2 g3 g4 g5 => exact .static (by rw [h1]; exact g1) g2 g3 (by rw [h7, h4, h6]; exact g4) (by rw [h8]; exact g5)
    | chain g hc =>
      have e : fs.sec L = f2.sec L := funext fun i => (hs'.sec L i).symm
      rw [e, ← h3]
      refine .chain (by rw [h1]; exact g) ?_
      rw [h5]
      refine hc.congr fun x hx => ?_
      obtain ⟨m1, m2, _⟩ := hc.mem hx
      rw [hent x m2, if_neg]
      rintro rfl
      refine (files_entries hF0 x m1 m2).2.mp h0 ?_
      rw [List.flatten_append, own_flatten]
      exact List.mem_append_left _ hx
  have hF2 : Files f2.entryAt f2.nFatent (own L ++ ([c] :: O)) := by
    have e : f2.nFatent = f.nFatent := hL.shape.2.2.2.1
    rw [e]
    exact files_swap (A := [[c]]) (files_congr hF hL.entries)
  refine ⟨⟨hA, hL.ok, by rw [sh.2.1]; exact h.pow, hF2, by rw [hD]; exact h.tidy, by rw [hD]; exact h.distinct⟩, hD, fun M hM j hj => ?_, sh, hent, fun s s1 s2 => hout s (below_tables hl s1).1 (below_tables hl s1).2 fun k _ => by
    have : fs.database ≤ fs.first c := Nat.le_add_left _ _
    omega⟩
  obtain ⟨x, k, c1, c2, c3, c4, k1, k2, k3, h3, h4⟩ := other_sector hl h.files hM hj
  refine hout _ h3 h4 fun k' hk' e => ?_
  rw [k2] at e
  have := (first_inj c2 h2 k1 hk' e).1
  exact c4 (this ▸ h0)

theorem sec_one (fs : Fs) (c : Nat) {k : Nat} (hk : k < fs.csize) : fs.sec [c] k = fs.first c + k := by
  unfold Fs.sec
  rw [Nat.div_eq_of_lt hk, Nat.mod_eq_of_lt hk]
  rfl

/-- What is in the new directory -/
theorem inside_bare {f f2 : Fs} {c p tm : Nat} (hp : f.csize ≤ 128) (hc : 1 ≤ f.csize) (hL : Laid f f2 c (dotSector c p tm)) : inside f2 [c] = bare c p tm f.csize := by
  obtain ⟨b1, b2, b3⟩ := dotSector_bytes c p tm
  have e1 : ([c].length * f2.csize) = f.csize := by
    rw [hL.shape.2.1]
    exact Nat.one_mul _
  unfold inside
  rw [e1]
  refine List.ext_getElem? fun i => ?_
  rw [dirOf_get]
  have hlk : ∀ k, k < f.csize → f2.look (f2.sec [c] k) = if k = 0 then dotSector c p tm else fun _ => 0 := fun k hk => by
    rw [sec_one _ _ (by rw [hL.shape.2.1]; exact hk), hL.shape.first]
    by_cases h0 : k = 0
    · rw [if_pos h0, h0]
      exact hL.head
    · rw [if_neg h0]
      exact hL.rest k (by omega) hk
  unfold bare
  by_cases hi : i < 16 * f.csize
  · rw [if_pos ⟨hi, by omega⟩]
    have he : entryOf f2 (f2.sec [c]) i = fun j => if j < 32 then (if i / 16 = 0 then dotSector c p tm else fun _ => 0) (i % 16 * 32 + j) else 0 := by
      unfold entryOf
      rw [hlk (i / 16) (by omega)]
    rw [he]
    rcases i with _ | _ | i
    · rw [List.getElem?_cons_zero]
      congr 1
      funext j
      by_cases hj : j < 32
      · rw [if_pos hj, if_pos (by decide), show 0 % 16 * 32 + j = j by omega]
        exact b1 j hj
      · rw [if_neg hj]
        exact (folder_end (by omega)).symm
    · rw [List.getElem?_cons_succ, List.getElem?_cons_zero]
      congr 1
      funext j
      by_cases hj : j < 32
      · rw [if_pos hj, if_pos (by decide), show (0 + 1) % 16 * 32 + j = 32 + j by omega]
        exact b2 j hj
      · rw [if_neg hj]
        exact (folder_end (by omega)).symm
    · rw [List.getElem?_cons_succ, List.getElem?_cons_succ, List.getElem?_replicate]
      have hi' : i < 16 * f.csize - 2 := by omega
      rw [if_pos hi']
      congr 1
      funext j
      by_cases hj : j < 32
      · rw [if_pos hj]
        by_cases h0 : (i + 1 + 1) / 16 = 0
        · rw [if_pos h0]
          exact b3 _ (by omega)
        · rw [if_neg h0]
      · rw [if_neg hj]
  · rw [if_neg (by omega)]
    rcases i with _ | _ | i
    · omega
    · omega
    · rw [List.getElem?_cons_succ, List.getElem?_cons_succ, List.getElem?_replicate, if_neg (by omega)]

end Verif.Fat
