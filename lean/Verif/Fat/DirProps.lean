import Verif.Fat.DirSet
import Verif.Fat.SeekProps

/-!
# FatFs: directories — properties

The disk has no failures (`Quiet`), the volume is laid out properly, and the clusters in use are those of the directory (`L`) and of other files (`O`).
-/

namespace Verif.Fat

open Spec (Ty Chain Files Item named FoundAt Absent FreeAt Full Tidy Distinct proper alike Ask Reply Act Acts)

/-! ## The directory stays the same -/

theorem next_sclust {env : Env} {rt : Root} {fs fs' : Fs} {dp dp' : Dir} {st : Bool} {r : Fr} (h : dirNext env rt fs dp st = some (fs', dp', r)) : dp'.sclust = dp.sclust := by
  unfold dirNext at h
  dsimp only at h
  repeat' split at h
  all_goals first
    | (cases h; rfl)
    | (exact absurd h (by simp))

theorem sdi_sclust {env : Env} {rt : Root} {fs fs' : Fs} {dp dp' : Dir} {i : Nat} {r : Fr} (h : dirSdi env rt fs dp i = some (fs', dp', r)) : dp'.sclust = dp.sclust := by
  unfold dirSdi placed at h
  dsimp only at h
  repeat' split at h
  all_goals first
    | (cases h; rfl)
    | (exact absurd h (by simp))

theorem findLoop_sclust {env : Env} {rt : Root} {fn : Nat → BitVec 8} : ∀ (k : Nat) {fs fs' : Fs} {dp dp' : Dir} {r : Fr}, findLoop env rt fn k fs dp = some (fs', dp', r) → dp'.sclust = dp.sclust := by
  intro k
  induction k with
  | zero => intro fs fs' dp dp' r h; cases h
  | succ k ih =>
    intro fs fs' dp dp' r h
    unfold findLoop at h
    dsimp only at h
    split at h
    · cases h; rfl
    · split at h
      · cases h; rfl
      · split at h
        · cases h; rfl
        · split at h
          · cases h
          · rename_i hn
            split at h
            · exact (ih h).trans (next_sclust hn)
            · cases h
              exact next_sclust hn

theorem find_sclust {env : Env} {rt : Root} {fn : Nat → BitVec 8} {fs fs' : Fs} {dp dp' : Dir} {r : Fr} (h : dirFind env rt fn fs dp = some (fs', dp', r)) : dp'.sclust = dp.sclust := by
  unfold dirFind at h
  split at h
  · cases h
  · rename_i hs
    split at h
    · exact (findLoop_sclust _ h).trans (sdi_sclust hs)
    · cases h
      exact sdi_sclust hs

/-! ## The entry that is changed -/

theorem fresh_window (w : Sector) (o : Nat) (fn : Nat → BitVec 8) : (∀ j, j < 32 → fresh w o fn (o + j) = Spec.fresh fn j) ∧ (∀ j, ¬ (o ≤ j ∧ j < o + 32) → fresh w o fn j = w j) := by
  refine ⟨fun j hj => ?_, fun j hj => if_neg hj⟩
  unfold fresh Spec.fresh
  rw [if_pos (by omega), Nat.add_sub_cancel_left]
  by_cases h : j < 11
  · rw [if_pos h, if_pos (by omega)]
  · rw [if_neg h, if_neg (by omega)]

theorem erased_window (w : Sector) (o : Nat) : (∀ j, j < 32 → erased w o (o + j) = Spec.deleted j) ∧ (∀ j, ¬ (o ≤ j ∧ j < o + 32) → erased w o j = w j) := by
  refine ⟨fun j hj => ?_, fun j hj => if_neg hj⟩
  unfold erased Spec.deleted
  rw [if_pos (by omega)]
  by_cases h : j = 0
  · rw [if_pos h, if_pos (by omega)]
  · rw [if_neg h, if_neg (by omega)]

/-- The window moves to the sector of the entry, and the entry is changed. -/
theorem change_entry {env : Env} (hq : Quiet env) {rt : Root} {fs : Fs} {cl n : Nat} {L : List Nat} {S : Nat → Nat} (h : Area fs rt cl L S n) (hok : fs.Ok) {dp : Dir} {i : Nat} (hd : AtItem fs cl L S n dp i)
    (g : Sector → Nat → Sector) (e : Item) (he : ∀ j, 32 ≤ j → e j = 0) (hg : ∀ w o, (∀ j, j < 32 → g w o (o + j) = e j) ∧ (∀ j, ¬ (o ≤ j ∧ j < o + 32) → g w o j = w j)) :
    ∃ f w, fs.move env dp.sect = (f, true) ∧ Edited fs { f with win := g f.win dp.off, wflag := true } (S (i / 16)) w ∧
      dirOf { f with win := g f.win dp.off, wflag := true } S n = (dirOf fs S n).set i e := by
  have hi := hd.inside
  obtain ⟨s1, s2, s3, s4⟩ := h.sector hok.layout (i := i / 16) (by omega)
  obtain ⟨f, m1, m2, m3, m4, m5⟩ := visit hq h hok hd
  have hE : Edited fs { f with win := g f.win dp.off, wflag := true } (S (i / 16)) (g f.win dp.off) := by
    rw [← m2]
    exact Edited.after m3 (edit_window m3.ok (by rw [m2, m3.shape.inTable]; exact s4) (g f.win dp.off))
  refine ⟨f, _, m1, hE, dirOf_edited h hok.layout hi hE e (fun j hj => ?_) he fun j hj => ?_⟩
  · rw [hd.off]
    exact (hg f.win _).1 j hj
  · rw [hd.off, (hg f.win _).2 j hj, m4, m3.outside _ s3 s4]

/-! ## A directory of a volume -/

/-- The directory has the clusters `L`, the other files have the clusters `O`; its entries are in order. -/
structure Holds (fs : Fs) (rt : Root) (cl : Nat) (L : List Nat) (S : Nat → Nat) (n : Nat) (O : List (List Nat)) : Prop where
  area : Area fs rt cl L S n
  ok : fs.Ok
  pow : ∃ p, p ≤ 7 ∧ fs.csize = 2 ^ p
  files : Files fs.entryAt fs.nFatent (own L ++ O)
  tidy : Tidy (dirOf fs S n)
  distinct : Distinct (dirOf fs S n)

/-- The other files are as before. -/
def Others (fs fs' : Fs) (O : List (List Nat)) : Prop := ∀ M ∈ O, ∀ j, j < M.length * fs.csize → fs'.look (fs.sec M j) = fs.look (fs.sec M j)

theorem Holds.seen {fs fs' : Fs} {rt : Root} {cl n : Nat} {L : List Nat} {S : Nat → Nat} {O : List (List Nat)} (h : Holds fs rt cl L S n O) (hs : Seen fs fs') : Holds fs' rt cl L S n O ∧ dirOf fs' S n = dirOf fs S n := by
  have hD := dirOf_seen h.area h.ok.layout hs
  exact ⟨⟨h.area.seen hs, hs.ok, by rw [hs.shape.2.1]; exact h.pow, files_seen hs h.files, by rw [hD]; exact h.tidy, by rw [hD]; exact h.distinct⟩, hD⟩

theorem other_sector {fs : Fs} {L : List Nat} {O : List (List Nat)} (hl : fs.Layout) (hF : Files fs.entryAt fs.nFatent (own L ++ O)) {M : List Nat} (hM : M ∈ O) {j : Nat} (hj : j < M.length * fs.csize) :
    ∃ c k, c ∈ O.flatten ∧ 2 ≤ c ∧ c < fs.nFatent ∧ fs.entryAt c ≠ 0 ∧ k < fs.csize ∧ fs.sec M j = fs.first c + k ∧ fs.database ≤ fs.sec M j ∧ ¬ fs.InCopies (fs.sec M j) ∧ ¬ fs.InTable (fs.sec M j) := by
  obtain ⟨a1, a2, a3⟩ := sec_mem hj hl.clus
  have hc : M.getD (j / fs.csize) 0 ∈ O.flatten := List.mem_flatten.mpr ⟨M, hM, a2⟩
  obtain ⟨b1, b2⟩ := (files_bounds hF).2.2 _ hc
  obtain ⟨d1, d2⟩ := first_bounds hl b1 b2
  have harea := hl.area
  have hm : fs.fsize ≤ fs.nFats * fs.fsize := Nat.le_mul_of_pos_left _ hl.fats
  have e : fs.sec M j = fs.first (M.getD (j / fs.csize) 0) + j % fs.csize := rfl
  have hne : fs.entryAt (M.getD (j / fs.csize) 0) ≠ 0 := fun h0 =>
    (files_entries hF _ b1 b2).2.mp h0 (by rw [List.flatten_append]; exact List.mem_append_right _ hc)
  exact ⟨_, _, hc, b1, b2, hne, a3, e, by omega, fun x => by have := x.2; omega, fun x => by have := x.2; omega⟩

theorem others_seen {fs fs' : Fs} {L : List Nat} {O : List (List Nat)} (hl : fs.Layout) (hF : Files fs.entryAt fs.nFatent (own L ++ O)) (h : Seen fs fs') : Others fs fs' O := by
  intro M hM j hj
  obtain ⟨c, k, _, _, _, _, _, _, _, h1, h2⟩ := other_sector hl hF hM hj
  exact h.outside _ h1 h2

theorem others_edited {fs fs' : Fs} {rt : Root} {cl n i : Nat} {L : List Nat} {S : Nat → Nat} {O : List (List Nat)} {w : Sector} (ha : Area fs rt cl L S n) (hl : fs.Layout)
    (hF : Files fs.entryAt fs.nFatent (own L ++ O)) (hi : i < n) (h : Edited fs fs' (S i) w) : Others fs fs' O := by
  intro M hM j hj
  obtain ⟨c, k, c1, c2, c3, c4, k1, k2, k3, h1, h2⟩ := other_sector hl hF hM hj
  refine h.outside _ h1 h2 fun e => ?_
  cases ha with
  | static g1 g2 g3 g4 g5 => dsimp only at e; omega
  | chain g hc => exact (mine_bounds hl hF ⟨i, hi, rfl⟩).2.2.2 c c1 (by rw [← e, k2]; omega)

theorem others_grown {fs fs' : Fs} {L : List Nat} {O : List (List Nat)} {x ncl : Nat} (hl : fs.Layout) (hF : Files fs.entryAt fs.nFatent (own L ++ O)) (h : Grown fs fs' x ncl) (h2 : 2 ≤ ncl)
    (h0 : fs.entryAt ncl = 0) : Others fs fs' O := by
  intro M hM j hj
  obtain ⟨c, k, c1, c2, c3, c4, k1, k2, k3, h3, h4⟩ := other_sector hl hF hM hj
  refine h.outside _ h3 h4 fun k' hk' e => ?_
  rw [k2] at e
  have := (first_inj c2 h2 k1 hk' e).1
  exact c4 (this ▸ h0)

theorem files_edited {a b : Fs} {s0 : Nat} {w : Sector} (h : Edited a b s0 w) {F : List (List Nat)} (hF : Files a.entryAt a.nFatent F) : Files b.entryAt b.nFatent F := by
  rw [h.shape.2.2.2.1]
  refine ⟨fun L hL => ?_, hF.apart, fun c h1 h2 h3 => hF.used c h1 h2 (by rw [← h.entries c h2]; exact h3)⟩
  obtain ⟨c, hc⟩ := hF.chains L hL
  exact ⟨c, hc.congr fun x hx => h.entries x (hc.mem hx).2.1⟩

theorem Area.edited {a b : Fs} {rt : Root} {cl n s0 : Nat} {L : List Nat} {S : Nat → Nat} {w : Sector} (h : Area a rt cl L S n) (he : Edited a b s0 w) : Area b rt cl L S n := by
  have hsh := he.shape
  obtain ⟨h1, h2, h3, h4, h5, h6, h7⟩ := he.shape
  cases h with
  | static g1 g2 g3 g4 g5 => exact .static (by rw [h1]; exact g1) g2 g3 (by rw [h6, h3, h5]; exact g4) (by rw [h7]; exact g5)
  | chain g hc =>
    have e : a.sec L = b.sec L := funext fun i => (hsh.sec L i).symm
    rw [e, ← h2]
    exact .chain (by rw [h1]; exact g) (by rw [h4]; exact hc.congr fun x hx => he.entries x (hc.mem hx).2.1)

/-- The entries of a longer directory -/
theorem dirOf_grown {fs fs' : Fs} {rt : Root} {cl n x ncl : Nat} {L : List Nat} {S : Nat → Nat} (ha : Area fs rt cl L S n) (hl : fs.Layout) (hL : L ≠ []) (h : Grown fs fs' x ncl) (h2 : 2 ≤ ncl)
    (h0 : fs.entryAt ncl = 0) (hn : 16 * n < 65536) :
    dirOf fs' (fs'.sec (L ++ [ncl])) ((L ++ [ncl]).length * fs'.csize) = dirOf fs S n ++ List.replicate (min (16 * (n + fs.csize)) 65536 - 16 * n) (fun _ => 0) ∧ (dirOf fs S n).length = 16 * n := by
  have hlen : (dirOf fs S n).length = 16 * n := by
    unfold dirOf
    rw [List.length_map, List.length_range]
    omega
  refine ⟨?_, hlen⟩
  have hcs := hl.clus
  cases ha with
  | static g1 g2 g3 g4 g5 => exact absurd rfl hL
  | chain g hc =>
    have hN : (L ++ [ncl]).length * fs'.csize = L.length * fs.csize + fs.csize := by
      rw [h.shape.2.1, List.length_append]
      exact Nat.succ_mul ..
    have hS : fs'.sec (L ++ [ncl]) = fs.sec (L ++ [ncl]) := funext fun j => h.shape.sec _ j
    rw [hN, hS]
    apply List.ext_getElem?
    intro i
    rw [dirOf_get]
    by_cases hi : i < 16 * (L.length * fs.csize)
    · rw [List.getElem?_append_left (by omega), dirOf_get, if_pos (by omega), if_pos (by omega)]
      congr 1
      funext j
      unfold entryOf
      by_cases hj : j < 32
      · rw [if_pos hj, if_pos hj]
        have hi' : i / 16 < L.length * fs.csize := by omega
        rw [sec_prefix hi' hcs]
        obtain ⟨_, _, s3, s4⟩ := (Area.chain (rt := rt) g hc).sector hl (i := i / 16) hi'
        rw [h.outside _ s3 s4 fun k hk e => ?_]
        obtain ⟨m1, m2, m3⟩ := sec_mem hi' hcs
        have hm := hc.mem m2
        have := (first_inj hm.1 h2 m3 hk e).1
        rw [this, h0] at hm
        omega
      · rw [if_neg hj, if_neg hj]
    · rw [List.getElem?_append_right (by omega), List.getElem?_replicate, hlen]
      by_cases hx : i < 16 * (L.length * fs.csize + fs.csize) ∧ i < 65536
      · rw [if_pos hx, if_pos (by omega)]
        congr 1
        funext j
        unfold entryOf
        by_cases hj : j < 32
        · rw [if_pos hj]
          have hq : i / 16 / fs.csize = L.length := by
            have a1 : i / 16 < (L.length + 1) * fs.csize := by
              rw [show (L.length + 1) * fs.csize = L.length * fs.csize + fs.csize from Nat.succ_mul ..]
              omega
            have a2 : L.length * fs.csize ≤ i / 16 := by omega
            have b1 := (Nat.div_lt_iff_lt_mul hcs).mpr a1
            have b2 := (Nat.le_div_iff_mul_le hcs).mpr a2
            omega
          unfold Fs.sec
          rw [hq, last_getD, h.zero _ (Nat.mod_lt _ hcs)]
        · rw [if_neg hj]
      · rw [if_neg hx, if_neg (by omega)]

/-! ## Theorems -/

/-- Where clusters are: their sectors are in the data area, and different clusters have no sector in common; numbers that are no clusters have no sectors. -/
theorem clusters_apart {fs : Fs} (l : fs.Layout) : (∀ c, 2 ≤ c → c < fs.nFatent → fs.database ≤ fs.clust2sect c ∧ fs.clust2sect c + fs.csize ≤ fs.database + fs.csize * (fs.nFatent - 2)) ∧
    (∀ c d i j, 2 ≤ c → c < fs.nFatent → 2 ≤ d → d < fs.nFatent → i < fs.csize → j < fs.csize → fs.clust2sect c + i = fs.clust2sect d + j → c = d ∧ i = j) ∧
    ∀ c, c < 4294967296 → (c < 2 ∨ fs.nFatent ≤ c) → fs.clust2sect c = 0 := by
  have hent := l.ents
  have hr := range_le fs.ty
  refine ⟨fun c h1 h2 => ?_, fun c d i j h1 h2 h3 h4 h5 h6 e => ?_, fun c h1 h2 => ?_⟩
  · rw [(clust2sect_eq l h1 h2).1]
    unfold Fs.first
    have : (c - 2) * fs.csize + fs.csize ≤ fs.csize * (fs.nFatent - 2) := by
      rw [← Nat.succ_mul, Nat.mul_comm fs.csize]
      exact Nat.mul_le_mul_right _ (by omega)
    omega
  · rw [(clust2sect_eq l h1 h2).1, (clust2sect_eq l h3 h4).1] at e
    exact first_inj h1 h3 h5 h6 e
  · unfold Fs.clust2sect
    dsimp only
    have e1 : sub32 fs.nFatent 2 = fs.nFatent - 2 := by unfold sub32 u32; omega
    have e2 : fs.nFatent - 2 ≤ sub32 c 2 := by unfold sub32 u32; omega
    rw [e1, if_pos e2]

example : vol.clust2sect 2 = 10 ∧ vol.clust2sect 499 = 507 ∧ vol.clust2sect 500 = 0 ∧ vol.clust2sect 1 = 0 := by decide

/-- `dir_find` finds the first entry with the name, before the end of the directory, or says that there is none; nothing changes. -/
theorem find_right {env : Env} (hq : Quiet env) (rt : Root) (fn : Nat → BitVec 8) {cl n : Nat} {L : List Nat} {S : Nat → Nat} {O : List (List Nat)} (fs : Fs) (h : Holds fs rt cl L S n O) (dp : Dir) (hd : dp.sclust = cl) :
    ∃ fs' dp' r, dirFind env rt fn fs dp = some (fs', dp', r) ∧ Holds fs' rt cl L S n O ∧ dirOf fs' S n = dirOf fs S n ∧ Others fs fs' O ∧
      ((r = .ok ∧ FoundAt (dirOf fs S n) fn dp'.index ∧ dp'.sect = S (dp'.index / 16) ∧ dp'.off = dp'.index % 16 * 32) ∨ (r = .noFile ∧ Absent (dirOf fs S n) fn)) := by
  obtain ⟨f, d, r, a, b, c⟩ := find_spec hq rt fn fs dp h.area h.ok h.pow hd
  obtain ⟨h', hD⟩ := h.seen b
  refine ⟨f, d, r, a, h', hD, others_seen h.ok.layout h.files b, c.imp_left ?_⟩
  rintro ⟨r1, i, i1, i2⟩
  have := i1.index
  subst this
  exact ⟨r1, i2, i1.sect, i1.off⟩

/-- Why no entry can be added: the root directory of volumes with 12 and 16 bits is full, or the directory has the 65536 entries that are possible, or no cluster is free. -/
def NoRoom (fs : Fs) (L : List Nat) (n : Nat) : Prop := L = [] ∨ 65536 ≤ 16 * n ∨ ∀ c, 2 ≤ c → c < fs.nFatent → fs.entryAt c ≠ 0

/-- A new object: if the name is not in the directory then it is added, at the first free entry or in a new cluster, all other names are found where they were, and other files do not change; only a full
directory that cannot grow refuses. -/
theorem create_right {env : Env} (hq : Quiet env) (rt : Root) (fn : Nat → BitVec 8) (hp : proper fn) {cl n : Nat} {L : List Nat} {S : Nat → Nat} {O : List (List Nat)} (fs : Fs) (h : Holds fs rt cl L S n O)
    (dp : Dir) (hd : dp.sclust = cl) :
    ∃ fs' dp' r L' S' n', dirCreate env rt fn fs dp = some (fs', dp', r) ∧ Holds fs' rt cl L' S' n' O ∧ fs'.csize = fs.csize ∧ fs'.database = fs.database ∧ Others fs fs' O ∧
      ((r = .exist ∧ (∃ i, FoundAt (dirOf fs S n) fn i) ∧ dirOf fs' S' n' = dirOf fs S n) ∨
      (r = .denied ∧ Absent (dirOf fs S n) fn ∧ Full (dirOf fs S n) ∧ NoRoom fs L n ∧ dirOf fs' S' n' = dirOf fs S n) ∨
      (r = .ok ∧ Absent (dirOf fs S n) fn ∧ (∃ i, FoundAt (dirOf fs' S' n') fn i ∧ dp'.index = i ∧ (dirOf fs' S' n')[i]? = some (Spec.fresh fn)) ∧
        ∀ gn, proper gn → ¬ alike gn fn → ∀ i, FoundAt (dirOf fs' S' n') gn i ↔ FoundAt (dirOf fs S n) gn i)) := by
  obtain ⟨f, d, r, a, b, c⟩ := find_spec hq rt fn fs dp h.area h.ok h.pow hd
  obtain ⟨hb, hD⟩ := h.seen b
  unfold dirCreate
  rw [a]
  dsimp only
  rcases c with ⟨rfl, i, i1, i2⟩ | ⟨rfl, habs⟩
  · rw [if_neg (by simp), if_pos rfl]
    exact ⟨f, d, _, L, S, n, rfl, hb, b.shape.2.1, b.shape.2.2.2.2.2.2, others_seen h.ok.layout h.files b, Or.inl ⟨rfl, ⟨i, i2⟩, hD⟩⟩
  · rw [if_pos rfl]
    have hdc : d.sclust = cl := (find_sclust a).trans hd
    unfold dirRegister dirAlloc
    obtain ⟨f1, d1, e1, e2, e3⟩ := sdi_spec hq rt hb.area hb.ok d hdc 0 ⟨by have := hb.area.pos hb.ok.layout; omega, by decide⟩
    rw [e1]
    dsimp only
    rw [if_pos rfl]
    obtain ⟨h1, hD1⟩ := hb.seen e2
    have hs1 := b.trans e2
    have hD2 : dirOf f1 S n = dirOf fs S n := hD1.trans hD
    obtain ⟨f2, d2, r2, q1, q2⟩ := allocLoop_spec hq rt [] O 65537 f1 d1 0 h1.area h1.ok h1.pow (fun hL => by have := h1.files; unfold own at this; rw [if_neg hL] at this; exact this) e3 (by omega)
      fun j e hj => absurd hj (Nat.not_lt_zero _)
    rw [q1]
    dsimp only
    rw [hD2] at q2
    rcases q2 with ⟨i, w1, rfl, w3, w4⟩ | ⟨w1, w2, w3, w4⟩ | ⟨w1, rfl, w3, x, ncl, w4, w5, w6, w7, w8, w9, w10, w11⟩
    · have hs2 := hs1.trans w3
      obtain ⟨h2, hD3⟩ := h1.seen w3
      have hD4 : dirOf f2 S n = dirOf fs S n := hD3.trans hD2
      obtain ⟨f3, w, m1, m2, m3⟩ := change_entry hq h2.area h2.ok w4 (fun w o => fresh w o fn) (Spec.fresh fn) (fun j hj => if_neg (by omega)) fun w o => fresh_window w o fn
      have e0 : (if Fr.ok = .noFile then Fr.denied else Fr.ok) = .ok := rfl
      rw [e0, if_pos rfl, m1]
      dsimp only
      rw [if_pos rfl]
      have hE := Edited.after hs2 m2
      rw [hD4] at m3
      have hi := w4.inside
      refine ⟨_, _, _, L, S, n, rfl, ⟨h2.area.edited m2, m2.ok, by rw [hE.shape.2.1]; exact h.pow, files_edited m2 h2.files, ?_, ?_⟩, hE.shape.2.1, hE.shape.2.2.2.2.2.2,
        others_edited h.area h.ok.layout h.files (i := i / 16) (by omega) hE, Or.inr (Or.inr ⟨rfl, habs, ⟨i, ?_, w4.index, ?_⟩, ?_⟩)⟩
      · rw [m3]
        exact fresh_tidy w1 h.tidy hp
      · rw [m3]
        exact fresh_distinct w1 h.tidy h.distinct habs
      · rw [m3]
        exact fresh_found w1 habs hp
      · rw [m3, set_get w1.lt, if_pos rfl]
      · rw [m3]
        exact fun gn hg hne j => fresh_others w1 h.tidy hp gn hg hne j
    · have hs2 := hs1.trans w3
      obtain ⟨h2, hD3⟩ := h1.seen w3
      have hr : (if r2 = .noFile then Fr.denied else r2) = .denied := by
        rcases w2 with y | y
        · rw [y]
          rfl
        · rw [y]
          rfl
      rw [hr, if_neg (by simp)]
      refine ⟨f2, d2, _, L, S, n, rfl, h2, hs2.shape.2.1, hs2.shape.2.2.2.2.2.2, others_seen h.ok.layout h.files hs2, Or.inr (Or.inl ⟨rfl, habs, w1, w4.imp_right (Or.imp_right fun y c h1 h2 => ?_), hD3.trans hD2⟩)⟩
      rw [← hs1.entries c h2]
      exact y c h1 (by rw [hs1.shape.2.2.2.1]; exact h2)
    · have hg := Grown.after hs1 w9
      rw [hs1.shape.2.2.2.1] at w7
      rw [hs1.entries ncl w7] at w8
      obtain ⟨hG, hlen⟩ := dirOf_grown h.area h.ok.layout w4 hg w6 w8 w3
      have hk : 0 < min (16 * (n + fs.csize)) 65536 - 16 * n := by
        have := h.ok.layout.clus
        omega
      have hfree := zeros_free hk w1
      rw [hlen] at hfree
      have harea : Area f2 rt cl (L ++ [ncl]) (f2.sec (L ++ [ncl])) ((L ++ [ncl]).length * f2.csize) := by
        have ha := h.area
        cases ha with
        | static g1 g2 g3 g4 g5 => exact absurd rfl w4
        | chain g hc =>
          obtain ⟨e, he⟩ := w10.chains (L ++ [ncl]) (by simp)
          obtain ⟨_, e1⟩ := hc.head
          obtain ⟨_, e2⟩ := he.head
          rw [e1, List.cons_append] at e2
          refine .chain (c := e) ?_ he
          rw [← (List.cons.inj e2).1, hg.shape.1]
          exact g
      obtain ⟨f3, w, m1, m2, m3⟩ := change_entry hq harea hg.ok w11 (fun w o => fresh w o fn) (Spec.fresh fn) (fun j hj => if_neg (by omega)) fun w o => fresh_window w o fn
      have e0 : (if Fr.ok = .noFile then Fr.denied else Fr.ok) = .ok := rfl
      rw [e0, if_pos rfl, m1]
      dsimp only
      rw [if_pos rfl]
      have hF2 : Files f2.entryAt f2.nFatent (own (L ++ [ncl]) ++ O) := by
        unfold own
        rw [if_neg (by simp)]
        exact w10
      have hi := w11.inside
      have ho1 := others_grown h.ok.layout h.files hg w6 w8
      have ho2 := others_edited harea hg.ok.layout hF2 (i := 16 * n / 16) (by omega) m2
      rw [hG] at m3
      refine ⟨_, _, _, L ++ [ncl], f2.sec (L ++ [ncl]), (L ++ [ncl]).length * f2.csize, rfl, ⟨harea.edited m2, m2.ok, by rw [m2.shape.2.1, hg.shape.2.1]; exact h.pow, files_edited m2 hF2, ?_, ?_⟩,
        m2.shape.2.1.trans hg.shape.2.1, m2.shape.2.2.2.2.2.2.trans hg.shape.2.2.2.2.2.2, ?_, Or.inr (Or.inr ⟨rfl, habs, ⟨16 * n, ?_, w11.index, ?_⟩, ?_⟩)⟩
      · rw [m3]
        exact fresh_tidy hfree (zeros_tidy h.tidy) hp
      · rw [m3]
        exact fresh_distinct hfree (zeros_tidy h.tidy) (zeros_distinct h.distinct) (zeros_absent hp habs)
      · intro M hM j hj
        have := ho2 M hM j (by rw [hg.shape.2.1]; exact hj)
        rw [hg.shape.sec] at this
        rw [this, ho1 M hM j hj]
      · rw [m3]
        exact fresh_found hfree (zeros_absent hp habs) hp
      · rw [m3, set_get hfree.lt, if_pos rfl]
      · rw [m3]
        intro gn hg hne j
        rw [fresh_others hfree (zeros_tidy h.tidy) hp gn hg hne j, zeros_found hg]

/-- Removing: the entry becomes a deleted one, the name is not in the directory any more, all other names are found where they were, and other files do not change. -/
theorem unlink_right {env : Env} (hq : Quiet env) (rt : Root) (fn : Nat → BitVec 8) (hp : proper fn) {cl n : Nat} {L : List Nat} {S : Nat → Nat} {O : List (List Nat)} (fs : Fs) (h : Holds fs rt cl L S n O)
    (dp : Dir) (hd : dp.sclust = cl) :
    ∃ fs' dp' r, dirUnlink env rt fn fs dp = some (fs', dp', r) ∧ Holds fs' rt cl L S n O ∧ fs'.csize = fs.csize ∧ fs'.database = fs.database ∧ Others fs fs' O ∧
      ((r = .noFile ∧ Absent (dirOf fs S n) fn ∧ dirOf fs' S n = dirOf fs S n) ∨
      (r = .ok ∧ (∃ i, FoundAt (dirOf fs S n) fn i ∧ dirOf fs' S n = (dirOf fs S n).set i Spec.deleted) ∧ Absent (dirOf fs' S n) fn ∧
        ∀ gn, proper gn → ¬ alike gn fn → ∀ i, FoundAt (dirOf fs' S n) gn i ↔ FoundAt (dirOf fs S n) gn i)) := by
  obtain ⟨f, d, r, a, b, c⟩ := find_spec hq rt fn fs dp h.area h.ok h.pow hd
  obtain ⟨hb, hD⟩ := h.seen b
  unfold dirUnlink
  rw [a]
  dsimp only
  rcases c with ⟨rfl, i, i1, i2⟩ | ⟨rfl, habs⟩
  · rw [if_pos rfl]
    unfold dirRemove
    have hi := i1.inside
    obtain ⟨f1, d1, e1, e2, e3⟩ := sdi_spec hq rt hb.area hb.ok d i1.sclust d.index (by rw [i1.index]; exact hi)
    rw [e1]
    dsimp only
    rw [if_pos rfl]
    rw [i1.index] at e3
    obtain ⟨h1, hD1⟩ := hb.seen e2
    have hs1 := b.trans e2
    obtain ⟨f3, w, m1, m2, m3⟩ := change_entry hq h1.area h1.ok e3 (fun w o => erased w o) Spec.deleted (fun j hj => if_neg (by omega)) fun w o => erased_window w o
    rw [m1]
    dsimp only
    rw [if_pos rfl]
    have hE := Edited.after hs1 m2
    rw [hD1, hD] at m3
    refine ⟨_, _, _, rfl, ⟨h1.area.edited m2, m2.ok, by rw [hE.shape.2.1]; exact h.pow, files_edited m2 h1.files, ?_, ?_⟩, hE.shape.2.1, hE.shape.2.2.2.2.2.2,
      others_edited h.area h.ok.layout h.files (i := i / 16) (by omega) hE, Or.inr ⟨rfl, ⟨i, i2, m3⟩, ?_, ?_⟩⟩
    · rw [m3]
      exact deleted_tidy i2 h.tidy
    · rw [m3]
      exact deleted_distinct i2 h.distinct
    · rw [m3]
      exact deleted_absent i2 h.distinct hp
    · rw [m3]
      exact fun gn hg hne j => deleted_others i2 gn hg hne j
  · rw [if_neg (by simp)]
    exact ⟨f, d, _, rfl, hb, b.shape.2.1, b.shape.2.2.2.2.2.2, others_seen h.ok.layout h.files b, Or.inl ⟨rfl, habs, hD⟩⟩

/-! ## Sequences -/

/-- One request, with a new object of a directory; the result and the reply -/
def ask (env : Env) (rt : Root) (cl : Nat) (fs : Fs) : Ask → Option (Fs × Fr)
  | .find fn => (dirFind env rt fn fs ⟨0, cl, 0, 0, 0⟩).map fun x => (x.1, x.2.2)
  | .create fn => (dirCreate env rt fn fs ⟨0, cl, 0, 0, 0⟩).map fun x => (x.1, x.2.2)
  | .remove fn => (dirUnlink env rt fn fs ⟨0, cl, 0, 0, 0⟩).map fun x => (x.1, x.2.2)

def replyOf : Fr → Option Reply
  | .ok => some .done
  | .noFile => some .missing
  | .exist => some .already
  | .denied => some .full
  | _ => none

def asks (env : Env) (rt : Root) (cl : Nat) : Fs → List Ask → Option (Fs × List Reply)
  | fs, [] => some (fs, [])
  | fs, a :: as =>
    match ask env rt cl fs a with
    | none => none
    | some (fs, r) =>
      match replyOf r, asks env rt cl fs as with
      | some r, some (fs, rs) => some (fs, r :: rs)
      | _, _ => none

/-- The names in the directory -/
def namesOf (D : List Item) (fn : Nat → BitVec 8) : Prop := ∃ i, FoundAt D fn i

theorem others_trans {a b c : Fs} {O : List (List Nat)} (h : Others a b O) (k : Others b c O) (e1 : b.csize = a.csize) (e2 : b.database = a.database) : Others a c O := by
  intro M hM j hj
  have hsec : b.sec M j = a.sec M j := by
    unfold Fs.sec Fs.first
    rw [e1, e2]
  have := k M hM j (by rw [e1]; exact hj)
  rw [hsec] at this
  rw [this, h M hM j hj]

theorem not_found {D : List Item} {fn : Nat → BitVec 8} (h : Absent D fn) : ¬ namesOf D fn := fun ⟨_, f⟩ => found_absent f h

/-- One request -/
theorem ask_right {env : Env} (hq : Quiet env) (rt : Root) {cl n : Nat} {L : List Nat} {S : Nat → Nat} {O : List (List Nat)} (fs : Fs) (h : Holds fs rt cl L S n O) (a : Ask) (hp : proper a.name) :
    ∃ fs' r y L' S' n' P, ask env rt cl fs a = some (fs', r) ∧ replyOf r = some y ∧ Holds fs' rt cl L' S' n' O ∧ fs'.csize = fs.csize ∧ fs'.database = fs.database ∧ Others fs fs' O ∧
      Act (namesOf (dirOf fs S n)) a y P ∧ ∀ gn, proper gn → (P gn ↔ namesOf (dirOf fs' S' n') gn) := by
  cases a with
  | find fn =>
    obtain ⟨f, d, r, e1, e2, e3, e4, e5⟩ := find_right hq rt fn fs h ⟨0, cl, 0, 0, 0⟩ rfl
    obtain ⟨f', d', r', g1, g2, _⟩ := find_spec hq rt fn fs ⟨0, cl, 0, 0, 0⟩ h.area h.ok h.pow rfl
    rw [e1] at g1
    cases g1
    unfold ask
    dsimp only
    rw [e1]
    rcases e5 with ⟨rfl, e5, _⟩ | ⟨rfl, e5⟩
    · exact ⟨f, .ok, .done, L, S, n, _, rfl, rfl, e2, g2.shape.2.1, g2.shape.2.2.2.2.2.2, e4, .found ⟨_, e5⟩, fun gn _ => by rw [e3]⟩
    · exact ⟨f, .noFile, .missing, L, S, n, _, rfl, rfl, e2, g2.shape.2.1, g2.shape.2.2.2.2.2.2, e4, .notFound (not_found e5), fun gn _ => by rw [e3]⟩
  | create fn =>
    obtain ⟨f, d, r, L', S', n', e1, e2, c1, c2, e4, e5⟩ := create_right hq rt fn hp fs h ⟨0, cl, 0, 0, 0⟩ rfl
    unfold ask
    dsimp only
    rw [e1]
    rcases e5 with ⟨rfl, ⟨i, e5⟩, e6⟩ | ⟨rfl, e5, _, _, e6⟩ | ⟨rfl, e5, ⟨i, e6, _⟩, e7⟩
    · exact ⟨f, .exist, .already, L', S', n', _, rfl, rfl, e2, c1, c2, e4, .exists_ ⟨i, e5⟩, fun gn _ => by rw [e6]⟩
    · exact ⟨f, .denied, .full, L', S', n', _, rfl, rfl, e2, c1, c2, e4, .full (not_found e5), fun gn _ => by rw [e6]⟩
    · refine ⟨f, .ok, .done, L', S', n', _, rfl, rfl, e2, c1, c2, e4, .created (not_found e5), fun gn hg => ?_⟩
      by_cases ha : alike gn fn
      · exact ⟨fun _ => ⟨i, found_alike (fun j hj => (ha j hj).symm) e6⟩, fun _ => Or.inr ha⟩
      · constructor
        · rintro (⟨j, hj⟩ | y)
          · exact ⟨j, (e7 gn hg ha j).mpr hj⟩
          · exact absurd y ha
        · rintro ⟨j, hj⟩
          exact Or.inl ⟨j, (e7 gn hg ha j).mp hj⟩
  | remove fn =>
    obtain ⟨f, d, r, e1, e2, c1, c2, e4, e5⟩ := unlink_right hq rt fn hp fs h ⟨0, cl, 0, 0, 0⟩ rfl
    unfold ask
    dsimp only
    rw [e1]
    rcases e5 with ⟨rfl, e5, e6⟩ | ⟨rfl, ⟨i, e5, _⟩, e6, e7⟩
    · exact ⟨f, .noFile, .missing, L, S, n, _, rfl, rfl, e2, c1, c2, e4, .notThere (not_found e5), fun gn _ => by rw [e6]⟩
    · refine ⟨f, .ok, .done, L, S, n, _, rfl, rfl, e2, c1, c2, e4, .removed ⟨i, e5⟩, fun gn hg => ?_⟩
      by_cases ha : alike gn fn
      · constructor
        · rintro ⟨_, y⟩
          exact absurd ha y
        · rintro ⟨j, hj⟩
          exact absurd ⟨j, found_alike ha hj⟩ (not_found e6)
      · constructor
        · rintro ⟨⟨j, hj⟩, _⟩
          exact ⟨j, (e7 gn hg ha j).mpr hj⟩
        · rintro ⟨j, hj⟩
          exact ⟨⟨j, (e7 gn hg ha j).mp hj⟩, ha⟩

/-- Any sequence of requests: a directory behaves like a set of names, and other files do not change. -/
theorem directory_is_a_set {env : Env} (hq : Quiet env) (rt : Root) {cl : Nat} {O : List (List Nat)} (as : List Ask) : ∀ {n : Nat} {L : List Nat} {S : Nat → Nat} (fs : Fs), Holds fs rt cl L S n O →
    (∀ a ∈ as, proper a.name) → ∃ fs' rs L' S' n', asks env rt cl fs as = some (fs', rs) ∧ Holds fs' rt cl L' S' n' O ∧ Others fs fs' O ∧ Acts (namesOf (dirOf fs S n)) as rs (namesOf (dirOf fs' S' n')) := by
  induction as with
  | nil =>
    intro n L S fs h _
    exact ⟨fs, [], L, S, n, rfl, h, fun _ _ _ _ => rfl, .none fun _ _ => Iff.rfl⟩
  | cons a as ih =>
    intro n L S fs h hp
    obtain ⟨f, r, y, L', S', n', P, e1, e2, e3, c1, c2, e4, e5, e6⟩ := ask_right hq rt fs h a (hp a (List.mem_cons_self ..))
    obtain ⟨f', rs, L2, S2, n2, q1, q2, q3, q4⟩ := ih f e3 fun b hb => hp b (List.mem_cons_of_mem _ hb)
    refine ⟨f', y :: rs, L2, S2, n2, ?_, q2, others_trans e4 q3 c1 c2, .some e5 e6 q4⟩
    unfold asks
    rw [e1]
    dsimp only
    rw [e2, q1]

/-! ## Examples -/

/-- The root directory of the volume `empty`: one sector, 16 entries -/
def root : Root := ⟨5, 16⟩

theorem zero_entry {fs : Fs} {S : Nat → Nat} {n : Nat} (h : ∀ s i, 5 ≤ s → fs.look s i = 0) (hS : ∀ i, 5 ≤ S i) : Tidy (dirOf fs S n) ∧ Distinct (dirOf fs S n) := by
  have key : ∀ (i : Nat) (e : Item), (dirOf fs S n)[i]? = some e → e 0 = 0 := by
    intro i e he
    rw [dirOf_get] at he
    split at he
    · rw [← Option.some.inj he]
      unfold entryOf
      rw [if_pos (by decide), h _ _ (hS _)]
    · exact absurd he (by simp)
  exact ⟨fun _ j _ e' _ _ h2 _ => key j e' h2, fun _ i _ e _ h1 _ h3 => absurd (key i e h1) h3⟩

theorem empty_look (s i : Nat) (h : 5 ≤ s) : empty.look s i = 0 := by
  unfold Fs.look
  rw [if_neg (by show s ≠ 1; omega)]
  show (if (s = 1 ∨ s = 3) ∧ i < 4 then 255#8 else 0#8) = 0
  rw [if_neg (by omega)]
  rfl

theorem empty_root : Holds empty root 0 [] (fun i => root.dirbase + i) 1 [] :=
  have z := zero_entry (fs := empty) (S := fun i => root.dirbase + i) (n := 1) empty_look fun i => by show 5 ≤ 5 + i; omega
  ⟨Area.static (fs := empty) (rt := root) (by decide) (by decide) (by decide) (by decide) (by decide), empty_ok, ⟨0, by decide, by decide⟩, empty_files, z.1, z.2⟩

/-- Names of one letter -/
def name1 (c : BitVec 8) : Nat → BitVec 8 := fun j => if j = 0 then c else 0x20

def story1 : List Ask :=
  [.find (name1 65), .create (name1 65), .create (name1 66), .find (name1 65), .create (name1 65), .remove (name1 65), .find (name1 65), .find (name1 66), .remove (name1 65), .create (name1 67), .find (name1 67)]

example : ∃ fs' rs L' S' n', asks calm root 0 empty story1 = some (fs', rs) ∧ Holds fs' root 0 L' S' n' [] ∧ Others empty fs' [] ∧
    Acts (namesOf (dirOf empty (fun i => root.dirbase + i) 1)) story1 rs (namesOf (dirOf fs' S' n')) :=
  directory_is_a_set calm_quiet root story1 empty empty_root (by
    intro a ha
    simp only [story1, List.mem_cons, List.not_mem_nil, or_false] at ha
    rcases ha with rfl | rfl | rfl | rfl | rfl | rfl | rfl | rfl | rfl | rfl | rfl <;> exact ⟨by decide, by decide⟩)

example : (asks calm root 0 empty story1).map (·.2) = some [.missing, .done, .done, .done, .already, .done, .missing, .done, .missing, .done, .done] := by decide +kernel

/-- The place of A is used again for C. -/
example : (asks calm root 0 empty story1).map (fun x => [x.1.look 5 0, x.1.look 5 32, x.1.look 5 64]) = some [67, 66, 0] := by decide +kernel

/-- A volume whose directories have no free entry: the root in sector 5 and a directory in cluster 2 (sector 10) -/
def crowded : Fs :=
  { empty with win := fun i => if i < 6 then 255#8 else 0#8, disk := fun s i => if (s = 1 ∨ s = 3) ∧ i < 6 then 255#8 else if s = 5 ∨ s = 10 then (if i % 32 = 0 then 70 else 71) else if 11 ≤ s then 9 else 0 }

/-- The root is full; the other directory gets cluster 3 (sector 11), filled with zeros, and the new name is its first entry. -/
example : (asks calm root 0 crowded [.create (name1 65)]).map (·.2) = some [.full] ∧
    (asks calm root 2 crowded [.create (name1 65), .find (name1 65), .find (name1 66)]).map (fun x => (x.2, x.1.entryAt 2, x.1.entryAt 3, x.1.look 11 0, x.1.look 11 32, x.1.look 11 511)) =
      some ([.done, .done, .missing], 3, 65535, 65, 0, 0) := by decide +kernel

/-! ## What does not hold -/

/-- A directory whose entries after the end are not 0 -/
def untidy : Fs := { empty with disk := fun s i => if s = 5 ∧ i = 32 then 66 else if s = 5 ∧ 33 ≤ i ∧ i < 43 then 0x20 else empty.disk s i }

/-- Entries after the end that are not 0 appear when a file is created: B is not in the directory, and is there after A was created. (Such directories do not arise from the functions above.) -/
theorem stale_entry : (asks calm root 0 untidy [.find (name1 66), .create (name1 65), .find (name1 66)]).map (·.2) = some [.missing, .done, .done] := by decide +kernel

end Verif.Fat
