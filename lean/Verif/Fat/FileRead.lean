import Verif.Fat.FileWrite

/-!
# FatFs: lemmas on the loops of `f_write` and `f_read`
-/

namespace Verif.Fat

open Spec (Ty Chain Files order freeCount)

theorem Mv.mine {a b : Fs} {X : Nat → Prop} (h : Mv a b X) (L : List Nat) (s : Nat) : b.Mine L s ↔ a.Mine L s := by
  unfold Fs.Mine
  rw [h.csize]
  constructor
  · rintro ⟨i, h1, h2⟩; exact ⟨i, h1, by rw [h2, h.sec]⟩
  · rintro ⟨i, h1, h2⟩; exact ⟨i, h1, by rw [h2, h.sec]⟩

theorem mine_append {fs : Fs} {L M : List Nat} (hc : 1 ≤ fs.csize) {s : Nat} (h : fs.Mine L s) : fs.Mine (L ++ M) s := by
  obtain ⟨i, h1, h2⟩ := h
  refine ⟨i, Nat.lt_of_lt_of_le h1 (Nat.mul_le_mul_right _ ?_), ?_⟩
  · simp
  · rw [sec_prefix h1 hc]; exact h2

/-- Operations on the table leave the bytes of the file. -/
theorem view_table {fs f1 : Fs} {fp g : Fil} {L M : List Nat} {O : List (List Nat)} (h : Core fs fp L O) (hmv : Mv fs f1 (fun _ => False)) (e1 : g.dirty = fp.dirty) (e2 : g.dsect = fp.dsect)
    (e3 : g.buf = fp.buf) {o : Nat} (ho : o < 512 * (L.length * fs.csize)) : view f1 g (L ++ M) o = view fs fp L o := by
  have ho' : o / 512 < L.length * fs.csize := by
    generalize L.length * fs.csize = N at *
    omega
  have hm : fs.Mine L (fs.sec L (o / 512)) := ⟨_, ho', rfl⟩
  unfold view
  rw [hmv.sec, sec_prefix ho' h.ok.layout.clus]
  unfold cell
  rw [e1, e2, e3, hmv.disk h.ok.layout (mine_bounds h.ok.layout h.files hm).1 (mine_away h.ok.layout h.files h.away hm) id]

theorem Core.move {fs f1 : Fs} {fp : Fil} {L : List Nat} {O : List (List Nat)} (h : Core fs fp L O) (hmv : Mv fs f1 (fun _ => False))
    (hf : ∀ c, c < fs.nFatent → f1.entryAt c = fs.entryAt c) : ∀ g : Fil, g = fp → Core f1 g L O := by
  rintro g rfl
  refine ⟨hmv.ok, by rw [hmv.csize]; exact h.pow, by rw [hmv.nFatent]; exact files_congr h.files hf, h.start, by rw [hmv.csize]; exact h.ptr, by rw [hmv.csize]; exact h.size,
    h.p32, fun hp => by rw [hmv.csize]; exact h.clust hp, fun hp => by rw [hmv.sec]; exact h.sect hp, fun hd => ?_, fun hd => ?_, hmv.away h.ok.layout h.away, h.d32⟩
  · rcases h.cache hd with z | z
    · exact Or.inl z
    · exact Or.inr ⟨(hmv.loose ..).mpr z.1, by rw [z.2, hmv.disk h.ok.layout z.1.1 (loose_away h.away z.1) id]⟩
  · obtain ⟨i, i1, i2⟩ := h.mine hd
    exact ⟨i, by rw [hmv.csize]; exact i1, by rw [hmv.sec]; exact i2⟩

/-! ## The loop of `f_write` -/

/-- One turn: the disk is full and the file ends at the last byte of its last cluster, or some bytes are written. -/
theorem turn_spec {env : Env} (hq : Quiet env) {fs : Fs} {fp : Fil} {L : List Nat} {O : List (List Nat)} (h : Core fs fp L O) (src : Nat → BitVec 8) (btw : Nat) (hbtw : 0 < btw)
    (h32 : fp.fptr + btw < 4294967296) :
    (∃ fs', writeTurn env fs fp src btw = some (.full fs' fp) ∧ Core fs' fp L O ∧ Mv fs fs' (fun _ => False) ∧ fp.fptr = 512 * (L.length * fs.csize) ∧
      ∀ c, 2 ≤ c → c < fs.nFatent → c ∈ (own L ++ O).flatten) ∨
    ∃ M fs' fp' n, writeTurn env fs fp src btw = some (.more fs' fp' n) ∧ 0 < n ∧ n ≤ btw ∧ Core fs' { fp' with fptr := fp.fptr + n } (L ++ M) O ∧ fp.Kept fp' ∧
      Mv fs fs' (fs.Mine (L ++ M)) ∧
      ∀ o, o < max fp.fsize (fp.fptr + n) → view fs' fp' (L ++ M) o = if fp.fptr ≤ o ∧ o < fp.fptr + n then src (o - fp.fptr) else view fs fp L o := by
  obtain ⟨c1, c2⟩ := h.csect
  unfold writeTurn
  by_cases hb : fp.fptr % 512 = 0
  · rw [if_pos hb, c1]
    by_cases hz : fp.fptr / 512 % fs.csize = 0
    · rw [if_pos hz]
      rcases cluster_spec hq h hb hz with ⟨fs', d1, d2, d3, d4⟩ | ⟨f1, M, clst, d1, d2, d3, d4, d5, d6, d7, d8, d9⟩
      · left
        rw [d1]
        exact ⟨fs', rfl, h.move (d2.mv _) d2.entries fp rfl, d2.mv _, d3, d4⟩
      · right
        rw [d1]
        dsimp only
        have hent := Fs.ents_lt h.ok
        rw [if_neg (by omega), if_neg (by omega), if_neg (by omega)]
        have hat : AtSector f1 { fp with clust := clst, sclust := if fp.sclust = 0 then clst else fp.sclust } (L ++ M) O := by
          refine ⟨d2.ok, by rw [d2.csize]; exact h.pow, by rw [d2.nFatent]; exact d3, d8, by rw [d2.csize]; exact d5, ?_, by rw [d2.csize]; exact d4, hb, fun hd => ?_, fun hd => ?_,
            d2.away h.ok.layout h.away, h.d32⟩
          · rw [d2.csize]
            refine Nat.le_trans h.size (Nat.mul_le_mul_left _ (Nat.mul_le_mul_right _ ?_))
            simp
          · rcases h.cache hd with z | z
            · exact Or.inl z
            · exact Or.inr ⟨(d2.loose ..).mpr z.1, by
                show fp.buf = f1.disk fp.dsect
                rw [z.2, d2.disk h.ok.layout z.1.1 (loose_away h.away z.1) id]⟩
          · exact (d2.mine _ _).mpr (mine_append h.ok.layout.clus (h.mine hd))
        obtain ⟨fs', fp', n, w1, w2, w3, w4⟩ := writeSector_spec hq hat src btw 0 (by rw [d2.csize]; exact hz.symm) hbtw h32
        rw [w1]
        refine ⟨M, fs', fp', n, rfl, w2, w3, w4.core, w4.kept, (d2.mono fun _ x => x.elim).trans (w4.mv.mono fun s x => (d2.mine _ _).mp x), fun o ho => ?_⟩
        rw [w4.view o ho]
        dsimp only
        by_cases k : fp.fptr ≤ o ∧ o < fp.fptr + n
        · rw [if_pos k, if_pos k]
        · rw [if_neg k, if_neg k]
          refine view_table h d2 rfl rfl rfl ?_
          have h1 := h.ptr
          have h2 := h.size
          generalize L.length * fs.csize = N at *
          omega
    · rw [if_neg hz]
      right
      have hptr := h.ptr
      have hclus := h.ok.layout.clus
      have e := Nat.div_add_mod (fp.fptr / 512) fs.csize
      have hlt : fp.fptr / 512 % fs.csize < fs.csize := Nat.mod_lt _ hclus
      have hne : fp.fptr / 512 ≠ L.length * fs.csize := by
        intro k
        apply hz
        rw [k]
        exact Nat.mul_mod_left _ _
      have hpos : fp.fptr / 512 < L.length * fs.csize := by
        generalize L.length * fs.csize = N at *
        omega
      have h0 : 0 < fp.fptr / 512 := by
        rcases Nat.eq_zero_or_pos (fp.fptr / 512) with z | z
        · rw [z] at hz; simp at hz
        · exact z
      have hcl := h.clust (by omega)
      have ecl : (fp.fptr - 1) / 512 / fs.csize = fp.fptr / 512 / fs.csize := by
        have e1 : (fp.fptr - 1) / 512 = fs.csize * (fp.fptr / 512 / fs.csize) + (fp.fptr / 512 % fs.csize - 1) := by omega
        rw [e1, Nat.mul_add_div hclus, Nat.div_eq_of_lt (a := fp.fptr / 512 % fs.csize - 1) (by omega), Nat.add_zero]
      rw [ecl] at hcl
      have hat : AtSector fs fp L O := ⟨h.ok, h.pow, h.files, h.start, hpos, h.size, hcl, hb, h.cache, h.mine, h.away, h.d32⟩
      obtain ⟨fs', fp', n, w1, w2, w3, w4⟩ := writeSector_spec hq hat src btw _ rfl hbtw h32
      rw [w1]
      refine ⟨[], fs', fp', n, rfl, w2, w3, ?_, w4.kept, ?_, ?_⟩
      · rw [List.append_nil]; exact w4.core
      · rw [List.append_nil]; exact w4.mv
      · rw [List.append_nil]; exact w4.view
  · rw [if_neg hb]
    right
    obtain ⟨fs', fp', n, w1, w2, w3, w4⟩ := middle_spec h hb src btw hbtw h32
    rw [w1]
    refine ⟨[], fs', fp', n, rfl, w2, w3, ?_, w4.kept, ?_, ?_⟩
    · rw [List.append_nil]; exact w4.core
    · rw [List.append_nil]; exact w4.mv
    · rw [List.append_nil]; exact w4.view

theorem Core.ended {fs : Fs} {fp : Fil} {L : List Nat} {O : List (List Nat)} (h : Core fs fp L O) (bw : Nat) :
    Core (writeEnd fs fp bw).1 (writeEnd fs fp bw).2.1 L O ∧ (writeEnd fs fp bw).2.1.fptr = fp.fptr ∧ (writeEnd fs fp bw).2.1.fsize = max fp.fsize fp.fptr := by
  unfold writeEnd
  dsimp only
  refine ⟨⟨h.ok, h.pow, h.files, h.start, h.ptr, ?_, h.p32, h.clust, h.sect, h.cache, h.mine, h.away, h.d32⟩, rfl, by split <;> omega⟩
  have := h.ptr
  have := h.size
  show (if fp.fptr > fp.fsize then fp.fptr else fp.fsize) ≤ _
  split <;> omega

/-- The loop, from any state in it -/
theorem loop_spec {env : Env} (hq : Quiet env) (k : Nat) : ∀ {fs : Fs} {fp : Fil} {L : List Nat} {O : List (List Nat)} (_ : Core fs fp L O) (src : Nat → BitVec 8) (btw bw : Nat)
    (_ : btw ≤ k) (_ : fp.fptr + btw < 4294967296),
    ∃ M fs' fp' n, writeLoop env k fs fp src btw bw = some (fs', fp', .ok, bw + n) ∧ n ≤ btw ∧ Core fs' fp' (L ++ M) O ∧ Mv fs fs' (fs.Mine (L ++ M)) ∧
      fp'.fptr = fp.fptr + n ∧ fp'.fsize = max fp.fsize (fp.fptr + n) ∧ fp'.rd = fp.rd ∧ fp'.wr = fp.wr ∧ fp'.err = fp.err ∧ fp'.written = true ∧
      (∀ o, o < max fp.fsize (fp.fptr + n) → view fs' fp' (L ++ M) o = if fp.fptr ≤ o ∧ o < fp.fptr + n then src (o - fp.fptr) else view fs fp L o) ∧
      (n < btw → fp.fptr + n = 512 * ((L ++ M).length * fs.csize) ∧ ∀ c, 2 ≤ c → c < fs.nFatent → c ∈ (own (L ++ M) ++ O).flatten) := by
  induction k with
  | zero =>
    intro fs fp L O h src btw bw hk h32
    have hz : btw = 0 := by omega
    subst hz
    obtain ⟨e1, e2, e3⟩ := h.ended bw
    refine ⟨[], fs, (writeEnd fs fp bw).2.1, 0, ?_, by omega, ?_, Mv.refl h.ok _, e2, e3, rfl, rfl, rfl, rfl, fun o _ => ?_, fun x => by omega⟩
    · unfold writeLoop; rw [if_pos rfl]; rfl
    · rw [List.append_nil]; exact e1
    · rw [List.append_nil, if_neg (by omega)]; rfl
  | succ k ih =>
    intro fs fp L O h src btw bw hk h32
    unfold writeLoop
    by_cases hz : btw = 0
    · subst hz
      obtain ⟨e1, e2, e3⟩ := h.ended bw
      refine ⟨[], fs, (writeEnd fs fp bw).2.1, 0, ?_, by omega, ?_, Mv.refl h.ok _, e2, e3, rfl, rfl, rfl, rfl, fun o _ => ?_, fun x => by omega⟩
      · rw [if_pos rfl]; rfl
      · rw [List.append_nil]; exact e1
      · rw [List.append_nil, if_neg (by omega)]; rfl
    · rw [if_neg hz]
      dsimp only
      rcases turn_spec hq h src btw (by omega) h32 with ⟨fs', t1, t2, t3, t4, t5⟩ | ⟨M, f1, p1, n, t1, t2, t3, t4, t5, t6, t7⟩
      · rw [t1]
        dsimp only
        obtain ⟨e1, e2, e3⟩ := t2.ended bw
        refine ⟨[], fs', (writeEnd fs' fp bw).2.1, 0, rfl, by omega, ?_, t3.mono fun _ x => x.elim, e2, e3, rfl, rfl, rfl, rfl, fun o ho => ?_, fun x => ⟨?_, ?_⟩⟩
        · rw [List.append_nil]; exact e1
        · rw [if_neg (by omega)]
          have h1 := h.ptr
          have h2 := h.size
          exact view_table (M := []) h t3 rfl rfl rfl (by generalize L.length * fs.csize = N at *; omega)
        · rw [List.append_nil]; omega
        · rw [List.append_nil]; exact t5
      · rw [t1]
        dsimp only
        obtain ⟨k1, k2, k3, k4, k5, k6⟩ := t5
        rw [k1, u32_of (by omega)]
        obtain ⟨M', f2, p2, n', i1, i2, i3, i4, i5, i6, i7, i8, i9, i10, i11, i12⟩ := ih t4 (fun i => src (n + i)) (btw - n) (bw + n) (by omega) (by dsimp only; omega)
        dsimp only at i5 i6 i7 i8 i9 i11 i12
        rw [k2] at i6 i11
        rw [List.append_assoc] at i3 i4 i11 i12
        refine ⟨M ++ M', f2, p2, n + n', by rw [i1, Nat.add_assoc], by omega, i3, ?_, by omega, by omega, i7.trans k3, i8.trans k4, i9.trans k5, i10, fun o ho => ?_, fun hlt => ?_⟩
        · refine (t6.mono fun s x => ?_).trans (i4.mono fun s x => (t6.mine _ _).mp x)
          rw [← List.append_assoc]
          exact mine_append h.ok.layout.clus x
        · rw [i11 o (by omega)]
          by_cases a : fp.fptr + n ≤ o ∧ o < fp.fptr + n + n'
          · rw [if_pos a, if_pos (by omega)]
            exact congrArg src (by omega)
          · rw [if_neg a]
            have hv : view f1 { p1 with fptr := fp.fptr + n, fsize := fp.fsize } (L ++ M) o = view f1 p1 (L ++ M) o := rfl
            rw [hv, t7 o (by omega)]
            by_cases b : fp.fptr ≤ o ∧ o < fp.fptr + n
            · rw [if_pos b, if_pos (by omega)]
            · rw [if_neg b, if_neg (by omega)]
        · obtain ⟨j1, j2⟩ := i12 (by omega)
          refine ⟨?_, ?_⟩
          · rw [t6.csize] at j1
            omega
          · rw [t6.nFatent] at j2
            exact j2

/-! ## The loop of `f_read` -/

/-- A turn that reads `n` bytes -/
structure Got (fs : Fs) (fp : Fil) (L : List Nat) (O : List (List Nat)) (n : Nat) (bytes : Nat → BitVec 8) (fs' : Fs) (fp' : Fil) : Prop where
  core : Core fs' { fp' with fptr := fp.fptr + n } L O
  kept : fp.Kept fp'
  mv : Mv fs fs' (fs.Mine L)
  same : ∀ o, o < 512 * (L.length * fs.csize) → view fs' fp' L o = view fs fp L o
  got : ∀ i, i < n → bytes i = view fs fp L (fp.fptr + i)

/-- A turn that takes bytes from the buffer -/
theorem readBytes_spec {fs : Fs} {fp : Fil} {L : List Nat} {O : List (List Nat)} (hok : fs.Ok) (hpow : ∃ p, p ≤ 7 ∧ fs.csize = 2 ^ p)
    (hf : Files fs.entryAt fs.nFatent (own L ++ O)) (hst : fp.sclust = L.headD 0) (hpos : fp.fptr / 512 < L.length * fs.csize) (hsz : fp.fsize ≤ 512 * (L.length * fs.csize))
    (hcl : fp.clust = L.getD (fp.fptr / 512 / fs.csize) 0) (hds : fp.dsect = fs.sec L (fp.fptr / 512))
    (hbuf : fp.dirty = false → fp.buf = fs.disk fp.dsect)
    (haw : fs.winsect < fs.database ∨ ∃ c, c ∈ O.flatten ∧ fs.first c ≤ fs.winsect ∧ fs.winsect < fs.first c + fs.csize)
    (btr : Nat) (hbtr : 0 < btr) (h32 : fp.fptr + btr < 4294967296) :
    ∃ n bytes, readBytes fs fp btr = .more fs fp n bytes ∧ 0 < n ∧ n ≤ btr ∧ Got fs fp L O n bytes fs fp := by
  have hn1 : 0 < min (512 - fp.fptr % 512) btr := by omega
  have hn2 : min (512 - fp.fptr % 512) btr ≤ btr := by omega
  have hn3 : fp.fptr % 512 + min (512 - fp.fptr % 512) btr ≤ 512 := by omega
  unfold readBytes
  generalize min (512 - fp.fptr % 512) btr = n at hn1 hn2 hn3
  have hb := mine_bounds hok.layout hf ⟨_, hpos, hds⟩
  refine ⟨n, _, rfl, hn1, hn2, ?_, ⟨rfl, rfl, rfl, rfl, rfl, rfl⟩, Mv.refl hok _, fun _ _ => rfl, fun i hi => ?_⟩
  · refine ⟨hok, hpow, hf, hst, ?_, hsz, ?_, fun _ => ?_, fun hne => ?_, fun hd => Or.inr ⟨⟨hb.1, hb.2.2.2⟩, hbuf hd⟩, fun _ => ⟨_, hpos, hds⟩, haw, hb.2.1⟩
    · show fp.fptr + n ≤ 512 * (L.length * fs.csize)
      generalize L.length * fs.csize = N at *
      omega
    · show fp.fptr + n < 4294967296
      omega
    · show fp.clust = L.getD ((fp.fptr + n - 1) / 512 / fs.csize) 0
      rw [show (fp.fptr + n - 1) / 512 = fp.fptr / 512 by omega]
      exact hcl
    · show fp.dsect = fs.sec L ((fp.fptr + n) / 512)
      dsimp only at hne
      rw [show (fp.fptr + n) / 512 = fp.fptr / 512 by omega]
      exact hds
  · unfold view cell
    rw [show (fp.fptr + i) / 512 = fp.fptr / 512 by omega, show (fp.fptr + i) % 512 = fp.fptr % 512 + i by omega]
    by_cases d : fp.dirty = true
    · rw [if_pos ⟨d, hds.symm⟩]
    · rw [if_neg fun x => d x.1, hbuf (by simpa using d), hds]

theorem Core.edge {fs : Fs} {fp : Fil} {L : List Nat} {O : List (List Nat)} (h : Core fs fp L O) (hb : fp.fptr % 512 = 0) (hz : fp.fptr / 512 % fs.csize ≠ 0) : AtSector fs fp L O := by
  have hptr := h.ptr
  have hclus := h.ok.layout.clus
  have e := Nat.div_add_mod (fp.fptr / 512) fs.csize
  have hlt : fp.fptr / 512 % fs.csize < fs.csize := Nat.mod_lt _ hclus
  have hne : fp.fptr / 512 ≠ L.length * fs.csize := by
    intro k
    apply hz
    rw [k]
    exact Nat.mul_mod_left _ _
  have hpos : fp.fptr / 512 < L.length * fs.csize := by
    generalize L.length * fs.csize = N at *
    omega
  have h0 : 0 < fp.fptr / 512 := by
    rcases Nat.eq_zero_or_pos (fp.fptr / 512) with z | z
    · rw [z] at hz; simp at hz
    · exact z
  have hcl := h.clust (by omega)
  have ecl : (fp.fptr - 1) / 512 / fs.csize = fp.fptr / 512 / fs.csize := by
    have e1 : (fp.fptr - 1) / 512 = fs.csize * (fp.fptr / 512 / fs.csize) + (fp.fptr / 512 % fs.csize - 1) := by omega
    rw [e1, Nat.mul_add_div hclus, Nat.div_eq_of_lt (a := fp.fptr / 512 % fs.csize - 1) (by omega), Nat.add_zero]
  rw [ecl] at hcl
  exact ⟨h.ok, h.pow, h.files, h.start, hpos, h.size, hcl, hb, h.cache, h.mine, h.away, h.d32⟩

theorem readSector_spec {env : Env} (hq : Quiet env) {fs : Fs} {fp : Fil} {L : List Nat} {O : List (List Nat)} (h : AtSector fs fp L O) (btr cs : Nat)
    (hcs : cs = fp.fptr / 512 % fs.csize) (hbtr : 0 < btr) (h32 : fp.fptr + btr < 4294967296) :
    ∃ fs' fp' n bytes, readSector env fs fp btr cs = .more fs' fp' n bytes ∧ 0 < n ∧ n ≤ btr ∧ Got fs fp L O n bytes fs' fp' := by
  have hclus := h.ok.layout.clus
  obtain ⟨hn, hL, hO⟩ := files_bounds h.files
  obtain ⟨m1, m2, m3⟩ := sec_mem h.pos hclus
  rw [← h.clust] at m2
  obtain ⟨c1, c2, c3⟩ := hL _ m2
  obtain ⟨b1, b2⟩ := first_bounds h.ok.layout c1 c2
  obtain ⟨s1, s2⟩ := clust2sect_eq h.ok.layout c1 c2
  have hsec : fs.sec L (fp.fptr / 512) = fs.first fp.clust + cs := by
    unfold Fs.sec
    rw [← h.clust, ← hcs]
  have hedge := h.edge
  have hpos := h.pos
  have hsz := h.size
  unfold readSector
  dsimp only
  rw [s1, if_neg s2, u32_of (by rw [← hcs] at m3; omega), ← hsec]
  by_cases hcc : btr / 512 ≠ 0
  · rw [if_pos hcc]
    rw [← hcs] at m3
    have k1 : 1 ≤ (if cs + btr / 512 > fs.csize then fs.csize - cs else btr / 512) := by split <;> omega
    have k2 : cs + (if cs + btr / 512 > fs.csize then fs.csize - cs else btr / 512) ≤ fs.csize := by split <;> omega
    have k3 : (if cs + btr / 512 > fs.csize then fs.csize - cs else btr / 512) ≤ btr / 512 := by split <;> omega
    generalize (if cs + btr / 512 > fs.csize then fs.csize - cs else btr / 512) = cc at k1 k2 k3
    have hsub := sub32_lt (a := fp.dsect) (b := fs.sec L (fp.fptr / 512)) (c := cc) h.d32 (by omega)
    have hin : ∀ q, q < cc → fs.sec L (fp.fptr / 512 + q) = fs.sec L (fp.fptr / 512) + q := fun q hq => sec_add (by omega)
    have hlt : ∀ q, q < cc → fp.fptr / 512 + q < L.length * fs.csize := by
      intro q hq
      have e := Nat.div_add_mod (fp.fptr / 512) fs.csize
      have : fs.csize * (fp.fptr / 512 / fs.csize) + fs.csize ≤ L.length * fs.csize := by
        rw [← Nat.mul_succ, Nat.mul_comm L.length]
        exact Nat.mul_le_mul_left _ m1
      omega
    rw [fs.readMany_quiet hq]
    dsimp only
    rw [if_pos rfl]
    obtain ⟨v1, v2⟩ := data_mv h.ok fs.disk (fs.t + 1) (fun _ => False) (fun s hs => hs.elim) (fun s _ => rfl)
    refine ⟨_, fp, _, _, rfl, by omega, by omega, ?_, ⟨rfl, rfl, rfl, rfl, rfl, rfl⟩, v1.mono fun _ x => x.elim, fun _ _ => rfl, fun i hi => ?_⟩
    · refine ⟨v1.ok, h.pow, files_congr h.files v2, h.start, ?_, hsz, ?_, fun _ => ?_, fun hne => ?_, h.cache, h.mine, h.away, h.d32⟩
      · show fp.fptr + 512 * cc ≤ 512 * (L.length * fs.csize)
        have := hlt (cc - 1) (by omega)
        generalize L.length * fs.csize = N at *
        omega
      · show fp.fptr + 512 * cc < 4294967296
        omega
      · show fp.clust = L.getD ((fp.fptr + 512 * cc - 1) / 512 / fs.csize) 0
        have e := Nat.div_add_mod (fp.fptr / 512) fs.csize
        have e' : (fp.fptr + 512 * cc - 1) / 512 = fs.csize * (fp.fptr / 512 / fs.csize) + (fp.fptr / 512 % fs.csize + (cc - 1)) := by omega
        have e'' : (fp.fptr + 512 * cc - 1) / 512 / fs.csize = fp.fptr / 512 / fs.csize := by
          rw [e', Nat.mul_add_div hclus, Nat.div_eq_of_lt (b := fs.csize) (a := fp.fptr / 512 % fs.csize + (cc - 1)) (by omega), Nat.add_zero]
        rw [h.clust, e'']
      · exfalso
        apply hne
        show (fp.fptr + 512 * cc) % 512 = 0
        omega
    · have e1 : (fp.fptr + i) / 512 = fp.fptr / 512 + i / 512 := by omega
      have e2 : (fp.fptr + i) % 512 = i % 512 := by omega
      have e3 := hin (i / 512) (by omega)
      unfold view
      rw [e1, e2, e3]
      by_cases z : fp.dirty = true ∧ sub32 fp.dsect (fs.sec L (fp.fptr / 512)) < cc
      · have z' := hsub.1.mp z.2
        rw [if_pos z, hsub.2 z'.1]
        unfold paste cell
        by_cases e : fs.sec L (fp.fptr / 512) + i / 512 = fp.dsect
        · rw [if_pos (by omega), if_pos ⟨z.1, e⟩]
          exact congrArg fp.buf (by omega)
        · rw [if_neg (by omega), if_neg fun x => e x.2]
      · rw [if_neg z]
        unfold cell
        rw [if_neg]
        rintro ⟨x1, x2⟩
        exact z ⟨x1, hsub.1.mpr (by omega)⟩
  · rw [if_neg hcc]
    by_cases hds : fp.dsect ≠ fs.sec L (fp.fptr / 512)
    · rw [if_pos hds]
      obtain ⟨f1, a1, a2, a3, a4, a5, a6⟩ := flush_spec hq fs fp L O h.ok h.files h.away h.mine h.cache
      rw [a1]
      dsimp only
      rw [if_neg (by decide), f1.read_quiet hq]
      dsimp only
      rw [if_pos rfl]
      obtain ⟨v1, v2⟩ := data_mv a2.ok f1.disk (f1.t + 1) (fun _ => False) (fun s hs => hs.elim) (fun s _ => rfl)
      have hmv : Mv fs _ (fs.Mine L) := a2.trans (v1.mono fun _ x => x.elim)
      have hent : ∀ c, c < fs.nFatent → ({ f1 with t := f1.t + 1 } : Fs).entryAt c = fs.entryAt c := fun c hc => (v2 c (by rw [a2.nFatent]; exact hc)).trans (a3 c hc)
      obtain ⟨n, bytes, r1, r2, r3, r4⟩ := readBytes_spec (fs := { f1 with t := f1.t + 1 }) (fp := { fp with dirty := false, buf := f1.disk (fs.sec L (fp.fptr / 512)), dsect := fs.sec L (fp.fptr / 512) })
        (L := L) (O := O) hmv.ok (by rw [hmv.csize]; exact h.pow) (by rw [hmv.nFatent]; exact files_congr h.files hent) h.start (by rw [hmv.csize]; exact hpos) (by rw [hmv.csize]; exact hsz)
        (by rw [hmv.csize]; exact h.clust) (by rw [hmv.sec]) (fun _ => rfl) (hmv.away h.ok.layout h.away) btr hbtr h32
      refine ⟨_, _, n, bytes, r1, r2, r3, r4.core, ⟨rfl, rfl, rfl, rfl, rfl, rfl⟩, hmv, fun o ho => ?_, fun i hi => ?_⟩
      · unfold view
        rw [hmv.sec]
        unfold cell
        rw [if_neg (fun x => Bool.noConfusion x.1)]
        show f1.disk _ _ = _
        rw [a4]
        rfl
      · rw [r4.got i hi]
        unfold view
        rw [hmv.sec]
        show cell _ _ (fs.sec L ((fp.fptr + i) / 512)) _ = _
        unfold cell
        rw [if_neg (fun x => Bool.noConfusion x.1)]
        show f1.disk _ _ = _
        rw [a4]
        rfl
    · rw [if_neg hds]
      have hds' : fp.dsect = fs.sec L (fp.fptr / 512) := Classical.not_not.mp hds
      rw [← hds']
      obtain ⟨n, bytes, r1, r2, r3, r4⟩ := readBytes_spec h.ok h.pow h.files h.start hpos hsz h.clust hds' (fun hd => by
        rcases h.cache hd with z | z
        · exact absurd z (mine_bounds h.ok.layout h.files ⟨_, hpos, hds'⟩).2.2.1
        · exact z.2) h.away btr hbtr h32
      exact ⟨_, _, n, bytes, r1, r2, r3, r4⟩

theorem readTurn_spec {env : Env} (hq : Quiet env) {fs : Fs} {fp : Fil} {L : List Nat} {O : List (List Nat)} (h : Core fs fp L O) (btr : Nat) (hbtr : 0 < btr)
    (hin : fp.fptr + btr ≤ fp.fsize) (h32 : fp.fsize < 4294967296) :
    ∃ fs' fp' n bytes, readTurn env fs fp btr = .more fs' fp' n bytes ∧ 0 < n ∧ n ≤ btr ∧ Got fs fp L O n bytes fs' fp' := by
  obtain ⟨c1, c2⟩ := h.csect
  have hptr := h.ptr
  have hsz := h.size
  have hclus := h.ok.layout.clus
  have hpos : fp.fptr / 512 < L.length * fs.csize := by
    generalize L.length * fs.csize = N at *
    omega
  obtain ⟨hn, hL, hO⟩ := files_bounds h.files
  have hent := Fs.ents_lt h.ok
  unfold readTurn
  by_cases hb : fp.fptr % 512 = 0
  · rw [if_pos hb, c1]
    by_cases hz : fp.fptr / 512 % fs.csize = 0
    · rw [if_pos hz]
      obtain ⟨m1, m2, m3⟩ := sec_mem hpos hclus
      obtain ⟨g1, g2, g3⟩ := hL _ m2
      -- the cluster
      have key : ∃ f1, (if fp.fptr = 0 then (fs, fp.sclust) else fs.getFat env fp.clust) = (f1, L.getD (fp.fptr / 512 / fs.csize) 0) ∧ Mv fs f1 (fun _ => False) ∧
          ∀ c, c < fs.nFatent → f1.entryAt c = fs.entryAt c := by
        by_cases hp : fp.fptr = 0
        · rw [if_pos hp]
          refine ⟨fs, ?_, Mv.refl h.ok _, fun _ _ => rfl⟩
          rw [h.start, hp]
          cases L with
          | nil => rfl
          | cons a L => simp
        · rw [if_neg hp]
          have hcl := h.clust (by omega)
          obtain ⟨d1, d2, d3⟩ := div_pred hclus (i := fp.fptr / 512) (by omega) hz
          rw [show (fp.fptr - 1) / 512 = fp.fptr / 512 - 1 by omega, d1] at hcl
          generalize fp.fptr / 512 / fs.csize = d at *
          obtain ⟨e, rfl⟩ : ∃ e, d = e + 1 := ⟨d - 1, by omega⟩
          rw [Nat.add_sub_cancel] at hcl
          have hnil : L ≠ [] := by rintro rfl; simp at m1
          obtain ⟨ch, hch⟩ := h.files.chains L (by rw [own_cons hnil]; simp)
          obtain ⟨A, B, hAB⟩ := list_at m1
          rw [← hcl] at hAB
          rw [hAB] at hch
          obtain ⟨n1, n2, n3, n4, n5⟩ := hch.next_val
          obtain ⟨f1, e1, e2, _⟩ := fs.get_step hq h.ok fp.clust n2 n3
          exact ⟨f1, by rw [e1, n1], e2.mv _, e2.entries⟩
      obtain ⟨f1, e1, e2, e3⟩ := key
      rw [e1]
      dsimp only
      rw [if_neg (by omega), if_neg (by omega)]
      have hat : AtSector f1 { fp with clust := L.getD (fp.fptr / 512 / fs.csize) 0 } L O := by
        refine ⟨e2.ok, by rw [e2.csize]; exact h.pow, by rw [e2.nFatent]; exact files_congr h.files e3, h.start, by rw [e2.csize]; exact hpos, by rw [e2.csize]; exact hsz, by rw [e2.csize], hb,
          fun hd => ?_, fun hd => ?_, e2.away h.ok.layout h.away, h.d32⟩
        · rcases h.cache hd with z | z
          · exact Or.inl z
          · exact Or.inr ⟨(e2.loose ..).mpr z.1, by
              show fp.buf = f1.disk fp.dsect
              rw [z.2, e2.disk h.ok.layout z.1.1 (loose_away h.away z.1) id]⟩
        · exact (e2.mine _ _).mpr (h.mine hd)
      obtain ⟨fs', fp', n, bytes, w1, w2, w3, w4⟩ := readSector_spec hq hat btr 0 (by rw [e2.csize]; exact hz.symm) hbtr (by dsimp only; omega)
      have hv : ∀ o, o < 512 * (L.length * fs.csize) → view f1 { fp with clust := L.getD (fp.fptr / 512 / fs.csize) 0 } L o = view fs fp L o := by
        intro o ho
        have := view_table (M := []) (g := { fp with clust := L.getD (fp.fptr / 512 / fs.csize) 0 }) h e2 rfl rfl rfl ho
        rwa [List.append_nil] at this
      refine ⟨fs', fp', n, bytes, w1, w2, w3, w4.core, w4.kept, (e2.mono fun _ x => x.elim).trans (w4.mv.mono fun s x => (e2.mine _ _).mp x), fun o ho => ?_, fun i hi => ?_⟩
      · rw [w4.same o (by rw [e2.csize]; exact ho), hv o ho]
      · rw [w4.got i hi, hv _ (by dsimp only; generalize L.length * fs.csize = N at *; omega)]
    · rw [if_neg hz]
      exact readSector_spec hq (h.edge hb hz) btr _ rfl hbtr (by omega)
  · rw [if_neg hb]
    have hds := h.sect hb
    have hcl := h.clust (by omega)
    rw [show (fp.fptr - 1) / 512 = fp.fptr / 512 by omega] at hcl
    obtain ⟨n, bytes, r1, r2, r3, r4⟩ := readBytes_spec h.ok h.pow h.files h.start hpos hsz hcl hds (fun hd => by
      rcases h.cache hd with z | z
      · exact absurd z (mine_bounds h.ok.layout h.files ⟨_, hpos, hds⟩).2.2.1
      · exact z.2) h.away btr hbtr (by omega)
    exact ⟨_, _, n, bytes, r1, r2, r3, r4⟩

theorem readLoop_spec {env : Env} (hq : Quiet env) (k : Nat) : ∀ {fs : Fs} {fp : Fil} {L : List Nat} {O : List (List Nat)} (_ : Core fs fp L O) (out : Nat → BitVec 8) (btr br : Nat)
    (_ : btr ≤ k) (_ : fp.fptr + btr ≤ fp.fsize) (_ : fp.fsize < 4294967296),
    ∃ fs' fp', readLoop env k fs fp out btr br = some (fs', fp', .ok, br + btr, paste out br btr fun i => view fs fp L (fp.fptr + i)) ∧ Core fs' fp' L O ∧
      Mv fs fs' (fs.Mine L) ∧ fp'.fptr = fp.fptr + btr ∧ fp'.fsize = fp.fsize ∧ fp'.rd = fp.rd ∧ fp'.wr = fp.wr ∧ fp'.err = fp.err ∧ fp'.written = fp.written ∧
      (∀ o, o < fp.fsize → view fs' fp' L o = view fs fp L o) := by
  induction k with
  | zero =>
    intro fs fp L O h out btr br hk hin h32
    have hz : btr = 0 := by omega
    subst hz
    refine ⟨fs, fp, ?_, h, Mv.refl h.ok _, rfl, rfl, rfl, rfl, rfl, rfl, fun _ _ => rfl⟩
    unfold readLoop
    rw [if_pos rfl]
    congr 5
    funext i
    unfold paste
    rw [if_neg (by omega)]
  | succ k ih =>
    intro fs fp L O h out btr br hk hin h32
    unfold readLoop
    by_cases hz : btr = 0
    · subst hz
      refine ⟨fs, fp, ?_, h, Mv.refl h.ok _, rfl, rfl, rfl, rfl, rfl, rfl, fun _ _ => rfl⟩
      rw [if_pos rfl]
      congr 5
      funext i
      unfold paste
      rw [if_neg (by omega)]
    · rw [if_neg hz]
      dsimp only
      obtain ⟨f1, p1, n, bytes, t1, t2, t3, t4⟩ := readTurn_spec hq h btr (by omega) hin h32
      rw [t1]
      dsimp only
      obtain ⟨k1, k2, k3, k4, k5, k6⟩ := t4.kept
      rw [k1, u32_of (by omega)]
      obtain ⟨f2, p2, i1, i2, i3, i4, i5, i6, i7, i8, i9, i10⟩ := ih t4.core (paste out br n bytes) (btr - n) (br + n) (by omega) (by dsimp only; omega) (by dsimp only; omega)
      dsimp only at i4 i5 i6 i7 i8 i9 i10
      rw [k2] at i5 i10
      refine ⟨f2, p2, ?_, i2, t4.mv.trans (i3.mono fun s x => (t4.mv.mine _ _).mp x), by omega, i5, i6.trans k3, i7.trans k4, i8.trans k5, i9.trans k6, fun o ho => ?_⟩
      · rw [i1, show br + n + (btr - n) = br + btr by omega]
        congr 5
        funext i
        have hsz := h.size
        unfold paste
        by_cases a : br + n ≤ i ∧ i < br + n + (btr - n)
        · rw [if_pos a, if_pos (by omega)]
          have e := t4.same (fp.fptr + (i - br)) (by generalize L.length * fs.csize = N at *; omega)
          show view f1 { p1 with fptr := fp.fptr + n } L (fp.fptr + n + (i - (br + n))) = view fs fp L (fp.fptr + (i - br))
          rw [← e, show fp.fptr + n + (i - (br + n)) = fp.fptr + (i - br) by omega]
          rfl
        · rw [if_neg a]
          by_cases b : br ≤ i ∧ i < br + n
          · rw [if_pos b, if_pos (by omega), t4.got _ (by omega)]
          · rw [if_neg b, if_neg (by omega)]
      · rw [i10 o ho]
        have hsz := h.size
        have e := t4.same o (by generalize L.length * fs.csize = N at *; omega)
        rw [← e]
        rfl

end Verif.Fat
