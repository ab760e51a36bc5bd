import Verif.Fat.FileRead

/-!
# FatFs: lemmas on `f_lseek` and `f_truncate`
-/

namespace Verif.Fat

open Spec (Ty Chain Files order freeCount)

/-- The volume and the file without its position -/
structure Still (fs : Fs) (fp : Fil) (L : List Nat) (O : List (List Nat)) : Prop where
  ok : fs.Ok
  pow : ∃ p, p ≤ 7 ∧ fs.csize = 2 ^ p
  files : Files fs.entryAt fs.nFatent (own L ++ O)
  start : fp.sclust = L.headD 0
  size : fp.fsize ≤ 512 * (L.length * fs.csize)
  cache : fp.dirty = false → fp.dsect = 0 ∨ fs.Loose O fp.dsect ∧ fp.buf = fs.disk fp.dsect
  mine : fp.dirty = true → fs.Mine L fp.dsect
  away : fs.winsect < fs.database ∨ ∃ c, c ∈ O.flatten ∧ fs.first c ≤ fs.winsect ∧ fs.winsect < fs.first c + fs.csize
  d32 : fp.dsect < 4294967296

theorem Core.still {fs : Fs} {fp : Fil} {L : List Nat} {O : List (List Nat)} (h : Core fs fp L O) : Still fs fp L O :=
  ⟨h.ok, h.pow, h.files, h.start, h.size, h.cache, h.mine, h.away, h.d32⟩

/-- The fields that a seek along the chain leaves -/
def Fil.Rest (fp fp' : Fil) : Prop :=
  fp'.fsize = fp.fsize ∧ fp'.dsect = fp.dsect ∧ fp'.buf = fp.buf ∧ fp'.dirty = fp.dirty ∧ fp'.rd = fp.rd ∧ fp'.wr = fp.wr ∧ fp'.err = fp.err ∧ fp'.written = fp.written

theorem Still.core {fs : Fs} {fp g : Fil} {L : List Nat} {O : List (List Nat)} (h : Still fs fp L O) (hr : fp.Rest g) (hs : g.sclust = fp.sclust) (p : g.fptr ≤ 512 * (L.length * fs.csize)) (p32 : g.fptr < 4294967296)
    (hc : 0 < g.fptr → g.clust = L.getD ((g.fptr - 1) / 512 / fs.csize) 0) (hse : g.fptr % 512 ≠ 0 → g.dsect = fs.sec L (g.fptr / 512)) : Core fs g L O := by
  obtain ⟨r1, r2, r3, r4, r5, r6, r7, r8⟩ := hr
  refine ⟨h.ok, h.pow, h.files, by rw [hs]; exact h.start, p, by rw [r1]; exact h.size, p32, hc, hse, ?_, ?_, h.away, by rw [r2]; exact h.d32⟩
  · rw [r4, r2, r3]; exact h.cache
  · rw [r4, r2]; exact h.mine

/-- The table changes, and the chain of the file grows. -/
theorem Still.move {fs f1 : Fs} {fp g : Fil} {L M : List Nat} {O : List (List Nat)} (h : Still fs fp L O) (hmv : Mv fs f1 (fun _ => False)) (hr : fp.Rest g)
    (hf : Files f1.entryAt fs.nFatent (own (L ++ M) ++ O)) (hs : g.sclust = (L ++ M).headD 0) : Still f1 g (L ++ M) O := by
  obtain ⟨r1, r2, r3, r4, r5, r6, r7, r8⟩ := hr
  refine ⟨hmv.ok, by rw [hmv.csize]; exact h.pow, by rw [hmv.nFatent]; exact hf, hs, ?_, fun hd => ?_, fun hd => ?_, hmv.away h.ok.layout h.away, by rw [r2]; exact h.d32⟩
  · rw [r1, hmv.csize]
    refine Nat.le_trans h.size (Nat.mul_le_mul_left _ (Nat.mul_le_mul_right _ ?_))
    simp
  · rw [r4] at hd
    rw [r2, r3]
    rcases h.cache hd with z | z
    · exact Or.inl z
    · exact Or.inr ⟨(hmv.loose ..).mpr z.1, by rw [z.2, hmv.disk h.ok.layout z.1.1 (loose_away h.away z.1) id]⟩
  · rw [r4] at hd
    rw [r2]
    exact (hmv.mine _ _).mpr (mine_append h.ok.layout.clus (h.mine hd))

theorem Still.view {fs f1 : Fs} {fp g : Fil} {L M : List Nat} {O : List (List Nat)} (h : Still fs fp L O) (hmv : Mv fs f1 (fun _ => False)) (hr : fp.Rest g)
    {o : Nat} (ho : o < 512 * (L.length * fs.csize)) : view f1 g (L ++ M) o = view fs fp L o := by
  obtain ⟨r1, r2, r3, r4, r5, r6, r7, r8⟩ := hr
  have ho' : o / 512 < L.length * fs.csize := by
    generalize L.length * fs.csize = N at *
    omega
  have hm : fs.Mine L (fs.sec L (o / 512)) := ⟨_, ho', rfl⟩
  unfold Verif.Fat.view
  rw [hmv.sec, sec_prefix ho' h.ok.layout.clus]
  unfold cell
  rw [r4, r2, r3, hmv.disk h.ok.layout (mine_bounds h.ok.layout h.files hm).1 (mine_away h.ok.layout h.files h.away hm) id]

theorem Fil.Rest.trans {a b c : Fil} (h : a.Rest b) (k : b.Rest c) : a.Rest c := by
  obtain ⟨r1, r2, r3, r4, r5, r6, r7, r8⟩ := h
  obtain ⟨s1, s2, s3, s4, s5, s6, s7, s8⟩ := k
  exact ⟨s1.trans r1, s2.trans r2, s3.trans r3, s4.trans r4, s5.trans r5, s6.trans r6, s7.trans r7, s8.trans r8⟩

/-- What a seek reaches -/
structure Sought (fs : Fs) (fp : Fil) (L : List Nat) (O : List (List Nat)) (goal : Nat) (fs' : Fs) (fp' : Fil) (M : List Nat) : Prop where
  core : Core fs' fp' (L ++ M) O
  mv : Mv fs fs' (fs.Mine (L ++ M))
  size : fp'.fsize = max fp.fsize fp'.fptr
  modes : fp'.rd = fp.rd ∧ fp'.wr = fp.wr ∧ fp'.err = fp.err
  view : ∀ o, o < fp.fsize → Verif.Fat.view fs' fp' (L ++ M) o = Verif.Fat.view fs fp L o
  near : goal ≤ 512 * (L.length * fs.csize) → M = [] ∧ fp'.fptr = goal
  far : fp'.fptr = goal ∨ fp.wr = true ∧ fp'.fptr < goal ∧ fp'.fptr = 512 * ((L ++ M).length * fs.csize) ∧ ∀ c, 2 ≤ c → c < fs.nFatent → c ∈ (own (L ++ M) ++ O).flatten

/-- The end of a seek -/
theorem seekEnd_spec {env : Env} (hq : Quiet env) {fs : Fs} {fp : Fil} {L : List Nat} {O : List (List Nat)} (h : Still fs fp L O) (nsect : Nat)
    (p : fp.fptr ≤ 512 * (L.length * fs.csize)) (p32 : fp.fptr < 4294967296)
    (hc : 0 < fp.fptr → fp.clust = L.getD ((fp.fptr - 1) / 512 / fs.csize) 0) (hse : fp.fptr % 512 ≠ 0 → nsect = fs.sec L (fp.fptr / 512)) :
    ∃ fs' fp', seekEnd env fs fp nsect = (fs', fp', .ok) ∧ Core fs' fp' L O ∧ Mv fs fs' (fs.Mine L) ∧ fp'.fptr = fp.fptr ∧ fp'.fsize = max fp.fsize fp.fptr ∧
      (fp'.rd = fp.rd ∧ fp'.wr = fp.wr ∧ fp'.err = fp.err) ∧ ∀ o, view fs' fp' L o = view fs fp L o := by
  have grown : ∀ (f : Fs) (g : Fil), Core f g L O → Core f g.grow L O ∧ g.grow.fptr = g.fptr ∧ g.grow.fsize = max g.fsize g.fptr ∧
      (g.grow.rd = g.rd ∧ g.grow.wr = g.wr ∧ g.grow.err = g.err) ∧ ∀ o, view f g.grow L o = view f g L o := by
    intro f g k
    unfold Fil.grow
    by_cases e : g.fptr > g.fsize
    · rw [if_pos e]
      refine ⟨⟨k.ok, k.pow, k.files, k.start, k.ptr, k.ptr, k.p32, k.clust, k.sect, k.cache, k.mine, k.away, k.d32⟩, rfl, ?_, ⟨rfl, rfl, rfl⟩, fun _ => rfl⟩
      dsimp only
      omega
    · rw [if_neg e]
      exact ⟨k, rfl, by omega, ⟨rfl, rfl, rfl⟩, fun _ => rfl⟩
  unfold seekEnd
  by_cases hn : fp.fptr % 512 ≠ 0 ∧ nsect ≠ fp.dsect
  · rw [if_pos hn]
    obtain ⟨f1, a1, a2, a3, a4, a5, a6⟩ := flush_spec hq fs fp L O h.ok h.files h.away h.mine h.cache
    rw [a1]
    dsimp only
    rw [if_neg (by decide), f1.read_quiet hq]
    dsimp only
    rw [if_neg (by decide)]
    obtain ⟨v1, v2⟩ := data_mv a2.ok f1.disk (f1.t + 1) (fun _ => False) (fun s hs => hs.elim) (fun s _ => rfl)
    have hmv : Mv fs { f1 with t := f1.t + 1 } (fs.Mine L) := a2.trans (v1.mono fun _ x => x.elim)
    have hent : ∀ c, c < fs.nFatent → ({ f1 with t := f1.t + 1 } : Fs).entryAt c = fs.entryAt c := fun c hc => (v2 c (by rw [a2.nFatent]; exact hc)).trans (a3 c hc)
    have hpos : fp.fptr / 512 < L.length * fs.csize := by
      generalize L.length * fs.csize = N at *
      omega
    have hns := hse hn.1
    have hm : fs.Mine L nsect := ⟨_, hpos, hns⟩
    have hb := mine_bounds h.ok.layout h.files hm
    have hcore : Core { f1 with t := f1.t + 1 } { fp with dirty := false, buf := f1.disk nsect, dsect := nsect } L O := by
      refine ⟨hmv.ok, by rw [hmv.csize]; exact h.pow, by rw [hmv.nFatent]; exact files_congr h.files hent, h.start, by rw [hmv.csize]; exact p, by rw [hmv.csize]; exact h.size, p32,
        fun hp => by rw [hmv.csize]; exact hc hp, fun hp => by rw [hmv.sec]; exact hns, fun _ => Or.inr ⟨?_, rfl⟩, fun hd => Bool.noConfusion hd, hmv.away h.ok.layout h.away, hb.2.1⟩
      exact (hmv.loose ..).mpr ⟨hb.1, hb.2.2.2⟩
    obtain ⟨g1, g2, g3, g4, g5⟩ := grown _ _ hcore
    refine ⟨_, _, rfl, g1, hmv, g2, g3, g4, fun o => ?_⟩
    rw [g5 o]
    unfold view
    rw [hmv.sec]
    unfold cell
    rw [if_neg (fun x => Bool.noConfusion x.1)]
    show f1.disk _ _ = _
    rw [a4]
    rfl
  · rw [if_neg hn]
    have hcore : Core fs fp L O := h.core ⟨rfl, rfl, rfl, rfl, rfl, rfl, rfl, rfl⟩ rfl p p32 hc fun hp => by
      rw [← hse hp]
      exact (Classical.not_not.mp fun x => hn ⟨hp, fun y => x y.symm⟩)
    obtain ⟨g1, g2, g3, g4, g5⟩ := grown _ _ hcore
    exact ⟨_, _, rfl, g1, Mv.refl h.ok _, g2, g3, g4, g5⟩

/-- The loop along the chain, at cluster `j` of the file -/
theorem seekLoop_spec {env : Env} (hq : Quiet env) (k : Nat) : ∀ {fs : Fs} {fp : Fil} {L : List Nat} {O : List (List Nat)} {j ofs : Nat} (_ : Still fs fp L O)
    (_ : j < L.length) (_ : fp.clust = L.getD j 0) (_ : fp.fptr = 512 * (j * fs.csize)) (_ : 0 < ofs) (_ : fp.fptr + ofs < 4294967296) (_ : ofs ≤ k)
    (_ : fp.wr = false → fp.fptr + ofs ≤ 512 * (L.length * fs.csize)),
    ∃ M fs' fp' clst ofs' j', seekLoop env k fs fp fp.clust ofs = some (fs', fp', clst, ofs', .ok) ∧ Still fs' fp' (L ++ M) O ∧ Mv fs fs' (fun _ => False) ∧ fp.Rest fp' ∧
      fp'.sclust = fp.sclust ∧
      j' < (L ++ M).length ∧ fp'.clust = (L ++ M).getD j' 0 ∧ fp'.fptr = 512 * (j' * fs.csize) ∧ 0 < ofs' ∧ ofs' ≤ 512 * fs.csize ∧ (ofs' % 512 ≠ 0 → clst = fp'.clust) ∧
      fp'.fptr + ofs' ≤ fp.fptr + ofs ∧
      (fp.fptr + ofs ≤ 512 * (L.length * fs.csize) → M = [] ∧ fp'.fptr + ofs' = fp.fptr + ofs) ∧
      (fp'.fptr + ofs' = fp.fptr + ofs ∨ fp.wr = true ∧ fp'.fptr + ofs' = 512 * ((L ++ M).length * fs.csize) ∧ ∀ c, 2 ≤ c → c < fs.nFatent → c ∈ (own (L ++ M) ++ O).flatten) := by
  induction k with
  | zero =>
    intro fs fp L O j ofs h hj hcl hp h0 h32 hk hr
    omega
  | succ k ih =>
    intro fs fp L O j ofs h hj hcl hp h0 h32 hk hr
    have hclus := h.ok.layout.clus
    have hlt : (j + 1) * fs.csize ≤ L.length * fs.csize := Nat.mul_le_mul_right _ hj
    have hsucc : (j + 1) * fs.csize = j * fs.csize + fs.csize := Nat.succ_mul _ _
    unfold seekLoop
    by_cases hgt : ofs > fs.csize * 512
    · rw [if_pos hgt]
      dsimp only
      have hent := Fs.ents_lt h.ok
      obtain ⟨hn, hL, hO⟩ := files_bounds h.files
      -- the file at the end of the cluster
      have hcore : Core fs { fp with fptr := 512 * ((j + 1) * fs.csize) } L O := by
        refine h.core ⟨rfl, rfl, rfl, rfl, rfl, rfl, rfl, rfl⟩ rfl (Nat.mul_le_mul_left _ hlt) (by dsimp only; omega) (fun _ => ?_) (fun hne => ?_)
        · show fp.clust = L.getD ((512 * ((j + 1) * fs.csize) - 1) / 512 / fs.csize) 0
          have e : (512 * ((j + 1) * fs.csize) - 1) / 512 = fs.csize * j + (fs.csize - 1) := by
            rw [hsucc, Nat.mul_comm fs.csize j]; omega
          rw [e, Nat.mul_add_div hclus, Nat.div_eq_of_lt (a := fs.csize - 1) (by omega), Nat.add_zero]
          exact hcl
        · exfalso
          apply hne
          show 512 * ((j + 1) * fs.csize) % 512 = 0
          omega
      have e1 : 512 * ((j + 1) * fs.csize) / 512 = (j + 1) * fs.csize := by omega
      have e2 : (j + 1) * fs.csize / fs.csize = j + 1 := Nat.mul_div_cancel _ hclus
      -- the next cluster
      have key : (∃ fs', (if fp.wr = true then fs.createChain env fp.clust else some (fs.getFat env fp.clust)) = some (fs', 0) ∧ fp.wr = true ∧ Step fs fs' fs.entryAt ∧
            512 * ((j + 1) * fs.csize) = 512 * (L.length * fs.csize) ∧ ∀ c, 2 ≤ c → c < fs.nFatent → c ∈ (own L ++ O).flatten) ∨
          ∃ fs' M clst, (if fp.wr = true then fs.createChain env fp.clust else some (fs.getFat env fp.clust)) = some (fs', clst) ∧ Mv fs fs' (fun _ => False) ∧
            Files fs'.entryAt fs.nFatent (own (L ++ M) ++ O) ∧ clst = (L ++ M).getD (j + 1) 0 ∧ j + 1 < (L ++ M).length ∧ 2 ≤ clst ∧ clst < fs.nFatent ∧
            fp.sclust = (L ++ M).headD 0 ∧ (j + 1 < L.length → M = []) := by
        have hnil : L ≠ [] := by rintro rfl; simp at hj
        have hsc : ∀ M, fp.sclust = (L ++ M).headD 0 := fun M => by rw [headD_append hnil]; exact h.start
        by_cases hw : fp.wr = true
        · rw [if_pos hw]
          have hwc : writeCluster env fs { fp with fptr := 512 * ((j + 1) * fs.csize) } = fs.createChain env fp.clust := by
            unfold writeCluster
            dsimp only
            rw [if_neg (by omega)]
          by_cases hin : j + 1 < L.length
          · right
            obtain ⟨ch, hch⟩ := h.files.chains L (by rw [own_cons hnil]; simp)
            obtain ⟨A, B, hAB⟩ := list_at hin
            rw [← hcl] at hAB
            rw [hAB] at hch
            obtain ⟨fs', c1, c2, _⟩ := create_inside hq fs h.ok ch fp.clust _ A B hch
            obtain ⟨v1, v2, v3, v4, v5⟩ := hch.next_val
            refine ⟨fs', [], _, c1, c2.mv _, ?_, by rw [List.append_nil], by rw [List.append_nil]; exact hin, v4, v5, hsc [], fun _ => rfl⟩
            rw [List.append_nil]
            exact files_congr h.files c2.entries
          · rcases cluster_spec hq hcore (by dsimp only; omega) (by dsimp only; rw [e1]; exact Nat.mul_mod_left _ _) with ⟨fs', d1, d2, d3, d4⟩ | ⟨f1, M, clst, d1, d2, d3, d4, d5, d6, d7, d8, d9⟩
            · left
              rw [hwc] at d1
              exact ⟨fs', d1, hw, d2, d3, d4⟩
            · right
              rw [hwc] at d1
              dsimp only at d4 d5
              rw [e1, e2] at d4
              rw [e1] at d5
              exact ⟨f1, M, clst, d1, d2, d3, d4, Nat.lt_of_mul_lt_mul_right d5, d6, d7, hsc M, fun x => absurd x hin⟩
        · rw [if_neg hw]
          right
          have hin : j + 1 < L.length := by
            have := hr (by simpa using hw)
            have : (j + 1) * fs.csize < L.length * fs.csize := by
              generalize L.length * fs.csize = N at *
              omega
            exact Nat.lt_of_mul_lt_mul_right this
          obtain ⟨ch, hch⟩ := h.files.chains L (by rw [own_cons hnil]; simp)
          obtain ⟨A, B, hAB⟩ := list_at hin
          rw [← hcl] at hAB
          rw [hAB] at hch
          obtain ⟨n1, n2, n3, n4, n5⟩ := hch.next_val
          obtain ⟨f1, g1, g2, _⟩ := fs.get_step hq h.ok fp.clust n2 n3
          refine ⟨f1, [], _, by rw [g1, n1], g2.mv _, ?_, by rw [List.append_nil], by rw [List.append_nil]; exact hin, n4, n5, hsc [], fun _ => rfl⟩
          rw [List.append_nil]
          exact files_congr h.files g2.entries
      rcases key with ⟨fs', d1, d2, d3, d4, d5⟩ | ⟨f1, M, clst, d1, d2, d3, d4, d5, d6, d7, d8, d9⟩
      · rw [d1]
        dsimp only
        rw [if_pos ⟨d2, rfl⟩]
        have hst : Still fs' fp (L ++ []) O := h.move (d3.mv _) ⟨rfl, rfl, rfl, rfl, rfl, rfl, rfl, rfl⟩ (by rw [List.append_nil]; exact files_congr h.files d3.entries)
          (by rw [List.append_nil]; exact h.start)
        refine ⟨[], fs', fp, 0, _, j, rfl, hst, d3.mv _, ⟨rfl, rfl, rfl, rfl, rfl, rfl, rfl, rfl⟩, rfl, by rw [List.append_nil]; exact hj, by rw [List.append_nil]; exact hcl, hp, ?_, ?_, ?_, ?_, ?_, ?_⟩
        · rw [d3.csize]; omega
        · rw [d3.csize]; omega
        · rw [d3.csize]; omega
        · rw [d3.csize]; omega
        · intro x
          exfalso
          rw [← d4] at x
          omega
        · right
          refine ⟨d2, ?_, by rw [List.append_nil]; exact d5⟩
          rw [List.append_nil, ← d4, d3.csize]
          omega
      · rw [d1]
        dsimp only
        rw [if_neg (by omega), if_neg (by omega), if_neg (by rw [d2.nFatent]; omega)]
        have e3 : u32 (fp.fptr + f1.csize * 512) = 512 * ((j + 1) * fs.csize) := by
          rw [d2.csize, u32_of (by omega)]
          omega
        rw [e3]
        have hst : Still f1 { fp with clust := clst, fptr := 512 * ((j + 1) * fs.csize) } (L ++ M) O := h.move d2 ⟨rfl, rfl, rfl, rfl, rfl, rfl, rfl, rfl⟩ d3 d8
        obtain ⟨M', f2, p2, clst', ofs', j', i1, i2, i3, i4, i5, i6, i7, i8, i9, i10, i11, i12, i13, i14⟩ := ih (ofs := ofs - f1.csize * 512) (j := j + 1) hst d5 d4
          (by rw [d2.csize]) (by rw [d2.csize]; omega) (by rw [d2.csize]; dsimp only; omega) (by rw [d2.csize]; omega) (fun hw => by
            have h1 := hr hw
            rw [d2.csize]
            dsimp only
            have h2 : L.length * fs.csize ≤ (L ++ M).length * fs.csize := Nat.mul_le_mul_right _ (by simp)
            generalize L.length * fs.csize = N at *
            generalize (L ++ M).length * fs.csize = N' at *
            omega)
        dsimp only at i1 i4 i5 i12 i13 i14
        rw [d2.csize] at i1 i8 i10 i12 i13 i14
        rw [List.append_assoc] at i2 i6 i7 i14
        rw [d2.csize, i1]
        refine ⟨M ++ M', f2, p2, clst', ofs', j', rfl, i2, d2.trans i3, i4, i5, i6, i7, i8, i9, i10, i11, by omega, fun x => ?_, ?_⟩
        · have hM : M = [] := d9 (by
            have : (j + 1) * fs.csize < L.length * fs.csize := by
              generalize L.length * fs.csize = N at *
              omega
            exact Nat.lt_of_mul_lt_mul_right this)
          subst hM
          rw [List.append_nil] at i13
          obtain ⟨y1, y2⟩ := i13 (by generalize L.length * fs.csize = N at *; omega)
          exact ⟨by rw [y1]; rfl, by omega⟩
        · rcases i14 with y | ⟨y1, y2, y3⟩
          · left; omega
          · exact Or.inr ⟨y1, y2, by rw [d2.nFatent] at y3; exact y3⟩
    · rw [if_neg hgt]
      refine ⟨[], fs, fp, fp.clust, ofs, j, rfl, by rw [List.append_nil]; exact h, Mv.refl h.ok _, ⟨rfl, rfl, rfl, rfl, rfl, rfl, rfl, rfl⟩, rfl, by rw [List.append_nil]; exact hj,
        by rw [List.append_nil]; exact hcl, hp, h0, by omega, fun _ => rfl, by omega, fun _ => ⟨rfl, rfl⟩, Or.inl rfl⟩

theorem Still.reptr {fs : Fs} {fp : Fil} {L : List Nat} {O : List (List Nat)} (h : Still fs fp L O) (x : Nat) : Still fs { fp with fptr := x } L O :=
  ⟨h.ok, h.pow, h.files, h.start, h.size, h.cache, h.mine, h.away, h.d32⟩

theorem seekFrom_spec {env : Env} (hq : Quiet env) {fs : Fs} {fp : Fil} {L : List Nat} {O : List (List Nat)} {j ofs : Nat} (h : Still fs fp L O)
    (hj : j < L.length) (hcl : fp.clust = L.getD j 0) (hp : fp.fptr = 512 * (j * fs.csize)) (h0 : 0 < ofs) (h32 : fp.fptr + ofs < 4294967296)
    (hr : fp.wr = false → fp.fptr + ofs ≤ 512 * (L.length * fs.csize)) :
    ∃ M fs' fp', seekFrom env fs fp fp.clust ofs = some (fs', fp', .ok) ∧ Sought fs fp L O (fp.fptr + ofs) fs' fp' M := by
  have hclus := h.ok.layout.clus
  obtain ⟨hn, hL, hO⟩ := files_bounds h.files
  have hmem : ∀ {K : List Nat} {i : Nat}, i < K.length → K.getD i 0 ∈ K := by
    intro K i hi
    rw [List.getD_eq_getElem?_getD, List.getElem?_eq_getElem hi]
    exact List.getElem_mem hi
  have hge : 2 ≤ fp.clust := by rw [hcl]; exact (hL _ (hmem hj)).1
  obtain ⟨M, f1, p1, clst, ofs', j', i1, i2, i3, i4, i5, i6, i7, i8, i9, i10, i11, i12, i13, i14⟩ := seekLoop_spec hq ofs h hj hcl hp h0 h32 (Nat.le_refl _) hr
  have hrest := i4
  obtain ⟨r1, r2, r3, r4, r5, r6, r7, r8⟩ := i4
  unfold seekFrom
  rw [if_neg (by omega), i1]
  dsimp only
  rw [if_neg (fun x => x rfl), u32_of (by omega)]
  have hsucc : (j' + 1) * fs.csize = j' * fs.csize + fs.csize := Nat.succ_mul _ _
  have hle : (j' + 1) * fs.csize ≤ (L ++ M).length * fs.csize := Nat.mul_le_mul_right _ i6
  have hdiv : ∀ x, x < fs.csize → (j' * fs.csize + x) / fs.csize = j' := by
    intro x hx
    rw [Nat.mul_comm, Nat.mul_add_div hclus, Nat.div_eq_of_lt hx, Nat.add_zero]
  have key : ∀ nsect, ((p1.fptr + ofs') % 512 ≠ 0 → nsect = f1.sec (L ++ M) ((p1.fptr + ofs') / 512)) →
      ∃ M' fs' fp', some (seekEnd env f1 { p1 with fptr := p1.fptr + ofs' } nsect) = some (fs', fp', .ok) ∧ Sought fs fp L O (fp.fptr + ofs) fs' fp' M' := by
    intro nsect hns
    obtain ⟨f2, p2, s1, s2, s3, s4, s5, s6, s7⟩ := seekEnd_spec hq (i2.reptr (p1.fptr + ofs')) nsect (by
        rw [i3.csize]
        dsimp only
        generalize (L ++ M).length * fs.csize = N at *
        omega) (by dsimp only; omega) (fun _ => by
        rw [i3.csize]
        dsimp only
        rw [show (p1.fptr + ofs' - 1) / 512 = j' * fs.csize + (ofs' - 1) / 512 by omega, hdiv _ (by omega)]
        exact i7) hns
    dsimp only at s4 s5 s6
    refine ⟨M, f2, p2, by rw [s1], s2, (i3.mono fun _ x => x.elim).trans (s3.mono fun s x => (i3.mine _ _).mp x), by rw [s5, s4, r1], ⟨s6.1.trans r5, s6.2.1.trans r6, s6.2.2.trans r7⟩,
      fun o ho => ?_, fun x => ?_, ?_⟩
    · rw [s7 o]
      have hsz := h.size
      exact h.view i3 (g := { p1 with fptr := p1.fptr + ofs' }) hrest (by generalize L.length * fs.csize = N at *; omega)
    · obtain ⟨y1, y2⟩ := i13 x
      exact ⟨y1, by rw [s4, y2]⟩
    · rw [s4]
      rcases Nat.lt_or_ge (p1.fptr + ofs') (fp.fptr + ofs) with z | z
      · right
        rcases i14 with y | ⟨y1, y2, y3⟩
        · omega
        · exact ⟨y1, z, y2, y3⟩
      · left
        omega
  by_cases ho : ofs' % 512 ≠ 0
  · rw [if_pos ho, i11 ho]
    have hm := hmem i6
    rw [← i7] at hm
    obtain ⟨c1, c2, c3⟩ := (files_bounds i2.files).2.1 _ hm
    obtain ⟨q1, q2⟩ := clust2sect_eq i2.ok.layout c1 c2
    have hb := first_bounds i2.ok.layout c1 c2
    rw [q1, if_neg q2, u32_of (by rw [i3.csize] at hb; omega)]
    obtain ⟨M', fs', fp', w1, w2⟩ := key (f1.first p1.clust + ofs' / 512) (fun _ => by
      rw [show (p1.fptr + ofs') / 512 = j' * fs.csize + ofs' / 512 by omega, sec_add (by rw [i3.csize, Nat.mul_mod_left]; omega)]
      unfold Fs.sec
      rw [i3.csize, Nat.mul_mod_left, Nat.mul_div_cancel _ hclus, i7]
      omega)
    exact ⟨M', fs', fp', w1, w2⟩
  · rw [if_neg ho]
    exact key 0 fun x => by omega

theorem and_upper {a b n : Nat} (ha : a < 2 ^ n) (hb : b ≤ n) : a &&& (2 ^ n - 1 - (2 ^ b - 1)) = a / 2 ^ b * 2 ^ b := by
  have e : 2 ^ n - 1 - (2 ^ b - 1) = 2 ^ b * (2 ^ (n - b) - 1) := by
    have h1 : 2 ^ n = 2 ^ b * 2 ^ (n - b) := by rw [← Nat.pow_add]; congr 1; omega
    have h2 : 0 < 2 ^ b := Nat.two_pow_pos b
    rw [Nat.mul_sub, h1]
    omega
  rw [e, Nat.mul_comm (a / 2 ^ b)]
  apply Nat.eq_of_testBit_eq
  intro i
  rw [Nat.testBit_and, Nat.testBit_two_pow_mul, Nat.testBit_two_pow_mul, Nat.testBit_two_pow_sub_one, Nat.testBit_div_two_pow]
  by_cases h : i ≥ b
  · rw [Nat.sub_add_cancel h]
    by_cases k : i < n
    · simp [h, show i - b < n - b by omega]
    · rw [Nat.testBit_lt_two_pow (Nat.lt_of_lt_of_le ha (Nat.pow_le_pow_right (by decide) (by omega)))]
      simp
  · simp [h]

theorem lseek_spec {env : Env} (hq : Quiet env) {fs : Fs} {fp : Fil} {L : List Nat} {O : List (List Nat)} (h : Core fs fp L O) (he : fp.err = .ok) (ofs : Nat) (h32 : ofs < 4294967296) :
    ∃ M fs' fp', fLseek env fs fp ofs = some (fs', fp', .ok) ∧ Sought fs fp L O (if fp.wr = true then ofs else min ofs fp.fsize) fs' fp' M := by
  have hgoal : (if ofs > fp.fsize ∧ fp.wr = false then fp.fsize else ofs) = (if fp.wr = true then ofs else min ofs fp.fsize) := by
    by_cases hw : fp.wr = true
    · rw [if_pos hw, if_neg (fun x => by rw [hw] at x; exact Bool.noConfusion x.2)]
    · have hw' : fp.wr = false := by simpa using hw
      rw [if_neg hw]
      by_cases k : ofs > fp.fsize
      · rw [if_pos ⟨k, hw'⟩]; omega
      · rw [if_neg (fun x => k x.1)]; omega
  have hclus := h.ok.layout.clus
  have hptr := h.ptr
  have hsz := h.size
  have hp32 := h.p32
  unfold fLseek
  rw [if_neg (fun x => x he)]
  dsimp only
  rw [hgoal]
  have hg32 : (if fp.wr = true then ofs else min ofs fp.fsize) < 4294967296 := by split <;> omega
  have hgr : fp.wr = false → (if fp.wr = true then ofs else min ofs fp.fsize) ≤ fp.fsize := by
    intro hw
    rw [if_neg (by rw [hw]; decide)]
    omega
  generalize (if fp.wr = true then ofs else min ofs fp.fsize) = goal at hg32 hgr
  by_cases hz : goal = 0
  · rw [if_pos hz]
    obtain ⟨fs', fp', s1, s2, s3, s4, s5, s6, s7⟩ := seekEnd_spec hq (h.still.reptr 0) 0 (by dsimp only; omega) (by dsimp only; omega) (fun x => absurd x (by dsimp only; omega)) (fun x => absurd rfl x)
    dsimp only at s4 s5 s6
    refine ⟨[], fs', fp', by rw [s1], by rw [List.append_nil]; exact s2, by rw [List.append_nil]; exact s3, by rw [s5, s4], s6, fun o _ => ?_, fun _ => ⟨rfl, by omega⟩, Or.inl (by omega)⟩
    rw [List.append_nil, s7 o]
    rfl
  · rw [if_neg hz]
    have hdd : ∀ x, x / (fs.csize * 512) = x / 512 / fs.csize := fun x => by rw [Nat.div_div_eq_div_mul, Nat.mul_comm]
    by_cases hfwd : 0 < fp.fptr ∧ (goal - 1) / (fs.csize * 512) ≥ (fp.fptr - 1) / (fs.csize * 512)
    · rw [if_pos hfwd]
      obtain ⟨p, hp, ep⟩ := h.pow
      have ebcs : fs.csize * 512 = 2 ^ (p + 9) := by rw [ep, Nat.pow_add]
      have eand : (fp.fptr - 1) &&& (0xFFFFFFFF - (fs.csize * 512 - 1)) = 512 * ((fp.fptr - 1) / 512 / fs.csize * fs.csize) := by
        rw [ebcs]
        have := and_upper (a := fp.fptr - 1) (b := p + 9) (n := 32) (by omega) (by omega)
        rw [show (0xFFFFFFFF : Nat) = 2 ^ 32 - 1 from rfl, this, ← ebcs, hdd, ← Nat.mul_assoc, Nat.mul_comm]
      rw [eand]
      rw [hdd, hdd] at hfwd
      have hj : (fp.fptr - 1) / 512 / fs.csize < L.length := (Nat.div_lt_iff_lt_mul hclus).mpr (by generalize L.length * fs.csize = N at *; omega)
      have hle : 512 * ((fp.fptr - 1) / 512 / fs.csize * fs.csize) ≤ goal - 1 := by
        have h1 : (fp.fptr - 1) / 512 / fs.csize * fs.csize ≤ (goal - 1) / 512 / fs.csize * fs.csize := Nat.mul_le_mul_right _ hfwd.2
        have h2 : (goal - 1) / 512 / fs.csize * fs.csize ≤ (goal - 1) / 512 := Nat.div_mul_le_self _ _
        omega
      obtain ⟨M, fs', fp', w1, w2⟩ := seekFrom_spec hq (j := (fp.fptr - 1) / 512 / fs.csize) (ofs := goal - 512 * ((fp.fptr - 1) / 512 / fs.csize * fs.csize))
        (h.still.reptr (512 * ((fp.fptr - 1) / 512 / fs.csize * fs.csize))) hj (h.clust hfwd.1) rfl (by omega) (by dsimp only; omega) (fun hw => by
          have := hgr hw
          dsimp only
          generalize L.length * fs.csize = N at *
          omega)
      dsimp only at w1 w2
      rw [show 512 * ((fp.fptr - 1) / 512 / fs.csize * fs.csize) + (goal - 512 * ((fp.fptr - 1) / 512 / fs.csize * fs.csize)) = goal by omega] at w2
      exact ⟨M, fs', fp', w1, w2.core, w2.mv, w2.size, w2.modes, w2.view, w2.near, w2.far⟩
    · rw [if_neg hfwd]
      by_cases hs : fp.sclust = 0
      · rw [if_pos hs]
        have hnil : L = [] := by
          cases L with
          | nil => rfl
          | cons a L =>
            have := ((files_bounds h.files).2.1 a (List.mem_cons_self ..)).1
            have e : fp.sclust = a := h.start
            omega
        have hc0 : Core fs { fp with fptr := 0 } L O := h.still.core ⟨rfl, rfl, rfl, rfl, rfl, rfl, rfl, rfl⟩ rfl (by dsimp only; omega) (by dsimp only; omega)
          (fun x => absurd x (by dsimp only; omega)) (fun x => absurd rfl x)
        have hwc : writeCluster env fs { fp with fptr := 0 } = fs.createChain env 0 := by
          unfold writeCluster
          rw [if_pos rfl, if_pos hs]
        rcases cluster_spec hq hc0 rfl (by dsimp only; simp) with ⟨f1, d1, d2, d3, d4⟩ | ⟨f1, M, clst, d1, d2, d3, d4, d5, d6, d7, d8, d9⟩
        · rw [hwc] at d1
          rw [d1]
          dsimp only
          rw [if_neg (by decide), if_neg (by decide)]
          unfold seekFrom
          rw [if_pos rfl]
          have hst : Still f1 { fp with fptr := 0, sclust := 0, clust := 0 } (L ++ []) O := h.still.move (d2.mv _) ⟨rfl, rfl, rfl, rfl, rfl, rfl, rfl, rfl⟩
            (by rw [List.append_nil]; exact files_congr h.files d2.entries) (by rw [List.append_nil, hnil]; rfl)
          have hmv := d2.mv (fs.Mine (L ++ []))
          obtain ⟨fs', fp', s1, s2, s3, s4, s5, s6, s7⟩ := seekEnd_spec hq hst 0 (by dsimp only; omega) (by dsimp only; omega) (fun x => absurd x (by dsimp only; omega)) (fun x => absurd rfl x)
          dsimp only at s4 s5 s6
          refine ⟨[], fs', fp', by rw [s1], s2, hmv.trans (s3.mono fun s x => (hmv.mine _ _).mp x), by rw [s5, s4], s6, fun o ho => ?_, fun x => ?_, Or.inr ⟨?_, by omega, ?_, ?_⟩⟩
          · exfalso
            rw [hnil] at hsz
            simp only [List.length_nil, Nat.zero_mul, Nat.mul_zero] at hsz
            omega
          · exfalso
            rw [hnil] at x
            simp only [List.length_nil, Nat.zero_mul, Nat.mul_zero] at x
            omega
          · by_cases hw : fp.wr = true
            · exact hw
            · exfalso
              have := hgr (by simpa using hw)
              rw [hnil] at hsz
              simp only [List.length_nil, Nat.zero_mul, Nat.mul_zero] at hsz
              omega
          · rw [s4, hnil]; simp
          · rw [List.append_nil]; exact d4
        · rw [hwc] at d1
          rw [d1]
          dsimp only
          have hent := Fs.ents_lt h.ok
          rw [if_neg (by omega), if_neg (by omega)]
          dsimp only at d4 d5 d8
          rw [if_pos hs] at d8
          rw [Nat.zero_div] at d4
          have hlen : 0 < (L ++ M).length := by
            rcases Nat.eq_zero_or_pos (L ++ M).length with z | z
            · rw [z, Nat.zero_mul] at d5; omega
            · exact z
          have hst : Still f1 { fp with fptr := 0, sclust := clst, clust := clst } (L ++ M) O := h.still.move d2 ⟨rfl, rfl, rfl, rfl, rfl, rfl, rfl, rfl⟩ d3 d8
          have hz0 : fp.fsize = 0 := by
            rw [hnil] at hsz
            simpa using hsz
          obtain ⟨M', fs', fp', w1, w2⟩ := seekFrom_spec hq (j := 0) (ofs := goal) hst hlen d4 (by dsimp only; rw [Nat.zero_mul]) (by omega) (by dsimp only; omega) (fun hw => by
            have := hgr hw
            omega)
          dsimp only at w1 w2
          rw [Nat.zero_add] at w2
          refine ⟨M ++ M', fs', fp', w1, ?_, ?_, w2.size, w2.modes, fun o ho => ?_, fun x => ?_, ?_⟩
          · rw [← List.append_assoc]; exact w2.core
          · rw [← List.append_assoc]
            exact (d2.mono fun _ x => x.elim).trans (w2.mv.mono fun s x => (d2.mine _ _).mp x)
          · omega
          · exfalso
            rw [hnil] at x
            simp only [List.length_nil, Nat.zero_mul, Nat.mul_zero] at x
            omega
          · have := w2.far
            rw [d2.csize, d2.nFatent, List.append_assoc] at this
            exact this
      · rw [if_neg hs]
        have hnil : L ≠ [] := by
          rintro rfl
          exact hs h.start
        have hst : Still fs { fp with fptr := 0, clust := fp.sclust } L O := ⟨h.ok, h.pow, h.files, h.start, h.size, h.cache, h.mine, h.away, h.d32⟩
        have hhd : fp.sclust = L.getD 0 0 := by
          rw [h.start]
          cases L with
          | nil => rfl
          | cons a L => rfl
        obtain ⟨M, fs', fp', w1, w2⟩ := seekFrom_spec hq (j := 0) (ofs := goal) hst (List.length_pos_iff.mpr hnil) hhd (by dsimp only; rw [Nat.zero_mul]) (by omega) (by dsimp only; omega) (fun hw => by
          have := hgr hw
          dsimp only
          generalize L.length * fs.csize = N at *
          omega)
        dsimp only at w1 w2
        rw [Nat.zero_add] at w2
        exact ⟨M, fs', fp', w1, w2.core, w2.mv, w2.size, w2.modes, w2.view, w2.near, w2.far⟩

/-! ## `f_truncate` -/

theorem flush_loose {env : Env} (hq : Quiet env) (fs : Fs) (fp : Fil) (O : List (List Nat)) (hok : fs.Ok)
    (ha : fs.winsect < fs.database ∨ ∃ c, c ∈ O.flatten ∧ fs.first c ≤ fs.winsect ∧ fs.winsect < fs.first c + fs.csize)
    (hm : fp.dirty = true → fs.Loose O fp.dsect) (hcache : fp.dirty = false → fp.dsect = 0 ∨ fs.Loose O fp.dsect ∧ fp.buf = fs.disk fp.dsect) :
    ∃ fs', fp.flush env fs = (fs', { fp with dirty := false }, true) ∧ Mv fs fs' (fun s => fp.dirty = true ∧ s = fp.dsect) ∧ (∀ c, c < fs.nFatent → fs'.entryAt c = fs.entryAt c) ∧
      (∀ s, fs'.disk s = cell fs fp s) ∧ (fp.dsect = 0 ∨ fs.Loose O fp.dsect ∧ fp.buf = fs'.disk fp.dsect) := by
  unfold Fil.flush
  cases hd : fp.dirty with
  | false =>
    refine ⟨fs, ?_, Mv.refl hok _, fun _ _ => rfl, fun s => ?_, hcache hd⟩
    · simp only [Bool.false_eq_true, if_false]
      rw [← hd]
    · unfold cell
      rw [hd]
      simp
  | true =>
    rw [if_pos rfl, fs.write_quiet hq]
    dsimp only
    rw [if_pos rfl]
    have hl := hm hd
    obtain ⟨m1, m2⟩ := data_mv hok (set fs.disk fp.dsect fp.buf) (fs.t + 1) (fun s => true = true ∧ s = fp.dsect) (fun s hs => by
        rw [hs.2]
        exact ⟨hl.1, loose_away ha hl⟩)
      (fun s hs => set_other _ _ (fun x => hs ⟨rfl, x⟩))
    refine ⟨_, rfl, m1, m2, fun s => ?_, Or.inr ⟨hl, (set_same _ _ _).symm⟩⟩
    unfold cell set
    dsimp only
    rw [hd]
    by_cases e : s = fp.dsect
    · simp [e]
    · simp [e]

/-- The end of `f_truncate` -/
theorem trunc_end {env : Env} (hq : Quiet env) {fs f1 : Fs} {fp g : Fil} {L T : List Nat} {O : List (List Nat)} (h : Core fs fp (L ++ T) O) (hmv : Mv fs f1 (fun _ => False))
    (hf : Files f1.entryAt fs.nFatent (own L ++ O)) (hp : fp.fptr ≤ 512 * (L.length * fs.csize))
    (hg : g = { fp with fsize := fp.fptr, written := true, sclust := L.headD 0 }) :
    ∃ fs', g.flush env f1 = (fs', { g with dirty := false }, true) ∧ Core fs' { g with dirty := false } L O ∧ Mv fs fs' (fs.Mine (L ++ T)) ∧
      ∀ o, o < fp.fptr → view fs' { g with dirty := false } L o = view fs fp (L ++ T) o := by
  have hclus := h.ok.layout.clus
  have hlo : ∀ {s}, fs.Mine (L ++ T) s → fs.Loose O s := fun hs => ⟨(mine_bounds h.ok.layout h.files hs).1, (mine_bounds h.ok.layout h.files hs).2.2.2⟩
  have e1 : g.dirty = fp.dirty := by rw [hg]
  have e2 : g.dsect = fp.dsect := by rw [hg]
  have e3 : g.buf = fp.buf := by rw [hg]
  obtain ⟨f2, a1, a2, a3, a4, a5⟩ := flush_loose hq f1 g O hmv.ok (hmv.away h.ok.layout h.away)
    (fun hd => by rw [e1] at hd; rw [e2]; exact (hmv.loose ..).mpr (hlo (h.mine hd)))
    (fun hd => by
      rw [e1] at hd
      rw [e2, e3]
      rcases h.cache hd with z | z
      · exact Or.inl z
      · exact Or.inr ⟨(hmv.loose ..).mpr z.1, by rw [z.2, hmv.disk h.ok.layout z.1.1 (loose_away h.away z.1) id]⟩)
  have hM : Mv fs f2 (fs.Mine (L ++ T)) := (hmv.mono fun _ x => x.elim).trans (a2.mono fun s x => by
    rw [e1, e2] at x
    rw [x.2]
    exact h.mine x.1)
  refine ⟨f2, a1, ?_, hM, fun o ho => ?_⟩
  · rw [hg]
    refine ⟨hM.ok, by rw [hM.csize]; exact h.pow, ?_, rfl, by rw [hM.csize]; exact hp, by rw [hM.csize]; exact hp, h.p32, fun hpos => ?_, fun hne => ?_, fun _ => ?_, fun hd => Bool.noConfusion hd,
      hM.away h.ok.layout h.away, h.d32⟩
    · rw [hM.nFatent]
      exact files_congr hf fun c hc => a3 c (by rw [hmv.nFatent]; exact hc)
    · rw [hM.csize]
      show fp.clust = L.getD ((fp.fptr - 1) / 512 / fs.csize) 0
      dsimp only at hpos
      have hj : (fp.fptr - 1) / 512 / fs.csize < L.length := (Nat.div_lt_iff_lt_mul hclus).mpr (by generalize L.length * fs.csize = N at *; omega)
      rw [h.clust hpos, List.getD_eq_getElem?_getD, List.getD_eq_getElem?_getD, List.getElem?_append_left hj]
    · rw [hM.sec]
      show fp.dsect = fs.sec L (fp.fptr / 512)
      dsimp only at hne
      rw [h.sect hne, sec_prefix (by generalize L.length * fs.csize = N at *; omega) hclus]
    · show fp.dsect = 0 ∨ f2.Loose O fp.dsect ∧ fp.buf = f2.disk fp.dsect
      rw [e2, e3] at a5
      rcases a5 with z | z
      · exact Or.inl z
      · exact Or.inr ⟨(a2.loose ..).mpr z.1, z.2⟩
  · have ho' : o / 512 < L.length * fs.csize := by
      generalize L.length * fs.csize = N at *
      omega
    have hm : fs.Mine (L ++ T) (fs.sec L (o / 512)) := mine_append hclus ⟨_, ho', rfl⟩
    unfold view
    rw [hM.sec, sec_prefix ho' hclus]
    show cell f2 _ _ _ = _
    have : cell f2 { g with dirty := false } (fs.sec L (o / 512)) = f2.disk (fs.sec L (o / 512)) := if_neg fun x => Bool.noConfusion x.1
    rw [this, a4]
    unfold cell
    rw [e1, e2, e3, hmv.disk h.ok.layout (mine_bounds h.ok.layout h.files hm).1 (mine_away h.ok.layout h.files h.away hm) id]

/-- `f_truncate`, from any position in the file -/
theorem trunc_spec {env : Env} (hq : Quiet env) {fs : Fs} {fp : Fil} {L : List Nat} {O : List (List Nat)} (h : Core fs fp L O) (he : fp.err = .ok) (hw : fp.wr = true) (hlt : fp.fptr < fp.fsize) :
    ∃ fs' fp', fTruncate env fs fp = some (fs', fp', .ok) ∧ Core fs' fp' (L.take ((fp.fptr + (fs.csize * 512 - 1)) / (fs.csize * 512))) O ∧ Mv fs fs' (fs.Mine L) ∧
      fp'.fptr = fp.fptr ∧ fp'.fsize = fp.fptr ∧ (fp'.rd = fp.rd ∧ fp'.wr = fp.wr ∧ fp'.err = fp.err) ∧ fp'.written = true ∧
      ∀ o, o < fp.fptr → view fs' fp' (L.take ((fp.fptr + (fs.csize * 512 - 1)) / (fs.csize * 512))) o = view fs fp L o := by
  have hclus := h.ok.layout.clus
  have hptr := h.ptr
  have hsz := h.size
  have hent := Fs.ents_lt h.ok
  have hdd : ∀ x, x / (fs.csize * 512) = x / 512 / fs.csize := fun x => by rw [Nat.div_div_eq_div_mul, Nat.mul_comm]
  have hnil : L ≠ [] := by
    rintro rfl
    simp only [List.length_nil, Nat.zero_mul, Nat.mul_zero] at hsz
    omega
  obtain ⟨hn, hL, hO⟩ := files_bounds h.files
  unfold fTruncate
  rw [if_neg (fun x => x he), if_neg (by rw [hw]; decide), if_pos hlt]
  dsimp only
  by_cases hz : fp.fptr = 0
  · rw [if_pos hz]
    obtain ⟨a, K, rfl⟩ : ∃ a K, L = a :: K := by
      cases L with
      | nil => exact absurd rfl hnil
      | cons a K => exact ⟨a, K, rfl⟩
    have hs : fp.sclust = a := h.start
    have hF : Files fs.entryAt fs.nFatent ([] ++ (a :: K) :: O) := by
      have := h.files
      rwa [own_cons (by simp)] at this
    obtain ⟨f1, r1, r2, r3, _⟩ := remove_file hq fs h.ok [] O a K hF
    rw [hs, r1]
    dsimp only [Option.map_some]
    rw [if_pos rfl]
    have htk : (a :: K).take ((fp.fptr + (fs.csize * 512 - 1)) / (fs.csize * 512)) = [] := by
      rw [hz, Nat.zero_add, Nat.div_eq_of_lt (by omega)]
      rfl
    rw [htk]
    obtain ⟨f2, t1, t2, t3, t4⟩ := trunc_end (g := { fp with fsize := fp.fptr, written := true, sclust := 0 }) (L := []) (T := a :: K) hq h (r2.mv _) (by rw [← r2.nFatent]; exact r3) (by omega) rfl
    exact ⟨f2, _, by rw [t1]; simp, t2, t3, rfl, rfl, ⟨rfl, rfl, rfl⟩, rfl, t4⟩
  · rw [if_neg hz]
    have hcl := h.clust (by omega)
    have hj : (fp.fptr - 1) / 512 / fs.csize < L.length := (Nat.div_lt_iff_lt_mul hclus).mpr (by generalize L.length * fs.csize = N at *; omega)
    have htk : (fp.fptr + (fs.csize * 512 - 1)) / (fs.csize * 512) = (fp.fptr - 1) / 512 / fs.csize + 1 := by
      rw [show fp.fptr + (fs.csize * 512 - 1) = (fp.fptr - 1) + fs.csize * 512 by omega, Nat.add_div_right _ (by omega), hdd]
    rw [htk]
    have hp' : fp.fptr ≤ 512 * ((fp.fptr - 1) / 512 / fs.csize * fs.csize + fs.csize) := by
      have e := Nat.div_add_mod ((fp.fptr - 1) / 512) fs.csize
      have hm : (fp.fptr - 1) / 512 % fs.csize < fs.csize := Nat.mod_lt _ hclus
      rw [Nat.mul_comm] at e
      omega
    generalize (fp.fptr - 1) / 512 / fs.csize = j at *
    obtain ⟨ch, hch⟩ := h.files.chains L (by rw [own_cons hnil]; simp)
    have hsc : fp.sclust = (L.take (j + 1)).headD 0 := by
      rw [h.start]
      cases L with
      | nil => rfl
      | cons a K => rfl
    have hfin : ∀ (g : Fil), g = { fp with fsize := fp.fptr, written := true } → g = { fp with fsize := fp.fptr, written := true, sclust := (L.take (j + 1)).headD 0 } := by
      intro g hg
      rw [hg, ← hsc]
    by_cases hin : j + 1 < L.length
    · obtain ⟨A, B, hAB⟩ := list_at hin
      rw [← hcl] at hAB
      rw [hAB] at hch
      obtain ⟨n1, n2, n3, n4, n5⟩ := hch.next_val
      obtain ⟨f0, g1, g2, _⟩ := fs.get_step hq h.ok fp.clust n2 n3
      have hF0 : Files f0.entryAt f0.nFatent ([] ++ (A ++ fp.clust :: L.getD (j + 1) 0 :: B) :: O) := by
        rw [← hAB, g2.nFatent]
        have := files_congr h.files g2.entries
        rwa [own_cons hnil] at this
      obtain ⟨fp1, f1, p1, p2, p3, p4, _⟩ := remove_tail hq f0 g2.ok [] O A B fp.clust (L.getD (j + 1) 0) hF0
      rw [g1, n1]
      dsimp only
      have u1 : L.getD (j + 1) 0 ≠ 4294967295 := by omega
      have u2 : L.getD (j + 1) 0 ≠ 1 := by omega
      rw [if_neg u1, if_neg u2, if_pos ⟨rfl, by rw [g2.nFatent]; exact n5⟩, p1]
      dsimp only
      rw [if_pos rfl, p2]
      dsimp only [Option.map_some]
      rw [if_pos rfl]
      have hA : A.length = j := by
        have e : (A ++ fp.clust :: L.getD (j + 1) 0 :: B).Nodup := by rw [← hAB]; exact hn
        have hlen : A.length < L.length := by rw [hAB]; simp
        refine (nodup_getD hn (by omega) hlen ?_).symm
        rw [← hcl]
        conv => rhs; rw [hAB]
        rw [List.getD_eq_getElem?_getD, List.getElem?_append_right (Nat.le_refl _), Nat.sub_self]
        rfl
      have htake : L.take (j + 1) = A ++ [fp.clust] := by
        rw [hAB, List.take_append, hA, List.take_of_length_le (by omega), Nat.add_sub_cancel_left]
        rfl
      have hsplit : L = L.take (j + 1) ++ L.drop (j + 1) := (List.take_append_drop _ _).symm
      have h' : Core fs fp (L.take (j + 1) ++ L.drop (j + 1)) O := by rw [← hsplit]; exact h
      have hmv : Mv fs f1 (fun _ => False) := (g2.mv _).trans (p3.mv _)
      obtain ⟨f2, t1, t2, t3, t4⟩ := trunc_end (g := { fp with fsize := fp.fptr, written := true }) hq h' hmv (by
        rw [← hmv.nFatent, htake, own_cons (by simp)]
        exact p4) (by
        rw [List.length_take, Nat.min_eq_left (by omega), show (j + 1) * fs.csize = j * fs.csize + fs.csize from Nat.succ_mul ..]
        exact hp') (hfin _ rfl)
      rw [← hsplit] at t3 t4
      exact ⟨f2, _, by rw [t1]; simp, t2, t3, rfl, rfl, ⟨rfl, rfl, rfl⟩, rfl, t4⟩
    · have heq : j + 1 = L.length := by omega
      obtain ⟨A, hA⟩ := list_end heq
      rw [← hcl] at hA
      rw [hA] at hch
      obtain ⟨n1, n2, n3⟩ := hch.last_val
      obtain ⟨f0, g1, g2, _⟩ := fs.get_step hq h.ok fp.clust n2 n3
      have hlt28 := Fs.entryAt_lt fs fp.clust
      rw [g1]
      dsimp only
      have u1 : fs.entryAt fp.clust ≠ 4294967295 := by omega
      have u2 : fs.entryAt fp.clust ≠ 1 := by omega
      rw [if_neg u1, if_neg u2, if_neg (fun x => by rw [g2.nFatent] at x; omega)]
      dsimp only
      rw [if_pos rfl]
      have htake : L.take (j + 1) = L := List.take_of_length_le (by omega)
      have hfin' := hfin
      rw [htake] at hfin' ⊢
      have h' : Core fs fp (L ++ []) O := by rw [List.append_nil]; exact h
      obtain ⟨f2, t1, t2, t3, t4⟩ := trunc_end (g := { fp with fsize := fp.fptr, written := true }) hq h' (g2.mv _) (files_congr h.files g2.entries) hptr (hfin' _ rfl)
      rw [List.append_nil] at t3 t4
      exact ⟨f2, _, by rw [t1]; simp, t2, t3, rfl, rfl, ⟨rfl, rfl, rfl⟩, rfl, t4⟩

end Verif.Fat
