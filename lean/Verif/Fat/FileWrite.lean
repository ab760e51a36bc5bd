import Verif.Fat.FileLemmas

/-!
# FatFs: lemmas on `f_write`
-/

namespace Verif.Fat

open Spec (Ty Chain Files order freeCount)

/-! ## The cluster of a turn -/

theorem div_pred {i c : Nat} (hc : 1 ≤ c) (h0 : 0 < i) (hm : i % c = 0) : (i - 1) / c = i / c - 1 ∧ 1 ≤ i / c ∧ i = c * (i / c) := by
  have e := Nat.div_add_mod i c
  have hd : 1 ≤ i / c := by
    rcases Nat.eq_zero_or_pos (i / c) with z | z
    · rw [z] at e; omega
    · exact z
  refine ⟨?_, hd, by omega⟩
  obtain ⟨d, hd'⟩ : ∃ d, i / c = d + 1 := ⟨i / c - 1, by omega⟩
  rw [hd'] at e ⊢
  rw [Nat.mul_succ] at e
  rw [show i - 1 = c * d + (c - 1) by omega, Nat.mul_add_div (by omega), Nat.div_eq_of_lt (by omega)]
  omega

theorem list_at {L : List Nat} {d : Nat} (h : d + 1 < L.length) : ∃ A B, L = A ++ L.getD d 0 :: L.getD (d + 1) 0 :: B := by
  refine ⟨L.take d, L.drop (d + 2), ?_⟩
  rw [List.getD_eq_getElem?_getD, List.getD_eq_getElem?_getD, List.getElem?_eq_getElem (by omega), List.getElem?_eq_getElem h]
  dsimp only [Option.getD_some]
  rw [← List.drop_eq_getElem_cons h, ← List.drop_eq_getElem_cons (by omega), List.take_append_drop]

theorem list_end {L : List Nat} {d : Nat} (h : d + 1 = L.length) : ∃ A, L = A ++ [L.getD d 0] := by
  refine ⟨L.take d, ?_⟩
  rw [List.getD_eq_getElem?_getD, List.getElem?_eq_getElem (by omega)]
  dsimp only [Option.getD_some]
  have : L.drop d = [L[d]] := by
    rw [List.drop_eq_getElem_cons (by omega), List.drop_eq_nil_of_le (by omega)]
  rw [← this, List.take_append_drop]

theorem headD_append {L M : List Nat} (h : L ≠ []) : (L ++ M).headD 0 = L.headD 0 := by
  cases L with
  | nil => exact absurd rfl h
  | cons a L => rfl

theorem files_congr {f g : Nat → Nat} {n : Nat} {F : List (List Nat)} (h : Files f n F) (e : ∀ c, c < n → g c = f c) : Files g n F := by
  refine ⟨fun L hL => ?_, h.apart, fun c h1 h2 hc => h.used c h1 h2 (by rw [← e c h2]; exact hc)⟩
  obtain ⟨c, hc⟩ := h.chains L hL
  exact ⟨c, hc.congr fun x hx => e x (hc.mem hx).2.1⟩

theorem cluster_spec {env : Env} (hq : Quiet env) {fs : Fs} {fp : Fil} {L : List Nat} {O : List (List Nat)} (h : Core fs fp L O) (hb : fp.fptr % 512 = 0)
    (hcs : fp.fptr / 512 % fs.csize = 0) :
    (∃ fs', writeCluster env fs fp = some (fs', 0) ∧ Step fs fs' fs.entryAt ∧ fp.fptr = 512 * (L.length * fs.csize) ∧
      ∀ c, 2 ≤ c → c < fs.nFatent → c ∈ (own L ++ O).flatten) ∨
    ∃ fs' M clst, writeCluster env fs fp = some (fs', clst) ∧ Mv fs fs' (fun _ => False) ∧ Files fs'.entryAt fs.nFatent (own (L ++ M) ++ O) ∧
      clst = (L ++ M).getD (fp.fptr / 512 / fs.csize) 0 ∧ fp.fptr / 512 < (L ++ M).length * fs.csize ∧ 2 ≤ clst ∧ clst < fs.nFatent ∧
      (if fp.sclust = 0 then clst else fp.sclust) = (L ++ M).headD 0 ∧ (∀ x ∈ M, x ∉ (own L ++ O).flatten) := by
  have hclus := h.ok.layout.clus
  obtain ⟨hn, hL, hO⟩ := files_bounds h.files
  by_cases hnil : L = []
  · have hp : fp.fptr = 0 := by
      have := h.ptr
      rw [hnil] at this
      simpa using this
    have hs : fp.sclust = 0 := by rw [h.start, hnil]; rfl
    have hF := h.files
    rw [hnil, show own [] ++ O = O from rfl] at hF
    have hc := create_new hq fs h.ok O hF
    have hsr := start_range h.ok
    unfold writeCluster
    rw [if_pos hp, if_pos hs]
    cases hfind : (order fs.nFatent (start fs)).find? (fun c => decide (c ∉ O.flatten)) with
    | none =>
      rw [hfind] at hc
      obtain ⟨fs', c1, c2, _⟩ := hc
      refine Or.inl ⟨fs', c1, c2, by rw [hp, hnil]; simp, fun c h1 h2 => ?_⟩
      have := List.find?_eq_none.mp hfind c ((mem_order hsr.1 hsr.2).mpr ⟨h1, h2⟩)
      rw [hnil, show own [] ++ O = O from rfl]
      simpa using this
    | some ncl =>
      rw [hfind] at hc
      obtain ⟨fs', c1, c2, c3, _⟩ := hc
      have hm := (mem_order hsr.1 hsr.2).mp (List.mem_of_find?_eq_some hfind)
      have hfr : ncl ∉ O.flatten := by simpa using List.find?_some hfind
      refine Or.inr ⟨fs', [ncl], ncl, c1, c2.mv _, ?_, ?_, ?_, hm.1, hm.2, ?_, ?_⟩
      · rw [hnil, ← c2.nFatent]
        exact c3
      · rw [hp, hnil]; simp
      · rw [hp, hnil, List.nil_append, List.length_singleton, Nat.one_mul]; exact hclus
      · rw [hs, hnil]; rfl
      · intro x hx
        rw [hnil, show own [] ++ O = O from rfl, List.mem_singleton.mp hx]
        exact hfr
  · obtain ⟨ch, hch⟩ := h.files.chains L (by rw [own_cons hnil]; simp)
    obtain ⟨L0, hL0⟩ := hch.head
    have hs : fp.sclust = ch := by rw [h.start, hL0]; rfl
    have hch2 : 2 ≤ ch := (hL ch (by rw [hL0]; simp)).1
    have hsc : ∀ M clst, (if fp.sclust = 0 then clst else fp.sclust) = (L ++ M).headD 0 := by
      intro M clst
      rw [if_neg (by omega), headD_append hnil, h.start]
    by_cases hp : fp.fptr = 0
    · right
      refine ⟨fs, [], fp.sclust, ?_, Mv.refl h.ok _, by rw [List.append_nil]; exact h.files, ?_, ?_, by omega, ?_, hsc [] _, fun x hx => absurd hx List.not_mem_nil⟩
      · unfold writeCluster
        rw [if_pos hp, if_neg (by omega)]
      · rw [hp, List.append_nil, hL0, hs]; simp
      · rw [hp, List.append_nil, hL0, List.length_cons]
        exact Nat.mul_pos (Nat.succ_pos _) hclus
      · rw [hs]; exact (hL ch (by rw [hL0]; simp)).2.1
    · have hpos : 0 < fp.fptr := by omega
      have hcl := h.clust hpos
      obtain ⟨d1, d2, d3⟩ := div_pred hclus (i := fp.fptr / 512) (by omega) hcs
      rw [show (fp.fptr - 1) / 512 = fp.fptr / 512 - 1 by omega, d1] at hcl
      have hle : fp.fptr / 512 / fs.csize ≤ L.length := by
        have := h.ptr
        have h' : fp.fptr / 512 ≤ L.length * fs.csize := by omega
        have := Nat.div_le_div_right (c := fs.csize) h'
        rwa [Nat.mul_div_cancel _ hclus] at this
      generalize hd : fp.fptr / 512 / fs.csize = d at *
      obtain ⟨e, rfl⟩ : ∃ e, d = e + 1 := ⟨d - 1, by omega⟩
      rw [Nat.add_sub_cancel] at hcl
      unfold writeCluster
      rw [if_neg hp]
      by_cases hlt : e + 1 < L.length
      · right
        obtain ⟨A, B, hAB⟩ := list_at hlt
        rw [← hcl] at hAB
        rw [hAB] at hch
        obtain ⟨fs', c1, c2, _⟩ := create_inside hq fs h.ok ch fp.clust _ A B hch
        obtain ⟨v1, v2, v3, v4, v5⟩ := hch.next_val
        refine ⟨fs', [], _, c1, c2.mv _, ?_, by rw [List.append_nil], ?_, v4, v5, hsc [] _, fun x hx => absurd hx List.not_mem_nil⟩
        · rw [List.append_nil]
          exact files_congr h.files c2.entries
        · rw [List.append_nil, d3, Nat.mul_comm]
          exact Nat.mul_lt_mul_of_pos_right hlt hclus
      · have heq : e + 1 = L.length := by omega
        obtain ⟨A, hA⟩ := list_end heq
        rw [← hcl] at hA
        have hF := h.files
        rw [own_cons hnil] at hF
        have hF' : Files fs.entryAt fs.nFatent ([] ++ (A ++ [fp.clust]) :: O) := by
          rw [← hA]; exact hF
        have hfl : ([] ++ (A ++ [fp.clust]) :: O).flatten = (own L ++ O).flatten := by
          rw [← hA, own_cons hnil]; rfl
        have hcx := hL fp.clust (by rw [hA]; simp)
        have hc := create_extend hq fs h.ok [] O A fp.clust hF'
        rw [hfl] at hc
        cases hfind : (order fs.nFatent fp.clust).find? (fun c => decide (c ∉ (own L ++ O).flatten)) with
        | none =>
          rw [hfind] at hc
          obtain ⟨fs', c1, c2, _⟩ := hc
          refine Or.inl ⟨fs', c1, c2, ?_, fun c h1 h2 => ?_⟩
          · rw [← heq, Nat.mul_comm (e + 1), ← d3]
            omega
          · have := List.find?_eq_none.mp hfind c ((mem_order (by omega) hcx.2.1).mpr ⟨h1, h2⟩)
            by_cases k : c ∈ (own L ++ O).flatten
            · exact k
            · exact absurd (decide_eq_true k) this
        | some ncl =>
          rw [hfind] at hc
          obtain ⟨fs', c1, c2, c3, _⟩ := hc
          have hm := (mem_order (by omega) hcx.2.1).mp (List.mem_of_find?_eq_some hfind)
          have hfr : ncl ∉ (own L ++ O).flatten := by
            have := List.find?_some hfind
            exact of_decide_eq_true this
          refine Or.inr ⟨fs', [ncl], ncl, c1, c2.mv _, ?_, ?_, ?_, hm.1, hm.2, hsc _ _, ?_⟩
          · rw [own_cons (by simp), ← c2.nFatent]
            have e' : A ++ [fp.clust] ++ [ncl] = L ++ [ncl] := by rw [← hA]
            rw [e'] at c3
            exact c3
          · rw [List.getD_eq_getElem?_getD, List.getElem?_append_right (by omega), heq]
            simp
          · rw [d3, Nat.mul_comm, List.length_append]
            refine Nat.mul_lt_mul_of_pos_right ?_ hclus
            simp; omega
          · intro x hx
            rw [List.mem_singleton.mp hx]
            exact hfr

/-! ## The sector of a turn -/

/-- The file at the start of a sector, with the cluster of this sector -/
structure AtSector (fs : Fs) (fp : Fil) (L : List Nat) (O : List (List Nat)) : Prop where
  ok : fs.Ok
  pow : ∃ p, p ≤ 7 ∧ fs.csize = 2 ^ p
  files : Files fs.entryAt fs.nFatent (own L ++ O)
  start : fp.sclust = L.headD 0
  pos : fp.fptr / 512 < L.length * fs.csize
  size : fp.fsize ≤ 512 * (L.length * fs.csize)
  clust : fp.clust = L.getD (fp.fptr / 512 / fs.csize) 0
  edge : fp.fptr % 512 = 0
  cache : fp.dirty = false → fp.dsect = 0 ∨ fs.Loose O fp.dsect ∧ fp.buf = fs.disk fp.dsect
  mine : fp.dirty = true → fs.Mine L fp.dsect
  away : fs.winsect < fs.database ∨ ∃ c, c ∈ O.flatten ∧ fs.first c ≤ fs.winsect ∧ fs.winsect < fs.first c + fs.csize
  d32 : fp.dsect < 4294967296

/-- The fields of a file that a turn leaves -/
def Fil.Kept (fp fp' : Fil) : Prop := fp'.fptr = fp.fptr ∧ fp'.fsize = fp.fsize ∧ fp'.rd = fp.rd ∧ fp'.wr = fp.wr ∧ fp'.err = fp.err ∧ fp'.written = fp.written

/-- A turn that writes `n` bytes of `src` -/
structure Wrote (fs : Fs) (fp : Fil) (L : List Nat) (O : List (List Nat)) (src : Nat → BitVec 8) (n : Nat) (fs' : Fs) (fp' : Fil) : Prop where
  core : Core fs' { fp' with fptr := fp.fptr + n } L O
  kept : fp.Kept fp'
  mv : Mv fs fs' (fs.Mine L)
  view : ∀ o, o < max fp.fsize (fp.fptr + n) → view fs' fp' L o = if fp.fptr ≤ o ∧ o < fp.fptr + n then src (o - fp.fptr) else Verif.Fat.view fs fp L o

theorem files_secs {fs : Fs} {L : List Nat} {O : List (List Nat)} (hl : fs.Layout) (h : Files fs.entryAt fs.nFatent (own L ++ O)) {i j : Nat}
    (hi : i < L.length * fs.csize) (hj : j < L.length * fs.csize) (e : fs.sec L i = fs.sec L j) : i = j :=
  sec_inj (files_bounds h).1 (fun c hc => ((files_bounds h).2.1 c hc).1) hl.clus hi hj e

theorem writeBytes_spec {fs : Fs} {fp : Fil} {L : List Nat} {O : List (List Nat)} (hok : fs.Ok) (hpow : ∃ p, p ≤ 7 ∧ fs.csize = 2 ^ p)
    (hf : Files fs.entryAt fs.nFatent (own L ++ O)) (hst : fp.sclust = L.headD 0) (hpos : fp.fptr / 512 < L.length * fs.csize) (hsz : fp.fsize ≤ 512 * (L.length * fs.csize))
    (hcl : fp.clust = L.getD (fp.fptr / 512 / fs.csize) 0) (hds : fp.dsect = fs.sec L (fp.fptr / 512))
    (haw : fs.winsect < fs.database ∨ ∃ c, c ∈ O.flatten ∧ fs.first c ≤ fs.winsect ∧ fs.winsect < fs.first c + fs.csize)
    (src : Nat → BitVec 8) (btw : Nat) (hbtw : 0 < btw) (h32 : fp.fptr + btw < 4294967296) :
    ∃ fp' n, writeBytes fs fp src btw = .more fs fp' n ∧ 0 < n ∧ n ≤ btw ∧ Core fs { fp' with fptr := fp.fptr + n } L O ∧ fp.Kept fp' ∧
      (fp.fptr % 512 + n ≤ 512) ∧
      ∀ o, o < 512 * (L.length * fs.csize) → view fs fp' L o = if fp.fptr ≤ o ∧ o < fp.fptr + n then src (o - fp.fptr)
        else if o / 512 = fp.fptr / 512 then fp.buf (o % 512) else fs.disk (fs.sec L (o / 512)) (o % 512) := by
  have hn1 : 0 < min (512 - fp.fptr % 512) btw := by omega
  have hn2 : min (512 - fp.fptr % 512) btw ≤ btw := by omega
  have hn3 : fp.fptr % 512 + min (512 - fp.fptr % 512) btw ≤ 512 := by omega
  unfold writeBytes
  dsimp only
  generalize min (512 - fp.fptr % 512) btw = n at hn1 hn2 hn3
  have hb := mine_bounds hok.layout hf ⟨_, hpos, hds⟩
  generalize hN : L.length * fs.csize = N at *
  refine ⟨_, n, rfl, hn1, hn2, ?_, ⟨rfl, rfl, rfl, rfl, rfl, rfl⟩, hn3, fun o ho => ?_⟩
  · refine ⟨hok, hpow, hf, hst, ?_, ?_, ?_, fun _ => ?_, fun hne => ?_, fun hd => ?_, fun _ => ⟨fp.fptr / 512, by rw [hN]; exact hpos, hds⟩, haw, hb.2.1⟩
    · show fp.fptr + n ≤ 512 * (L.length * fs.csize)
      rw [hN]
      omega
    · show fp.fsize ≤ 512 * (L.length * fs.csize)
      rw [hN]
      exact hsz
    · show fp.fptr + n < 4294967296
      omega
    · show fp.clust = L.getD ((fp.fptr + n - 1) / 512 / fs.csize) 0
      rw [show (fp.fptr + n - 1) / 512 = fp.fptr / 512 by omega]
      exact hcl
    · show fp.dsect = fs.sec L ((fp.fptr + n) / 512)
      dsimp only at hne
      rw [show (fp.fptr + n) / 512 = fp.fptr / 512 by omega]
      exact hds
    · exact Bool.noConfusion hd
  · unfold view cell patch
    dsimp only
    by_cases e : o / 512 = fp.fptr / 512
    · rw [if_pos ⟨rfl, by rw [e, hds]⟩, if_pos e]
      by_cases k : fp.fptr ≤ o ∧ o < fp.fptr + n
      · rw [if_pos k, if_pos (by omega)]
        congr 1
        omega
      · rw [if_neg k, if_neg (by omega)]
    · rw [if_neg, if_neg (by omega), if_neg e]
      rintro ⟨_, k⟩
      rw [hds] at k
      exact e (files_secs hok.layout hf (by omega) (by omega) k)

/-- A turn in the middle of a sector -/
theorem middle_spec {fs : Fs} {fp : Fil} {L : List Nat} {O : List (List Nat)} (h : Core fs fp L O) (hm : fp.fptr % 512 ≠ 0) (src : Nat → BitVec 8) (btw : Nat) (hbtw : 0 < btw)
    (h32 : fp.fptr + btw < 4294967296) :
    ∃ fs' fp' n, writeBytes fs fp src btw = .more fs' fp' n ∧ 0 < n ∧ n ≤ btw ∧ Wrote fs fp L O src n fs' fp' := by
  have hds := h.sect hm
  have hcl := h.clust (by omega)
  rw [show (fp.fptr - 1) / 512 = fp.fptr / 512 by omega] at hcl
  have hptr := h.ptr
  have hsz := h.size
  have hpos : fp.fptr / 512 < L.length * fs.csize := by
    generalize L.length * fs.csize = N at *
    omega
  obtain ⟨fp', n, w1, w2, w3, w4, w5, w6, w7⟩ := writeBytes_spec h.ok h.pow h.files h.start hpos h.size hcl hds h.away src btw hbtw h32
  refine ⟨fs, fp', n, w1, w2, w3, w4, w5, Mv.refl h.ok _, fun o ho => ?_⟩
  have ho' : o < 512 * (L.length * fs.csize) := by
    generalize L.length * fs.csize = N at *
    omega
  rw [w7 o ho']
  by_cases k : fp.fptr ≤ o ∧ o < fp.fptr + n
  · rw [if_pos k, if_pos k]
  · rw [if_neg k, if_neg k]
    unfold view cell
    by_cases e : o / 512 = fp.fptr / 512
    · rw [if_pos e, e]
      by_cases d : fp.dirty = true
      · rw [if_pos ⟨d, hds.symm⟩]
      · rw [if_neg fun x => d x.1]
        have d' : fp.dirty = false := by simpa using d
        have hb := mine_bounds h.ok.layout h.files ⟨_, hpos, hds⟩
        rcases h.cache d' with z | z
        · exact absurd z hb.2.2.1
        · rw [z.2, hds]
    · rw [if_neg e, if_neg]
      rintro ⟨_, x⟩
      rw [hds] at x
      exact e (files_secs h.ok.layout h.files (by generalize L.length * fs.csize = N at *; omega) hpos x)

theorem sub32_lt {a b c : Nat} (ha : a < 4294967296) (hb : b + c ≤ 4294967296) : (sub32 a b < c ↔ b ≤ a ∧ a < b + c) ∧ (b ≤ a → sub32 a b = a - b) := by
  unfold sub32 u32
  rcases Nat.lt_or_ge a b with k | k
  · rw [Nat.mod_eq_of_lt (by omega)]
    constructor
    · omega
    · omega
  · rw [show a + 4294967296 - b = (a - b) + 4294967296 by omega, Nat.add_mod_right, Nat.mod_eq_of_lt (by omega)]
    constructor
    · omega
    · intro _; rfl

theorem refill_spec (fp : Fil) (sect cc : Nat) (src : Nat → BitVec 8) : ∃ r, Fil.refill { fp with dirty := false } sect cc src = r ∧
    r.sclust = fp.sclust ∧ r.clust = fp.clust ∧ r.dsect = fp.dsect ∧ r.dirty = false ∧ fp.Kept r ∧
      (sub32 fp.dsect sect < cc → r.buf = fun j => src (sub32 fp.dsect sect * 512 + j)) ∧ (¬ sub32 fp.dsect sect < cc → r.buf = fp.buf) := by
  obtain ⟨g, hg⟩ : ∃ g, g = ({ fp with dirty := false } : Fil) := ⟨_, rfl⟩
  rw [← hg]
  have hd : g.dsect = fp.dsect := by rw [hg]
  unfold Fil.refill
  rw [hd]
  by_cases k : sub32 fp.dsect sect < cc
  · rw [if_pos k]
    refine ⟨_, rfl, ?_⟩
    rw [hg]
    exact ⟨rfl, rfl, rfl, rfl, ⟨rfl, rfl, rfl, rfl, rfl, rfl⟩, fun _ => rfl, fun x => absurd k x⟩
  · rw [if_neg k]
    refine ⟨_, rfl, ?_⟩
    rw [hg]
    exact ⟨rfl, rfl, rfl, rfl, ⟨rfl, rfl, rfl, rfl, rfl, rfl⟩, fun x => absurd x k, fun _ => rfl⟩

/-- A turn at the start of a sector -/
theorem writeSector_spec {env : Env} (hq : Quiet env) {fs : Fs} {fp : Fil} {L : List Nat} {O : List (List Nat)} (h : AtSector fs fp L O) (src : Nat → BitVec 8) (btw cs : Nat)
    (hcs : cs = fp.fptr / 512 % fs.csize) (hbtw : 0 < btw) (h32 : fp.fptr + btw < 4294967296) :
    ∃ fs' fp' n, writeSector env fs fp src btw cs = .more fs' fp' n ∧ 0 < n ∧ n ≤ btw ∧ Wrote fs fp L O src n fs' fp' := by
  obtain ⟨f1, a1, a2, a3, a4, a5, a6⟩ := flush_spec hq fs fp L O h.ok h.files h.away h.mine h.cache
  have hclus := h.ok.layout.clus
  obtain ⟨hn, hL, hO⟩ := files_bounds h.files
  obtain ⟨m1, m2, m3⟩ := sec_mem h.pos hclus
  rw [← h.clust] at m2
  obtain ⟨c1, c2, c3⟩ := hL _ m2
  obtain ⟨b1, b2⟩ := first_bounds h.ok.layout c1 c2
  obtain ⟨s1, s2⟩ := clust2sect_eq a2.ok.layout c1 (by rw [a2.nFatent]; exact c2)
  rw [a2.first] at s1 s2
  have hsec : fs.sec L (fp.fptr / 512) = fs.first fp.clust + cs := by
    unfold Fs.sec
    rw [← h.clust, ← hcs]
  have hedge := h.edge
  have hpos := h.pos
  have hsz := h.size
  have hf1 : Files f1.entryAt f1.nFatent (own L ++ O) := by
    rw [a2.nFatent]
    exact files_congr h.files a3
  have haw1 := a2.away h.ok.layout h.away
  have hpow1 : ∃ p, p ≤ 7 ∧ f1.csize = 2 ^ p := by rw [a2.csize]; exact h.pow
  have hview : ∀ o, view fs fp L o = f1.disk (f1.sec L (o / 512)) (o % 512) := by
    intro o
    unfold view
    rw [a4, a2.sec]
  unfold writeSector
  rw [a1]
  dsimp only
  rw [if_neg (by decide), s1, if_neg s2, u32_of (by rw [← hcs] at m3; omega), ← hsec, a2.csize]
  by_cases hcc : btw / 512 ≠ 0
  · rw [if_pos hcc]
    rw [← hcs] at m3
    have k1 : 1 ≤ (if cs + btw / 512 > fs.csize then fs.csize - cs else btw / 512) := by split <;> omega
    have k2 : cs + (if cs + btw / 512 > fs.csize then fs.csize - cs else btw / 512) ≤ fs.csize := by split <;> omega
    have k3 : (if cs + btw / 512 > fs.csize then fs.csize - cs else btw / 512) ≤ btw / 512 := by split <;> omega
    generalize (if cs + btw / 512 > fs.csize then fs.csize - cs else btw / 512) = cc at k1 k2 k3
    have hsub := sub32_lt (a := fp.dsect) (b := fs.sec L (fp.fptr / 512)) (c := cc) h.d32 (by omega)
    have hin : ∀ q, q < cc → fs.sec L (fp.fptr / 512 + q) = fs.sec L (fp.fptr / 512) + q := fun q hq => sec_add (by omega)
    have hlt : ∀ q, q < cc → fp.fptr / 512 + q < L.length * fs.csize := by
      intro q hq
      have e := Nat.div_add_mod (fp.fptr / 512) fs.csize
      have : fs.csize * (fp.fptr / 512 / fs.csize) + fs.csize ≤ L.length * fs.csize := by
        rw [← Nat.mul_succ, Nat.mul_comm L.length]
        exact Nat.mul_le_mul_left _ m1
      omega
    rw [f1.writeMany_quiet hq]
    dsimp only
    rw [if_pos rfl]
    -- the fields of the file
    obtain ⟨fpn, q0, q1, q2, q3, q4, q5, q6, q7⟩ := refill_spec fp (fs.sec L (fp.fptr / 512)) cc src
    rw [q0]
    -- the sectors written are sectors of the file
    have hmine : ∀ s, fs.sec L (fp.fptr / 512) ≤ s ∧ s < fs.sec L (fp.fptr / 512) + cc → fs.Mine L s := by
      intro s hs
      refine ⟨fp.fptr / 512 + (s - fs.sec L (fp.fptr / 512)), hlt _ (by omega), ?_⟩
      rw [hin _ (by omega)]
      omega
    have hM1 : ∀ s, fs.Mine L s → f1.Mine L s := by
      rintro s ⟨i, i1, i2⟩
      exact ⟨i, by rw [a2.csize]; exact i1, by rw [a2.sec]; exact i2⟩
    obtain ⟨v1, v2⟩ := data_mv a2.ok (fun x => if fs.sec L (fp.fptr / 512) ≤ x ∧ x < fs.sec L (fp.fptr / 512) + cc then fun j => src ((x - fs.sec L (fp.fptr / 512)) * 512 + j) else f1.disk x)
      (f1.t + 1) (fs.Mine L) (fun s hs => ⟨(mine_bounds a2.ok.layout hf1 (hM1 s hs)).1, mine_away a2.ok.layout hf1 haw1 (hM1 s hs)⟩)
      (fun s hs => if_neg fun x => hs (hmine s x))
    have hmv := a2.trans v1
    refine ⟨_, _, _, rfl, by omega, by omega, ?_⟩
    have hmax : max fp.fsize (fp.fptr + 512 * cc) ≤ 512 * (L.length * fs.csize) := by
      have := hlt (cc - 1) (by omega)
      generalize L.length * fs.csize = N at *
      omega
    refine ⟨?_, q5, hmv, fun o ho => ?_⟩
    · refine ⟨hmv.ok, ?_, ?_, ?_, ?_, ?_, ?_, fun _ => ?_, fun hne => ?_, fun _ => ?_, fun hd => ?_, hmv.away h.ok.layout h.away, ?_⟩
      · rw [hmv.csize]; exact h.pow
      · rw [hmv.nFatent]
        exact files_congr h.files fun c hc => (v2 c (by rw [a2.nFatent]; exact hc)).trans (a3 c hc)
      · show fpn.sclust = _
        rw [q1]
        exact h.start
      · rw [hmv.csize]
        show fp.fptr + 512 * cc ≤ _
        omega
      · rw [hmv.csize]
        show fpn.fsize ≤ _
        rw [q5.2.1]
        exact hsz
      · show fp.fptr + 512 * cc < 4294967296
        omega
      · rw [hmv.csize]
        show fpn.clust = L.getD ((fp.fptr + 512 * cc - 1) / 512 / fs.csize) 0
        have e := Nat.div_add_mod (fp.fptr / 512) fs.csize
        have e' : (fp.fptr + 512 * cc - 1) / 512 = fs.csize * (fp.fptr / 512 / fs.csize) + (fp.fptr / 512 % fs.csize + (cc - 1)) := by omega
        have e'' : (fp.fptr + 512 * cc - 1) / 512 / fs.csize = fp.fptr / 512 / fs.csize := by
          rw [e', Nat.mul_add_div hclus, Nat.div_eq_of_lt (b := fs.csize) (a := fp.fptr / 512 % fs.csize + (cc - 1)) (by omega), Nat.add_zero]
        rw [q2, h.clust, e'']
      · exfalso
        apply hne
        show (fp.fptr + 512 * cc) % 512 = 0
        omega
      · show fpn.dsect = 0 ∨ Fs.Loose _ O fpn.dsect ∧ fpn.buf = _
        rw [q3, hmv.loose]
        dsimp only
        by_cases z : sub32 fp.dsect (fs.sec L (fp.fptr / 512)) < cc
        · have z' := hsub.1.mp z
          right
          refine ⟨?_, ?_⟩
          · have hb := mine_bounds h.ok.layout h.files (hmine _ z')
            exact ⟨hb.1, hb.2.2.2⟩
          rw [q6 z, if_pos z', hsub.2 z'.1]
        · rw [q7 z, if_neg fun x => z (hsub.1.mpr x)]
          exact a5
      · exact Bool.noConfusion (q4.symm.trans hd)
      · show fpn.dsect < _
        rw [q3]
        exact h.d32
    · rw [hview o]
      unfold view
      rw [hmv.sec]
      unfold cell
      rw [if_neg (fun x => Bool.noConfusion (q4.symm.trans x.1))]
      dsimp only
      have ho' : o / 512 < L.length * fs.csize := by
        generalize L.length * fs.csize = N at *
        omega
      rw [a2.sec]
      by_cases k : fp.fptr ≤ o ∧ o < fp.fptr + 512 * cc
      · have e : o / 512 = fp.fptr / 512 + (o / 512 - fp.fptr / 512) := by omega
        have e' := hin (o / 512 - fp.fptr / 512) (by omega)
        rw [← e] at e'
        rw [if_pos k, e', if_pos (by omega)]
        exact congrArg src (by omega)
      · rw [if_neg k, if_neg]
        intro x
        have e' := hin (fs.sec L (o / 512) - fs.sec L (fp.fptr / 512)) (by omega)
        rw [show fs.sec L (fp.fptr / 512) + (fs.sec L (o / 512) - fs.sec L (fp.fptr / 512)) = fs.sec L (o / 512) by omega] at e'
        have := files_secs h.ok.layout h.files (hlt _ (by omega)) ho' e'
        omega
  · rw [if_neg hcc]
    -- the state after the fill of the buffer
    have fin : ∀ (f2 : Fs) (b : Sector), Mv fs f2 (fs.Mine L) → Files f2.entryAt f2.nFatent (own L ++ O) → (∀ s, f2.disk s = f1.disk s) →
        (b = f1.disk (fs.sec L (fp.fptr / 512)) ∨ fp.fsize ≤ fp.fptr) →
        ∃ fs' fp' n, writeBytes f2 { fp with dirty := false, buf := b, dsect := fs.sec L (fp.fptr / 512) } src btw = .more fs' fp' n ∧ 0 < n ∧ n ≤ btw ∧ Wrote fs fp L O src n fs' fp' := by
      intro f2 b g1 g2 g3 g4
      obtain ⟨fp', n, w1, w2, w3, w4, w5, w6, w7⟩ := writeBytes_spec (fp := { fp with dirty := false, buf := b, dsect := fs.sec L (fp.fptr / 512) }) g1.ok (by rw [g1.csize]; exact h.pow)
        g2 h.start (by rw [g1.csize]; exact hpos) (by rw [g1.csize]; exact hsz) (by rw [g1.csize]; exact h.clust) (by rw [g1.sec])
        (g1.away h.ok.layout h.away) src btw hbtw h32
      dsimp only at w1 w4 w5 w6 w7
      refine ⟨f2, fp', n, w1, w2, w3, w4, w5, g1, fun o ho => ?_⟩
      have ho' : o < 512 * (L.length * fs.csize) := by
        generalize L.length * fs.csize = N at *
        omega
      rw [w7 o (by rw [g1.csize]; exact ho')]
      by_cases k : fp.fptr ≤ o ∧ o < fp.fptr + n
      · rw [if_pos k, if_pos k]
      · rw [if_neg k, if_neg k, hview o, a2.sec, g1.sec]
        by_cases e : o / 512 = fp.fptr / 512
        · rw [if_pos e]
          rcases g4 with g4 | g4
          · rw [g4, e]
          · omega
        · rw [if_neg e, g3]
    by_cases hfill : fp.dsect ≠ fs.sec L (fp.fptr / 512) ∧ fp.fptr < fp.fsize
    · rw [if_pos hfill, f1.read_quiet hq]
      dsimp only
      rw [if_pos rfl]
      obtain ⟨v1, v2⟩ := data_mv a2.ok f1.disk (f1.t + 1) (fun _ => False) (fun s hs => hs.elim) (fun s _ => rfl)
      refine fin _ _ (a2.trans (v1.mono fun s hs => hs.elim)) ?_ (fun s => rfl) (Or.inl rfl)
      exact files_congr hf1 v2
    · rw [if_neg hfill]
      refine fin f1 fp.buf a2 hf1 (fun s => rfl) ?_
      by_cases e : fp.dsect = fs.sec L (fp.fptr / 512)
      · left
        rcases a5 with z | z
        · have hb := mine_bounds h.ok.layout h.files ⟨_, hpos, e⟩
          exact absurd z hb.2.2.1
        · rw [z.2, e]
      · right
        have : ¬ fp.fptr < fp.fsize := fun x => hfill ⟨e, x⟩
        omega

end Verif.Fat
