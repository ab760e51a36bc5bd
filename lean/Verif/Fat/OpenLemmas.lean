import Verif.Fat.OpenModel
import Verif.Fat.OpenSpec
import Verif.Fat.UnlinkProps

/-!
# FatFs: opening and making files — lemmas
-/

namespace Verif.Fat

open Spec (Ty Item named FoundAt Absent FreeAt Full alike proper Tidy Distinct Chain Files le2 le4)

theorem files_swap {tbl : Nat → Nat} {k : Nat} {A B C : List (List Nat)} (h : Files tbl k (A ++ (B ++ C))) : Files tbl k (B ++ (A ++ C)) := by
  refine ⟨fun L hL => h.chains L ?_, ?_, fun c a b d => ?_⟩
  · simp only [List.mem_append] at hL ⊢
    tauto
  · have p : (B ++ (A ++ C)).flatten.Perm (A ++ (B ++ C)).flatten := by
      simp only [List.flatten_append, ← List.append_assoc]
      exact List.Perm.append_right _ List.perm_append_comm
    exact p.nodup_iff.mpr h.apart
  · have := h.used c a b d
    simp only [List.flatten_append, List.mem_append] at this ⊢
    tauto

theorem emptied_name (e : Item) (tm : Nat) {j : Nat} (h : j < 11) : Spec.emptied e tm j = e j := by
  unfold Spec.emptied
  rw [if_neg (by omega), if_neg (by omega), if_neg (by omega)]

theorem emptied_named {e : Item} {tm : Nat} {gn : Nat → BitVec 8} (h : e 11 &&& 8 = 0) : named gn (Spec.emptied e tm) ↔ named gn e := by
  have h11 : Spec.emptied e tm 11 = 0 := if_pos rfl
  unfold named
  rw [h11]
  constructor
  · rintro ⟨_, k⟩
    exact ⟨h, fun j hj => by rw [← k j hj, emptied_name e tm hj]⟩
  · rintro ⟨_, k⟩
    exact ⟨by decide, fun j hj => by rw [emptied_name e tm hj, k j hj]⟩

section
variable {D : List Item} {i : Nat} {e x : Item}

/-- An entry is replaced by another one of the same name. -/
theorem same_found (hl : D[i]? = some e) (h0 : x 0 = e 0) (hn : ∀ gn, named gn x ↔ named gn e) (gn : Nat → BitVec 8) (j : Nat) : FoundAt (D.set i x) gn j ↔ FoundAt D gn j := by
  have hlt : i < D.length := by
    refine Nat.lt_of_not_le fun h => ?_
    rw [List.getElem?_eq_none h] at hl
    cases hl
  have key : ∀ (k : Nat) (P : Item → Prop), (P x ↔ P e) → ((∀ y, (D.set i x)[k]? = some y → P y) ↔ ∀ y, D[k]? = some y → P y) := by
    intro k P hP
    rw [set_get hlt]
    by_cases hik : i = k
    · rw [if_pos hik, ← hik, hl]
      simp only [Option.some.injEq, forall_eq']
      exact hP
    · rw [if_neg hik]
  have key2 : (∃ y, (D.set i x)[j]? = some y ∧ named gn y) ↔ ∃ y, D[j]? = some y ∧ named gn y := by
    rw [set_get hlt]
    by_cases hik : i = j
    · rw [if_pos hik, ← hik, hl]
      simp only [Option.some.injEq, exists_eq_left']
      exact hn gn
    · rw [if_neg hik]
  constructor
  · intro h
    exact ⟨key2.mp h.hit, fun k hk => (key k (fun y => y 0 ≠ 0) (by rw [h0])).mp (h.before k hk), fun k hk => (key k (fun y => ¬ named gn y) (by rw [hn])).mp (h.first k hk)⟩
  · intro h
    exact ⟨key2.mpr h.hit, fun k hk => (key k (fun y => y 0 ≠ 0) (by rw [h0])).mpr (h.before k hk), fun k hk => (key k (fun y => ¬ named gn y) (by rw [hn])).mpr (h.first k hk)⟩

theorem same_get (hl : D[i]? = some e) (h0 : x 0 = e 0) (hn : ∀ gn, named gn x ↔ named gn e) {k : Nat} {y : Item} (hy : (D.set i x)[k]? = some y) : ∃ z, D[k]? = some z ∧ y 0 = z 0 ∧ ∀ gn, named gn y ↔ named gn z := by
  have hlt : i < D.length := by
    refine Nat.lt_of_not_le fun h => ?_
    rw [List.getElem?_eq_none h] at hl
    cases hl
  rw [set_get hlt] at hy
  by_cases hik : i = k
  · rw [if_pos hik] at hy
    rw [← hik, ← Option.some.inj hy]
    exact ⟨e, hl, h0, hn⟩
  · rw [if_neg hik] at hy
    exact ⟨y, hy, rfl, fun _ => Iff.rfl⟩

theorem same_tidy (hl : D[i]? = some e) (h0 : x 0 = e 0) (hn : ∀ gn, named gn x ↔ named gn e) (ht : Tidy D) : Tidy (D.set i x) := by
  intro a b y y' hab h1 h2 h3
  obtain ⟨z, z1, z2, _⟩ := same_get hl h0 hn h1
  obtain ⟨z', y1, y2, _⟩ := same_get hl h0 hn h2
  rw [y2]
  exact ht a b z z' hab z1 y1 (by rw [← z2]; exact h3)

theorem same_distinct (hl : D[i]? = some e) (h0 : x 0 = e 0) (hn : ∀ gn, named gn x ↔ named gn e) (hd : Distinct D) : Distinct (D.set i x) := by
  intro gn a b y y' h1 h2 h3 h4 h5 h6 h7
  obtain ⟨z, z1, z2, z3⟩ := same_get hl h0 hn h1
  obtain ⟨z', y1, y2, y3⟩ := same_get hl h0 hn h2
  rw [z2] at h3 h5
  rw [y2] at h4
  exact hd gn a b z z' z1 y1 h3 h4 h5 ((z3 gn).mp h6) ((y3 gn).mp h7)

end

/-- The entry in the window after `f_open` has reset it -/
theorem resetEntry_bytes (w : Sector) (o tm : Nat) (e : Item) (h : ∀ j, j < 32 → w (o + j) = e j) : ∀ j, j < 32 → resetEntry w o tm (o + j) = Spec.emptied e tm j := by
  intro j hj
  unfold resetEntry stClust stWord stDword set
  unfold Spec.emptied
  rw [← h j hj]
  have d1 : byte tm = BitVec.ofNat 8 (tm / 256 ^ 0) := by rw [Nat.pow_zero, Nat.div_one]; rfl
  have d2 : byte ((tm % 65536) >>> 8) = BitVec.ofNat 8 (tm / 256 ^ 1) := by
    apply BitVec.eq_of_toNat_eq
    unfold byte
    rw [BitVec.toNat_ofNat, BitVec.toNat_ofNat, Nat.shiftRight_eq_div_pow]
    omega
  have d3 : byte (u32 tm >>> 16) = BitVec.ofNat 8 (tm / 256 ^ 2) := by
    apply BitVec.eq_of_toNat_eq
    unfold byte u32
    rw [BitVec.toNat_ofNat, BitVec.toNat_ofNat, Nat.shiftRight_eq_div_pow]
    omega
  have d4 : byte (u32 tm >>> 24) = BitVec.ofNat 8 (tm / 256 ^ 3) := by
    apply BitVec.eq_of_toNat_eq
    unfold byte u32
    rw [BitVec.toNat_ofNat, BitVec.toNat_ofNat, Nat.shiftRight_eq_div_pow]
    omega
  rw [d1, d2, d3, d4]
  have hz : byte 0 = 0 := rfl
  have hz1 : byte ((0 % 65536) >>> 8) = 0 := rfl
  have hz2 : byte (u32 0 >>> 16) = 0 := rfl
  have hz3 : byte (u32 0 >>> 24) = 0 := rfl
  have hz4 : byte (0 >>> 16) = 0 := rfl
  have hz5 : byte ((0 >>> 16 % 65536) >>> 8) = 0 := rfl
  generalize w (o + j) = b at *
  rcases j with _ | _ | _ | _ | _ | _ | _ | _ | _ | _ | _ | _ | _ | _ | _ | _ | _ | _ | _ | _ | _ | _ | _ | _ | _ | _ | _ | _ | _ | _ | _ | _ | j <;>
    first | omega | (simp [Nat.add_left_cancel_iff]; done) | (simp [Nat.add_left_cancel_iff]; rfl) | (simp [Nat.add_left_cancel_iff]; repeat (rw [if_neg (by omega)]))

/-- The entry of the file is emptied, its clusters are freed. -/
theorem reset_spec {env : Env} (hq : Quiet env) {rt : Root} {cl n : Nat} {L : List Nat} {S : Nat → Nat} {M : List Nat} {O : List (List Nat)} (fs : Fs) (h : Holds fs rt cl L S n (own M ++ O)) (dp : Dir) {i : Nat}
    (hd : AtItem fs cl L S n dp i) (hwin : fs.winsect = dp.sect) {e : Item} (he : (dirOf fs S n)[i]? = some e) (hlab : e 11 &&& 8 = 0) (hw : ∀ j, j < 32 → fs.win (dp.off + j) = e j)
    (hs : Spec.start fs.ty e 0 = M.headD 0) (tm : Nat) (m : Mode) (old : Fil) :
    ∃ fs', fs.reset env ⟨fs.winsect, dp.off⟩ tm = some (fs', .ok) ∧ Holds fs' rt cl L S n O ∧ dirOf fs' S n = (dirOf fs S n).set i (Spec.emptied e tm) ∧ Shape fs fs' ∧ Others fs fs' O ∧
      (∀ c, c < fs.nFatent → fs'.entryAt c = if c ∈ M then 0 else fs.entryAt c) ∧ fs'.winsect = S (i / 16) ∧ Opened fs' (fs'.opened ⟨fs.winsect, dp.off⟩ m old) [] (own L ++ O) ∧
      (fs'.opened ⟨fs.winsect, dp.off⟩ m old).fsize = 0 ∧ (L ≠ [] → Below fs fs') := by
  have hl := h.ok.layout
  have hi := hd.inside
  obtain ⟨s1, s2, s3, s4⟩ := h.area.sector hl (i := i / 16) (by omega)
  have hsect : fs.winsect = S (i / 16) := hwin.trans hd.sect
  obtain ⟨q, hq1⟩ := reset_eq env fs ⟨fs.winsect, dp.off⟩ tm
  rw [hq1]
  dsimp only
  rw [start_entry hw, hs]
  obtain ⟨r1, r2, r3, r4⟩ := resetEntry_spec fs.ty fs.win dp.off tm
  have hE := edit_window h.ok (by rw [hsect]; exact s4) (resetEntry fs.win dp.off tm)
  have w2 : ({ fs with win := resetEntry fs.win dp.off tm, wflag := true } : Fs).winsect = fs.winsect := rfl
  generalize ({ fs with win := resetEntry fs.win dp.off tm, wflag := true } : Fs) = f2 at *
  rw [hsect] at hE w2
  have h0 : Spec.emptied e tm 0 = e 0 := emptied_name e tm (by decide)
  have he32 : ∀ j, 32 ≤ j → e j = 0 := by
    intro j hj
    rw [dirOf_get, if_pos hi] at he
    rw [← Option.some.inj he]
    exact if_neg (by omega)
  have hD : dirOf f2 S n = (dirOf fs S n).set i (Spec.emptied e tm) := by
    refine dirOf_edited h.area hl hi hE _ (fun j hj => ?_) (fun j hj => ?_) fun j hj => ?_
    · rw [← hd.off]
      exact resetEntry_bytes _ _ _ _ hw j hj
    · unfold Spec.emptied
      rw [if_neg (by omega), if_neg (by omega), if_neg (by omega)]
      exact he32 j hj
    · rw [r4 j (by rw [hd.off]; omega)]
      unfold Fs.look
      rw [if_pos hsect.symm]
  have h2 : Holds f2 rt cl L S n (own M ++ O) := by
    refine ⟨h.area.edited hE, hE.ok, by rw [hE.shape.2.1]; exact h.pow, files_edited hE h.files, ?_, ?_⟩
    · rw [hD]
      exact same_tidy he h0 (fun gn => emptied_named hlab) h.tidy
    · rw [hD]
      exact same_distinct he h0 (fun gn => emptied_named hlab) h.distinct
  have ot2 := others_edited h.area hl h.files (i := i / 16) (by omega) hE
  obtain ⟨f5, t1, t2, t3, t7, t8, t9, t10, t11⟩ := resetRest_spec hq f2 hE.ok M (own L ++ O) (files_swap h2.files) (by rw [w2, hE.shape.inTable]; exact s4)
    (by rw [w2]; exact window_aside O h2.area h2.ok.layout (by omega)) q
  rw [w2] at t7 t8
  rw [hE.at_] at t8
  have hF5 : Files f5.entryAt f5.nFatent (own L ++ O) := by
    rw [t3.2.2.2.1]
    exact t9
  obtain ⟨h5, hD5, ot5⟩ := tables_only h2 t3 t2 (fun s _ k2 k3 => t10 s k2 k3) t11 hF5
  have sh := hE.shape.trans t3
  have hsz : (f5.opened ⟨fs.winsect, dp.off⟩ m old).fsize = 0 := by
    show ldDword f5.win (dp.off + 28) = 0
    rw [ld_le4, t8]
    exact r1
  have hsc : (f5.opened ⟨fs.winsect, dp.off⟩ m old).sclust = 0 := by
    show ldClust f5.ty f5.win dp.off = 0
    rw [ldClust_start, t8, sh.1]
    exact r2
  refine ⟨f5, t1, h5, hD5.trans hD, sh, ?_, fun c hc => ?_, t7, ⟨⟨t2, h5.pow, hF5, hsc, Nat.zero_le _, by rw [hsz]; exact Nat.zero_le _, Nat.zero_lt_succ _, fun x => absurd x (Nat.lt_irrefl 0), fun x => absurd rfl x, fun _ => Or.inl rfl,
      fun x => Bool.noConfusion x, by rw [t7]; exact window_aside O h5.area t2.layout (by omega), Nat.zero_lt_succ _⟩, Nat.zero_le _, by rw [hsz]; decide, rfl⟩, hsz,
      fun hL => (hE.below hl (area_high h.area hl hL (by omega))).trans (below_out hE.ok.layout fun s _ k2 k3 => t10 s k2 k3) hE.shape⟩
  · exact others_trans (fun N hN => ot2 N (List.mem_append_right _ hN)) ot5 hE.shape.2.1 hE.shape.2.2.2.2.2.2
  · rw [t11 c (by rw [hE.shape.2.2.2.1]; exact hc), hE.entries c hc]

/-- What `dir_register` does -/
theorem register_spec {env : Env} (hq : Quiet env) (rt : Root) (fn : Nat → BitVec 8) (hp : proper fn) {cl n : Nat} {L : List Nat} {S : Nat → Nat} {O : List (List Nat)} (fs : Fs) (h : Holds fs rt cl L S n O)
    (d : Dir) (hdc : d.sclust = cl) (habs : Absent (dirOf fs S n) fn) :
    ∃ fs' dp' r, dirRegister env rt fn fs d = some (fs', dp', r) ∧
      ((r = .denied ∧ Seen fs fs' ∧ Full (dirOf fs S n) ∧ NoRoom fs L n) ∨
      (r = .ok ∧ ∃ L' S' n' i, Holds fs' rt cl L' S' n' O ∧ Shape fs fs' ∧ Others fs fs' O ∧ AtItem fs' cl L' S' n' dp' i ∧ fs'.winsect = dp'.sect ∧ (∀ j, j < 32 → fs'.win (dp'.off + j) = Spec.fresh fn j) ∧
        FoundAt (dirOf fs' S' n') fn i ∧ (dirOf fs' S' n')[i]? = some (Spec.fresh fn) ∧ (∀ gn, proper gn → ¬ alike gn fn → ∀ i, FoundAt (dirOf fs' S' n') gn i ↔ FoundAt (dirOf fs S n) gn i) ∧
        Spec.Beside (dirOf fs S n) (dirOf fs' S' n') i ∧ (L ≠ [] → L' ≠ [] ∧ Below fs fs') ∧ (L = [] → L' = []))) := by
  unfold dirRegister dirAlloc
  obtain ⟨f1, d1, e1, e2, e3⟩ := sdi_spec hq rt h.area h.ok d hdc 0 ⟨by have := h.area.pos h.ok.layout; omega, by decide⟩
  rw [e1]
  dsimp only
  rw [if_pos rfl]
  obtain ⟨h1, hD2⟩ := h.seen e2
  obtain ⟨f2, d2, r2, q1, q2⟩ := allocLoop_spec hq rt [] O 65537 f1 d1 0 h1.area h1.ok h1.pow (fun hL => by have := h1.files; unfold own at this; rw [if_neg hL] at this; exact this) e3 (by omega)
    fun j e hj => absurd hj (Nat.not_lt_zero _)
  rw [q1]
  dsimp only
  rw [hD2] at q2
  rcases q2 with ⟨i, w1, rfl, w3, w4⟩ | ⟨w1, w2, w3, w4⟩ | ⟨w1, rfl, w3, x, ncl, w4, w5, w6, w7, w8, w9, w10, w11⟩
  · have hs2 := e2.trans w3
    obtain ⟨h2, hD3⟩ := h1.seen w3
    have hD4 : dirOf f2 S n = dirOf fs S n := hD3.trans hD2
    obtain ⟨f3, w, m1, m2, m3⟩ := change_entry hq h2.area h2.ok w4 (fun w o => fresh w o fn) (Spec.fresh fn) (fun j hj => if_neg (by omega)) fun w o => fresh_window w o fn
    have hwin := move_winsect m1
    have e0 : (if Fr.ok = .noFile then Fr.denied else Fr.ok) = .ok := rfl
    rw [e0, if_pos rfl, m1]
    dsimp only
    rw [if_pos rfl]
    have hE := Edited.after hs2 m2
    rw [hD4] at m3
    have hi := w4.inside
    refine ⟨_, _, _, rfl, Or.inr ⟨rfl, L, S, n, i, ⟨h2.area.edited m2, m2.ok, by rw [hE.shape.2.1]; exact h.pow, files_edited m2 h2.files, ?_, ?_⟩, hE.shape, others_edited h.area h.ok.layout h.files (i := i / 16) (by omega) hE,
      ⟨w4.index, w4.sclust, by rw [m2.shape.2.1]; exact w4.clust, w4.sect, w4.off, w4.inside⟩, hwin, fun j hj => (fresh_window f3.win d2.off fn).1 j hj, ?_, ?_, ?_, ?_, ?_, ?_⟩⟩
    · rw [m3]
      exact fresh_tidy w1 h.tidy hp
    · rw [m3]
      exact fresh_distinct w1 h.tidy h.distinct habs
    · rw [m3]
      exact fresh_found w1 habs hp
    · rw [m3, set_get w1.lt, if_pos rfl]
    · rw [m3]
      exact fun gn hg hne j => fresh_others w1 h.tidy hp gn hg hne j
    · rw [m3]
      intro j hj hne
      rw [set_get w1.lt, if_neg (Ne.symm hne)]
    · exact fun hL => ⟨hL, hE.below h.ok.layout (area_high h.area h.ok.layout hL (by omega))⟩
    · exact id
  · have hr : (if r2 = .noFile then Fr.denied else r2) = .denied := by
      rcases w2 with y | y
      · rw [y]
        rfl
      · rw [y]
        rfl
    rw [hr, if_neg (by simp)]
    refine ⟨f2, d2, _, rfl, Or.inl ⟨rfl, e2.trans w3, w1, w4.imp_right (Or.imp_right fun y c h1 h2 => ?_)⟩⟩
    rw [← e2.entries c h2]
    exact y c h1 (by rw [e2.shape.2.2.2.1]; exact h2)
  · have hg := Grown.after e2 w9
    rw [e2.shape.2.2.2.1] at w7
    rw [e2.entries ncl w7] at w8
    obtain ⟨hG, hlen⟩ := dirOf_grown h.area h.ok.layout w4 hg w6 w8 w3
    have hk : 0 < min (16 * (n + fs.csize)) 65536 - 16 * n := by
      have := h.ok.layout.clus
      omega
    have hfree := zeros_free hk w1
    rw [hlen] at hfree
    have harea : Area f2 rt cl (L ++ [ncl]) (f2.sec (L ++ [ncl])) ((L ++ [ncl]).length * f2.csize) := by
      have ha := h.area
      cases ha with
      | static g1 g2 g3 g4 g5 => exact absurd rfl w4
      | chain g hc =>
        obtain ⟨e, he⟩ := w10.chains (L ++ [ncl]) (by simp)
        obtain ⟨_, e1⟩ := hc.head
        obtain ⟨_, e2⟩ := he.head
        rw [e1, List.cons_append] at e2
        refine .chain (c := e) ?_ he
        rw [← (List.cons.inj e2).1, hg.shape.1]
        exact g
    obtain ⟨f3, w, m1, m2, m3⟩ := change_entry hq harea hg.ok w11 (fun w o => fresh w o fn) (Spec.fresh fn) (fun j hj => if_neg (by omega)) fun w o => fresh_window w o fn
    have hwin := move_winsect m1
    have e0 : (if Fr.ok = .noFile then Fr.denied else Fr.ok) = .ok := rfl
    rw [e0, if_pos rfl, m1]
    dsimp only
    rw [if_pos rfl]
    have hF2 : Files f2.entryAt f2.nFatent (own (L ++ [ncl]) ++ O) := by
      unfold own
      rw [if_neg (by simp)]
      exact w10
    have hi := w11.inside
    have ho1 := others_grown h.ok.layout h.files hg w6 w8
    have ho2 := others_edited harea hg.ok.layout hF2 (i := 16 * n / 16) (by omega) m2
    rw [hG] at m3
    refine ⟨_, _, _, rfl, Or.inr ⟨rfl, L ++ [ncl], f2.sec (L ++ [ncl]), (L ++ [ncl]).length * f2.csize, 16 * n, ⟨harea.edited m2, m2.ok, by rw [m2.shape.2.1, hg.shape.2.1]; exact h.pow, files_edited m2 hF2, ?_, ?_⟩,
      hg.shape.trans m2.shape, ?_, ⟨w11.index, w11.sclust, by rw [m2.shape.2.1]; exact w11.clust, w11.sect, w11.off, w11.inside⟩, hwin, fun j hj => (fresh_window f3.win d2.off fn).1 j hj, ?_, ?_, ?_, ?_, ?_, ?_⟩⟩
    · rw [m3]
      exact fresh_tidy hfree (zeros_tidy h.tidy) hp
    · rw [m3]
      exact fresh_distinct hfree (zeros_tidy h.tidy) (zeros_distinct h.distinct) (zeros_absent hp habs)
    · intro M hM j hj
      have := ho2 M hM j (by rw [hg.shape.2.1]; exact hj)
      rw [hg.shape.sec] at this
      rw [this, ho1 M hM j hj]
    · rw [m3]
      exact fresh_found hfree (zeros_absent hp habs) hp
    · rw [m3, set_get hfree.lt, if_pos rfl]
    · rw [m3]
      intro gn hg hne j
      rw [fresh_others hfree (zeros_tidy h.tidy) hp gn hg hne j, zeros_found hg]
    · rw [m3]
      intro j hj hne
      rw [set_get hfree.lt, if_neg (Ne.symm hne), List.getElem?_append_left hj]
    · intro hL
      have lo : fs.database ≤ fs.first ncl := Nat.le_add_left _ _
      have b1 : Below fs f2 := fun s h1 h2 => hg.outside s (below_tables h.ok.layout h1).1 (below_tables h.ok.layout h1).2 fun k _ => by omega
      exact ⟨by simp, b1.trans (m2.below hg.ok.layout (area_high harea hg.ok.layout (by simp) (by omega))) hg.shape⟩
    · exact fun x => absurd x w4

end Verif.Fat
