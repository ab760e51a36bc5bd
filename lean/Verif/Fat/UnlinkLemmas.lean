import Verif.Fat.UnlinkModel
import Verif.Fat.UnlinkSpec
import Verif.Fat.PathProps
import Verif.Fat.SyncProps

/-!
# FatFs: reading directories and removing — lemmas
-/

namespace Verif.Fat

open Spec (Ty Item named FoundAt Absent alike proper listed NextAt NoneFrom readOnly isDir Chain Files)

theorem valid_iff (w : Sector) (o : Nat) (e : Item) (h : ∀ j, j < 32 → e j = w (o + j)) : valid w o = true ↔ listed e := by
  have h0 : e 0 = w o := h 0 (by decide)
  have h11 := h 11 (by decide)
  unfold valid listed
  rw [h0, h11]
  simp [and_assoc]

theorem next_none (D : List Item) (i i' : Nat) (h : NextAt D i i') : ¬ NoneFrom D i := by
  intro k
  obtain ⟨e, h1, h2⟩ := h.hit
  obtain ⟨j, e', a, b, c, d⟩ := k i' e h.after h1 h2
  exact h.before j a b e' c d

theorem itemLoop_spec {env : Env} (hq : Quiet env) (rt : Root) {cl n : Nat} {L : List Nat} {S : Nat → Nat} (i0 : Nat) : ∀ (k : Nat) (fs : Fs) (dp : Dir) (i : Nat) (res : Fr), Area fs rt cl L S n → fs.Ok →
    (∃ p, p ≤ 7 ∧ fs.csize = 2 ^ p) → AtItem fs cl L S n dp i → 65536 < k + i → i0 ≤ i → (∀ j e, i0 ≤ j → j < i → (dirOf fs S n)[j]? = some e → e 0 ≠ 0 ∧ ¬ listed e) →
    ∃ fs' dp' r, itemLoop env rt k fs dp res = some (fs', dp', r) ∧ Seen fs fs' ∧
      ((r = .ok ∧ ∃ i', AtItem fs' cl L S n dp' i' ∧ NextAt (dirOf fs S n) i0 i' ∧ ∀ j, j < 32 → fs'.win (dp'.off + j) = entryOf fs S i' j) ∨ (r = .noFile ∧ NoneFrom (dirOf fs S n) i0)) := by
  intro k
  induction k with
  | zero => intro fs dp i _ _ _ _ hd hk; have := hd.inside; omega
  | succ k ih =>
    intro fs dp i res ha hok hp hd hk h0i hb
    have hi := hd.inside
    obtain ⟨s1, s2, s3, s4⟩ := ha.sector hok.layout (i := i / 16) (by omega)
    obtain ⟨f, m1, m2, m3, m4, m5⟩ := visit hq ha hok hd
    have hget : (dirOf fs S n)[i]? = some (entryOf fs S i) := by rw [dirOf_get, if_pos hi]
    have h0 : f.win dp.off = entryOf fs S i 0 := (m5 0 (by decide)).symm
    rw [itemLoop]
    rw [if_neg (by rw [hd.sect]; exact s2), m1]
    dsimp only
    rw [if_neg (by simp), h0]
    by_cases hz : entryOf fs S i 0 = 0
    · rw [if_pos hz]
      refine ⟨f, dp, _, rfl, m3, Or.inr ⟨rfl, fun j e h1 h2 h3 => ?_⟩⟩
      by_cases hj : j < i
      · exact absurd h3 (hb j e h1 hj h2).2
      · exact ⟨i, _, h0i, by omega, hget, hz⟩
    · rw [if_neg hz]
      have hh := valid_iff f.win dp.off _ m5
      by_cases hn : listed (entryOf fs S i)
      · rw [if_pos (hh.mpr hn)]
        refine ⟨f, dp, _, rfl, m3, Or.inl ⟨rfl, i, hd.seen m3, ⟨h0i, ⟨_, hget, hn⟩, fun j hj0 hj e he => ?_, fun j hj0 hj e he => (hb j e hj0 hj he).2⟩, fun j hj => (m5 j hj).symm⟩⟩
        by_cases hj' : j < i
        · exact (hb j e hj0 hj' he).1
        · have : j = i := by omega
          rw [this, hget] at he
          rw [← Option.some.inj he]
          exact hz
      · rw [if_neg (fun x => hn (hh.mp x))]
        obtain ⟨n1, n2⟩ := next_spec hq rt (ha.seen m3) m3.ok (by rw [m3.shape.2.1]; exact hp) dp i (hd.seen m3) false
        by_cases he : i + 1 < 16 * n ∧ i + 1 < 65536
        · obtain ⟨f', dp', r1, r2, r3⟩ := n1 he.1 he.2
          rw [r1]
          dsimp only
          rw [if_pos rfl]
          have hs := m3.trans r2
          have hD := dirOf_seen ha hok.layout hs
          obtain ⟨f2, dp2, r, q1, q2, q3⟩ := ih f' dp' (i + 1) .ok (ha.seen hs) r2.ok (by rw [hs.shape.2.1]; exact hp) r3 (by omega) (by omega) fun j e hj0 hj hg => by
            rw [hD] at hg
            by_cases hj' : j < i
            · exact hb j e hj0 hj' hg
            · have : j = i := by omega
              rw [this, hget] at hg
              rw [← Option.some.inj hg]
              exact ⟨hz, hn⟩
          rw [hD] at q3
          refine ⟨f2, dp2, r, q1, hs.trans q2, ?_⟩
          rcases q3 with ⟨q, i', q4, q5, q6⟩ | q3
          · refine Or.inl ⟨q, i', q4, q5, fun j hj => ?_⟩
            have hi' := q4.inside
            have a1 : (dirOf fs S n)[i']? = some (entryOf fs S i') := by rw [dirOf_get, if_pos hi']
            have a2 : (dirOf f' S n)[i']? = some (entryOf f' S i') := by rw [dirOf_get, if_pos hi']
            rw [hD, a1] at a2
            rw [q6 j hj, Option.some.inj a2]
          · exact Or.inr q3
        · obtain ⟨f', dp', r1, r2⟩ := n2 (by omega) (Or.inr (Or.inr rfl))
          rw [r1]
          dsimp only
          rw [if_neg (by simp)]
          refine ⟨f', dp', _, rfl, m3.trans r2, Or.inr ⟨rfl, fun j e h1 h2 h3 => ?_⟩⟩
          by_cases hj : j < i
          · exact absurd h3 (hb j e h1 hj h2).2
          · rw [dirOf_get] at h2
            by_cases hx : j < 16 * n ∧ j < 65536
            · have : j = i := by omega
              rw [if_pos hx, this] at h2
              rw [← Option.some.inj h2] at h3
              exact absurd h3 hn
            · rw [if_neg hx] at h2
              exact absurd h2 (by simp)

theorem read_spec {env : Env} (hq : Quiet env) (rt : Root) {cl n : Nat} {L : List Nat} {S : Nat → Nat} (fs : Fs) (dp : Dir) (i : Nat) (ha : Area fs rt cl L S n) (hok : fs.Ok)
    (hp : ∃ p, p ≤ 7 ∧ fs.csize = 2 ^ p) (hd : AtItem fs cl L S n dp i) :
    ∃ fs' dp' r, dirRead env rt fs dp = some (fs', dp', r) ∧ Seen fs fs' ∧
      ((r = .ok ∧ ∃ i', AtItem fs' cl L S n dp' i' ∧ NextAt (dirOf fs S n) i i' ∧ ∀ j, j < 32 → fs'.win (dp'.off + j) = entryOf fs S i' j) ∨ (r = .noFile ∧ dp'.sect = 0 ∧ NoneFrom (dirOf fs S n) i)) := by
  obtain ⟨f, d, r, a, b, c⟩ := itemLoop_spec hq rt i 65537 fs dp i .noFile ha hok hp hd (by omega) (Nat.le_refl _) fun j e h1 h2 => by omega
  unfold dirRead
  rw [a]
  dsimp only
  rcases c with ⟨rfl, c⟩ | ⟨rfl, c⟩
  · exact ⟨f, _, _, rfl, b, Or.inl ⟨rfl, by rw [if_pos rfl]; exact c⟩⟩
  · exact ⟨f, _, _, rfl, b, Or.inr ⟨rfl, by rw [if_neg (by decide)], c⟩⟩

theorem own_mem {L M : List Nat} (h : M ∈ own L) : M = L ∧ L ≠ [] := by
  unfold own at h
  split at h
  · cases h
  · rename_i hL
    exact ⟨by simpa using h, hL⟩

/-- The directory of the clusters `M` -/
theorem sub_area {fs : Fs} {rt : Root} {F : List (List Nat)} {M : List Nat} (hF : Files fs.entryAt fs.nFatent F) (hM : M ∈ F) : Area fs rt (M.headD 0) M (fs.sec M) (M.length * fs.csize) ∧ 2 ≤ M.headD 0 := by
  obtain ⟨c, hc⟩ := hF.chains M hM
  obtain ⟨L', rfl⟩ := hc.head
  exact ⟨.chain (Or.inl rfl) hc, (hc.mem (List.mem_cons_self ..)).1⟩

theorem bare_spec {env : Env} (hq : Quiet env) (rt : Root) (fs : Fs) (hok : fs.Ok) (hp : ∃ p, p ≤ 7 ∧ fs.csize = 2 ^ p) {F : List (List Nat)} {M : List Nat} (hF : Files fs.entryAt fs.nFatent F) (hM : M = [] ∨ M ∈ F) (dp : Dir) :
    ∃ fs' r, bareDir env rt fs dp (M.headD 0) = some (fs', r) ∧ Seen fs fs' ∧
      ((r = .intErr ∧ M = []) ∨ (M ≠ [] ∧ r = .denied ∧ ∃ i, NextAt (dirOf fs (fs.sec M) (M.length * fs.csize)) 2 i) ∨ (M ≠ [] ∧ r = .ok ∧ NoneFrom (dirOf fs (fs.sec M) (M.length * fs.csize)) 2)) := by
  unfold bareDir
  rcases hM with rfl | hM
  · exact ⟨fs, _, rfl, Seen.refl hok, Or.inl ⟨rfl, rfl⟩⟩
  · obtain ⟨ha, h2⟩ := sub_area (rt := rt) hF hM
    have hn := ha.pos hok.layout
    have hne : M ≠ [] := by
      intro e
      rw [e] at h2
      exact absurd h2 (by decide)
    rw [if_neg (by omega)]
    obtain ⟨f, d, e1, e2, e3⟩ := sdi_spec hq rt ha hok { dp with sclust := M.headD 0 } rfl 2 ⟨by omega, by decide⟩
    rw [e1]
    dsimp only
    rw [if_neg (by simp)]
    obtain ⟨f', d', r, a, b, c⟩ := read_spec hq rt f d 2 (ha.seen e2) e2.ok (by rw [e2.shape.2.1]; exact hp) e3
    rw [a]
    dsimp only
    rw [dirOf_seen ha hok.layout e2] at c
    rcases c with ⟨rfl, i, _, c, _⟩ | ⟨rfl, _, c⟩
    · exact ⟨f', _, rfl, e2.trans b, Or.inr (Or.inl ⟨hne, rfl, i, c⟩)⟩
    · exact ⟨f', _, rfl, e2.trans b, Or.inr (Or.inr ⟨hne, rfl, c⟩)⟩

/-- The table and the sector of information change, and the entries of the directory and of the other files stay. -/
theorem tables_only {a b : Fs} {rt : Root} {cl n : Nat} {L M : List Nat} {S : Nat → Nat} {O : List (List Nat)} (h : Holds a rt cl L S n (own M ++ O)) (hs : Shape a b) (hok : b.Ok)
    (ho : ∀ s, a.fatbase ≤ s → ¬ a.InCopies s → ¬ a.InTable s → b.look s = a.look s) (he : ∀ c, c < a.nFatent → b.entryAt c = if c ∈ M then 0 else a.entryAt c) (hF : Files b.entryAt b.nFatent (own L ++ O)) :
    Holds b rt cl L S n O ∧ dirOf b S n = dirOf a S n ∧ Others a b O := by
  have hl := h.ok.layout
  have hend := Fs.layout_fatend hl
  have hm : a.fsize ≤ a.nFats * a.fsize := Nat.le_mul_of_pos_left _ hl.fats
  have hlo : ∀ i, i < n → a.fatbase ≤ S i := by
    intro i hi
    cases h.area with
    | static _ h1 h2 h3 h4 => dsimp only; omega
    | chain _ hc =>
      obtain ⟨_, s2, s3⟩ := sec_mem hi hl.clus
      obtain ⟨m1, m2, _⟩ := hc.mem s2
      have := first_bounds hl m1 m2
      have e : a.sec L i = a.first (L.getD (i / a.csize) 0) + i % a.csize := rfl
      rw [e]
      generalize a.nFats * a.fsize = N at *
      omega
  have hD : dirOf b S n = dirOf a S n := by
    refine List.ext_getElem? fun i => ?_
    rw [dirOf_get, dirOf_get]
    by_cases hi : i < 16 * n ∧ i < 65536
    · rw [if_pos hi, if_pos hi]
      obtain ⟨_, _, s3, s4⟩ := h.area.sector hl (i := i / 16) (by omega)
      unfold entryOf
      rw [ho _ (hlo _ (by omega)) s3 s4]
    · rw [if_neg hi, if_neg hi]
  have hA : Area b rt cl L S n := by
    have hap := h.files.apart
    obtain ⟨h1, h2, h3, h4, h5, h6, h7⟩ := hs
    have hs' : Shape a b := ⟨h1, h2, h3, h4, h5, h6, h7⟩
    cases h.area with
    | static g1 g2 g3 g4 g5 => exact .static (by rw [h1]; exact g1) g2 g3 (by rw [h6, h3, h5]; exact g4) (by rw [h7]; exact g5)
    | chain g hc =>
      have e : a.sec L = b.sec L := funext fun i => (hs'.sec L i).symm
      rw [e, ← h2]
      have hx0 : ∀ x ∈ L, b.entryAt x = a.entryAt x := by
        intro x hx
        rw [he x (hc.mem hx).2.1, if_neg]
        intro hx'
        rw [List.flatten_append, List.flatten_append, own_flatten, own_flatten] at hap
        exact (List.nodup_append.mp hap).2.2 x hx x (List.mem_append_left _ hx') rfl
      exact .chain (by rw [h1]; exact g) (by rw [h4]; exact hc.congr hx0)
  refine ⟨⟨hA, hok, by rw [hs.2.1]; exact h.pow, hF, by rw [hD]; exact h.tidy, by rw [hD]; exact h.distinct⟩, hD, fun N hN j hj => ?_⟩
  obtain ⟨_, _, _, _, _, _, _, _, k3, k1, k2⟩ := other_sector hl h.files (List.mem_append_right _ hN) hj
  exact ho _ (by generalize a.nFats * a.fsize = N at *; omega) k1 k2

/-- The sectors between the tables and the data are as before. -/
def Below (a b : Fs) : Prop := ∀ s, a.fatbase + a.nFats * a.fsize ≤ s → s < a.database → b.look s = a.look s

theorem below_tables {a : Fs} (hl : a.Layout) {s : Nat} (h : a.fatbase + a.nFats * a.fsize ≤ s) : ¬ a.InCopies s ∧ ¬ a.InTable s := by
  have hm : a.fsize ≤ a.nFats * a.fsize := Nat.le_mul_of_pos_left _ hl.fats
  unfold Fs.InCopies Fs.InTable
  generalize a.nFats * a.fsize = N at *
  omega

theorem area_high {fs : Fs} {rt : Root} {cl n : Nat} {L : List Nat} {S : Nat → Nat} (h : Area fs rt cl L S n) (hl : fs.Layout) (hL : L ≠ []) {i : Nat} (hi : i < n) : fs.database ≤ S i := by
  cases h with
  | static => exact absurd rfl hL
  | chain g hc =>
    obtain ⟨_, s2, s3⟩ := sec_mem hi hl.clus
    obtain ⟨m1, m2, _⟩ := hc.mem s2
    have := first_bounds hl m1 m2
    have e : fs.sec L i = fs.first (L.getD (i / fs.csize) 0) + i % fs.csize := rfl
    omega

theorem Edited.below {a b : Fs} {s0 : Nat} {w : Sector} (h : Edited a b s0 w) (hl : a.Layout) (h0 : a.database ≤ s0) : Below a b := fun s h1 h2 =>
  h.outside s (below_tables hl h1).1 (below_tables hl h1).2 (by omega)

theorem Seen.below {a b : Fs} (h : Seen a b) (hl : a.Layout) : Below a b := fun s h1 _ => h.outside s (below_tables hl h1).1 (below_tables hl h1).2

theorem below_out {a b : Fs} (hl : a.Layout) (ho : ∀ s, a.fatbase ≤ s → ¬ a.InCopies s → ¬ a.InTable s → b.look s = a.look s) : Below a b := fun s h1 _ =>
  ho s (Nat.le_trans (Nat.le_add_right _ _) h1) (below_tables hl h1).1 (below_tables hl h1).2

theorem Below.trans {a b c : Fs} (h : Below a b) (k : Below b c) (hs : Shape a b) : Below a c := fun s h1 h2 => by
  rw [k s (by rw [hs.2.2.2.2.2.1, hs.2.2.1, hs.2.2.2.2.1]; exact h1) (by rw [hs.2.2.2.2.2.2]; exact h2), h s h1 h2]

/-- The entry is deleted; the directory object has its number only. -/
theorem erase_at {env : Env} (hq : Quiet env) (rt : Root) {cl n : Nat} {L : List Nat} {S : Nat → Nat} {O : List (List Nat)} (fs : Fs) (h : Holds fs rt cl L S n O) (dp : Dir) {i : Nat} (hix : dp.index = i) (hcl : dp.sclust = cl) (hi : i < 16 * n ∧ i < 65536)
    {fn : Nat → BitVec 8} (hf : FoundAt (dirOf fs S n) fn i) :
    ∃ fs' dp', dirRemove env rt fs dp = some (fs', dp', .ok) ∧ Holds fs' rt cl L S n O ∧ dirOf fs' S n = (dirOf fs S n).set i Spec.deleted ∧ Shape fs fs' ∧ (∀ c, c < fs.nFatent → fs'.entryAt c = fs.entryAt c) ∧
      Others fs fs' O ∧ fs'.winsect = S (i / 16) ∧ (L ≠ [] → Below fs fs') := by
  unfold dirRemove
  obtain ⟨f1, d1, e1, e2, e3⟩ := sdi_spec hq rt h.area h.ok dp hcl dp.index (by rw [hix]; exact hi)
  rw [e1]
  dsimp only
  rw [if_pos rfl]
  rw [hix] at e3
  obtain ⟨h1, hD1⟩ := h.seen e2
  obtain ⟨f3, w, m1, m2, m3⟩ := change_entry hq h1.area h1.ok e3 (fun w o => erased w o) Spec.deleted (fun j hj => if_neg (by omega)) fun w o => erased_window w o
  have hw := move_winsect m1
  rw [m1]
  dsimp only
  rw [if_pos rfl]
  have hE := Edited.after e2 m2
  rw [hD1] at m3
  refine ⟨_, _, rfl, ⟨h1.area.edited m2, m2.ok, by rw [hE.shape.2.1]; exact h.pow, files_edited m2 h1.files, ?_, ?_⟩, m3, hE.shape, hE.entries, others_edited h.area h.ok.layout h.files (i := i / 16) (by omega) hE, ?_, fun hL => hE.below h.ok.layout (area_high h.area h.ok.layout hL (by omega))⟩
  · rw [m3]
    exact deleted_tidy hf h.tidy
  · rw [m3]
    exact deleted_distinct hf h.distinct
  · dsimp only
    rw [hw, e3.sect]

/-- The entry is deleted. -/
theorem erase_spec {env : Env} (hq : Quiet env) (rt : Root) {cl n : Nat} {L : List Nat} {S : Nat → Nat} {O : List (List Nat)} (fs : Fs) (h : Holds fs rt cl L S n O) (dp : Dir) {i : Nat} (hd : AtItem fs cl L S n dp i)
    {fn : Nat → BitVec 8} (hf : FoundAt (dirOf fs S n) fn i) :
    ∃ fs' dp', dirRemove env rt fs dp = some (fs', dp', .ok) ∧ Holds fs' rt cl L S n O ∧ dirOf fs' S n = (dirOf fs S n).set i Spec.deleted ∧ Shape fs fs' ∧ (∀ c, c < fs.nFatent → fs'.entryAt c = fs.entryAt c) ∧
      Others fs fs' O ∧ fs'.winsect = S (i / 16) := by
  obtain ⟨f, d, a1, a2, a3, a4, a5, a6, a7, _⟩ := erase_at hq rt fs h dp hd.index hd.sclust hd.inside hf
  exact ⟨f, d, a1, a2, a3, a4, a5, a6, a7⟩

/-- The clusters of the file are freed, if it has any. -/
theorem free_spec {env : Env} (hq : Quiet env) (fs : Fs) (hok : fs.Ok) (A O : List (List Nat)) (M : List Nat) (hF : Files fs.entryAt fs.nFatent (A ++ (own M ++ O))) :
    ∃ fs', (if M.headD 0 ≠ 0 then fs.removeChain env (M.headD 0) else some (fs, .ok)) = some (fs', .ok) ∧ Shape fs fs' ∧ fs'.Ok ∧ (∀ s, ¬ fs.InCopies s → ¬ fs.InTable s → fs'.look s = fs.look s) ∧
      (∀ c, c < fs.nFatent → fs'.entryAt c = if c ∈ M then 0 else fs.entryAt c) ∧ Files fs'.entryAt fs'.nFatent (A ++ O) ∧ (fs'.winsect = fs.winsect ∨ fs.InTable fs'.winsect) := by
  cases M with
  | nil => exact ⟨fs, by rw [if_neg (by simp)], Shape.refl fs, hok, fun _ _ _ => rfl, fun _ _ => by simp, by simpa [own] using hF, Or.inl rfl⟩
  | cons c M =>
    have e : own (c :: M) = [c :: M] := if_neg (by simp)
    rw [e] at hF
    obtain ⟨x, hx⟩ := hF.chains (c :: M) (by simp)
    have h2 := (hx.mem (List.mem_cons_self ..)).1
    obtain ⟨f, r1, r2, r3, _, _⟩ := remove_file hq fs hok A O c M hF
    refine ⟨f, ?_, ⟨r2.ty, r2.csize, r2.nFats, r2.nFatent, r2.fsize, r2.fatbase, r2.database⟩, r2.ok, r2.outside, r2.entries, r3, r2.wins⟩
    rw [List.headD_cons, if_pos (by omega)]
    exact r1

/-- Where the window is after the entry was changed, or at the table -/
theorem window_aside {fs : Fs} {rt : Root} {cl n i : Nat} {L : List Nat} {S : Nat → Nat} (O : List (List Nat)) (ha : Area fs rt cl L S n) (hl : fs.Layout) (hi : i < n) : fs.Aside (own L ++ O) (S i) := by
  cases ha with
  | static _ h1 h2 h3 h4 =>
    refine Or.inl ?_
    dsimp only
    omega
  | chain _ hc =>
    obtain ⟨_, s2, s3⟩ := sec_mem hi hl.clus
    refine Or.inr ⟨L.getD (i / fs.csize) 0, ?_, ?_⟩
    · rw [List.flatten_append, own_flatten]
      exact List.mem_append_left _ s2
    · have e : fs.sec L i = fs.first (L.getD (i / fs.csize) 0) + i % fs.csize := rfl
      have := Nat.mod_lt i hl.clus
      rw [e]
      omega

end Verif.Fat
