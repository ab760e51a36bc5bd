import Verif.Fat.MoveSpec
import Verif.Fat.RenameProps

/-!
# FatFs: moving to another directory — lemmas
-/

namespace Verif.Fat

open Spec (Ty Item named FoundAt Absent Full alike proper isDir Chain Files Text Origin Outcome Resolves nameOf stored moved part leadsTo Adopted)

theorem others_sub {a b : Fs} {O O' : List (List Nat)} (h : Others a b O) (hs : ∀ M ∈ O', M ∈ O) : Others a b O' := fun M hM => h M (hs M hM)

/-- A directory whose sectors stay is as before. -/
theorem bystander {a b : Fs} {rt : Root} {cl n : Nat} {L : List Nat} {S : Nat → Nat} {P Q : List (List Nat)} (h : Holds a rt cl L S n P) (hs : Shape a b) (hok : b.Ok) (hF : Files b.entryAt b.nFatent (own L ++ Q)) (ho : Others a b (own L))
    (hb : L = [] → Below a b) : Holds b rt cl L S n Q ∧ dirOf b S n = dirOf a S n := by
  have hD : dirOf b S n = dirOf a S n := by
    refine List.ext_getElem? fun i => ?_
    rw [dirOf_get, dirOf_get]
    by_cases hi : i < 16 * n ∧ i < 65536
    · rw [if_pos hi, if_pos hi]
      unfold entryOf
      have e : b.look (S (i / 16)) = a.look (S (i / 16)) := by
        cases h.area with
        | static g1 g2 g3 g4 g5 =>
          refine hb rfl _ ?_ ?_
          · dsimp only
            omega
          · dsimp only
            omega
        | chain g hc =>
          obtain ⟨L', rfl⟩ := hc.head
          exact ho _ (by rw [own_cons (by simp)]; simp) _ (by omega)
      rw [e]
    · rw [if_neg hi, if_neg hi]
  refine ⟨⟨?_, hok, by rw [hs.2.1]; exact h.pow, hF, by rw [hD]; exact h.tidy, by rw [hD]; exact h.distinct⟩, hD⟩
  have hs' := hs
  obtain ⟨h1, h2, h3, h4, h5, h6, h7⟩ := hs
  cases h.area with
  | static g1 g2 g3 g4 g5 => exact .static (by rw [h1]; exact g1) g2 g3 (by rw [h6, h3, h5]; exact g4) (by rw [h7]; exact g5)
  | chain g hc =>
    have e : a.sec L = b.sec L := funext fun i => (hs'.sec L i).symm
    rw [e, ← h2]
    obtain ⟨L', eL⟩ := hc.head
    have hL : L ≠ [] := by
      rw [eL]
      simp
    obtain ⟨c', hc'⟩ := hF.chains L (by rw [own_cons hL]; simp)
    obtain ⟨L'', e'⟩ := hc'.head
    rw [eL] at e'
    injection e' with e1 e2
    subst e1
    exact .chain (by rw [h1]; exact g) hc'

/-- The entries of the directory with the clusters `M`, if its sectors stay -/
theorem dirOf_others {a b : Fs} {M : List Nat} (h : Others a b (own M)) : dirOf b (a.sec M) (M.length * a.csize) = dirOf a (a.sec M) (M.length * a.csize) := by
  refine List.ext_getElem? fun i => ?_
  rw [dirOf_get, dirOf_get]
  by_cases hi : i < 16 * (M.length * a.csize) ∧ i < 65536
  · rw [if_pos hi, if_pos hi]
    have hM : M ≠ [] := by
      rintro rfl
      simp at hi
    unfold entryOf
    rw [h M (by rw [own_cons hM]; simp) (i / 16) (by omega)]
  · rw [if_neg hi, if_neg hi]

theorem stClust_bytes (w : Sector) (o p : Nat) (x : Item) (h : ∀ j, j < 32 → w (o + j) = x j) : (∀ j, j < 32 → stClust w o p (o + j) = leadsTo x p j) ∧ ∀ j, ¬ (o ≤ j ∧ j < o + 32) → stClust w o p j = w j := by
  refine ⟨fun j hj => ?_, fun j hj => ?_⟩
  · have hw := h j hj
    unfold stClust stWord set leadsTo
    rw [part3' p, part1 p, part2' p, part0 p, hw]
    by_cases a1 : j = 20
    · subst a1
      rw [if_neg (by omega), if_pos rfl, if_pos (Or.inl rfl)]
    by_cases a2 : j = 21
    · subst a2
      rw [if_pos (by omega), if_pos (Or.inr rfl)]
    rw [if_neg (by omega), if_neg (by omega), if_neg (show ¬ (j = 20 ∨ j = 21) by omega)]
    by_cases a3 : j = 26
    · subst a3
      rw [if_neg (by omega), if_pos rfl, if_pos (Or.inl rfl)]
    by_cases a4 : j = 27
    · subst a4
      rw [if_pos (by omega), if_pos (Or.inr rfl)]
    rw [if_neg (by omega), if_neg (by omega), if_neg (by omega)]
  · unfold stClust stWord set
    repeat rw [if_neg (by omega)]

/-- The entry `..` of the directory is changed, if what is moved is one. -/
theorem fix_spec {env : Env} (hq : Quiet env) (rt : Root) (fs : Fs) (hok : fs.Ok) {M : List Nat} {R : List (List Nat)} (hF : Files fs.entryAt fs.nFatent (own M ++ R)) {o c c2 : Nat} (hne : c ≠ c2) {e : Item} (hw : ∀ j, j < 32 → fs.win (o + j) = e j)
    (hs : Spec.start fs.ty e 0 = M.headD 0) (hd : isDir e → M ≠ []) :
    ∃ fs', fixParent env rt fs o c c2 = (fs', .ok) ∧ Shape fs fs' ∧ fs'.Ok ∧ Files fs'.entryAt fs'.nFatent (own M ++ R) ∧ Others fs fs' R ∧ Below fs fs' ∧ (∀ x, x < fs.nFatent → fs'.entryAt x = fs.entryAt x) ∧ (¬ isDir e → Others fs fs' (own M)) ∧
      (isDir e → Adopted (dirOf fs (fs.sec M) (M.length * fs.csize)) (dirOf fs' (fs.sec M) (M.length * fs.csize)) (if fs.ty = .fat32 ∧ c2 = rt.dirbase then 0 else c2)) := by
  have hl := hok.layout
  unfold fixParent
  rw [hw 11 (by decide)]
  by_cases hdir : isDir e
  · rw [if_pos ⟨hne, hdir⟩]
    have hM := hd hdir
    have hmem : M ∈ own M ++ R := by rw [own_cons hM]; simp
    obtain ⟨ha, h2⟩ := sub_area (rt := rt) hF hmem
    have hn := ha.pos hl
    have hlt : M.headD 0 < fs.nFatent := by
      obtain ⟨c', hc⟩ := hF.chains M hmem
      obtain ⟨L', rfl⟩ := hc.head
      exact (hc.mem (List.mem_cons_self ..)).2.1
    obtain ⟨k1, k2⟩ := clust2sect_eq hl h2 hlt
    have hsec : fs.first (M.headD 0) = fs.sec M 0 := by
      unfold Fs.sec
      rw [Nat.zero_div, Nat.zero_mod, Nat.add_zero]
      cases M with
      | nil => exact absurd rfl hM
      | cons a M => rfl
    obtain ⟨s1, s2, s3, s4⟩ := ha.sector hl (i := 0) hn
    rw [start_entry hw, hs, k1, hsec]
    dsimp only
    rw [if_neg s2]
    obtain ⟨f, m1, m2, m3, m4⟩ := move_seen hq fs hok _ s1 s3
    rw [m1]
    dsimp only
    rw [if_neg (by simp)]
    have hone : (1 < 16 * (M.length * fs.csize) ∧ 1 < 65536) := ⟨by omega, by decide⟩
    have hget : (dirOf fs (fs.sec M) (M.length * fs.csize))[1]? = some (entryOf fs (fs.sec M) 1) := by rw [dirOf_get, if_pos hone]
    have hlook : f.look (fs.sec M 0) = fs.look (fs.sec M 0) := m3.outside _ s3 s4
    have hbyte : ∀ j, j < 32 → f.win (32 + j) = entryOf fs (fs.sec M) 1 j := by
      intro j hj
      rw [m4, hlook]
      unfold entryOf
      rw [if_pos hj]
    rw [show f.win 33 = entryOf fs (fs.sec M) 1 1 from hbyte 1 (by decide)]
    by_cases hdot : entryOf fs (fs.sec M) 1 1 = 0x2E
    · rw [if_pos hdot]
      rw [show (if f.ty = .fat32 ∧ c2 = rt.dirbase then 0 else c2) = if fs.ty = .fat32 ∧ c2 = rt.dirbase then 0 else c2 by rw [m3.shape.1]]
      obtain ⟨t1, t2⟩ := stClust_bytes f.win 32 (if fs.ty = .fat32 ∧ c2 = rt.dirbase then 0 else c2) _ hbyte
      have hE := edit_window m3.ok (by rw [m2, m3.shape.inTable]; exact s4) (stClust f.win 32 (if fs.ty = .fat32 ∧ c2 = rt.dirbase then 0 else c2))
      generalize ({ f with win := stClust f.win 32 (if fs.ty = .fat32 ∧ c2 = rt.dirbase then 0 else c2), wflag := true } : Fs) = f4 at *
      rw [m2] at hE
      have hE := Edited.after m3 hE
      refine ⟨_, rfl, hE.shape, hE.ok, files_edited hE hF, others_edited ha hl hF (i := 0) hn hE, hE.below hl (area_high ha hl hM hn), hE.entries, fun x => absurd hdir x, fun _ => ⟨_, hget, ?_⟩⟩
      rw [if_pos hdot]
      refine dirOf_edited (i := 1) ha hl hone hE _ t1 (fun j hj => ?_) fun j hj => ?_
      · unfold leadsTo entryOf
        rw [if_neg (by omega), if_neg (by omega), if_neg (by omega)]
      · rw [t2 j hj, m4, hlook]
    · rw [if_neg hdot]
      refine ⟨f, rfl, m3.shape, m3.ok, files_seen m3 hF, others_seen hl hF m3, m3.below hl, m3.entries, fun x => absurd hdir x, fun _ => ⟨_, hget, ?_⟩⟩
      rw [if_neg hdot]
      exact dirOf_seen ha hl m3
  · rw [if_neg (fun x => hdir x.2)]
    exact ⟨fs, rfl, Shape.refl fs, hok, hF, fun _ _ _ _ => rfl, fun _ _ _ => rfl, fun _ _ => rfl, fun _ _ _ _ _ => rfl, fun x => absurd x hdir⟩

/-- Directories without clusters are the root. -/
theorem area_root {fs : Fs} {rt : Root} {cl n : Nat} {S : Nat → Nat} (h : Area fs rt cl [] S n) : cl = 0 := by
  generalize hL : ([] : List Nat) = L at h
  cases h with
  | static => rfl
  | chain g hc =>
    subst hL
    cases hc

end Verif.Fat
