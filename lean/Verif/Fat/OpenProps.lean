import Verif.Fat.OpenLemmas

/-!
# FatFs: opening and making files by their path — properties
-/

namespace Verif.Fat

open Spec (Ty Item named FoundAt Absent Full alike proper readOnly isDir Chain Files Text Origin Trail Walks Outcome Resolves nameOf Name83 stored emptied)

/-- The mode may make files: FA_CREATE_ALWAYS, FA_OPEN_ALWAYS or FA_CREATE_NEW -/
def Mode.makes (m : Mode) : Prop := m.always = true ∨ m.orNew = true ∨ m.new = true

/-- The first `k` bytes of the clusters `M` -/
def bytesOf (fs : Fs) (M : List Nat) (k : Nat) : List (BitVec 8) := (List.range k).map fun o => fs.look (fs.sec M (o / 512)) (o % 512)

/-- The file object is at the start of the file, with the rights of the mode. -/
structure Start (fp : Fil) (m : Mode) (changed : Bool) : Prop where
  ptr : fp.fptr = 0
  rd : fp.rd = m.rd
  wr : fp.wr = m.wr
  written : fp.written = changed
  clean : fp.dirty = false

/-- An open file is at entry `i` of its directory, and has no bytes; all other names and files are as before. -/
structure EmptyFile (fs fs' : Fs) (rt : Root) (cl : Nat) (L : List Nat) (S : Nat → Nat) (n : Nat) (O : List (List Nat)) (i : Nat) (m : Mode) (fp : Fil) (sl : Slot) : Prop where
  holds : Holds fs' rt cl L S n O
  shape : Shape fs fs'
  others : Others fs fs' O
  /-- also the root, if the directory is another one -/
  below : L ≠ [] → Below fs fs'
  opened : Opened fs' fp [] (own L ++ O)
  start : Start fp m true
  bytes : content fs' fp [] = []
  slot : sl.sect = S (i / 16) ∧ sl.off = i % 16 * 32

/-- What `f_open` is to do with an entry that is there -/
inductive Opening (fs fs' : Fs) (rt : Root) (cl : Nat) (L : List Nat) (S : Nat → Nat) (n : Nat) (M : List Nat) (O : List (List Nat)) (i : Nat) (e : Item) (m : Mode) (tm : Nat) (old fp : Fil) (sl : Slot) : Fr → Prop
  /-- directories are no files -/
  | dir : isDir e → ¬ m.makes → Seen fs fs' → fp = old → Opening fs fs' rt cl L S n M O i e m tm old fp sl .noFile
  | dirKept : isDir e → m.makes → Seen fs fs' → fp = old → Opening fs fs' rt cl L S n M O i e m tm old fp sl .denied
  /-- read only files are for reading only -/
  | locked : ¬ isDir e → readOnly e → (m.makes ∨ m.wr = true) → Seen fs fs' → fp = old → Opening fs fs' rt cl L S n M O i e m tm old fp sl .denied
  /-- the file was to be a new one -/
  | already : ¬ isDir e → ¬ readOnly e → m.new = true → Seen fs fs' → fp = old → Opening fs fs' rt cl L S n M O i e m tm old fp sl .exist
  /-- the file loses its bytes, and its clusters are free; all else is as before -/
  | emptied : ¬ isDir e → ¬ readOnly e → m.new = false → m.always = true → EmptyFile fs fs' rt cl L S n O i m fp sl → dirOf fs' S n = (dirOf fs S n).set i (emptied e tm) →
      (∀ gn j, FoundAt (dirOf fs' S n) gn j ↔ FoundAt (dirOf fs S n) gn j) → (∀ c ∈ M, fs'.entryAt c = 0) → (∀ c, c < fs.nFatent → c ∉ M → fs'.entryAt c = fs.entryAt c) →
      Opening fs fs' rt cl L S n M O i e m tm old fp sl .ok
  /-- the file has the bytes that it had -/
  | opened : ¬ isDir e → (m.makes ∨ m.wr = true → ¬ readOnly e) → m.new = false → m.always = false → Seen fs fs' → Opened fs' fp M (own L ++ O) → content fs' fp M = bytesOf fs M (Spec.size e 0) → Start fp m false →
      sl.sect = S (i / 16) → sl.off = i % 16 * 32 → Opening fs fs' rt cl L S n M O i e m tm old fp sl .ok

/-- What `f_open` is to do if the name is not in the directory -/
inductive Making (fs fs' : Fs) (rt : Root) (cl : Nat) (L : List Nat) (S : Nat → Nat) (n : Nat) (O : List (List Nat)) (fn : Nat → BitVec 8) (m : Mode) (tm : Nat) (old fp : Fil) (sl : Slot) : Fr → Prop
  | none : ¬ m.makes → Seen fs fs' → fp = old → Making fs fs' rt cl L S n O fn m tm old fp sl .noFile
  /-- there is no room for another entry -/
  | full : m.makes → Full (dirOf fs S n) → NoRoom fs L n → Seen fs fs' → fp = old → Making fs fs' rt cl L S n O fn m tm old fp sl .denied
  /-- the file is in the directory now, and the other names are where they were -/
  | made {L' : List Nat} {S' : Nat → Nat} {n' i : Nat} : m.makes → EmptyFile fs fs' rt cl L' S' n' O i m fp sl → FoundAt (dirOf fs' S' n') fn i → (dirOf fs' S' n')[i]? = some (emptied (Spec.fresh fn) tm) →
      (∀ gn, proper gn → ¬ alike gn fn → ∀ j, FoundAt (dirOf fs' S' n') gn j ↔ FoundAt (dirOf fs S n) gn j) → Spec.Beside (dirOf fs S n) (dirOf fs' S' n') i → Making fs fs' rt cl L S n O fn m tm old fp sl .ok

theorem size_entry {w : Nat → BitVec 8} {o : Nat} {e : Item} (h : ∀ j, j < 32 → w (o + j) = e j) : Spec.size w o = Spec.size e 0 := by
  unfold Spec.size Spec.le4
  rw [← h (0 + 28) (by decide), ← h (0 + 28 + 1) (by decide), ← h (0 + 28 + 2) (by decide), ← h (0 + 28 + 3) (by decide)]

/-- The entry that the path has led to is opened, emptied or refused. -/
theorem open_entry {env : Env} (hq : Quiet env) {rt : Root} {vol : Nat} {cl n : Nat} {L : List Nat} {S : Nat → Nat} {M : List Nat} {O : List (List Nat)} (fs : Fs) (h : Holds fs rt cl L S n (own M ++ O))
    (hv : fs.ty = .fat32 → vol + 1 < fs.fatbase) (dp : Dir) {i : Nat} (hd : AtItem fs cl L S n dp i) (hwin : fs.winsect = dp.sect) {e : Item} (he : (dirOf fs S n)[i]? = some e) (hlab : e 11 &&& 8 = 0)
    (hw : ∀ j, j < 32 → fs.win (dp.off + j) = e j) (hs : Spec.start fs.ty e 0 = M.headD 0) (hfit : ¬ isDir e → Spec.size e 0 ≤ 512 * (M.length * fs.csize)) (m : Mode) (tm : Nat) (old : Fil) :
    ∃ fs' fp r, fOpen env fs ⟨fs.winsect, dp.off⟩ m tm old = some (fs', fp, r) ∧ Opening fs fs' rt cl L S n M O i e m tm old fp ⟨fs'.winsect, dp.off⟩ r := by
  have hl := h.ok.layout
  have hi := hd.inside
  obtain ⟨s1, s2, s3, s4⟩ := h.area.sector hl (i := i / 16) (by omega)
  have hsect : fs.winsect = S (i / 16) := hwin.trans hd.sect
  have hmove : fs.move env fs.winsect = (fs, true) := by
    unfold Fs.move
    rw [if_neg (by simp)]
  have bits : ∀ a : BitVec 8, (a &&& 0x11 ≠ 0) ↔ (a &&& 0x10 ≠ 0 ∨ a &&& 0x01 ≠ 0) := by decide +kernel
  have hcr : (m.always = true ∨ m.orNew = true ∨ m.new = true) ↔ m.makes := Iff.rfl
  unfold fOpen
  dsimp only
  rw [hmove]
  dsimp only
  rw [if_neg (by decide), hw 11 (by decide)]
  by_cases hdir : isDir e
  · by_cases hm : m.makes
    · rw [if_pos (hcr.mpr hm), if_pos ((bits _).mpr (Or.inl hdir))]
      exact ⟨_, _, _, rfl, .dirKept hdir hm (Seen.refl h.ok) rfl⟩
    · rw [if_neg (fun x => hm (hcr.mp x)), if_pos (show e 11 &&& 0x10 ≠ 0 from hdir)]
      exact ⟨_, _, _, rfl, .dir hdir hm (Seen.refl h.ok) rfl⟩
  -- an ordinary file as it is
  have hplain : (m.makes ∨ m.wr = true → ¬ readOnly e) → m.new = false → m.always = false → Opening fs fs rt cl L S n M O i e m tm old (fs.opened ⟨fs.winsect, dp.off⟩ m old) ⟨fs.winsect, dp.off⟩ .ok := by
    intro k1 k2 k3
    have hlook : fs.look fs.winsect = fs.win := by
      unfold Fs.look
      rw [if_pos rfl]
    have hf := hfit hdir
    have hend := Fs.layout_fatend hl
    have hFM := files_swap h.files
    have haside : fs.Aside (own L ++ O) fs.winsect := by
      rw [hsect]
      exact window_aside O h.area hl (by omega)
    have hlen : (bytesOf fs M (Spec.size e 0)).length = Spec.size e 0 := by
      unfold bytesOf
      rw [List.length_map, List.length_range]
    have hE : Entry fs M (own L ++ O) ⟨fs.winsect, dp.off⟩ (bytesOf fs M (Spec.size e 0)) := by
      refine ⟨h.ok, h.pow, hFM, haside, ?_, ?_, by rw [hlen]; exact hf, fun o ho => ?_⟩
      · dsimp only
        rw [hlook, ← ldClust_start, start_entry hw, hs]
      · dsimp only
        rw [hlook, hlen, size_entry hw]
      · rw [hlen] at ho
        unfold bytesOf
        rw [map_range_get, if_pos ho]
        have ho' : o / 512 < M.length * fs.csize := by
          generalize M.length * fs.csize = N at *
          omega
        have hb := mine_bounds hl hFM (⟨_, ho', rfl⟩ : fs.Mine M (fs.sec M (o / 512)))
        unfold Fs.look
        rw [if_neg]
        intro x
        rcases haside with y | ⟨c, c1, c2, c3⟩
        · omega
        · exact hb.2.2.2 c c1 ⟨by omega, by omega⟩
    have hP : Place fs vol (own L ++ O) ⟨fs.winsect, dp.off⟩ := by
      refine ⟨h.ok.small, by rw [hsect]; exact s4, by rw [hsect]; exact s3, haside, ?_, fun x => ⟨hv x, ?_⟩⟩
      · dsimp only
        rw [hd.off]
        omega
      · have hb : fs.fatbase ≤ S (i / 16) := by
          have h1 := h.area
          have hm1 : fs.fatbase ≤ fs.fatbase + fs.nFats * fs.fsize := Nat.le_add_right _ _
          cases h1 with
          | static _ g1 g2 g3 g4 => dsimp only; omega
          | chain g hc =>
            have e1 : fs.sec L (i / 16) = fs.first (L.getD (i / 16 / fs.csize) 0) + i / 16 % fs.csize := rfl
            have e2 : fs.database ≤ fs.first (L.getD (i / 16 / fs.csize) 0) := Nat.le_add_left _ _
            rw [e1]
            omega
        have := hv x
        dsimp only
        omega
    obtain ⟨f, b1, _, b3, b4, _⟩ := opened_reads hq fs vol M (own L ++ O) ⟨fs.winsect, dp.off⟩ _ hE hP m old
    dsimp only at b1
    rw [hmove] at b1
    obtain rfl : fs = f := congrArg Prod.fst b1
    exact .opened hdir k1 k2 k3 (Seen.refl h.ok) b3 b4 ⟨rfl, rfl, rfl, k3, rfl⟩ hsect hd.off
  by_cases hm : m.makes
  · rw [if_pos (hcr.mpr hm)]
    by_cases hr : readOnly e
    · rw [if_pos ((bits _).mpr (Or.inr hr))]
      exact ⟨_, _, _, rfl, .locked hdir hr (Or.inl hm) (Seen.refl h.ok) rfl⟩
    rw [if_neg (fun x => ((bits _).mp x).elim hdir hr)]
    by_cases hn : m.new = true
    · rw [if_pos hn]
      exact ⟨_, _, _, rfl, .already hdir hr hn (Seen.refl h.ok) rfl⟩
    rw [if_neg hn]
    have hn' : m.new = false := Bool.eq_false_iff.mpr hn
    by_cases ha : m.always = true
    · rw [if_pos ha]
      obtain ⟨f, t1, t2, t3, t4, t5, t6, t7, t8, t9, tb⟩ := reset_spec hq fs h dp hd hwin he hlab hw hs tm m old
      rw [t1]
      dsimp only
      rw [if_pos rfl]
      refine ⟨_, _, _, rfl, .emptied hdir hr hn' ha ⟨t2, t4, t5, tb, t8, ⟨rfl, rfl, rfl, ha, rfl⟩, ?_, t7, hd.off⟩ t3 ?_ (fun c hc => ?_) fun c hc hcn => ?_⟩
      · unfold content
        rw [t9]
        rfl
      · rw [t3]
        exact fun gn j => same_found he (emptied_name e tm (by decide)) (fun gn => emptied_named hlab) gn j
      · rw [t6 c ((files_bounds (files_swap h.files)).2.1 c hc).2.1, if_pos hc]
      · rw [t6 c hc, if_neg hcn]
    · rw [if_neg ha]
      exact ⟨_, _, _, rfl, hplain (fun _ => hr) hn' (Bool.eq_false_iff.mpr ha)⟩
  · rw [if_neg (fun x => hm (hcr.mp x)), if_neg (show ¬ (e 11 &&& 0x10 ≠ 0) from hdir)]
    have hn' : m.new = false := Bool.eq_false_iff.mpr fun x => hm (Or.inr (Or.inr x))
    have ha' : m.always = false := Bool.eq_false_iff.mpr fun x => hm (Or.inl x)
    by_cases hr : m.wr = true ∧ readOnly e
    · rw [if_pos (show m.wr = true ∧ e 11 &&& 0x01 ≠ 0 from hr)]
      exact ⟨_, _, _, rfl, .locked hdir hr.2 (Or.inr hr.1) (Seen.refl h.ok) rfl⟩
    · rw [if_neg (show ¬ (m.wr = true ∧ e 11 &&& 0x01 ≠ 0) from hr)]
      exact ⟨_, _, _, rfl, hplain (fun x y => hr ⟨x.resolve_left hm, y⟩) hn' ha'⟩

/-- A file that is not there is made, if the mode says so and there is room. -/
theorem open_new {env : Env} (hq : Quiet env) {rt : Root} {fn : Nat → BitVec 8} (hp : proper fn) {cl n : Nat} {L : List Nat} {S : Nat → Nat} {O : List (List Nat)} (fs : Fs) (h : Holds fs rt cl L S n O)
    (dp : Dir) (hd : dp.sclust = cl) (habs : Absent (dirOf fs S n) fn) (m : Mode) (hm : m.makes) (tm : Nat) (old : Fil) :
    ∃ fs' fp sl r, openNew env rt fs dp fn m tm old = some (fs', fp, sl, r) ∧ Making fs fs' rt cl L S n O fn m tm old fp sl r := by
  obtain ⟨f, d, r, a, b⟩ := register_spec hq rt fn hp fs h dp hd habs
  unfold openNew
  rw [a]
  dsimp only
  rcases b with ⟨rfl, b1, b2, b3⟩ | ⟨rfl, L', S', n', i, b1, b2, b3, b4, b5, b6, b7, b8, b9, b10, b11, b12⟩
  · rw [if_neg (by simp)]
    exact ⟨_, _, _, _, rfl, .full hm b2 b3 b1 rfl⟩
  · rw [if_pos rfl]
    have lab : Spec.fresh fn 11 &&& 8 = 0 := by
      unfold Spec.fresh
      rw [if_neg (by decide)]
      decide
    have h0 : Holds f rt cl L' S' n' (own [] ++ O) := b1
    have st : Spec.start f.ty (Spec.fresh fn) 0 = ([] : List Nat).headD 0 := by
      unfold Spec.start Spec.le2 Spec.fresh
      simp
    obtain ⟨f', t1, t2, t3, t4, t5, t6, t7, t8, t9, tb⟩ := reset_spec hq f h0 d b4 b5 b8 lab b6 st tm m.made old
    rw [t1]
    dsimp only
    rw [if_pos rfl]
    have nm : ∀ gn j, FoundAt (dirOf f' S' n') gn j ↔ FoundAt (dirOf f S' n') gn j := by
      rw [t3]
      exact fun gn j => same_found b8 (emptied_name _ tm (by decide)) (fun gn => emptied_named lab) gn j
    refine ⟨_, _, _, _, rfl, .made (L' := L') (S' := S') (n' := n') (i := i) hm ⟨t2, b2.trans t4, others_trans b3 t5 b2.2.1 b2.2.2.2.2.2.2, fun x => (b11 fun y => x (b12 y)).2.trans (tb x) b2, t8, ⟨rfl, rfl, rfl, rfl, rfl⟩, ?_, t7, b4.off⟩ ((nm _ _).mpr b7) ?_ ?_ ?_⟩
    · unfold content
      rw [t9]
      rfl
    · rw [t3, set_get b7.lt, if_pos rfl]
    · exact fun gn hg hne j => (nm gn j).trans (b9 gn hg hne j)
    · rw [t3]
      exact fun j h1 h2 => by rw [set_get b7.lt, if_neg (Ne.symm h2), b10 j h1 h2]

/-- The reply and the volume decide which case it is. -/
theorem opening_unique {fs fs' fs'' : Fs} {rt : Root} {cl : Nat} {L : List Nat} {S : Nat → Nat} {n : Nat} {M : List Nat} {O : List (List Nat)} {i : Nat} {e : Item} {m : Mode} {tm : Nat} {old fp fp' : Fil} {sl sl' : Slot}
    {r r' : Fr} (h : Opening fs fs' rt cl L S n M O i e m tm old fp sl r) (k : Opening fs fs'' rt cl L S n M O i e m tm old fp' sl' r') : r = r' := by
  have mk : m.new = true → m.makes := fun x => Or.inr (Or.inr x)
  have mk2 : m.always = true → m.makes := fun x => Or.inl x
  cases h <;> cases k <;> first | rfl | contradiction | (exfalso; simp_all)

/-- The volume is consistent: each directory has its own clusters, and each entry its own, which are enough for the size of the file. -/
structure Whole (fs : Fs) (rt : Root) (K : Nat → Prop) (dir : Nat → List Item) : Prop where
  dirs : ∀ cl, K cl → ∃ L S n O, Holds fs rt cl L S n O ∧ dir cl = dirOf fs S n
  files : ∀ cl, K cl → ∀ fn i e, proper fn → fn 0 ≠ 0x2E → FoundAt (dir cl) fn i → (dir cl)[i]? = some e →
    ∃ L S n M O, Holds fs rt cl L S n (own M ++ O) ∧ dir cl = dirOf fs S n ∧ Spec.start fs.ty e 0 = M.headD 0 ∧ (¬ isDir e → Spec.size e 0 ≤ 512 * (M.length * fs.csize))

/-- What `f_open` is to do for a path that leads to `o` -/
inductive Results (fs fs' : Fs) (rt : Root) (dir : Nat → List Item) (fn : Nat → BitVec 8) (m : Mode) (tm : Nat) (old fp : Fil) (sl : Slot) : Outcome → OpenRes → Prop
  | there {cl i n : Nat} {L : List Nat} {S : Nat → Nat} {M : List Nat} {O : List (List Nat)} {e : Item} {r : Fr} : (dir cl)[i]? = some e → dir cl = dirOf fs S n → Holds fs rt cl L S n (own M ++ O) →
      Spec.start fs.ty e 0 = M.headD 0 → Opening fs fs' rt cl L S n M O i e m tm old fp sl r → Results fs fs' rt dir fn m tm old fp sl (.found cl i) (.fr r)
  | missing {cl n : Nat} {L : List Nat} {S : Nat → Nat} {O : List (List Nat)} {r : Fr} : dir cl = dirOf fs S n → Holds fs rt cl L S n O → Making fs fs' rt cl L S n O fn m tm old fp sl r →
      Results fs fs' rt dir fn m tm old fp sl (.missing cl) (.fr r)
  | noPath : Seen fs fs' → fp = old → Results fs fs' rt dir fn m tm old fp sl .noPath .noPath

theorem resolves_missing {fs : Fs} {rt : Root} {K : Nat → Prop} {dir : Nat → List Item} (h : Tree fs rt K dir) {cl : Nat} {ns : List (List (BitVec 8))} {o : Outcome} (hr : Resolves dir fs.ty cl ns o) :
    (∀ n ∈ ns, proper (nameOf n) ∧ nameOf n 0 ≠ 0x2E) → K cl → ∀ cl', o = .missing cl' → K cl' ∧ Absent (dir cl') (nameOf (ns.getLastD [])) := by
  induction hr with
  | found => intro _ _ _ e; cases e
  | missing ha =>
    intro hn hk cl' e
    injection e with e
    subst e
    exact ⟨hk, ha⟩
  | lost => intro _ _ _ e; cases e
  | file => intro _ _ _ e; cases e
  | down hf he hd _ ih =>
    intro hn hk cl' e
    exact ih (fun n h => hn n (List.mem_cons_of_mem _ h)) (h.closed _ hk _ _ _ (hn _ (List.mem_cons_self ..)).1 (hn _ (List.mem_cons_self ..)).2 hf he hd) cl' e

theorem emptyFile_seen {fs f fs' : Fs} {rt : Root} {cl : Nat} {L : List Nat} {S : Nat → Nat} {n : Nat} {O : List (List Nat)} {i : Nat} {m : Mode} {fp : Fil} {sl : Slot} (hl : fs.Layout) (hs : Seen fs f) (ho : Others fs f O)
    (k : EmptyFile f fs' rt cl L S n O i m fp sl) : EmptyFile fs fs' rt cl L S n O i m fp sl :=
  ⟨k.holds, hs.shape.trans k.shape, others_trans ho k.others hs.shape.2.1 hs.shape.2.2.2.2.2.2, fun x => (hs.below hl).trans (k.below x) hs.shape, k.opened, k.start, k.bytes, k.slot⟩

theorem bytes_seen {fs f : Fs} {rt : Root} {cl n : Nat} {L : List Nat} {S : Nat → Nat} {M : List Nat} {O : List (List Nat)} (h : Holds fs rt cl L S n (own M ++ O)) (hs : Seen fs f) {k : Nat} (hk : k ≤ 512 * (M.length * fs.csize)) :
    bytesOf f M k = bytesOf fs M k := by
  unfold bytesOf
  refine List.map_congr_left fun o ho => ?_
  have ho := List.mem_range.mp ho
  have hM : M ≠ [] := by
    intro x
    rw [x, List.length_nil] at hk
    omega
  have hj : o / 512 < M.length * fs.csize := by
    generalize M.length * fs.csize = N at *
    omega
  rw [hs.shape.sec, others_seen h.ok.layout h.files hs M (List.mem_append_left _ (by unfold own; rw [if_neg hM]; exact List.mem_singleton_self _)) _ hj]

theorem fresh_alike {a b : Nat → BitVec 8} (h : alike a b) : Spec.fresh a = Spec.fresh b := by
  funext j
  unfold Spec.fresh
  by_cases hj : j < 11
  · rw [if_pos hj, if_pos hj, h j hj]
  · rw [if_neg hj, if_neg hj]

/-- **Opening.** On a consistent volume, if no read or write fails, for paths of names of the form 8.3 without the letters that `create_name` takes for others (`odd`): `f_open` opens what the path leads to with the bytes it has, empties it,
makes a new file that is then found in its directory, or changes nothing and tells why. Nothing else changes. -/
theorem open_path_partial {env : Env} (hq : Quiet env) {rt : Root} {K : Nat → Prop} {dir : Nat → List Item} {fs : Fs} (h : Tree fs rt K dir) (hk : Whole fs rt K dir) (vol : Nat) (hv : fs.ty = .fat32 → vol + 1 < fs.fatbase)
    (dp : Dir) (oldName : Nat → BitVec 8) {path : List (BitVec 8)} {ns : List (List (BitVec 8))} (ht : Text (fun c => ¬ odd c) path ns) (m : Mode) (tm : Nat) (old : Fil) :
    ∃ fs' fp sl r o, fOpenPath env rt fs dp oldName path m tm old = some (fs', fp, sl, r) ∧ Resolves dir fs.ty 0 ns o ∧ Results fs fs' rt dir (nameOf (ns.getLastD [])) m tm old fp sl o r := by
  obtain ⟨f, d, fn, r, o, a, s, b, c, q⟩ := follow_right_partial hq h dp oldName ht
  obtain ⟨hp, hdot⟩ := text_proper ht
  unfold fOpenPath
  rw [a]
  dsimp only
  cases o with
  | noPath =>
    have c : r = .noPath := c
    subst c
    exact ⟨f, _, _, _, _, rfl, b, .noPath s rfl⟩
  | missing cl =>
    obtain ⟨rfl, c⟩ := c
    have q := q rfl
    dsimp only
    rw [if_neg (by simp)]
    obtain ⟨hcl, habs⟩ := resolves_missing h b (text_names ht) h.root cl rfl
    obtain ⟨L, S, n, O, k1, k2⟩ := hk.dirs cl hcl
    obtain ⟨k4, k5⟩ := k1.seen s
    by_cases hm : m.makes
    · rw [if_pos ⟨rfl, show m.always = true ∨ m.orNew = true ∨ m.new = true from hm⟩]
      have hpf : proper fn := by
        unfold proper
        rw [q 0 (by decide)]
        exact hp
      have qs : alike (nameOf (ns.getLastD [])) fn := fun j hj => (q j hj).symm
      obtain ⟨fs', fp, sl, r, e1, e2⟩ := open_new hq hpf f k4 d c (by rw [k5, ← k2]; exact absent_alike qs habs) m hm tm old
      rw [e1]
      refine ⟨fs', fp, sl, _, _, rfl, b, .missing k2 k1 ?_⟩
      dsimp only
      cases e2 with
      | none x => exact absurd hm x
      | full _ g1 g2 g3 g4 =>
        refine .full hm (by rw [← k5]; exact g1) ?_ (s.trans g3) g4
        refine g2.imp_right (Or.imp_right fun y c h1 h2 => ?_)
        rw [← s.entries c h2]
        exact y c h1 (by rw [s.shape.2.2.2.1]; exact h2)
      | made _ g1 g2 g3 g4 g5 =>
        refine .made hm (emptyFile_seen h.ok.layout s (others_seen k1.ok.layout k1.files s) g1) (found_alike q g2) (by rw [← fresh_alike q]; exact g3) (fun gn h1 h2 j => ?_) (by rw [← k5]; exact g5)
        rw [g4 gn h1 (fun x => h2 fun j hj => (x j hj).trans (q j hj)) j, k5]
    · rw [if_neg (fun x => hm x.2)]
      exact ⟨f, _, _, _, _, rfl, b, .missing k2 k1 (.none hm s rfl)⟩
  | found cl i =>
    obtain ⟨rfl, c⟩ := c
    dsimp only
    rw [if_pos rfl]
    obtain ⟨hcl, hf⟩ := resolves_place h b (text_names ht) h.root cl i rfl
    obtain ⟨e, he, hnm⟩ := hf.hit
    obtain ⟨L, S, n, M, O, k1, k2, k3, kf⟩ := hk.files cl hcl _ i e hp hdot hf he
    obtain ⟨k4, k5⟩ := k1.seen s
    obtain ⟨L', S', n', p1, p2, p3⟩ := c.place
    obtain ⟨rfl, rfl, rfl⟩ := area_unique p1 k4.area
    obtain ⟨fs', fp, r, q1, q2⟩ := open_entry hq (vol := vol) f k4 (by rw [s.shape.1, s.shape.2.2.2.2.2.1]; exact hv) d p2 c.window (by rw [← p3]; exact he) hnm.1 (c.entry e he) (by rw [s.shape.1]; exact k3)
      (by rw [s.shape.2.1]; exact kf) m tm old
    rw [q1]
    refine ⟨fs', fp, _, _, _, rfl, b, .there he k2 k1 k3 ?_⟩
    dsimp only
    have ot := others_seen k1.ok.layout k1.files s
    cases q2 with
    | dir g1 g2 g3 g4 => exact .dir g1 g2 (s.trans g3) g4
    | dirKept g1 g2 g3 g4 => exact .dirKept g1 g2 (s.trans g3) g4
    | locked g1 g2 g3 g4 g5 => exact .locked g1 g2 g3 (s.trans g4) g5
    | already g1 g2 g3 g4 g5 => exact .already g1 g2 g3 (s.trans g4) g5
    | emptied g1 g2 g3 g4 g5 g6 g7 g8 g9 =>
      refine .emptied g1 g2 g3 g4 (emptyFile_seen h.ok.layout s (fun N hN => ot N (List.mem_append_right _ hN)) g5) (by rw [← k5]; exact g6) (by rw [← k5]; exact g7) g8 fun c h1 h2 => ?_
      rw [g9 c (by rw [s.shape.2.2.2.1]; exact h1) h2, s.entries c h1]
    | opened g1 g2 g3 g4 g5 g6 g7 g8 g9 g10 => exact .opened g1 g2 g3 g4 (s.trans g5) g6 (g7.trans (bytes_seen k1 s (kf g1))) g8 g9 g10

/-- The root is no file. -/
theorem open_root {env : Env} (hq : Quiet env) {rt : Root} {K : Nat → Prop} {dir : Nat → List Item} {fs : Fs} (h : Tree fs rt K dir) (dp : Dir) (oldName : Nat → BitVec 8) {path : List (BitVec 8)} (ho : Origin path) (m : Mode) (tm : Nat)
    (old : Fil) : ∃ fs' sl, fOpenPath env rt fs dp oldName path m tm old = some (fs', old, sl, .invalidName) ∧ Seen fs fs' := by
  obtain ⟨f, d, a, s, _⟩ := root_path hq h dp oldName ho
  unfold fOpenPath
  rw [a]
  exact ⟨f, _, rfl, s⟩

/-- Paths that end without a proper name open and make nothing. -/
theorem open_refused_partial {env : Env} (hq : Quiet env) {rt : Root} {K : Nat → Prop} {dir : Nat → List Item} {fs : Fs} (h : Tree fs rt K dir) (dp : Dir) (oldName : Nat → BitVec 8) {path : List (BitVec 8)}
    {ns : List (List (BitVec 8))} (ht : Trail (fun c => ¬ odd c) path ns) (ho : ¬ Origin path) (m : Mode) (tm : Nat) (old : Fil) :
    ∃ fs' sl r, fOpenPath env rt fs dp oldName path m tm old = some (fs', old, sl, r) ∧ Seen fs fs' ∧ (((∃ cl', Walks dir fs.ty 0 ns cl') ∧ r = .invalidName) ∨ ((¬ ∃ cl', Walks dir fs.ty 0 ns cl') ∧ r = .noPath)) := by
  obtain ⟨f, d, fn, r, a, s, c⟩ := refused_partial hq h dp oldName ht ho
  unfold fOpenPath
  rw [a]
  rcases c with ⟨c, rfl⟩ | ⟨c, rfl⟩
  · exact ⟨f, _, _, rfl, s, Or.inl ⟨c, rfl⟩⟩
  · exact ⟨f, _, _, rfl, s, Or.inr ⟨c, rfl⟩⟩

/-! ## An example -/

def openAt (fs : Fs) (path : List (BitVec 8)) (m : Mode) : Option (Fs × Fil × Slot × OpenRes) := fOpenPath calm root fs ⟨0, 0, 0, 0, 0⟩ (fun _ => 0) path m 7 newFile

/-- FA_READ; FA_WRITE with FA_CREATE_ALWAYS or FA_CREATE_NEW -/
def forReading : Mode := { rd := true, wr := false, always := false, orNew := false, new := false }
def overwriting : Mode := { rd := false, wr := true, always := true, orNew := false, new := false }
def makingNew : Mode := { rd := false, wr := true, always := false, orNew := false, new := true }

def openReply (x : Option (Fs × Fil × Slot × OpenRes)) : Option OpenRes := x.map (·.2.2.2)

/-- `a` is a file, `r` is read only, `sub` is a directory, `x` is not there, `x/a` leads nowhere. -/
example : openReply (openAt home [0x61] plain) = some (.fr .ok) ∧ openReply (openAt home [0x72] forReading) = some (.fr .ok) ∧ openReply (openAt home [0x72] plain) = some (.fr .denied) ∧
    openReply (openAt home [0x73, 0x75, 0x62] forReading) = some (.fr .noFile) ∧ openReply (openAt home [0x73, 0x75, 0x62] overwriting) = some (.fr .denied) ∧ openReply (openAt home [0x61] makingNew) = some (.fr .exist) ∧
    openReply (openAt home [0x78] plain) = some (.fr .noFile) ∧ openReply (openAt home [0x78] makingNew) = some (.fr .ok) ∧ openReply (openAt home [0x78, 0x2F, 0x61] makingNew) = some .noPath ∧
    openReply (openAt home [0x2F] overwriting) = some .invalidName := by decide +kernel

/-- `a` is emptied: its cluster is free, those of the others are not. -/
example : (openAt home [0x61] overwriting).map (fun x => [2, 3, 4].map fun c => decide (x.1.entryAt c = 0)) = some [false, true, false] := by decide +kernel

/-- `sub/x` is made, written and closed; then it is opened for reading. -/
def newStory : Option (OpenRes × Nat × List (Spec.Answer (BitVec 8)) × OpenRes) := do
  let (fs, fp, sl, _) ← openAt home [0x73, 0x75, 0x62, 0x2F, 0x78] makingNew
  let (fs, fp, _) ← performAll calm fs fp [.write [1, 2, 3]]
  let (fs, _, _) := fSync calm 0 1 fs fp sl
  let (fs, fp, _, r) ← openAt fs [0x73, 0x75, 0x62, 0x2F, 0x58] forReading
  let (fs, fp, as) ← performAll calm fs fp [.read 10]
  pure (r, fp.fsize, as, ((openAt fs [0x78] forReading).map (·.2.2.2)).getD .noPath)

example : newStory = some (.fr .ok, 3, [.got [1, 2, 3]], .fr .noFile) := by decide +kernel

theorem home_whole : Whole home root (fun cl => cl = 0 ∨ cl = 2) homes := by
  refine ⟨fun cl hc => ?_, fun cl hc fn i e hp hdot hf he => ?_⟩
  · rcases hc with rfl | rfl
    · exact ⟨_, _, _, _, home_root (M := [3]) (O := [[2], [4]]) (home_files _ (by decide) (by decide) (by decide)), rfl⟩
    · exact ⟨_, _, _, _, home_sub, rfl⟩
  · obtain ⟨L, S, n, M, O, k1, k2, k3⟩ := home_sound cl hc fn i e hp hdot hf he
    refine ⟨L, S, n, M, O, k1, k2, k3, fun _ => ?_⟩
    have z : Spec.size e 0 = 0 := by
      have get : ∀ T : Nat → Nat, (dirOf home T 1)[i]? = some e → i < 16 ∧ e = entryOf home T i := by
        intro T h
        rw [dirOf_get] at h
        by_cases hi : i < 16 * 1 ∧ i < 65536
        · rw [if_pos hi] at h
          exact ⟨by omega, (Option.some.inj h).symm⟩
        · rw [if_neg hi] at h
          cases h
      rcases hc with rfl | rfl
      · obtain ⟨hi, rfl⟩ := get (fun i => root.dirbase + i) he
        exact (by decide +kernel : ∀ i, i < 16 → Spec.size (entryOf home (fun i => root.dirbase + i) i) 0 = 0) i hi
      · obtain ⟨hi, rfl⟩ := get (home.sec [2]) he
        exact (by decide +kernel : ∀ i, i < 16 → Spec.size (entryOf home (home.sec [2]) i) 0 = 0) i hi
    rw [z]
    exact Nat.zero_le _

/-- The theorem holds for `home`, the path `x` and a new file, -/
example : ∃ fs' fp sl r o, openAt home [0x78] makingNew = some (fs', fp, sl, r) ∧ Resolves homes home.ty 0 [stored [0x78] []] o ∧ Results home fs' root homes (nameOf (stored [0x78] [])) makingNew 7 newFile fp sl o r :=
  open_path_partial calm_quiet home_tree home_whole 0 (by decide) _ _ (.last (seps := []) (s := [0x78]) (tail := []) (body := [0x78]) (ext := []) (by simp) ⟨Or.inl ⟨rfl, rfl⟩, by decide, by decide⟩ (by decide) (by simp)) _ _ _

/-- and the file is there: the reply is ok, so it is made. -/
example : ∃ fs' fp sl, openAt home [0x78] makingNew = some (fs', fp, sl, .fr .ok) ∧ ∃ L S n O i, EmptyFile home fs' root 0 L S n O i makingNew fp sl ∧ FoundAt (dirOf fs' S n) (nameOf (stored [0x78] [])) i := by
  obtain ⟨fs', fp, sl, r, o, h1, h2, h3⟩ := open_path_partial calm_quiet home_tree home_whole 0 (by decide) ⟨0, 0, 0, 0, 0⟩ (fun _ => 0)
    (.last (seps := []) (s := [0x78]) (tail := []) (body := [0x78]) (ext := []) (by simp) ⟨Or.inl ⟨rfl, rfl⟩, by decide, by decide⟩ (by decide) (by simp)) makingNew 7 newFile
  have hr : (openAt home [0x78] makingNew).map (·.2.2.2) = some (.fr .ok) := by decide +kernel
  unfold openAt at hr ⊢
  simp only [List.nil_append, List.append_nil] at h1
  rw [h1] at hr
  obtain rfl : r = .fr .ok := Option.some.inj hr
  refine ⟨fs', fp, sl, h1, ?_⟩
  have o2 : Resolves homes home.ty 0 [stored [0x78] []] (.missing 0) := by
    refine .missing fun i e he hn => ?_
    have he' : (dirOf home (fun i => root.dirbase + i) 1)[i]? = some e := he
    rw [dirOf_get] at he'
    by_cases hi : i < 16 * 1 ∧ i < 65536
    · rw [if_pos hi] at he'
      have n0 := hn.2 0 (by decide)
      rw [← Option.some.inj he'] at n0
      exact absurd n0 ((by decide +kernel : ∀ i, i < 16 → entryOf home (fun i => root.dirbase + i) i 0 ≠ nameOf (stored [0x78] []) 0) i (by omega))
    · rw [if_neg hi] at he'
      cases he'
  obtain rfl := resolves_unique h2 o2
  cases h3 with
  | missing a b d =>
    cases d with
    | made _ g1 g2 _ _ => exact ⟨_, _, _, _, _, g1, g2⟩

end Verif.Fat
