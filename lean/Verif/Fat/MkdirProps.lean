import Verif.Fat.MkdirLemmas

/-!
# FatFs: making directories — properties
-/

namespace Verif.Fat

open Spec (Ty Item named FoundAt Absent Full alike proper isDir readOnly Tidy Distinct Chain Files NoneFrom Text Origin Trail Walks Outcome Resolves nameOf stored folder dot dotDot bare listed)

/-- There is a new directory with the cluster `c`, which was free, at entry `i` of the directory; it is empty. All other names and files are as before, and all is on the disk. -/
structure NewDir (fs fs' : Fs) (rt : Root) (cl : Nat) (S : Nat → Nat) (n : Nat) (L' : List Nat) (S' : Nat → Nat) (n' : Nat) (O : List (List Nat)) (fn : Nat → BitVec 8) (i c tm : Nat) : Prop where
  free : 2 ≤ c ∧ c < fs.nFatent ∧ fs.entryAt c = 0
  holds : Holds fs' rt cl L' S' n' ([c] :: O)
  shape : Shape fs fs'
  others : Others fs fs' O
  /-- also the root, if the directory is another one -/
  below : L' ≠ [] → Below fs fs'
  found : FoundAt (dirOf fs' S' n') fn i
  entry : (dirOf fs' S' n')[i]? = some (folder fn c tm)
  names : ∀ gn, proper gn → ¬ alike gn fn → ∀ j, FoundAt (dirOf fs' S' n') gn j ↔ FoundAt (dirOf fs S n) gn j
  /-- the other entries -/
  beside : Spec.Beside (dirOf fs S n) (dirOf fs' S' n') i
  empty : inside fs' [c] = bare c (if fs.ty = .fat32 ∧ cl = rt.dirbase then 0 else cl) tm fs.csize
  written : ∀ s, fs'.disk s = fs'.look s

/-- The directory, the other files and the table are as before. -/
structure Unmoved (fs fs' : Fs) (rt : Root) (cl : Nat) (L : List Nat) (S : Nat → Nat) (n : Nat) (O : List (List Nat)) : Prop where
  holds : Holds fs' rt cl L S n O
  shape : Shape fs fs'
  same : dirOf fs' S n = dirOf fs S n
  others : Others fs fs' O
  below : Below fs fs'
  entries : ∀ x, x < fs.nFatent → fs'.entryAt x = fs.entryAt x

/-- What `f_mkdir` is to do if the name is not in the directory -/
inductive Founding (fs fs' : Fs) (rt : Root) (cl : Nat) (L : List Nat) (S : Nat → Nat) (n : Nat) (O : List (List Nat)) (fn : Nat → BitVec 8) (tm : Nat) : Fr → Prop
  /-- no cluster is free -/
  | noSpace : (∀ x, 2 ≤ x → x < fs.nFatent → fs.entryAt x ≠ 0) → Seen fs fs' → Founding fs fs' rt cl L S n O fn tm .denied
  /-- there is no room for another entry: the directory cannot grow, or it takes the last cluster -/
  | full {c : Nat} : 2 ≤ c → c < fs.nFatent → fs.entryAt c = 0 → Full (dirOf fs S n) → (L = [] ∨ 65536 ≤ 16 * n ∨ ∀ x, 2 ≤ x → x < fs.nFatent → x ≠ c → fs.entryAt x ≠ 0) → Unmoved fs fs' rt cl L S n O →
      Founding fs fs' rt cl L S n O fn tm .denied
  | made {L' : List Nat} {S' : Nat → Nat} {n' i c : Nat} : NewDir fs fs' rt cl S n L' S' n' O fn i c tm → Founding fs fs' rt cl L S n O fn tm .ok

/-- A directory that is not there is made, if there is room. -/
theorem make_entry {env : Env} (hq : Quiet env) {rt : Root} {vol : Nat} {fn : Nat → BitVec 8} (hp : proper fn) {cl n : Nat} {L : List Nat} {S : Nat → Nat} {O : List (List Nat)} (fs : Fs) (h : Holds fs rt cl L S n O)
    (hv : fs.ty = .fat32 → vol + 1 < fs.fatbase) (dp : Dir) (hd : dp.sclust = cl) (habs : Absent (dirOf fs S n) fn) (tm : Nat) :
    ∃ fs' r, makeDir env rt vol fs dp fn tm = some (fs', r) ∧ Founding fs fs' rt cl L S n O fn tm r := by
  have hl := h.ok.layout
  have key := create_new hq fs h.ok _ h.files
  have hrange := start_range h.ok
  cases hf : (Spec.order fs.nFatent (start fs)).find? (fun c => decide (c ∉ (own L ++ O).flatten)) with
  | none =>
    rw [hf] at key
    obtain ⟨f, k1, k2, _⟩ := key
    unfold makeDir layDir
    rw [k1]
    dsimp only
    rw [if_pos rfl]
    dsimp only
    rw [if_neg (by simp)]
    dsimp only
    rw [if_pos (by simp)]
    unfold Fs.removeChain
    rw [if_pos (Or.inl (by decide))]
    refine ⟨f, _, rfl, .noSpace (fun x h1 h2 h0 => ?_) k2.seen⟩
    have := List.find?_eq_none.mp hf x ((mem_order hrange.1 hrange.2).mpr ⟨h1, h2⟩)
    exact this (decide_eq_true ((files_entries h.files x h1 h2).2.mp h0))
  | some c =>
    rw [hf] at key
    obtain ⟨f, k1, k2, k3, _⟩ := key
    obtain ⟨c1, c2⟩ := (mem_order hrange.1 hrange.2).mp (List.mem_of_find?_eq_some hf)
    have c0 : fs.entryAt c = 0 := (files_entries h.files c c1 c2).2.mpr (by simpa using List.find?_some hf)
    obtain ⟨f2, v, l1, hL⟩ := lay_spec hq rt f k2.ok c1 (by rw [k2.nFatent]; exact c2) dp.sclust tm
    obtain ⟨h2, hD2, ot2, sh2, en2, bl2⟩ := aside_spec h c1 c0 k2 k3 hL
    have sh1 : Shape fs f := ⟨k2.ty, k2.csize, k2.nFats, k2.nFatent, k2.fsize, k2.fatbase, k2.database⟩
    have hcs : f.csize ≤ 128 := by
      obtain ⟨p, p1, p2⟩ := h.pow
      rw [sh1.2.1, p2]
      exact Nat.pow_le_pow_right (by decide) p1
    have hin := inside_bare hcs k2.ok.layout.clus hL
    rw [hd, sh1.1, sh1.2.1] at hin
    have hfar : S 0 ≠ f2.winsect := by
      rw [hL.at_, sh1.first, sh1.2.1]
      have e : fs.first c + fs.csize - 1 = fs.first c + (fs.csize - 1) := by have := hl.clus; omega
      rw [e]
      exact apart_free h c1 c0 (h.area.pos hl) (by have := hl.clus; omega)
    obtain ⟨f3, dp3, r, r1, r2⟩ := register_spec hq rt fn hp f2 h2 dp hd (by rw [hD2]; exact habs)
    unfold makeDir
    rw [k1]
    dsimp only
    rw [l1]
    dsimp only
    rw [if_pos rfl, register_stale hq rt fn h2.area h2.ok dp hd hL.clean hfar v, r1]
    dsimp only
    rcases r2 with ⟨rfl, s3, hfull, hroom⟩ | ⟨rfl, L', S', n', i, h3, sh3, ot3, at3, w3, wb3, fd3, en3, nm3, bs3, bl3, bz3⟩
    · -- no room for the entry
      rw [if_pos (by simp)]
      obtain ⟨h3, hD3⟩ := h2.seen s3
      have h3' : Holds f3 rt cl L S n (own [c] ++ O) := h3
      obtain ⟨f4, t1, t2, t3, _, _⟩ := remove_file hq f3 h3.ok (own L) O c [] h3.files
      rw [t1]
      have sh4 : Shape f3 f4 := ⟨t2.ty, t2.csize, t2.nFats, t2.nFatent, t2.fsize, t2.fatbase, t2.database⟩
      obtain ⟨h4, hD4, ot4⟩ := tables_only h3' sh4 t2.ok (fun s _ q2 q3 => t2.outside s q2 q3) t2.entries t3
      have ot3 := others_seen h2.ok.layout h2.files s3
      have sh23 := sh2.trans s3.shape
      rw [hD2] at hfull
      refine ⟨f4, _, rfl, .full c1 c2 c0 hfull ?_ ⟨h4, sh23.trans sh4, ?_, ?_,
        (bl2.trans (s3.below h2.ok.layout) sh2).trans (below_out h3.ok.layout fun s _ q2 q3 => t2.outside s q2 q3) sh23, fun x hx => ?_⟩⟩
      · refine hroom.imp_right (Or.imp_right fun y x x1 x2 x3 x4 => ?_)
        refine y x x1 (by rw [sh2.2.2.2.1]; exact x2) ?_
        rw [en2 x x2, if_neg x3, x4]
      · rw [hD4, hD3, hD2]
      · refine others_trans (others_trans ot2 (fun M hM => ot3 M (List.mem_cons_of_mem _ hM)) sh2.2.1 sh2.2.2.2.2.2.2) ot4 sh23.2.1 sh23.2.2.2.2.2.2
      · rw [t2.entries x (by rw [sh23.2.2.2.1]; exact hx), s3.entries x (by rw [sh2.2.2.2.1]; exact hx), en2 x hx]
        by_cases e : x = c
        · rw [if_pos (by rw [e]; exact List.mem_singleton_self _), e, c0]
        · rw [if_neg (by simpa using e), if_neg e]
    · -- the entry is there
      rw [if_neg (by simp)]
      have l3 := h3.ok.layout
      have hi := at3.inside
      obtain ⟨q1, q2, q3, q4⟩ := h3.area.sector l3 (i := i / 16) (by omega)
      have hsect : f3.winsect = S' (i / 16) := w3.trans at3.sect
      have hE := edit_window h3.ok (by rw [hsect]; exact q4) (dirEntry f3.win dp3.off c tm)
      have w4 : ({ f3 with win := dirEntry f3.win dp3.off c tm, wflag := true } : Fs).winsect = f3.winsect := rfl
      generalize ({ f3 with win := dirEntry f3.win dp3.off c tm, wflag := true } : Fs) = f4 at *
      rw [hsect] at hE w4
      have hD4 : dirOf f4 S' n' = (dirOf f3 S' n').set i (folder fn c tm) := by
        refine dirOf_edited h3.area l3 hi hE _ (fun j hj => ?_) (fun j hj => folder_end hj) fun j hj => ?_
        · rw [← at3.off]
          exact dirEntry_bytes _ _ _ _ _ wb3 j hj
        · rw [dirEntry_outside _ _ _ _ j (by rw [at3.off]; omega)]
          unfold Fs.look
          rw [if_pos hsect.symm]
      have h4 : Holds f4 rt cl L' S' n' (own [] ++ ([c] :: O)) := by
        refine ⟨h3.area.edited hE, hE.ok, by rw [hE.shape.2.1]; exact h3.pow, files_edited hE h3.files, ?_, ?_⟩
        · rw [hD4]
          exact same_tidy en3 folder_zero (fun gn => folder_named) h3.tidy
        · rw [hD4]
          exact same_distinct en3 folder_zero (fun gn => folder_named) h3.distinct
      have ot4 := others_edited h3.area l3 h3.files (i := i / 16) (by omega) hE
      have sh24 := sh3.trans hE.shape
      have sh4 := sh2.trans sh24
      obtain ⟨f5, e5, wf5, s5, _⟩ := syncFs_shift hq vol f4 hE.ok (own L' ++ ([c] :: O)) (by rw [w4]; exact window_aside _ h4.area h4.ok.layout (by omega))
        (fun x => by rw [sh4.2.2.2.2.2.1]; exact hv (by rw [← sh4.1]; exact x))
      rw [e5]
      have sh5 : Shape f4 f5 := ⟨s5.ty, s5.csize, s5.nFats, s5.nFatent, s5.fsize, s5.fatbase, s5.database⟩
      have hF5 : Files f5.entryAt f5.nFatent (own L' ++ ([c] :: O)) := by
        rw [s5.nFatent]
        exact files_congr h4.files s5.entries
      have out5 : ∀ s, f4.fatbase ≤ s → ¬ f4.InCopies s → ¬ f4.InTable s → f5.look s = f4.look s := fun s k1 k2 k3 => by
          rw [s5.outside s k2 k3]
          rintro ⟨k4, k5⟩
          have := hv (by rw [← sh4.1]; exact k4)
          have e6 : f4.fatbase = fs.fatbase := sh4.2.2.2.2.2.1
          omega
      obtain ⟨h5, hD5, ot5⟩ := tables_only (M := []) h4 sh5 s5.ok out5
        (fun x hx => by rw [s5.entries x hx, if_neg (by simp)]) hF5
      have hD : dirOf f5 S' n' = (dirOf f3 S' n').set i (folder fn c tm) := hD5.trans hD4
      have sf : ∀ gn j, FoundAt (dirOf f5 S' n') gn j ↔ FoundAt (dirOf f3 S' n') gn j := by
        rw [hD]
        exact fun gn j => same_found en3 folder_zero (fun gn => folder_named) gn j
      have otall : Others f2 f5 ([c] :: O) := others_trans (others_trans ot3 ot4 sh3.2.1 sh3.2.2.2.2.2.2) ot5 sh24.2.1 sh24.2.2.2.2.2.2
      have sh25 := sh24.trans sh5
      refine ⟨f5, _, rfl, .made (L' := L') (S' := S') (n' := n') (i := i) (c := c) ⟨⟨c1, c2, c0⟩, h5, sh4.trans sh5, ?_, fun x => ?_, (sf _ _).mpr fd3, ?_, fun gn g1 g2 j => ?_, ?_, ?_, fun s => ?_⟩⟩
      · exact others_trans ot2 (fun M hM => otall M (List.mem_cons_of_mem _ hM)) sh2.2.1 sh2.2.2.2.2.2.2
      · exact ((bl2.trans (bl3 fun y => x (bz3 y)).2 sh2).trans (hE.below l3 (area_high h3.area l3 x (by omega))) (sh2.trans sh3)).trans (below_out hE.ok.layout out5) sh4
      · rw [hD, set_get fd3.lt, if_pos rfl]
      · rw [sf gn j, nm3 gn g1 g2 j, hD2]
      · rw [hD, ← hD2]
        exact fun j h1 h2 => by rw [set_get fd3.lt, if_neg (Ne.symm h2), bs3 j h1 h2]
      · rw [← hin]
        have e7 : f5.csize = f2.csize := sh25.2.1
        unfold inside
        rw [e7]
        refine List.ext_getElem? fun j => ?_
        rw [dirOf_get, dirOf_get]
        by_cases hj : j < 16 * ([c].length * f2.csize) ∧ j < 65536
        · rw [if_pos hj, if_pos hj]
          unfold entryOf
          rw [sh25.sec, otall [c] (List.mem_cons_self ..) (j / 16) (by have := hj.1; generalize [c].length * f2.csize = N at *; omega)]
        · rw [if_neg hj, if_neg hj]
      · unfold Fs.look
        by_cases hs : s = f5.winsect
        · rw [if_pos hs, hs, s5.ok.clean wf5]
        · rw [if_neg hs]

/-- The new directory is one: its entry says so and leads to its cluster, it may be used as a directory, and nothing is in it. -/
theorem new_dir_usable {fs fs' : Fs} {rt : Root} {cl n n' i c tm : Nat} {S S' : Nat → Nat} {L' : List Nat} {O : List (List Nat)} {fn : Nat → BitVec 8} (h : NewDir fs fs' rt cl S n L' S' n' O fn i c tm) :
    isDir (folder fn c tm) ∧ ¬ readOnly (folder fn c tm) ∧ Spec.start fs.ty (folder fn c tm) 0 = c ∧ Holds fs' rt c [c] (fs'.sec [c]) ([c].length * fs'.csize) (own L' ++ O) ∧ NoneFrom (inside fs' [c]) 2 := by
  have a : folder fn c tm 11 = 0x10 := by
    unfold folder
    rw [if_neg (by decide), if_pos rfl]
  obtain ⟨c1, c2, _⟩ := h.free
  have hok := h.holds.ok
  have hcs := h.holds.ok.layout.clus
  have tail : ∀ j e, 2 ≤ j → (inside fs' [c])[j]? = some e → e = fun _ => 0 := by
    intro j e hj he
    rw [h.empty] at he
    unfold bare at he
    obtain ⟨j, rfl⟩ : ∃ k, j = k + 2 := ⟨j - 2, by omega⟩
    rw [List.getElem?_cons_succ, List.getElem?_cons_succ, List.getElem?_replicate] at he
    split at he
    · exact (Option.some.inj he).symm
    · cases he
  have e0 : ∀ e, (inside fs' [c])[0]? = some e → e 0 = 0x2E ∧ e 1 = 0x20 := by
    intro e he
    rw [h.empty] at he
    rw [← Option.some.inj he]
    exact ⟨rfl, rfl⟩
  have e1 : ∀ e, (inside fs' [c])[1]? = some e → e 0 = 0x2E ∧ e 1 = 0x2E := by
    intro e he
    rw [h.empty] at he
    rw [← Option.some.inj he]
    exact ⟨rfl, rfl⟩
  refine ⟨?_, ?_, ?_, ⟨?_, hok, h.holds.pow, files_swap (A := own L') (B := [[c]]) h.holds.files, ?_, ?_⟩, fun j e hj he hls => ⟨j, e, hj, Nat.le_refl _, he, by rw [tail j e hj he]⟩⟩
  · unfold isDir
    rw [a]
    decide
  · unfold readOnly
    rw [a]
    decide
  · have hb : c < Spec.range fs.ty := by
      have := hok.layout.ents.2
      rw [h.shape.1, h.shape.2.2.2.1] at this
      omega
    have b0 : folder fn c tm 26 = Spec.part c 0 := rfl
    have b1 : folder fn c tm 27 = Spec.part c 1 := rfl
    have b2 : folder fn c tm 20 = Spec.part c 2 := rfl
    have b3 : folder fn c tm 21 = Spec.part c 3 := rfl
    unfold Spec.start Spec.le2
    rw [show 0 + 26 = 26 from rfl, show 26 + 1 = 27 from rfl, show 0 + 20 = 20 from rfl, show 20 + 1 = 21 from rfl, b0, b1, b2, b3]
    unfold Spec.part
    simp only [BitVec.toNat_ofNat]
    cases hty : fs.ty with
    | fat12 =>
      rw [hty] at hb
      have : c < 4096 := hb
      rw [if_neg (by decide)]
      omega
    | fat16 =>
      rw [hty] at hb
      have : c < 65536 := hb
      rw [if_neg (by decide)]
      omega
    | fat32 =>
      rw [hty] at hb
      have : c < 268435456 := hb
      rw [if_pos rfl]
      omega
  · obtain ⟨x, hx⟩ := h.holds.files.chains [c] (by simp)
    obtain ⟨_, e⟩ := hx.head
    exact .chain (Or.inl (List.cons.inj e).1) hx
  · intro x y e e' hxy h1 h2 h3
    have h1' : (inside fs' [c])[x]? = some e := h1
    have h2' : (inside fs' [c])[y]? = some e' := h2
    rcases x with _ | _ | x
    · rw [(e0 e h1').1] at h3
      exact absurd h3 (by decide)
    · rw [(e1 e h1').1] at h3
      exact absurd h3 (by decide)
    · rw [tail y e' (by omega) h2']
  · intro gn x y e e' h1 h2 h3 h4 h5 h6 h7
    have h1' : (inside fs' [c])[x]? = some e := h1
    have h2' : (inside fs' [c])[y]? = some e' := h2
    have n1 := h6.2 1 (by decide)
    have n2 := h7.2 1 (by decide)
    have big : ∀ (z : Nat) (u : Item), (inside fs' [c])[z]? = some u → u 0 ≠ 0 → z < 2 := by
      intro z u hz hu
      refine Nat.lt_of_not_le fun k => hu ?_
      rw [tail z u k hz]
    have hx := big x e h1' h3
    have hy := big y e' h2' h4
    rcases x with _ | _ | x <;> rcases y with _ | _ | y
    · rfl
    · rw [(e0 e h1').2] at n1
      rw [(e1 e' h2').2, ← n1] at n2
      exact absurd n2 (by decide)
    · omega
    · rw [(e1 e h1').2] at n1
      rw [(e0 e' h2').2, ← n1] at n2
      exact absurd n2 (by decide)
    · rfl
    · omega
    · omega
    · omega
    · omega

/-- What `f_mkdir` is to do for a path that leads to `o` -/
inductive Founds (fs fs' : Fs) (rt : Root) (dir : Nat → List Item) (fn : Nat → BitVec 8) (tm : Nat) : Outcome → MkdirRes → Prop
  | there {cl i : Nat} : Seen fs fs' → Founds fs fs' rt dir fn tm (.found cl i) (.fr .exist)
  | missing {cl n : Nat} {L : List Nat} {S : Nat → Nat} {O : List (List Nat)} {r : Fr} : dir cl = dirOf fs S n → Holds fs rt cl L S n O → Founding fs fs' rt cl L S n O fn tm r →
      Founds fs fs' rt dir fn tm (.missing cl) (.fr r)
  | noPath : Seen fs fs' → Founds fs fs' rt dir fn tm .noPath .noPath

theorem folder_alike {a b : Nat → BitVec 8} (h : alike a b) (c tm : Nat) : folder a c tm = folder b c tm := by
  funext j
  unfold folder
  by_cases hj : j < 11
  · rw [if_pos hj, if_pos hj, h j hj]
  · rw [if_neg hj, if_neg hj]

/-- **Making directories.** On a consistent volume, if no read or write fails, for paths of names of the form 8.3 without the letters that `create_name` takes for others (`odd`): `f_mkdir` makes an empty directory that is found under
its name, or tells why not and changes nothing. Nothing else changes. -/
theorem mkdir_path_partial {env : Env} (hq : Quiet env) {rt : Root} {K : Nat → Prop} {dir : Nat → List Item} {fs : Fs} (h : Tree fs rt K dir) (hk : Whole fs rt K dir) (vol : Nat) (hv : fs.ty = .fat32 → vol + 1 < fs.fatbase)
    (dp : Dir) (old : Nat → BitVec 8) {path : List (BitVec 8)} {ns : List (List (BitVec 8))} (ht : Text (fun c => ¬ odd c) path ns) (tm : Nat) :
    ∃ fs' r o, fMkdir env rt vol fs dp old path tm = some (fs', r) ∧ Resolves dir fs.ty 0 ns o ∧ Founds fs fs' rt dir (nameOf (ns.getLastD [])) tm o r := by
  obtain ⟨f, d, fn, r, o, a, s, b, c, q⟩ := follow_right_partial hq h dp old ht
  obtain ⟨hp, hdot⟩ := text_proper ht
  unfold fMkdir
  rw [a]
  dsimp only
  cases o with
  | noPath =>
    have c : r = .noPath := c
    subst c
    exact ⟨f, _, _, rfl, b, .noPath s⟩
  | missing cl =>
    obtain ⟨rfl, c⟩ := c
    have q := q rfl
    dsimp only
    rw [if_neg (by simp), if_pos rfl]
    obtain ⟨hcl, habs⟩ := resolves_missing h b (text_names ht) h.root cl rfl
    obtain ⟨L, S, n, O, k1, k2⟩ := hk.dirs cl hcl
    obtain ⟨k4, k5⟩ := k1.seen s
    have hpf : proper fn := by
      unfold proper
      rw [q 0 (by decide)]
      exact hp
    have qs : alike (nameOf (ns.getLastD [])) fn := fun j hj => (q j hj).symm
    obtain ⟨fs', r, e1, e2⟩ := make_entry hq (vol := vol) hpf f k4 (by rw [s.shape.1, s.shape.2.2.2.2.2.1]; exact hv) d c (by rw [k5, ← k2]; exact absent_alike qs habs) tm
    rw [e1]
    refine ⟨fs', _, _, rfl, b, .missing k2 k1 ?_⟩
    dsimp only
    have ot := others_seen k1.ok.layout k1.files s
    have nf : f.nFatent = fs.nFatent := s.shape.2.2.2.1
    cases e2 with
    | noSpace g1 g2 => exact .noSpace (fun x x1 x2 => by rw [← s.entries x x2]; exact g1 x x1 (by omega)) (s.trans g2)
    | full g1 g2 g3 g4 g5 g6 =>
      refine .full g1 (by omega) (by rw [← s.entries _ (by omega)]; exact g3) (by rw [← k5]; exact g4) (g5.imp_right (Or.imp_right fun y x x1 x2 x3 => ?_))
        ⟨g6.holds, s.shape.trans g6.shape, g6.same.trans k5, others_trans ot g6.others s.shape.2.1 s.shape.2.2.2.2.2.2, (s.below k1.ok.layout).trans g6.below s.shape, fun x hx => ?_⟩
      · rw [← s.entries x x2]
        exact y x x1 (by omega) x3
      · rw [g6.entries x (by omega), s.entries x hx]
    | made g =>
      obtain ⟨u1, u2, u3⟩ := g.free
      refine .made ⟨⟨u1, by omega, by rw [← s.entries _ (by omega)]; exact u3⟩, g.holds, s.shape.trans g.shape, others_trans ot g.others s.shape.2.1 s.shape.2.2.2.2.2.2, fun x => (s.below k1.ok.layout).trans (g.below x) s.shape, found_alike q g.found, ?_, fun gn h1 h2 j => ?_, by rw [← k5]; exact g.beside, ?_, g.written⟩
      · rw [← folder_alike q]
        exact g.entry
      · rw [g.names gn h1 (fun x => h2 fun j hj => (x j hj).trans (q j hj)) j, k5]
      · rw [← s.shape.1, ← s.shape.2.1]
        exact g.empty
  | found cl i =>
    obtain ⟨rfl, c⟩ := c
    dsimp only
    rw [if_pos rfl]
    exact ⟨f, _, _, rfl, b, .there s⟩

/-- The root is there already. -/
theorem mkdir_root {env : Env} (hq : Quiet env) {rt : Root} {K : Nat → Prop} {dir : Nat → List Item} {fs : Fs} (h : Tree fs rt K dir) (vol : Nat) (dp : Dir) (old : Nat → BitVec 8) {path : List (BitVec 8)} (ho : Origin path) (tm : Nat) :
    ∃ fs', fMkdir env rt vol fs dp old path tm = some (fs', .fr .exist) ∧ Seen fs fs' := by
  obtain ⟨f, d, a, s, _⟩ := root_path hq h dp old ho
  unfold fMkdir
  rw [a]
  exact ⟨f, rfl, s⟩

/-- Paths that end without a proper name make nothing; such is a path with a separator at its end. -/
theorem mkdir_refused_partial {env : Env} (hq : Quiet env) {rt : Root} {K : Nat → Prop} {dir : Nat → List Item} {fs : Fs} (h : Tree fs rt K dir) (vol : Nat) (dp : Dir) (old : Nat → BitVec 8) {path : List (BitVec 8)}
    {ns : List (List (BitVec 8))} (ht : Trail (fun c => ¬ odd c) path ns) (ho : ¬ Origin path) (tm : Nat) :
    ∃ fs' r, fMkdir env rt vol fs dp old path tm = some (fs', r) ∧ Seen fs fs' ∧ (((∃ cl', Walks dir fs.ty 0 ns cl') ∧ r = .invalidName) ∨ ((¬ ∃ cl', Walks dir fs.ty 0 ns cl') ∧ r = .noPath)) := by
  obtain ⟨f, d, fn, r, a, s, c⟩ := refused_partial hq h dp old ht ho
  unfold fMkdir
  rw [a]
  rcases c with ⟨c, rfl⟩ | ⟨c, rfl⟩
  · exact ⟨f, _, rfl, s, Or.inl ⟨c, rfl⟩⟩
  · exact ⟨f, _, rfl, s, Or.inr ⟨c, rfl⟩⟩

/-! ## An example -/

def mkdirAt (fs : Fs) (path : List (BitVec 8)) : Option (Fs × MkdirRes) := fMkdir calm root 0 fs ⟨0, 0, 0, 0, 0⟩ (fun _ => 0) path 7

/-- `sub` and the file `a` are there, `x` is not, `x/y` leads nowhere, nor does `a/y`; the root is there. -/
example : (mkdirAt home [0x73, 0x75, 0x62]).map (·.2) = some (.fr .exist) ∧ (mkdirAt home [0x61]).map (·.2) = some (.fr .exist) ∧ (mkdirAt home [0x78]).map (·.2) = some (.fr .ok) ∧
    (mkdirAt home [0x78, 0x2F, 0x79]).map (·.2) = some .noPath ∧ (mkdirAt home [0x61, 0x2F, 0x79]).map (·.2) = some .noPath ∧ (mkdirAt home [0x2F]).map (·.2) = some (.fr .exist) ∧
    (mkdirAt home [0x78, 0x2F]).map (·.2) = some .noPath ∧ (mkdirAt home [0x73, 0x75, 0x62, 0x2F]).map (·.2) = some .invalidName := by decide +kernel

/-- `sub/x` is made, and the file `sub/x/y` in it; then `sub/x` cannot be removed; once the file is removed it can. -/
def mkdirStory : Option (MkdirRes × OpenRes × UnlinkRes × UnlinkRes × UnlinkRes × MkdirRes) := do
  let (fs, r1) ← mkdirAt home [0x73, 0x75, 0x62, 0x2F, 0x78]
  let (fs, _, _, r2) ← openAt fs [0x73, 0x75, 0x62, 0x2F, 0x78, 0x2F, 0x79] makingNew
  let (fs, r3) ← fUnlink calm root 0 fs ⟨0, 0, 0, 0, 0⟩ (fun _ => 0) [0x73, 0x75, 0x62, 0x2F, 0x78]
  let (fs, r4) ← fUnlink calm root 0 fs ⟨0, 0, 0, 0, 0⟩ (fun _ => 0) [0x73, 0x75, 0x62, 0x2F, 0x78, 0x2F, 0x79]
  let (fs, r5) ← fUnlink calm root 0 fs ⟨0, 0, 0, 0, 0⟩ (fun _ => 0) [0x73, 0x75, 0x62, 0x2F, 0x78]
  let (_, r6) ← mkdirAt fs [0x73, 0x75, 0x62, 0x2F, 0x78]
  pure (r1, r2, r3, r4, r5, r6)

example : mkdirStory = some (.fr .ok, .fr .ok, .fr .denied, .fr .ok, .fr .ok, .fr .ok) := by decide +kernel

/-- The theorem holds for `home` and the path `x`, and the directory is made and may be used. -/
example : ∃ fs', mkdirAt home [0x78] = some (fs', .fr .ok) ∧ ∃ S n L' S' n' O i c, NewDir home fs' root 0 S n L' S' n' O (nameOf (stored [0x78] [])) i c 7 ∧ Holds fs' root c [c] (fs'.sec [c]) ([c].length * fs'.csize) (own L' ++ O) := by
  obtain ⟨fs', r, o, h1, h2, h3⟩ := mkdir_path_partial calm_quiet home_tree home_whole 0 (by decide) ⟨0, 0, 0, 0, 0⟩ (fun _ => 0)
    (.last (seps := []) (s := [0x78]) (tail := []) (body := [0x78]) (ext := []) (by simp) ⟨Or.inl ⟨rfl, rfl⟩, by decide, by decide⟩ (by decide) (by simp)) 7
  have hr : (mkdirAt home [0x78]).map (·.2) = some (.fr .ok) := by decide +kernel
  unfold mkdirAt at hr ⊢
  simp only [List.nil_append, List.append_nil] at h1
  rw [h1] at hr
  obtain rfl : r = .fr .ok := Option.some.inj hr
  refine ⟨fs', h1, ?_⟩
  have o2 : Resolves homes home.ty 0 [stored [0x78] []] (.missing 0) := by
    refine .missing fun i e he hn => ?_
    have he' : (dirOf home (fun i => root.dirbase + i) 1)[i]? = some e := he
    rw [dirOf_get] at he'
    by_cases hi : i < 16 * 1 ∧ i < 65536
    · rw [if_pos hi] at he'
      have n0 := hn.2 0 (by decide)
      rw [← Option.some.inj he'] at n0
      exact absurd n0 ((by decide +kernel : ∀ i, i < 16 → entryOf home (fun i => root.dirbase + i) i 0 ≠ nameOf (stored [0x78] []) 0) i (by omega))
    · rw [if_neg hi] at he'
      cases he'
  obtain rfl := resolves_unique h2 o2
  cases h3 with
  | missing a b d =>
    cases d with
    | made g => exact ⟨_, _, _, _, _, _, _, _, g, (new_dir_usable g).2.2.2.1⟩

end Verif.Fat
