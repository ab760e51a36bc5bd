import Verif.Fat.MoveLemmas

/-!
# FatFs: moving to another directory — properties
-/

namespace Verif.Fat

open Spec (Ty Item named FoundAt Absent Full alike proper isDir Chain Files Text Origin Outcome Resolves nameOf stored moved Adopted)

/-- The object `e` with the clusters `M` was at entry `i` of the directory `cl` under the name `old`; it is at entry `j` of the directory `cl2` under the name `new`. All other entries, names and files are as before, and all is on the disk. -/
structure MovedTo (fs fs' : Fs) (rt : Root) (cl : Nat) (L : List Nat) (S : Nat → Nat) (n : Nat) (cl2 : Nat) (S2 : Nat → Nat) (n2 : Nat) (L2' : List Nat) (S2' : Nat → Nat) (n2' : Nat) (M : List Nat) (O : List (List Nat))
    (old new : Nat → BitVec 8) (i j : Nat) (e : Item) : Prop where
  source : Holds fs' rt cl L S n (own L2' ++ (own M ++ O))
  target : Holds fs' rt cl2 L2' S2' n2' (own L ++ (own M ++ O))
  shape : Shape fs fs'
  others : Others fs fs' O
  /-- also the root, if neither directory is the root -/
  below : L ≠ [] → L2' ≠ [] → Below fs fs'
  gone : Absent (dirOf fs' S n) old
  left : dirOf fs' S n = (dirOf fs S n).set i Spec.deleted
  leftNames : ∀ gn, proper gn → ¬ alike gn old → ∀ k, FoundAt (dirOf fs' S n) gn k ↔ FoundAt (dirOf fs S n) gn k
  found : FoundAt (dirOf fs' S2' n2') new j
  entry : (dirOf fs' S2' n2')[j]? = some (moved e new)
  names : ∀ gn, proper gn → ¬ alike gn new → ∀ k, FoundAt (dirOf fs' S2' n2') gn k ↔ FoundAt (dirOf fs S2 n2) gn k
  beside : Spec.Beside (dirOf fs S2 n2) (dirOf fs' S2' n2') j
  /-- a file has its data -/
  file : ¬ isDir e → Others fs fs' (own M)
  /-- a directory has its entries, but `..`, which leads to the new place -/
  folder : isDir e → Adopted (dirOf fs (fs.sec M) (M.length * fs.csize)) (dirOf fs' (fs.sec M) (M.length * fs.csize)) (if fs.ty = .fat32 ∧ cl2 = rt.dirbase then 0 else cl2)
  written : ∀ s, fs'.disk s = fs'.look s

/-- What `f_rename` is to do if the new name is not in the other directory `cl2` -/
inductive Carrying (fs fs' : Fs) (rt : Root) (cl : Nat) (L : List Nat) (S : Nat → Nat) (n : Nat) (cl2 : Nat) (L2 : List Nat) (S2 : Nat → Nat) (n2 : Nat) (M : List Nat) (O : List (List Nat)) (old new : Nat → BitVec 8) (i : Nat) (e : Item) : Fr → Prop
  /-- there is no room for another entry -/
  | full : Full (dirOf fs S2 n2) → NoRoom fs L2 n2 → Seen fs fs' → Carrying fs fs' rt cl L S n cl2 L2 S2 n2 M O old new i e .denied
  | moved {L2' : List Nat} {S2' : Nat → Nat} {n2' j : Nat} : MovedTo fs fs' rt cl L S n cl2 S2 n2 L2' S2' n2' M O old new i j e → Carrying fs fs' rt cl L S n cl2 L2 S2 n2 M O old new i e .ok

/-- After the new name was not found in the other directory -/
theorem move_entry {env : Env} (hq : Quiet env) {rt : Root} {vol : Nat} {old new : Nat → BitVec 8} (ho : proper old) (hp : proper new) {cl n cl2 n2 : Nat} {L L2 M : List Nat} {S S2 : Nat → Nat} {O : List (List Nat)} (fs : Fs)
    (hA : Holds fs rt cl L S n (own L2 ++ (own M ++ O))) (hB : Holds fs rt cl2 L2 S2 n2 (own L ++ (own M ++ O))) (hne : cl ≠ cl2)
    (hv : fs.ty = .fat32 → vol + 1 < fs.fatbase) (djo djn : Dir) {i : Nat} (hix : djo.index = i) (hco : djo.sclust = cl) (hcn : djn.sclust = cl2) (hf : FoundAt (dirOf fs S n) old i) {e : Item} (he : (dirOf fs S n)[i]? = some e)
    (habs : Absent (dirOf fs S2 n2) new) (buf : Nat → BitVec 8) (hb : ∀ j, j < 21 → buf j = e (11 + j)) (hst : Spec.start fs.ty e 0 = M.headD 0) (hdir : isDir e → M ≠ []) :
    ∃ fs' r, moveEntry env rt vol fs djo djn new buf = some (fs', r) ∧ Carrying fs fs' rt cl L S n cl2 L2 S2 n2 M O old new i e r := by
  have notBoth : L = [] → L2 ≠ [] := by
    intro x y
    have a := hA.area
    have b := hB.area
    rw [x] at a
    rw [y] at b
    exact hne ((area_root a).trans (area_root b).symm)
  obtain ⟨f, d, r, a, b⟩ := register_spec hq rt new hp fs hB djn hcn habs
  unfold moveEntry
  rw [a]
  dsimp only
  rcases b with ⟨rfl, b1, b2, b3⟩ | ⟨rfl, L2', S2', n2', j, h3, sh3, ot3, at3, w3, wb3, fd3, en3, nm3, bs3, bl3, bz3⟩
  · rw [if_pos (by simp)]
    exact ⟨_, _, rfl, .full b2 b3 b1⟩
  rw [if_neg (by simp)]
  have notBoth' : L2' = [] → L ≠ [] := fun x y => (bl3 (notBoth y)).1 x
  -- the entry in the new directory
  obtain ⟨a3, dA3⟩ := bystander (Q := own L2' ++ (own M ++ O)) hA sh3 h3.ok (files_swap h3.files) (others_sub ot3 fun X hX => List.mem_append_left _ hX) fun x => (bl3 (notBoth x)).2
  obtain ⟨e', e1, e2⟩ := hf.hit
  have ee : e' = e := Option.some.inj (e1.symm.trans he)
  subst ee
  obtain ⟨m1, m2⟩ := moved_fresh (fn := new) hb wb3
  have x0 : moved e' new 0 = Spec.fresh new 0 := rfl
  obtain ⟨h4, hD4, sh4, ot4, en4, w4, bl4⟩ := edit_spec f h3 d at3 w3 en3 _ (moved e' new) m1
    (fun k hk => by
      unfold moved
      rw [if_neg (by omega), if_neg (by omega), if_neg (by omega), if_neg (by omega)]) m2 x0 (fun gn => moved_named e2.1 gn)
  have m1' : ∀ k, k < 32 → ({ f with win := movedEntry f.win d.off buf, wflag := true } : Fs).win (d.off + k) = moved e' new k := m1
  generalize ({ f with win := movedEntry f.win d.off buf, wflag := true } : Fs) = f4 at *
  obtain ⟨a4, dA4⟩ := bystander (Q := own L2' ++ (own M ++ O)) a3 sh4 h4.ok (files_swap h4.files) (others_sub ot4 fun X hX => List.mem_append_left _ hX) fun x => bl4 fun y => notBoth' y x
  have sh04 := sh3.trans sh4
  have ot04 : Others fs f4 (own L ++ (own M ++ O)) := others_trans ot3 ot4 sh3.2.1 sh3.2.2.2.2.2.2
  -- the entry `..`
  obtain ⟨ms1, _, ms3, _⟩ := moved_same e' new f4.ty
  have hF4 : Files f4.entryAt f4.nFatent (own M ++ (own L ++ (own L2' ++ O))) := by
    refine files_swap (A := own L) (B := own M) ?_
    have q := files_swap (A := own L2') (B := own L) h4.files
    have q2 : Files f4.entryAt f4.nFatent ((own L ++ own L2') ++ (own M ++ O)) := by
      rw [List.append_assoc]
      exact q
    have q3 := files_swap q2
    rw [List.append_assoc] at q3
    exact files_swap (A := own M) (B := own L) q3
  obtain ⟨f5, r5, sh5, ok5, hF5, ot5, bl5, en5, nd5, dd5⟩ := fix_spec hq rt f4 h4.ok (M := M) (R := own L ++ (own L2' ++ O)) hF4 (o := d.off) (c := djo.sclust) (c2 := d.sclust) (by rw [hco, at3.sclust]; exact hne)
    m1' (by rw [ms1, sh04.1]; exact hst) (fun x => hdir (ms3.mp x))
  rw [r5]
  dsimp only
  rw [if_neg (by simp)]
  obtain ⟨b5, dB5⟩ := bystander (Q := own L ++ (own M ++ O)) h4 sh5 ok5 (by rw [sh5.2.2.2.1]; exact files_congr h4.files en5) (others_sub ot5 fun X hX => List.mem_append_right _ (List.mem_append_left _ hX)) fun _ => bl5
  obtain ⟨a5, dA5⟩ := bystander (Q := own L2' ++ (own M ++ O)) a4 sh5 ok5 (files_swap b5.files) (others_sub ot5 fun X hX => List.mem_append_left _ hX) fun _ => bl5
  have sh05 := sh04.trans sh5
  have dA : dirOf f5 S n = dirOf fs S n := dA5.trans (dA4.trans dA3)
  -- the old entry
  have fo5 : FoundAt (dirOf f5 S n) old i := by
    rw [dA]
    exact hf
  have hi : i < 16 * n ∧ i < 65536 := by
    rw [dirOf_get] at e1
    by_cases hc : i < 16 * n ∧ i < 65536
    · exact hc
    · rw [if_neg hc] at e1
      cases e1
  obtain ⟨f6, d6, r6, a6, dA6, sh6, en6, ot6, w6, bl6⟩ := erase_at hq rt f5 a5 djo hix hco hi fo5
  rw [r6]
  dsimp only
  rw [if_pos rfl]
  obtain ⟨b6, dB6⟩ := bystander (Q := own L ++ (own M ++ O)) b5 sh6 a6.ok (files_swap a6.files) (others_sub ot6 fun X hX => List.mem_append_left _ hX) fun x => bl6 (notBoth' x)
  have sh06 := sh05.trans sh6
  -- all is written
  obtain ⟨f7, r7, a7, dA7, sh7, ot7, en7, wr7, bl7⟩ := settle_spec hq (vol := vol) f6 a6 (by rw [sh06.1, sh06.2.2.2.2.2.1]; exact hv) (k := i / 16) (by omega) w6
  rw [r7]
  obtain ⟨b7, dB7⟩ := bystander (Q := own L ++ (own M ++ O)) b6 sh7 a7.ok (files_swap a7.files) (others_sub ot7 fun X hX => List.mem_append_left _ hX) fun _ => bl7
  have hDA : dirOf f7 S n = (dirOf fs S n).set i Spec.deleted := by rw [dA7, dA6, dA]
  have hDB : dirOf f7 S2' n2' = (dirOf f S2' n2').set j (moved e' new) := by rw [dB7, dB6, dB5, hD4]
  have nmB : ∀ gn k, FoundAt (dirOf f7 S2' n2') gn k ↔ FoundAt (dirOf f S2' n2') gn k := by
    rw [hDB]
    exact fun gn k => same_found en3 x0 (fun gn => moved_named e2.1 gn) gn k
  have ot57 : Others f5 f7 (own L2' ++ (own M ++ O)) := others_trans ot6 ot7 sh6.2.1 sh6.2.2.2.2.2.2
  have ot5M : Others f5 f7 (own M) := others_sub ot57 fun X hX => List.mem_append_right _ (List.mem_append_left _ hX)
  have ot4M : Others fs f4 (own M) := others_sub ot04 fun X hX => List.mem_append_right _ (List.mem_append_left _ hX)
  refine ⟨f7, _, rfl, .moved (L2' := L2') (S2' := S2') (n2' := n2') (j := j) ⟨a7, b7, sh06.trans sh7, ?_,
    fun x y => ((((bl3 fun z => y (bz3 z)).2.trans (bl4 y) sh3).trans bl5 sh04).trans (bl6 x) sh05).trans bl7 sh06, ?_, hDA, fun gn g1 g2 k => ?_, (nmB new j).mpr fd3, ?_, fun gn g1 g2 k => ?_, fun k k1 k2 => ?_, fun x => ?_, fun x => ?_, wr7⟩⟩
  · have o1 : Others fs f4 O := others_sub ot04 fun X hX => List.mem_append_right _ (List.mem_append_right _ hX)
    have o2 : Others f4 f5 O := others_sub ot5 fun X hX => List.mem_append_right _ (List.mem_append_right _ hX)
    have o3 : Others f5 f7 O := others_sub ot57 fun X hX => List.mem_append_right _ (List.mem_append_right _ hX)
    exact others_trans (others_trans o1 o2 sh04.2.1 sh04.2.2.2.2.2.2) o3 sh05.2.1 sh05.2.2.2.2.2.2
  · rw [hDA]
    exact deleted_absent hf hA.distinct ho
  · rw [hDA]
    exact deleted_others hf gn g1 g2 k
  · rw [hDB, set_get fd3.lt, if_pos rfl]
  · rw [nmB gn k, nm3 gn g1 g2 k]
  · rw [hDB, set_get fd3.lt, if_neg (Ne.symm k2), bs3 k k1 k2]
  · have o2 := nd5 fun y => x (ms3.mp y)
    exact others_trans (others_trans ot4M o2 sh04.2.1 sh04.2.2.2.2.2.2) ot5M sh05.2.1 sh05.2.2.2.2.2.2
  · have o2 := dd5 (ms3.mpr x)
    have eS : f4.sec M = fs.sec M := funext fun k => sh04.sec M k
    have eS5 : f5.sec M = fs.sec M := funext fun k => sh05.sec M k
    have q4 := dirOf_others ot4M
    have q7 := dirOf_others ot5M
    rw [eS5, sh05.2.1] at q7
    rw [eS, sh04.2.1, sh04.1, at3.sclust, q4] at o2
    rw [q7]
    exact o2

/-- The directories `cl` and `cl2` and the clusters of the object `e` are apart from each other: so `cl2` is not the object itself. -/
def Joint (fs : Fs) (rt : Root) (dir : Nat → List Item) (cl cl2 : Nat) (e : Item) (L : List Nat) (S : Nat → Nat) (n : Nat) (L2 : List Nat) (S2 : Nat → Nat) (n2 : Nat) (M : List Nat) (O : List (List Nat)) : Prop :=
  Holds fs rt cl L S n (own L2 ++ (own M ++ O)) ∧ dir cl = dirOf fs S n ∧ Holds fs rt cl2 L2 S2 n2 (own L ++ (own M ++ O)) ∧ dir cl2 = dirOf fs S2 n2 ∧ Spec.start fs.ty e 0 = M.headD 0 ∧ (isDir e → M ≠ [])

/-- What `f_rename` is to do for an old path that leads to `o` -/
inductive Moves (fs fs' : Fs) (rt : Root) (dir : Nat → List Item) (old new : Nat → BitVec 8) (ns' : List (List (BitVec 8))) (o : Outcome) (r : OpenRes) : Prop
  | here : Renames fs fs' rt dir old new ns' o r → Moves fs fs' rt dir old new ns' o r
  /-- it is moved to the other directory `cl2` -/
  | away {cl i cl2 n n2 : Nat} {L L2 M : List Nat} {S S2 : Nat → Nat} {O : List (List Nat)} {e : Item} {q : Fr} : o = .found cl i → r = .fr q → Resolves dir fs.ty 0 ns' (.missing cl2) → cl2 ≠ cl → (dir cl)[i]? = some e →
      Joint fs rt dir cl cl2 e L S n L2 S2 n2 M O → Carrying fs fs' rt cl L S n cl2 L2 S2 n2 M O old new i e q → Moves fs fs' rt dir old new ns' o r

/-- **Renaming and moving.** On a consistent volume, if no read or write fails, for paths of names of the form 8.3 without the letters that `create_name` takes for others (`odd`): `f_rename` gives the object the new name in the directory of the new path,
or changes nothing and tells why. A directory that is moved to another one knows its new parent. Nothing else changes. Not covered: that a directory is moved
into itself, which `f_rename` does not prevent; see `rename_into_itself`. That the new place is further below it is not prevented either: then what is said here holds, but no path leads to the directory; see `rename_below_itself`. -/
theorem move_partial {env : Env} (hq : Quiet env) {rt : Root} {K : Nat → Prop} {dir : Nat → List Item} {fs : Fs} (h : Tree fs rt K dir) (hk : Whole fs rt K dir) (vol : Nat) (hv : fs.ty = .fat32 → vol + 1 < fs.fatbase)
    (dp : Dir) (old : Nat → BitVec 8) {path path' : List (BitVec 8)} {ns ns' : List (List (BitVec 8))} (ht : Text (fun c => ¬ odd c) path ns) (ht' : Text (fun c => ¬ odd c) path' ns')
    (hj : ∀ cl i cl2 e, Resolves dir fs.ty 0 ns (.found cl i) → Resolves dir fs.ty 0 ns' (.missing cl2) → cl2 ≠ cl → (dir cl)[i]? = some e → ∃ L S n L2 S2 n2 M O, Joint fs rt dir cl cl2 e L S n L2 S2 n2 M O) :
    ∃ fs' r o, fRename env rt vol fs dp old path path' = some (fs', r) ∧ Resolves dir fs.ty 0 ns o ∧ Moves fs fs' rt dir (nameOf (ns.getLastD [])) (nameOf (ns'.getLastD [])) ns' o r := by
  by_cases hsame : ∀ cl i cl', Resolves dir fs.ty 0 ns (.found cl i) → Resolves dir fs.ty 0 ns' (.missing cl') → cl' = cl
  · obtain ⟨f, r, o, a, b, c⟩ := rename_partial hq h hk vol hv dp old ht ht' hsame
    exact ⟨f, r, o, a, b, .here c⟩
  obtain ⟨cl, hsame⟩ := Classical.not_forall.mp hsame
  obtain ⟨i, hsame⟩ := Classical.not_forall.mp hsame
  obtain ⟨cl2, hsame⟩ := Classical.not_forall.mp hsame
  obtain ⟨g1, hsame⟩ := Classical.not_imp.mp hsame
  obtain ⟨g2, g3⟩ := Classical.not_imp.mp hsame
  obtain ⟨f, d, fn, r, o, a, s, b, c, q⟩ := follow_right_partial hq h dp old ht
  obtain ⟨hp, hdot⟩ := text_proper ht
  obtain ⟨hp', _⟩ := text_proper ht'
  obtain rfl := resolves_unique b g1
  obtain ⟨rfl, c⟩ := c
  unfold fRename
  rw [a]
  dsimp only
  rw [if_pos rfl]
  obtain ⟨hcl, hf⟩ := resolves_place h b (text_names ht) h.root cl i rfl
  obtain ⟨e, he, hnm⟩ := hf.hit
  obtain ⟨L', S', n', p1, p2, p3⟩ := c.place
  have ce := c.entry e he
  obtain ⟨f', d', fn', r', o', a', s', b', c', q'⟩ := follow_right_partial hq (h.seen s) d fn ht'
  rw [s.shape.1] at b'
  obtain rfl := resolves_unique b' g2
  obtain ⟨rfl, c'⟩ := c'
  have ss := s.trans s'
  have q' := q' rfl
  rw [a']
  dsimp only
  rw [if_neg (by simp), if_pos rfl]
  obtain ⟨_, habs⟩ := resolves_missing h b' (text_names ht') h.root cl2 rfl
  obtain ⟨L, S, n, L2, S2, n2, M, O, j⟩ := hj cl i cl2 e g1 g2 g3 he
  obtain ⟨j1, j2, j3, j4, j5, j6⟩ := id j
  obtain ⟨k1, k2⟩ := j1.seen ss
  obtain ⟨k3, k4⟩ := j3.seen ss
  have hpf : proper fn' := by
    unfold proper
    rw [q' 0 (by decide)]
    exact hp'
  have qs : alike (nameOf (ns'.getLastD [])) fn' := fun j hj => (q' j hj).symm
  obtain ⟨f'', r, e1, e2⟩ := move_entry hq (vol := vol) hp hpf f' k1 k3 (Ne.symm g3) (by rw [ss.shape.1, ss.shape.2.2.2.2.2.1]; exact hv) d d' p2.index p2.sclust c' (by rw [k2, ← j2]; exact hf) (e := e) (by rw [k2, ← j2]; exact he)
    (by rw [k4, ← j4]; exact absent_alike qs habs) (fun j => f.win (d.off + 11 + j)) (fun j hj => by
      have := ce (11 + j) (by omega)
      rw [← Nat.add_assoc] at this
      exact this) (by rw [ss.shape.1]; exact j5) j6
  rw [e1]
  refine ⟨f'', _, _, rfl, b, .away rfl rfl b' g3 he j ?_⟩
  dsimp only
  cases e2 with
  | full t1 t2 t3 =>
    refine .full (by rw [← k4]; exact t1) (t2.imp_right (Or.imp_right fun y c h1 h2 => ?_)) (ss.trans t3)
    rw [← ss.entries c h2]
    exact y c h1 (by rw [ss.shape.2.2.2.1]; exact h2)
  | moved g =>
    have em : moved e fn' = moved e (nameOf (ns'.getLastD [])) := by
      funext j
      unfold moved
      by_cases hj : j < 11
      · rw [if_pos hj, if_pos hj, q' j hj]
      · rw [if_neg hj, if_neg hj]
    have os : Others fs f' (own L2 ++ (own M ++ O)) := others_seen j1.ok.layout j1.files ss
    have osM : Others fs f' (own M) := others_sub os fun X hX => List.mem_append_right _ (List.mem_append_left _ hX)
    have osO : Others fs f' O := others_sub os fun X hX => List.mem_append_right _ (List.mem_append_right _ hX)
    refine .moved ⟨g.source, g.target, ss.shape.trans g.shape, others_trans osO g.others ss.shape.2.1 ss.shape.2.2.2.2.2.2, fun x y => (ss.below j1.ok.layout).trans (g.below x y) ss.shape, g.gone, by rw [← k2]; exact g.left, by rw [← k2]; exact g.leftNames, found_alike q' g.found, by rw [← em]; exact g.entry,
      fun gn g1 g2 k => ?_, by rw [← k4]; exact g.beside, fun x => others_trans osM (g.file x) ss.shape.2.1 ss.shape.2.2.2.2.2.2, fun x => ?_, g.written⟩
    · rw [g.names gn g1 (fun x => g2 fun j hj => (x j hj).trans (q' j hj)) k, k4]
    · have t := g.folder x
      have eS : f'.sec M = fs.sec M := funext fun k => ss.shape.sec M k
      have q4 := dirOf_others osM
      rw [eS, ss.shape.2.1, ss.shape.1, q4] at t
      exact t

/-! ## An example -/

/-- The directory `d` is made, and `sub` is moved to `d/s`: the reply, those to opening `d/s/b` and `sub/b`, where `..` of the directory led and leads to, and the cluster of `d` -/
def carryStory : Option (List OpenRes × List (BitVec 8)) := do
  let (fs, _) ← mkdirAt home [0x64]
  let b1 := fs.look 10 58
  let (fs, r2) ← renameAt fs [0x73, 0x75, 0x62] [0x64, 0x2F, 0x73]
  let b2 := fs.look 10 58
  let (fs, _, _, r3) ← openAt fs [0x64, 0x2F, 0x73, 0x2F, 0x62] forReading
  let (fs, _, _, r4) ← openAt fs [0x73, 0x75, 0x62, 0x2F, 0x62] forReading
  pure ([r2, r3, r4], [b1, b2, fs.look 5 122])

example : carryStory = some ([.fr .ok, .fr .ok, .noPath], [0, 5, 5]) := by decide +kernel

/-- The directory `sub/d` is made, and `sub` is moved to `sub/d/x`: the reply, and those to opening `sub/b` and `sub/d/x/b` -/
def belowStory : Option (List OpenRes) := do
  let (fs, _) ← mkdirAt home [0x73, 0x75, 0x62, 0x2F, 0x64]
  let (fs, r2) ← renameAt fs [0x73, 0x75, 0x62] [0x73, 0x75, 0x62, 0x2F, 0x64, 0x2F, 0x78]
  let (fs, _, _, r3) ← openAt fs [0x73, 0x75, 0x62, 0x2F, 0x62] forReading
  let (_, _, _, r4) ← openAt fs [0x73, 0x75, 0x62, 0x2F, 0x64, 0x2F, 0x78, 0x2F, 0x62] forReading
  pure [r2, r3, r4]

/-- A directory can be moved to a place below itself: `f_rename` replies that all is well, and no path leads to it any more. -/
theorem rename_below_itself : belowStory = some [.fr .ok, .noPath, .noPath] := by decide +kernel

theorem home_at (cl i : Nat) (fn : Nat → BitVec 8) (hi : i < 16) (h1 : named fn (entryOf home (if cl = 0 then fun i => root.dirbase + i else home.sec [2]) i))
    (h0 : ∀ k, k ≤ i → entryOf home (if cl = 0 then fun i => root.dirbase + i else home.sec [2]) k 0 ≠ 0) (h2 : ∀ k, k < i → entryOf home (if cl = 0 then fun i => root.dirbase + i else home.sec [2]) k 0 ≠ fn 0) : FoundAt (homes cl) fn i := by
  have get : ∀ k, k < 16 → (homes cl)[k]? = some (entryOf home (if cl = 0 then fun i => root.dirbase + i else home.sec [2]) k) := fun k hk => by
    unfold homes
    rw [dirOf_get, if_pos ⟨by omega, by omega⟩]
  refine ⟨⟨_, get i hi, h1⟩, fun k hk e he => ?_, fun k hk e he hn => ?_⟩
  · rw [get k (by omega)] at he
    rw [← Option.some.inj he]
    exact h0 k hk
  · rw [get k (by omega)] at he
    rw [← Option.some.inj he] at hn
    exact h2 k hk (hn.2 0 (by decide))

/-- The theorem holds for `home` and the paths `a` and `sub/x`, -/
theorem home_carry : ∃ fs' r o, fRename calm root 0 home ⟨0, 0, 0, 0, 0⟩ (fun _ => 0) ([] ++ [0x61] ++ []) ([] ++ [0x73, 0x75, 0x62] ++ 0x2F :: ([] ++ [0x78] ++ [])) = some (fs', r) ∧ Resolves homes home.ty 0 [stored [0x61] []] o ∧
    Moves home fs' root homes (nameOf (stored [0x61] [])) (nameOf (stored [0x78] [])) [stored [0x73, 0x75, 0x62] [], stored [0x78] []] o r := by
  refine move_partial calm_quiet home_tree home_whole 0 (by decide) ⟨0, 0, 0, 0, 0⟩ (fun _ => 0)
    (.last (seps := []) (s := [0x61]) (tail := []) (body := [0x61]) (ext := []) (by simp) ⟨Or.inl ⟨rfl, rfl⟩, by decide, by decide⟩ (by decide) (by simp))
    (.more (seps := []) (s := [0x73, 0x75, 0x62]) (body := [0x73, 0x75, 0x62]) (ext := []) (by simp) ⟨Or.inl ⟨rfl, rfl⟩, by decide, by decide⟩ (by decide) (Or.inl rfl)
      (.last (seps := []) (s := [0x78]) (tail := []) (body := [0x78]) (ext := []) (by simp) ⟨Or.inl ⟨rfl, rfl⟩, by decide, by decide⟩ (by decide) (by simp)))
    fun cl i cl2 e h k hne he => ?_
  have a1 : FoundAt (homes 0) (nameOf (stored [0x61] [])) 0 := home_at 0 0 _ (by decide) ⟨by decide +kernel, by decide +kernel⟩ (by decide +kernel) (by decide +kernel)
  have a2 : FoundAt (homes 0) (nameOf (stored [0x73, 0x75, 0x62] [])) 1 := home_at 0 1 _ (by decide) ⟨by decide +kernel, by decide +kernel⟩ (by decide +kernel) (by decide +kernel)
  have get : ∀ k, k < 16 → (homes 0)[k]? = some (entryOf home (fun i => root.dirbase + i) k) := fun k hk => by
    unfold homes
    rw [dirOf_get, if_pos ⟨by omega, by omega⟩]
    rfl
  cases h with
  | found h =>
    obtain rfl := found_unique h a1
    cases k with
    | down k1 k2 k3 k4 =>
      obtain rfl := found_unique k1 a2
      rw [get 1 (by decide)] at k2
      obtain rfl := Option.some.inj k2
      have e2 : Spec.start home.ty (entryOf home (fun i => root.dirbase + i) 1) 0 = 2 := by decide +kernel
      rw [e2] at k4
      cases k4 with
      | missing k4 =>
        rw [get 0 (by decide)] at he
        obtain rfl := Option.some.inj he
        have hl := home_sub
        exact ⟨[], fun i => root.dirbase + i, 1, [2], home.sec [2], 1, [3], [[4]], home_root (M := [2]) (O := own [3] ++ [[4]]) (home_files _ (by decide) (by decide) (by decide)), rfl,
          ⟨hl.area, hl.ok, hl.pow, home_files _ (by decide) (by decide) (by decide), hl.tidy, hl.distinct⟩, rfl, by decide +kernel, fun _ => by simp⟩

/-- and the file is moved: the reply is ok, and the place is another one. -/
example : ∃ fs', renameAt home [0x61] [0x73, 0x75, 0x62, 0x2F, 0x78] = some (fs', .fr .ok) ∧
    ∃ cl cl2 L S n S2 n2 L2' S2' n2' M O i j e, cl2 ≠ cl ∧ MovedTo home fs' root cl L S n cl2 S2 n2 L2' S2' n2' M O (nameOf (stored [0x61] [])) (nameOf (stored [0x78] [])) i j e := by
  obtain ⟨fs', r, o, h1, h2, h3⟩ := home_carry
  have hr : (renameAt home [0x61] [0x73, 0x75, 0x62, 0x2F, 0x78]).map (·.2) = some (.fr .ok) := by decide +kernel
  unfold renameAt at hr ⊢
  simp only [List.nil_append, List.append_nil, List.cons_append] at h1
  rw [h1] at hr
  obtain rfl : r = .fr .ok := Option.some.inj hr
  refine ⟨fs', h1, ?_⟩
  cases h3 with
  | away a1 a2 a3 a4 a5 a6 a7 =>
    cases a2
    cases a7 with
    | moved g => exact ⟨_, _, _, _, _, _, _, _, _, _, _, _, _, _, _, a4, g⟩
  | here x =>
    cases x with
    | there a1 a2 a3 a4 a5 a6 =>
      cases h2 with
      | found h2 =>
        cases a1 with
        | down k1 k2 k3 k4 =>
          have e1 := found_unique k1 (home_at 0 1 (nameOf (stored [0x73, 0x75, 0x62] [])) (by decide) ⟨by decide +kernel, by decide +kernel⟩ (by decide +kernel) (by decide +kernel))
          subst e1
          unfold homes at k2
          rw [dirOf_get, if_pos ⟨by omega, by omega⟩] at k2
          obtain rfl := Option.some.inj k2
          generalize hz : Spec.start home.ty (entryOf home (if 0 = 0 then fun i => root.dirbase + i else home.sec [2]) 1) 0 = z at k4
          cases k4
          exact absurd hz (by decide +kernel)

end Verif.Fat
