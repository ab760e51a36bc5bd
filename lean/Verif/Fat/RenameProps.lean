import Verif.Fat.RenameModel
import Verif.Fat.RenameSpec
import Verif.Fat.ChangeProps

/-!
# FatFs: renaming — properties
-/

namespace Verif.Fat

open Spec (Ty Item named FoundAt Absent Full alike proper isDir Chain Files Text Origin Trail Walks Outcome Resolves nameOf stored moved)

/-- The object `e` that was at entry `i` under the name `old` is at entry `j` under the name `new`. All other entries, names and files are as before, and all is on the disk. -/
structure Renamed (fs fs' : Fs) (rt : Root) (cl : Nat) (S : Nat → Nat) (n : Nat) (L' : List Nat) (S' : Nat → Nat) (n' : Nat) (O : List (List Nat)) (old new : Nat → BitVec 8) (i j : Nat) (e : Item) : Prop where
  holds : Holds fs' rt cl L' S' n' O
  shape : Shape fs fs'
  others : Others fs fs' O
  /-- also the root, if the directory is another one -/
  below : L' ≠ [] → Below fs fs'
  found : FoundAt (dirOf fs' S' n') new j
  entry : (dirOf fs' S' n')[j]? = some (moved e new)
  gone : Absent (dirOf fs' S' n') old
  names : ∀ gn, proper gn → ¬ alike gn old → ¬ alike gn new → ∀ k, FoundAt (dirOf fs' S' n') gn k ↔ FoundAt (dirOf fs S n) gn k
  beside : ∀ k, k < (dirOf fs S n).length → k ≠ i → k ≠ j → (dirOf fs' S' n')[k]? = (dirOf fs S n)[k]?
  written : ∀ s, fs'.disk s = fs'.look s

/-- What `f_rename` is to do if the new name is not in the directory of the old one -/
inductive Moving (fs fs' : Fs) (rt : Root) (cl : Nat) (L : List Nat) (S : Nat → Nat) (n : Nat) (O : List (List Nat)) (old new : Nat → BitVec 8) (i : Nat) (e : Item) : Fr → Prop
  /-- there is no room for another entry; the old one is not used -/
  | full : Full (dirOf fs S n) → NoRoom fs L n → Seen fs fs' → Moving fs fs' rt cl L S n O old new i e .denied
  | moved {L' : List Nat} {S' : Nat → Nat} {n' j : Nat} : Renamed fs fs' rt cl S n L' S' n' O old new i j e → Moving fs fs' rt cl L S n O old new i e .ok

theorem moved_fresh {e : Item} {fn : Nat → BitVec 8} {w : Sector} {o : Nat} {buf : Nat → BitVec 8} (hb : ∀ j, j < 21 → buf j = e (11 + j)) (hw : ∀ j, j < 32 → w (o + j) = Spec.fresh fn j) :
    (∀ j, j < 32 → movedEntry w o buf (o + j) = moved e fn j) ∧ ∀ j, ¬ (o ≤ j ∧ j < o + 32) → movedEntry w o buf j = w j := by
  unfold movedEntry set moved
  refine ⟨fun j hj => ?_, fun j hj => ?_⟩
  · dsimp only
    by_cases h11 : j = 11
    · rw [if_pos (by omega), if_neg (by omega), if_pos h11, hb 0 (by decide)]
    rw [if_neg (by omega)]
    by_cases h13 : 13 ≤ j
    · rw [if_pos (by omega), if_neg (by omega), if_neg h11, if_neg (by omega), if_pos hj, hb _ (by omega)]
      congr 1
      omega
    rw [if_neg (by omega), hw j hj]
    unfold Spec.fresh
    by_cases h : j < 11
    · rw [if_pos h, if_pos h]
    · rw [if_neg h, if_neg h, if_neg h11, if_pos (by omega)]
  · dsimp only
    rw [if_neg (by omega), if_neg (by omega)]

theorem moved_named {e : Item} {fn : Nat → BitVec 8} (he : e 11 &&& 8 = 0) (gn : Nat → BitVec 8) : named gn (moved e fn) ↔ named gn (Spec.fresh fn) := by
  have m11 : moved e fn 11 = e 11 ||| 0x20 := by
    unfold moved
    rw [if_neg (by decide), if_pos rfl]
  have f11 : Spec.fresh fn 11 = 0 := if_neg (by decide)
  have key : ∀ a : BitVec 8, a &&& 8 = 0 → (a ||| 0x20) &&& 8 = 0 := by decide +kernel
  unfold named
  rw [m11, f11]
  refine and_congr ⟨fun _ => by decide, fun _ => key _ he⟩ ⟨fun k j hj => ?_, fun k j hj => ?_⟩
  · rw [← k j hj]
    unfold moved Spec.fresh
    rw [if_pos hj, if_pos hj]
  · rw [← k j hj]
    unfold moved Spec.fresh
    rw [if_pos hj, if_pos hj]

/-- A name that is there is not like one that is not. -/
theorem unalike {D : List Item} {a b : Nat → BitVec 8} {i : Nat} (h : FoundAt D a i) (k : Absent D b) : ¬ alike a b := by
  intro x
  obtain ⟨e, e1, e2⟩ := h.hit
  obtain ⟨j, e', q1, q2, q3⟩ := k i e e1 ⟨e2.1, fun j hj => by rw [e2.2 j hj, x j hj]⟩
  exact h.before j q1 e' q2 q3

/-- After the new name was not found in the directory of the old one -/
theorem rename_entry {env : Env} (hq : Quiet env) {rt : Root} {vol : Nat} {old new : Nat → BitVec 8} (ho : proper old) (hp : proper new) {cl n : Nat} {L : List Nat} {S : Nat → Nat} {O : List (List Nat)} (fs : Fs) (h : Holds fs rt cl L S n O)
    (hv : fs.ty = .fat32 → vol + 1 < fs.fatbase) (djo djn : Dir) {i : Nat} (hix : djo.index = i) (hco : djo.sclust = cl) (hcn : djn.sclust = cl) (hf : FoundAt (dirOf fs S n) old i) {e : Item} (he : (dirOf fs S n)[i]? = some e)
    (habs : Absent (dirOf fs S n) new) (buf : Nat → BitVec 8) (hb : ∀ j, j < 21 → buf j = e (11 + j)) :
    ∃ fs' r, moveEntry env rt vol fs djo djn new buf = some (fs', r) ∧ Moving fs fs' rt cl L S n O old new i e r := by
  obtain ⟨f, d, r, a, b⟩ := register_spec hq rt new hp fs h djn hcn habs
  unfold moveEntry
  rw [a]
  dsimp only
  rcases b with ⟨rfl, b1, b2, b3⟩ | ⟨rfl, L', S', n', j, h3, sh3, ot3, at3, w3, wb3, fd3, en3, nm3, bs3, bl3, bz3⟩
  · rw [if_pos (by simp)]
    exact ⟨_, _, rfl, .full b2 b3 b1⟩
  rw [if_neg (by simp)]
  have hne := unalike hf habs
  obtain ⟨e', e1, e2⟩ := hf.hit
  have ee : e' = e := Option.some.inj (e1.symm.trans he)
  subst ee
  have fo3 : FoundAt (dirOf f S' n') old i := (nm3 old ho hne i).mpr hf
  have hij : i ≠ j := by
    intro x
    subst x
    obtain ⟨y, y1, y2⟩ := fo3.hit
    obtain ⟨z, z1, z2⟩ := fd3.hit
    have : y = z := Option.some.inj (y1.symm.trans z1)
    subst this
    exact hne (named_two y2 z2)
  obtain ⟨m1, m2⟩ := moved_fresh (fn := new) hb wb3
  have x0 : moved e' new 0 = Spec.fresh new 0 := rfl
  obtain ⟨h4, hD4, sh4, ot4, en4, w4, bl4⟩ := edit_spec f h3 d at3 w3 en3 _ (moved e' new) m1
    (fun k hk => by
      unfold moved
      rw [if_neg (by omega), if_neg (by omega), if_neg (by omega), if_neg (by omega)]) m2 x0 (fun gn => moved_named e2.1 gn)
  have fx : fixParent env rt { f with win := movedEntry f.win d.off buf, wflag := true } d.off djo.sclust d.sclust = ({ f with win := movedEntry f.win d.off buf, wflag := true }, .ok) := by
    unfold fixParent
    rw [if_neg (fun x => x.1 (by rw [hco, at3.sclust]))]
  rw [fx]
  dsimp only
  rw [if_neg (by simp)]
  generalize ({ f with win := movedEntry f.win d.off buf, wflag := true } : Fs) = f4 at *
  have nm4 : ∀ gn k, FoundAt (dirOf f4 S' n') gn k ↔ FoundAt (dirOf f S' n') gn k := by
    rw [hD4]
    exact fun gn k => same_found en3 x0 (fun gn => moved_named e2.1 gn) gn k
  have fo4 := (nm4 old i).mpr fo3
  have fn4 := (nm4 new j).mpr fd3
  have hi : i < 16 * n' ∧ i < 65536 := by
    obtain ⟨y, y1, _⟩ := fo4.hit
    rw [dirOf_get] at y1
    by_cases hc : i < 16 * n' ∧ i < 65536
    · exact hc
    · rw [if_neg hc] at y1
      cases y1
  obtain ⟨f5, d5, r1, h5, hD5, sh5, en5, ot5, w5, bl5⟩ := erase_at hq rt f4 h4 djo hix hco hi fo4
  rw [r1]
  dsimp only
  rw [if_pos rfl]
  have sh35 := (sh3.trans sh4).trans sh5
  obtain ⟨f6, e6, h6, hD6, sh6, ot6, en6, wr6, bl6⟩ := settle_spec hq (vol := vol) f5 h5 (by rw [sh35.1, sh35.2.2.2.2.2.1]; exact hv) (k := i / 16) (by omega) w5
  rw [e6]
  have hD : dirOf f6 S' n' = (dirOf f4 S' n').set i Spec.deleted := hD6.trans hD5
  have hne' : ¬ alike new old := fun x => hne fun k hk => (x k hk).symm
  refine ⟨f6, _, rfl, .moved (L' := L') (S' := S') (n' := n') (j := j) ⟨h6, sh35.trans sh6, ?_, fun x => ((((bl3 fun y => x (bz3 y)).2.trans (bl4 x) sh3).trans (bl5 x) (sh3.trans sh4)).trans bl6 sh35), ?_, ?_, ?_, fun gn g1 g2 g3 k => ?_, fun k k1 k2 k3 => ?_, wr6⟩⟩
  · exact others_trans (others_trans (others_trans ot3 ot4 sh3.2.1 sh3.2.2.2.2.2.2) ot5 (sh3.trans sh4).2.1 (sh3.trans sh4).2.2.2.2.2.2) ot6 sh35.2.1 sh35.2.2.2.2.2.2
  · rw [hD]
    exact (deleted_others fo4 new hp hne' j).mpr fn4
  · rw [hD, set_get fo4.lt, if_neg hij, hD4, set_get fd3.lt, if_pos rfl]
  · rw [hD]
    exact deleted_absent fo4 h4.distinct ho
  · rw [hD, deleted_others fo4 gn g1 g2 k, nm4 gn k, nm3 gn g1 g3 k]
  · rw [hD, set_get fo4.lt, if_neg (Ne.symm k2), hD4, set_get fd3.lt, if_neg (Ne.symm k3), bs3 k k1 k3]

/-- What `f_rename` is to do for an old path that leads to `o` -/
inductive Renames (fs fs' : Fs) (rt : Root) (dir : Nat → List Item) (old new : Nat → BitVec 8) (ns' : List (List (BitVec 8))) : Outcome → OpenRes → Prop
  | missing {cl : Nat} : Seen fs fs' → Renames fs fs' rt dir old new ns' (.missing cl) (.fr .noFile)
  | noPath : Seen fs fs' → Renames fs fs' rt dir old new ns' .noPath .noPath
  /-- there is something under the new name -/
  | taken {cl i cl' i' : Nat} : Resolves dir fs.ty 0 ns' (.found cl' i') → Seen fs fs' → Renames fs fs' rt dir old new ns' (.found cl i) (.fr .exist)
  /-- there is no such place -/
  | nowhere {cl i : Nat} : Resolves dir fs.ty 0 ns' .noPath → Seen fs fs' → Renames fs fs' rt dir old new ns' (.found cl i) .noPath
  | there {cl i n : Nat} {L : List Nat} {S : Nat → Nat} {M : List Nat} {O : List (List Nat)} {e : Item} {r : Fr} : Resolves dir fs.ty 0 ns' (.missing cl) → (dir cl)[i]? = some e → dir cl = dirOf fs S n →
      Holds fs rt cl L S n (own M ++ O) → Spec.start fs.ty e 0 = M.headD 0 → Moving fs fs' rt cl L S n (own M ++ O) old new i e r → Renames fs fs' rt dir old new ns' (.found cl i) (.fr r)

/-- **Renaming.** On a consistent volume, if no read or write fails, for paths of names of the form 8.3 without the letters that `create_name` takes for others (`odd`), and if the new name is to be in the same directory: `f_rename` gives the object the new
name, or changes nothing and tells why. Nothing else changes. Not covered: moving to another directory; see `rename_into_itself`. -/
theorem rename_partial {env : Env} (hq : Quiet env) {rt : Root} {K : Nat → Prop} {dir : Nat → List Item} {fs : Fs} (h : Tree fs rt K dir) (hk : Whole fs rt K dir) (vol : Nat) (hv : fs.ty = .fat32 → vol + 1 < fs.fatbase)
    (dp : Dir) (old : Nat → BitVec 8) {path path' : List (BitVec 8)} {ns ns' : List (List (BitVec 8))} (ht : Text (fun c => ¬ odd c) path ns) (ht' : Text (fun c => ¬ odd c) path' ns')
    (hsame : ∀ cl i cl', Resolves dir fs.ty 0 ns (.found cl i) → Resolves dir fs.ty 0 ns' (.missing cl') → cl' = cl) :
    ∃ fs' r o, fRename env rt vol fs dp old path path' = some (fs', r) ∧ Resolves dir fs.ty 0 ns o ∧ Renames fs fs' rt dir (nameOf (ns.getLastD [])) (nameOf (ns'.getLastD [])) ns' o r := by
  obtain ⟨f, d, fn, r, o, a, s, b, c, q⟩ := follow_right_partial hq h dp old ht
  obtain ⟨hp, hdot⟩ := text_proper ht
  obtain ⟨hp', _⟩ := text_proper ht'
  unfold fRename
  rw [a]
  dsimp only
  cases o with
  | noPath =>
    have c : r = .noPath := c
    subst c
    exact ⟨f, _, _, rfl, b, .noPath s⟩
  | missing cl =>
    obtain ⟨rfl, c⟩ := c
    dsimp only
    rw [if_neg (by simp)]
    exact ⟨f, _, _, rfl, b, .missing s⟩
  | found cl i =>
    obtain ⟨rfl, c⟩ := c
    dsimp only
    rw [if_pos rfl]
    obtain ⟨hcl, hf⟩ := resolves_place h b (text_names ht) h.root cl i rfl
    obtain ⟨e, he, hnm⟩ := hf.hit
    obtain ⟨L, S, n, M, O, k1, k2, k3, kf⟩ := hk.files cl hcl _ i e hp hdot hf he
    obtain ⟨L', S', n', p1, p2, p3⟩ := c.place
    have ce := c.entry e he
    obtain ⟨f', d', fn', r', o', a', s', b', c', q'⟩ := follow_right_partial hq (h.seen s) d fn ht'
    rw [s.shape.1] at b'
    have ss := s.trans s'
    rw [a']
    dsimp only
    cases o' with
    | noPath =>
      have c' : r' = .noPath := c'
      subst c'
      exact ⟨f', _, _, rfl, b, .nowhere b' ss⟩
    | found cl' i' =>
      obtain ⟨rfl, c'⟩ := c'
      dsimp only
      rw [if_pos rfl]
      exact ⟨f', _, _, rfl, b, .taken b' ss⟩
    | missing cl' =>
      obtain ⟨rfl, c'⟩ := c'
      have q' := q' rfl
      dsimp only
      rw [if_neg (by simp), if_pos rfl]
      have := hsame cl i cl' b b'
      subst this
      obtain ⟨_, habs⟩ := resolves_missing h b' (text_names ht') h.root cl' rfl
      obtain ⟨k4, k5⟩ := k1.seen ss
      have hpf : proper fn' := by
        unfold proper
        rw [q' 0 (by decide)]
        exact hp'
      have qs : alike (nameOf (ns'.getLastD [])) fn' := fun j hj => (q' j hj).symm
      obtain ⟨f'', r, e1, e2⟩ := rename_entry hq (vol := vol) hp hpf f' k4 (by rw [ss.shape.1, ss.shape.2.2.2.2.2.1]; exact hv) d d' p2.index p2.sclust c' (by rw [k5, ← k2]; exact hf) (e := e) (by rw [k5, ← k2]; exact he)
        (by rw [k5, ← k2]; exact absent_alike qs habs) (fun j => f.win (d.off + 11 + j)) (fun j hj => by
          have := ce (11 + j) (by omega)
          rw [← Nat.add_assoc] at this
          exact this)
      rw [e1]
      refine ⟨f'', _, _, rfl, b, .there b' he k2 k1 k3 ?_⟩
      dsimp only
      cases e2 with
      | full g1 g2 g3 =>
        refine .full (by rw [← k5]; exact g1) (g2.imp_right (Or.imp_right fun y c h1 h2 => ?_)) (ss.trans g3)
        rw [← ss.entries c h2]
        exact y c h1 (by rw [ss.shape.2.2.2.1]; exact h2)
      | moved g =>
        have em : moved e fn' = moved e (nameOf (ns'.getLastD [])) := by
          funext j
          unfold moved
          by_cases hj : j < 11
          · rw [if_pos hj, if_pos hj, q' j hj]
          · rw [if_neg hj, if_neg hj]
        refine .moved ⟨g.holds, ss.shape.trans g.shape, others_trans (others_seen k1.ok.layout k1.files ss) g.others ss.shape.2.1 ss.shape.2.2.2.2.2.2, fun x => (ss.below k1.ok.layout).trans (g.below x) ss.shape, found_alike q' g.found, by rw [← em]; exact g.entry, g.gone, fun gn g1 g2 g3 k => ?_,
          fun k k1 k2 k3 => ?_, g.written⟩
        · rw [g.names gn g1 g2 (fun x => g3 fun j hj => (x j hj).trans (q' j hj)) k, k5]
        · rw [g.beside k (by rw [k5]; exact k1) k2 k3, k5]

/-- The root cannot be renamed, and nothing can be given its path. -/
theorem rename_root {env : Env} (hq : Quiet env) {rt : Root} {K : Nat → Prop} {dir : Nat → List Item} {fs : Fs} (h : Tree fs rt K dir) (vol : Nat) (dp : Dir) (old : Nat → BitVec 8) {path : List (BitVec 8)} (ho : Origin path) (path' : List (BitVec 8)) :
    ∃ fs', fRename env rt vol fs dp old path path' = some (fs', .fr .noFile) ∧ Seen fs fs' := by
  obtain ⟨f, d, a, s, _⟩ := root_path hq h dp old ho
  unfold fRename
  rw [a]
  exact ⟨f, rfl, s⟩

theorem rename_to_root {env : Env} (hq : Quiet env) {rt : Root} {K : Nat → Prop} {dir : Nat → List Item} {fs : Fs} (h : Tree fs rt K dir) (vol : Nat) (dp : Dir) (old : Nat → BitVec 8) {path path' : List (BitVec 8)} {ns : List (List (BitVec 8))}
    (ht : Text (fun c => ¬ odd c) path ns) (ho : Origin path') :
    ∃ fs' r o, fRename env rt vol fs dp old path path' = some (fs', r) ∧ Seen fs fs' ∧ Resolves dir fs.ty 0 ns o ∧ ((∃ cl i, o = .found cl i ∧ r = .fr .exist) ∨ (∃ cl, o = .missing cl ∧ r = .fr .noFile) ∨ (o = .noPath ∧ r = .noPath)) := by
  obtain ⟨f, d, fn, r, o, a, s, b, c, q⟩ := follow_right_partial hq h dp old ht
  unfold fRename
  rw [a]
  cases o with
  | noPath =>
    have c : r = .noPath := c
    subst c
    exact ⟨f, _, _, rfl, s, b, Or.inr (Or.inr ⟨rfl, rfl⟩)⟩
  | missing cl =>
    obtain ⟨rfl, c⟩ := c
    dsimp only
    rw [if_neg (by simp)]
    exact ⟨f, _, _, rfl, s, b, Or.inr (Or.inl ⟨cl, rfl, rfl⟩)⟩
  | found cl i =>
    obtain ⟨rfl, c⟩ := c
    dsimp only
    rw [if_pos rfl]
    obtain ⟨f', d', a', s', _⟩ := root_path hq (h.seen s) d fn ho
    rw [a']
    exact ⟨f', _, _, rfl, s.trans s', b, Or.inl ⟨cl, i, rfl, rfl⟩⟩

/-- The object is the same under its new name: its clusters, its size, and whether it is a directory. -/
theorem moved_same (e : Item) (fn : Nat → BitVec 8) (ty : Ty) : Spec.start ty (moved e fn) 0 = Spec.start ty e 0 ∧ Spec.size (moved e fn) 0 = Spec.size e 0 ∧ (isDir (moved e fn) ↔ isDir e) ∧ (Spec.readOnly (moved e fn) ↔ Spec.readOnly e) := by
  have m : ∀ j, 13 ≤ j → j < 32 → moved e fn j = e j := fun j h1 h2 => by
    unfold moved
    rw [if_neg (by omega), if_neg (by omega), if_neg (by omega), if_pos h2]
  have m11 : moved e fn 11 = e 11 ||| 0x20 := by
    unfold moved
    rw [if_neg (by decide), if_pos rfl]
  have k1 : ∀ a : BitVec 8, (a ||| 0x20) &&& 0x10 = a &&& 0x10 := by decide +kernel
  have k2 : ∀ a : BitVec 8, (a ||| 0x20) &&& 1 = a &&& 1 := by decide +kernel
  refine ⟨?_, ?_, ?_, ?_⟩
  · unfold Spec.start Spec.le2
    rw [m _ (by decide) (by decide), m _ (by decide) (by decide), m _ (by decide) (by decide), m _ (by decide) (by decide)]
  · unfold Spec.size Spec.le4
    rw [m _ (by decide) (by decide), m _ (by decide) (by decide), m _ (by decide) (by decide), m _ (by decide) (by decide)]
  · unfold isDir
    rw [m11, k1]
  · unfold Spec.readOnly
    rw [m11, k2]

/-! ## An example -/

def renameAt (fs : Fs) (path path' : List (BitVec 8)) : Option (Fs × OpenRes) := fRename calm root 0 fs ⟨0, 0, 0, 0, 0⟩ (fun _ => 0) path path'

/-- `a` becomes `c`; `sub` becomes `d`, with `b` in it; `c` cannot become `r`, which is there; `c` is moved to `d/a`; the replies, and those to opening `a`, `c`, `d/b` and `d/a` at the end -/
def renameStory : Option (List OpenRes) := do
  let (fs, r1) ← renameAt home [0x61] [0x63]
  let (fs, r2) ← renameAt fs [0x73, 0x75, 0x62] [0x64]
  let (fs, r3) ← renameAt fs [0x63] [0x72]
  let (fs, r4) ← renameAt fs [0x63] [0x64, 0x2F, 0x61]
  let (fs, _, _, r5) ← openAt fs [0x61] forReading
  let (fs, _, _, r6) ← openAt fs [0x63] forReading
  let (fs, _, _, r7) ← openAt fs [0x64, 0x2F, 0x62] forReading
  let (_, _, _, r8) ← openAt fs [0x64, 0x2F, 0x61] forReading
  pure [r1, r2, r3, r4, r5, r6, r7, r8]

example : renameStory = some [.fr .ok, .fr .ok, .fr .exist, .fr .ok, .fr .noFile, .fr .noFile, .fr .ok, .fr .ok] := by decide +kernel

/-- `sub` is moved to `sub/x`: the reply, those to opening `sub/b` and `sub/x/b`, and whether the clusters 2 and 4 are free -/
def selfStory : Option (List OpenRes × List Bool) := do
  let (fs, r1) ← renameAt home [0x73, 0x75, 0x62] [0x73, 0x75, 0x62, 0x2F, 0x78]
  let (fs, _, _, r2) ← openAt fs [0x73, 0x75, 0x62, 0x2F, 0x62] forReading
  let (fs, _, _, r3) ← openAt fs [0x73, 0x75, 0x62, 0x2F, 0x78, 0x2F, 0x62] forReading
  pure ([r1, r2, r3], [2, 4].map fun c => fs.entryAt c = 0)

/-- A directory can be moved into itself: `f_rename` replies that all is well, but there is no path to the directory any more, nor to what is in it, and its clusters stay in use. -/
theorem rename_into_itself : selfStory = some ([.fr .ok, .noPath, .noPath], [false, false]) := by decide +kernel

/-- The theorem holds for `home` and the paths `a` and `c`. -/
example : ∃ fs' r o, fRename calm root 0 home ⟨0, 0, 0, 0, 0⟩ (fun _ => 0) ([] ++ [0x61] ++ []) ([] ++ [0x63] ++ []) = some (fs', r) ∧ Resolves homes home.ty 0 [stored [0x61] []] o ∧
    Renames home fs' root homes (nameOf (stored [0x61] [])) (nameOf (stored [0x63] [])) [stored [0x63] []] o r :=
  rename_partial calm_quiet home_tree home_whole 0 (by decide) ⟨0, 0, 0, 0, 0⟩ (fun _ => 0)
    (.last (seps := []) (s := [0x61]) (tail := []) (body := [0x61]) (ext := []) (by simp) ⟨Or.inl ⟨rfl, rfl⟩, by decide, by decide⟩ (by decide) (by simp))
    (.last (seps := []) (s := [0x63]) (tail := []) (body := [0x63]) (ext := []) (by simp) ⟨Or.inl ⟨rfl, rfl⟩, by decide, by decide⟩ (by decide) (by simp))
    (fun cl i cl' h k => by
      cases h with
      | found _ =>
        cases k with
        | missing _ => rfl)

end Verif.Fat
