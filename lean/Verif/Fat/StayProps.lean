import Verif.Fat.ListProps
import Verif.Fat.ShiftLemmas

/-!
# FatFs: consistent volumes stay consistent — properties
-/

namespace Verif.Fat

open Spec (Ty Item named FoundAt Absent Full alike proper isDir Chain Files Text Trail Origin Outcome Resolves nameOf stored Flagged Stamped)

/-- The volume is consistent: its directories are a tree, each file and each directory has its own chain of clusters, no clusters are lost, and all names can be found. -/
def Consistent (fs : Fs) (rt : Root) : Prop := ∃ K dir clus sect len depth F, Volume fs rt K dir clus sect len depth F

/-- The calls, but for those on open files -/
inductive Call where
  | stat (path : List (BitVec 8)) (old : Info)
  | opendir (path : List (BitVec 8))
  | chmod (path : List (BitVec 8)) (value mask : BitVec 8)
  | utime (path : List (BitVec 8)) (ftime fdate : Nat)
  | unlink (path : List (BitVec 8))
  | mkdir (path : List (BitVec 8)) (tm : Nat)
  | «open» (path : List (BitVec 8)) (m : Mode) (tm : Nat) (old : Fil)
  | rename (path path' : List (BitVec 8))

/-- The volume after a call; the objects on the stack have any contents before. -/
def Call.run (env : Env) (rt : Root) (vol : Nat) (fs : Fs) (dp : Dir) (fn : Nat → BitVec 8) : Call → Option Fs
  | .stat path old => (fStat env rt fs dp fn path old).map (·.1)
  | .opendir path => (fOpendir env rt fs dp fn path).map (·.1)
  | .chmod path value mask => (fChmod env rt vol fs dp fn path value mask).map (·.1)
  | .utime path ftime fdate => (fUtime env rt vol fs dp fn path ftime fdate).map (·.1)
  | .unlink path => (fUnlink env rt vol fs dp fn path).map (·.1)
  | .mkdir path tm => (fMkdir env rt vol fs dp fn path tm).map (·.1)
  | .open path m tm old => (fOpenPath env rt fs dp fn path m tm old).map (·.1)
  | .rename path path' => (fRename env rt vol fs dp fn path path').map (·.1)

def Call.path : Call → List (BitVec 8)
  | .stat path _ => path
  | .opendir path => path
  | .chmod path _ _ => path
  | .utime path _ _ => path
  | .unlink path => path
  | .mkdir path _ => path
  | .open path _ _ _ => path
  | .rename path _ => path

/-- The new path of `f_rename` is not one to a place in the object that is moved, the names of which are `ns`: this is not prevented, see `rename_into_itself` and `rename_below_itself`. -/
def Call.Aims : Call → List (List (BitVec 8)) → Prop
  | .rename _ path', ns => Origin path' ∨ ∃ ns', Text (fun c => ¬ odd c) path' ns' ∧ ¬ ns <+: ns'.dropLast
  | _, _ => True

/-- The paths: those of names of the form 8.3 without the letters that `create_name` takes for others (`odd`), and that of the root, but not for `f_unlink`, which then reads at a null pointer. -/
def Call.Fits (c : Call) : Prop := (∃ ns, Text (fun c => ¬ odd c) c.path ns ∧ c.Aims ns) ∨ (Origin c.path ∧ ∀ path, c ≠ .unlink path)

theorem flagged_alike {ty : Ty} {e x : Item} {value mask : BitVec 8} (h : Flagged e x value mask) : Alike ty e x := by
  have b4 : ∀ a : BitVec 8, (a &&& 0x10 = 0) ↔ a.getLsbD 4 = false := by decide +kernel
  refine ⟨?_, ?_, ?_⟩
  · unfold Spec.start Spec.le2
    rw [h.rest _ (by decide), h.rest _ (by decide), h.rest _ (by decide), h.rest _ (by decide)]
  · unfold isDir
    rw [ne_eq, ne_eq, b4, b4, h.kept 4 (fun x => by have := x.1; unfold Spec.free at this; omega)]
  · unfold Spec.size Spec.le4
    rw [h.rest _ (by decide), h.rest _ (by decide), h.rest _ (by decide), h.rest _ (by decide)]

theorem stamped_alike {ty : Ty} {e x : Item} {ftime fdate : Nat} (h : Stamped e x ftime fdate) : Alike ty e x := by
  refine ⟨?_, ?_, ?_⟩
  · unfold Spec.start Spec.le2
    rw [h.rest _ (by decide), h.rest _ (by decide), h.rest _ (by decide), h.rest _ (by decide)]
  · unfold isDir
    rw [h.rest _ (by decide)]
  · unfold Spec.size Spec.le4
    rw [h.rest _ (by decide), h.rest _ (by decide), h.rest _ (by decide), h.rest _ (by decide)]

theorem changes_stay {fs fs' : Fs} {rt : Root} {K : Nat → Prop} {dir : Nat → List Item} {clus : Nat → List Nat} {sect : Nat → Nat → Nat} {len : Nat → Nat} {depth : Nat → Nat} {F : List (List Nat)}
    (v : Volume fs rt K dir clus sect len depth F) {path : List (BitVec 8)} {ns : List (List (BitVec 8))} (ht : Text (fun c => ¬ odd c) path ns) {P : Item → Item → Prop} (hP : ∀ e x, P e x → Alike fs.ty e x) {o : Outcome} {r : OpenRes}
    (hr : Resolves dir fs.ty 0 ns o) (h : Changes fs fs' rt dir P o r) : Consistent fs' rt ∧ Shape fs fs' := by
  cases h with
  | there a b c d e =>
    have hk := (resolves_place (volume_tree v) hr (text_names ht) v.root _ _ rfl).1
    exact ⟨⟨_, _, _, _, _, _, _, changed_volume v hk a c (hP _ _ d) e⟩, e.shape⟩
  | missing s => exact ⟨⟨_, _, _, _, _, _, _, volume_seen v s⟩, s.shape⟩
  | noPath s => exact ⟨⟨_, _, _, _, _, _, _, volume_seen v s⟩, s.shape⟩

theorem text_some {P : BitVec 8 → Prop} {path : List (BitVec 8)} {ns : List (List (BitVec 8))} (h : Text P path ns) : ns ≠ [] := by
  cases h <;> simp

/-- The place is not below what is moved, if its path does not begin with that of it. -/
theorem not_under {fs : Fs} {rt : Root} {K : Nat → Prop} {dir : Nat → List Item} {clus : Nat → List Nat} {sect : Nat → Nat → Nat} {len : Nat → Nat} {depth : Nat → Nat} {F : List (List Nat)}
    (v : Volume fs rt K dir clus sect len depth F) {path path' : List (BitVec 8)} {ns ns' : List (List (BitVec 8))} (ht : Text (fun c => ¬ odd c) path ns) (ht' : Text (fun c => ¬ odd c) path' ns') (hn : ¬ ns <+: ns'.dropLast)
    {a i b : Nat} {e : Item} (r1 : Resolves dir fs.ty 0 ns (.found a i)) (r2 : Resolves dir fs.ty 0 ns' (.missing b)) (he : (dir a)[i]? = some e) (hd : isDir e) : ¬ Under K dir fs.ty (Spec.start fs.ty e 0) b := by
  intro u
  have good : ∀ {path ns}, Text (fun c => ¬ odd c) path ns → ∀ n ∈ ns, (proper (nameOf n) ∧ nameOf n 0 ≠ 0x2E) ∧ n.length = 11 := fun h n hn => ⟨text_names h n hn, text_length h n hn⟩
  have w1 := resolves_way v r1 (good ht) v.root [] .root a (Or.inr ⟨i, rfl⟩)
  have w2 := resolves_way v r2 (good ht') v.root [] .root b (Or.inl rfl)
  obtain ⟨hk, hf⟩ := resolves_place (volume_tree v) r1 (text_names ht) v.root _ _ rfl
  have n0 := text_some ht
  have el : ns.getLastD [] = ns.getLast n0 := by rw [List.getLastD_eq_getLast?, List.getLast?_eq_some_getLast n0]; rfl
  have g := good ht _ (List.getLast_mem n0)
  rw [el] at hf
  have w := Way.snoc w1 hk g.2 g.1.1 g.1.2 hf he hd
  rw [List.nil_append, List.dropLast_append_getLast n0] at w
  rw [List.nil_append] at w2
  exact hn (Under.begins v w u w2)

/-- **A consistent volume stays consistent** under every such call, if no read or write fails. -/
theorem call_partial {env : Env} (hq : Quiet env) {fs : Fs} {rt : Root} (h : Consistent fs rt) (vol : Nat) (hv : fs.ty = .fat32 → vol + 1 < fs.fatbase) (dp : Dir) (fn : Nat → BitVec 8) (c : Call) (hc : c.Fits) :
    ∃ fs', c.run env rt vol fs dp fn = some fs' ∧ Consistent fs' rt ∧ Shape fs fs' := by
  obtain ⟨K, dir, clus, sect, len, depth, F, v⟩ := h
  have t := volume_tree v
  have w := volume_whole v
  have seen : ∀ {f : Fs}, Seen fs f → Consistent f rt ∧ Shape fs f := fun s => ⟨⟨_, _, _, _, _, _, _, volume_seen v s⟩, s.shape⟩
  rcases hc with ⟨ns, ht, aim⟩ | ⟨ho, hu⟩
  · cases c with
    | stat path old =>
      obtain ⟨f, x, r, o, a, s, _⟩ := stat_partial hq t dp fn old ht
      unfold Call.run
      dsimp only [Call.path] at a
      dsimp only
      rw [a]
      exact ⟨f, rfl, seen s⟩
    | opendir path =>
      obtain ⟨f, x, r, o, a, s, _⟩ := opendir_partial hq t dp fn ht
      unfold Call.run
      dsimp only [Call.path] at a
      dsimp only
      rw [a]
      exact ⟨f, rfl, seen s⟩
    | chmod path value mask =>
      obtain ⟨f, r, o, a, b, d⟩ := chmod_partial hq t w vol hv dp fn ht value mask
      unfold Call.run
      dsimp only [Call.path] at a
      dsimp only
      rw [a]
      exact ⟨f, rfl, changes_stay v ht (fun _ _ => flagged_alike) b d⟩
    | utime path ftime fdate =>
      obtain ⟨f, r, o, a, b, d⟩ := utime_partial hq t w vol hv dp fn ht ftime fdate
      unfold Call.run
      dsimp only [Call.path] at a
      dsimp only
      rw [a]
      exact ⟨f, rfl, changes_stay v ht (fun _ _ => stamped_alike) b d⟩
    | unlink path =>
      have sd : Sound fs rt K dir := fun cl hk gn i e h1 h2 h3 h4 => by
        obtain ⟨L, S, n, M, O, k1, k2, k3, _⟩ := w.files cl hk gn i e h1 h2 h3 h4
        exact ⟨L, S, n, M, O, k1, k2, k3⟩
      obtain ⟨f, r, o, a, b, d⟩ := unlink_partial hq t sd vol hv dp fn ht
      unfold Call.run
      dsimp only [Call.path] at a
      dsimp only
      rw [a]
      refine ⟨f, rfl, ?_⟩
      cases d with
      | there d1 d2 d3 d4 =>
        obtain ⟨hk, hf⟩ := resolves_place t b (text_names ht) v.root _ _ rfl
        cases d4 with
        | locked _ s => exact seen s
        | full _ _ _ _ s => exact seen s
        | broken _ _ _ s => exact seen s
        | removed _ g1 g2 => exact ⟨⟨_, _, _, _, _, _, _, gone_volume v hk (text_proper ht).1 (text_proper ht).2 hf d1 d2 d3 g1 g2⟩, g2.shape⟩
      | missing s => exact seen s
      | noPath s => exact seen s
    | mkdir path tm =>
      obtain ⟨f, r, o, a, b, d⟩ := mkdir_path_partial hq t w vol hv dp fn ht tm
      unfold Call.run
      dsimp only [Call.path] at a
      dsimp only
      rw [a]
      refine ⟨f, rfl, ?_⟩
      cases d with
      | there s => exact seen s
      | noPath s => exact seen s
      | missing d1 d2 d3 =>
        obtain ⟨hk, habs⟩ := resolves_missing t b (text_names ht) v.root _ rfl
        rw [d1] at habs
        cases d3 with
        | noSpace _ s => exact seen s
        | full _ _ _ _ _ g => exact ⟨⟨_, _, _, _, _, _, _, unmoved_volume v hk d2 g⟩, g.shape⟩
        | made g => exact ⟨founded_volume v hk (text_proper ht).1 (text_proper ht).2 habs d2 g, g.shape⟩
    | «open» path m tm old =>
      obtain ⟨f, fp, sl, r, o, a, b, d⟩ := open_path_partial hq t w vol hv dp fn ht m tm old
      unfold Call.run
      dsimp only [Call.path] at a
      dsimp only
      rw [a]
      refine ⟨f, rfl, ?_⟩
      cases d with
      | noPath s _ => exact seen s
      | there d1 d2 d3 d4 d5 =>
        obtain ⟨hk, hf⟩ := resolves_place t b (text_names ht) v.root _ _ rfl
        cases d5 with
        | dir _ _ s _ => exact seen s
        | dirKept _ _ s _ => exact seen s
        | locked _ _ _ s _ => exact seen s
        | already _ _ _ s _ => exact seen s
        | emptied g1 _ _ _ g5 g6 g7 g8 _ => exact ⟨⟨_, _, _, _, _, _, _, emptied_volume v hk (text_proper ht).1 (text_proper ht).2 hf d1 d3 d4 g1 g5 g6 g7 g8⟩, g5.shape⟩
        | opened _ _ _ _ s => exact seen s
      | missing d1 d2 d3 =>
        obtain ⟨hk, habs⟩ := resolves_missing t b (text_names ht) v.root _ rfl
        rw [d1] at habs
        cases d3 with
        | none _ s _ => exact seen s
        | full _ _ _ s _ => exact seen s
        | made _ g1 g2 g3 g4 g5 => exact ⟨made_volume v hk (text_proper ht).1 (text_proper ht).2 habs d2 g1 g2 g3 g4 g5, g1.shape⟩
    | rename path path' =>
      rcases aim with ho | ⟨ns', ht', hn⟩
      · obtain ⟨f, r, o, a, s, _⟩ := rename_to_root hq t vol dp fn ht ho
        unfold Call.run
        dsimp only [Call.path] at a
        dsimp only
        rw [a]
        exact ⟨f, rfl, seen s⟩
      · have nu := fun {a i b : Nat} {e : Item} => not_under v ht ht' hn (a := a) (i := i) (b := b) (e := e)
        obtain ⟨f, r, o, a, b, d⟩ := move_volume_partial hq v vol hv dp fn ht ht' fun cl i cl2 e r1 r2 he q => nu r1 r2 he q.1 (by rw [q.2]; exact .self)
        unfold Call.run
        dsimp only [Call.path] at a
        dsimp only
        rw [a]
        refine ⟨f, rfl, ?_⟩
        cases d with
        | here d =>
          cases d with
          | missing s => exact seen s
          | noPath s => exact seen s
          | taken _ s => exact seen s
          | nowhere _ s => exact seen s
          | there d1 d2 d3 d4 d5 d6 =>
            obtain ⟨hk, hf⟩ := resolves_place t b (text_names ht) v.root _ _ rfl
            obtain ⟨_, habs⟩ := resolves_missing t d1 (text_names ht') v.root _ rfl
            cases d6 with
            | full _ _ s => exact seen s
            | moved g =>
              obtain ⟨_, _, _, _, _, w⟩ := renamed_volume v hk (text_proper ht).1 (text_proper ht).2 (text_proper ht').1 (text_proper ht').2 hf d2 habs d4 g
              exact ⟨⟨_, _, _, _, _, _, _, w⟩, g.shape⟩
        | away d1 d2 d3 d4 d5 d6 d7 =>
          subst d1
          obtain ⟨hk, hf⟩ := resolves_place t b (text_names ht) v.root _ _ rfl
          obtain ⟨hk2, habs⟩ := resolves_missing t d3 (text_names ht') v.root _ rfl
          cases d7 with
          | full _ _ s => exact seen s
          | moved g =>
            obtain ⟨_, _, _, _, _, _, w⟩ := moved_volume v hk hk2 d4 (text_proper ht).1 (text_proper ht).2 (text_proper ht').1 (text_proper ht').2 hf d5 habs d6 (nu b d3 d5) g
            exact ⟨⟨_, _, _, _, _, _, _, w⟩, g.shape⟩
  · cases c with
    | stat path old =>
      obtain ⟨f, a, s⟩ := stat_root hq t dp fn old ho
      unfold Call.run
      dsimp only [Call.path] at a
      dsimp only
      rw [a]
      exact ⟨f, rfl, seen s⟩
    | opendir path =>
      obtain ⟨f, d, a, s, _⟩ := opendir_root hq t dp fn ho
      unfold Call.run
      dsimp only [Call.path] at a
      dsimp only
      rw [a]
      exact ⟨f, rfl, seen s⟩
    | chmod path value mask =>
      obtain ⟨⟨f, a, s⟩, _⟩ := change_root hq t vol dp fn ho value mask 0 0
      unfold Call.run
      dsimp only [Call.path] at a
      dsimp only
      rw [a]
      exact ⟨f, rfl, seen s⟩
    | utime path ftime fdate =>
      obtain ⟨_, f, a, s⟩ := change_root hq t vol dp fn ho 0 0 ftime fdate
      unfold Call.run
      dsimp only [Call.path] at a
      dsimp only
      rw [a]
      exact ⟨f, rfl, seen s⟩
    | unlink path => exact absurd rfl (hu path)
    | mkdir path tm =>
      obtain ⟨f, a, s⟩ := mkdir_root hq t vol dp fn ho tm
      unfold Call.run
      dsimp only [Call.path] at a
      dsimp only
      rw [a]
      exact ⟨f, rfl, seen s⟩
    | «open» path m tm old =>
      obtain ⟨f, sl, a, s⟩ := open_root hq t dp fn ho m tm old
      unfold Call.run
      dsimp only [Call.path] at a
      dsimp only
      rw [a]
      exact ⟨f, rfl, seen s⟩
    | rename path path' =>
      obtain ⟨f, a, s⟩ := rename_root hq t vol dp fn ho path'
      unfold Call.run
      dsimp only [Call.path] at a
      dsimp only
      rw [a]
      exact ⟨f, rfl, seen s⟩

/-- One call after the other; what is on the stack at each call is arbitrary. -/
def runCalls (env : Env) (rt : Root) (vol : Nat) : Fs → List (Call × Dir × (Nat → BitVec 8)) → Option Fs
  | fs, [] => some fs
  | fs, (c, dp, fn) :: cs =>
    match c.run env rt vol fs dp fn with
    | none => none
    | some fs => runCalls env rt vol fs cs

/-- **Always.** After any number of such calls the volume is consistent. -/
theorem calls_partial {env : Env} (hq : Quiet env) {rt : Root} (vol : Nat) (cs : List (Call × Dir × (Nat → BitVec 8))) (hc : ∀ c ∈ cs, c.1.Fits) :
    ∀ {fs : Fs}, Consistent fs rt → (fs.ty = .fat32 → vol + 1 < fs.fatbase) → ∃ fs', runCalls env rt vol fs cs = some fs' ∧ Consistent fs' rt ∧ Shape fs fs' := by
  induction cs with
  | nil => exact fun {fs} h _ => ⟨fs, rfl, h, rfl, rfl, rfl, rfl, rfl, rfl, rfl⟩
  | cons c cs ih =>
    obtain ⟨c, dp, fn⟩ := c
    intro fs h hv
    obtain ⟨f, a, b, s⟩ := call_partial hq h vol hv dp fn c (hc _ (List.mem_cons_self ..))
    obtain ⟨f', a', b', s'⟩ := ih (fun c h => hc c (List.mem_cons_of_mem _ h)) b (by rw [s.1, s.2.2.2.2.2.1]; exact hv)
    refine ⟨f', ?_, b', s.trans s'⟩
    rw [runCalls, a]
    exact a'

/-! ## An example -/

/-- A way to open files: an existing one loses its bytes, else there is a new one. -/
def afresh : Mode := ⟨false, true, true, false, false⟩

/-- On `home` the attributes of `a` are changed, `sub/b` and `sub` are removed, the root is opened, the directory `x` and in it the file `y` are made, `a` is to lose its bytes and is moved to `x/c`. -/
def tidyUp : List (Call × Dir × (Nat → BitVec 8)) :=
  [(.chmod ([] ++ [0x61] ++ []) 1 1, ⟨0, 0, 0, 0, 0⟩, fun _ => 0), (.unlink ([] ++ [0x73, 0x75, 0x62] ++ 0x2F :: ([] ++ [0x62] ++ [])), ⟨0, 0, 0, 0, 0⟩, fun _ => 0),
   (.unlink ([] ++ [0x73, 0x75, 0x62] ++ []), ⟨0, 0, 0, 0, 0⟩, fun _ => 0), (.opendir [], ⟨0, 0, 0, 0, 0⟩, fun _ => 0), (.mkdir ([] ++ [0x78] ++ []) 7, ⟨0, 0, 0, 0, 0⟩, fun _ => 0),
   (.open ([] ++ [0x78] ++ 0x2F :: ([] ++ [0x79] ++ [])) afresh 8 ⟨0, 0, 0, 0, 0, fun _ => 0, false, false, false, false, .ok⟩, ⟨0, 0, 0, 0, 0⟩, fun _ => 0),
   (.open ([] ++ [0x61] ++ []) afresh 9 ⟨0, 0, 0, 0, 0, fun _ => 0, false, false, false, false, .ok⟩, ⟨0, 0, 0, 0, 0⟩, fun _ => 0),
   (.rename ([] ++ [0x61] ++ []) ([] ++ [0x78] ++ 0x2F :: ([] ++ [0x63] ++ [])), ⟨0, 0, 0, 0, 0⟩, fun _ => 0)]

theorem tidyUp_fits : ∀ c ∈ tidyUp, c.1.Fits := by
  have tx : ∀ b : List (BitVec 8), b ≠ [] → b.length ≤ 8 → (∀ c ∈ b, Spec.legal c = true) → (∀ c ∈ b, ¬ odd c) → Text (fun c => ¬ odd c) ([] ++ b ++ []) [stored b []] := fun b h1 h2 h3 h4 =>
    .last (seps := []) (s := b) (tail := []) (body := b) (ext := []) (by simp) ⟨Or.inl ⟨rfl, rfl⟩, ⟨h1, h2, h3⟩, by decide⟩ h4 (by simp)
  intro c hc
  simp only [tidyUp, List.mem_cons, List.not_mem_nil, or_false] at hc
  have ty : ∀ b b' : List (BitVec 8), b ≠ [] → b.length ≤ 8 → (∀ c ∈ b, Spec.legal c = true) → (∀ c ∈ b, ¬ odd c) → b' ≠ [] → b'.length ≤ 8 → (∀ c ∈ b', Spec.legal c = true) → (∀ c ∈ b', ¬ odd c) →
      Text (fun c => ¬ odd c) ([] ++ b ++ 0x2F :: ([] ++ b' ++ [])) [stored b [], stored b' []] := fun b b' h1 h2 h3 h4 k1 k2 k3 k4 =>
    .more (seps := []) (s := b) (body := b) (ext := []) (by simp) ⟨Or.inl ⟨rfl, rfl⟩, ⟨h1, h2, h3⟩, by decide⟩ h4 (Or.inl rfl) (tx b' k1 k2 k3 k4)
  rcases hc with rfl | rfl | rfl | rfl | rfl | rfl | rfl | rfl
  · exact Or.inl ⟨_, tx [0x61] (by decide) (by decide) (by decide) (by decide), trivial⟩
  · exact Or.inl ⟨_, ty [0x73, 0x75, 0x62] [0x62] (by decide) (by decide) (by decide) (by decide) (by decide) (by decide) (by decide) (by decide), trivial⟩
  · exact Or.inl ⟨_, tx [0x73, 0x75, 0x62] (by decide) (by decide) (by decide) (by decide), trivial⟩
  · exact Or.inr ⟨⟨[], [], rfl, Or.inl rfl, fun _ h => absurd h (by simp)⟩, fun _ h => nomatch h⟩
  · exact Or.inl ⟨_, tx [0x78] (by decide) (by decide) (by decide) (by decide), trivial⟩
  · exact Or.inl ⟨_, ty [0x78] [0x79] (by decide) (by decide) (by decide) (by decide) (by decide) (by decide) (by decide) (by decide), trivial⟩
  · exact Or.inl ⟨_, tx [0x61] (by decide) (by decide) (by decide) (by decide), trivial⟩
  · exact Or.inl ⟨_, tx [0x61] (by decide) (by decide) (by decide) (by decide), Or.inr ⟨_, ty [0x78] [0x63] (by decide) (by decide) (by decide) (by decide) (by decide) (by decide) (by decide) (by decide), by decide⟩⟩

example : ∃ fs', runCalls calm root 0 home tidyUp = some fs' ∧ Consistent fs' root ∧ Shape home fs' :=
  calls_partial calm_quiet 0 tidyUp tidyUp_fits ⟨_, _, _, _, _, _, _, home_volume⟩ (by decide)

/-- After these calls only the clusters of `a`, which is read only, and the first free one, for `x`, are in use. -/
example : (runCalls calm root 0 home tidyUp).map (fun fs => [2, 3, 4].map fun c => decide (fs.entryAt c = 0)) = some [false, false, true] := by decide +kernel

/-! ## A directory that is moved below itself -/

/-- The directory `sub/d` is made, and `sub` is moved to `sub/d/x`. -/
def foldUp : List (Call × Dir × (Nat → BitVec 8)) :=
  [(.mkdir [0x73, 0x75, 0x62, 0x2F, 0x64] 7, ⟨0, 0, 0, 0, 0⟩, fun _ => 0), (.rename [0x73, 0x75, 0x62] [0x73, 0x75, 0x62, 0x2F, 0x64, 0x2F, 0x78], ⟨0, 0, 0, 0, 0⟩, fun _ => 0)]

/-- A volume with 16 entries in the root, none of which is a directory, and a used cluster that is not that of a file there is not consistent. -/
theorem lost_cluster {fs : Fs} {c d : Nat} (hty : fs.ty ≠ .fat32) (hc : 2 ≤ c ∧ c < fs.nFatent ∧ fs.entryAt c ≠ 0) (hd : fs.nFatent ≤ fs.entryAt d) (hcd : c ≠ d)
    (he : ∀ i, i < 16 → entryOf fs (fun i => root.dirbase + i) i 0 ≠ 0 → entryOf fs (fun i => root.dirbase + i) i 0 ≠ 0xE5 →
      entryOf fs (fun i => root.dirbase + i) i 11 &&& 0x10 = 0 ∧ (Spec.start fs.ty (entryOf fs (fun i => root.dirbase + i) i) 0 = 0 ∨ Spec.start fs.ty (entryOf fs (fun i => root.dirbase + i) i) 0 = d)) : ¬ Consistent fs root := by
  rintro ⟨K, dir, clus, sect, len, depth, F, v⟩
  have a := v.area 0 v.root
  have two : ∀ {x L}, Chain fs.entryAt fs.nFatent x L → 2 ≤ x := fun h => by cases h <;> assumption
  obtain ⟨c0, d0⟩ : clus 0 = [] ∧ dir 0 = dirOf fs (fun i => root.dirbase + i) 1 := by
    rw [v.entries 0 v.root]
    generalize clus 0 = L at a
    generalize sect 0 = S at a
    generalize len 0 = n at a
    cases a with
    | static => exact ⟨rfl, rfl⟩
    | chain g h =>
      have := two h
      rcases g with g | g
      · omega
      · exact absurd g.2.1 hty
  have top : ∀ i e, Object dir 0 i e → ¬ isDir e ∧ (Spec.start fs.ty e 0 = 0 ∨ Spec.start fs.ty e 0 = d) := by
    rintro i e ⟨fn, o1, o2, o3, o4⟩
    obtain ⟨e', q1, q2⟩ := id o3.hit
    cases o4.symm.trans q1
    have b0 := o3.before i (Nat.le_refl _) e o4
    have n0 := q2.2 0 (by decide)
    rw [d0, dirOf_get] at o4
    split at o4
    · rename_i hi
      cases o4
      obtain ⟨k1, k2⟩ := he i (by omega) b0 (by rw [n0]; exact o1.2)
      exact ⟨fun h => h k1, k2⟩
    · cases o4
  have only : ∀ n x, depth x ≤ n → K x → x = 0 := by
    intro n
    induction n with
    | zero =>
      intro x hx hk
      refine Decidable.byContradiction fun h0 => ?_
      obtain ⟨p, i, e, u1, u2, u3, u4⟩ := v.up x hk h0
      have := v.down p i e u1 u2 u3
      rw [u4] at this
      omega
    | succ n ih =>
      intro x hx hk
      refine Decidable.byContradiction fun h0 => ?_
      obtain ⟨p, i, e, u1, u2, u3, u4⟩ := v.up x hk h0
      have := v.down p i e u1 u2 u3
      rw [u4] at this
      obtain rfl := ih p (by omega) u1
      exact (top i e u2).1 u3
  obtain ⟨X, hX, cX⟩ := List.mem_flatten.mp (v.files.used c hc.1 hc.2.1 hc.2.2)
  have m2 := v.member hX
  rcases v.reached X hX with ⟨x, k1, k2⟩ | ⟨x, i, e, k1, k2, k3⟩
  · obtain rfl := only _ x (Nat.le_refl _) k1
    rw [← k2, c0] at cX
    cases cX
  · obtain rfl := only _ x (Nat.le_refl _) k1
    rcases (top i e k2).2 with z | z
    · omega
    · obtain ⟨y, hy⟩ := v.files.chains X hX
      obtain ⟨L, rfl⟩ := hy.head
      obtain rfl : d = y := z.symm.trans k3
      cases hy with
      | last => exact hcd (List.mem_singleton.mp cX)
      | link _ _ _ l4 _ => omega

/-- **A consistent volume does not always stay so:** `f_rename` moves a directory below itself, and its clusters are lost. -/
theorem rename_loses : Consistent home root ∧ ∃ fs', runCalls calm root 0 home foldUp = some fs' ∧ ¬ Consistent fs' root := by
  refine ⟨⟨_, _, _, _, _, _, _, home_volume⟩, (runCalls calm root 0 home foldUp).getD home, ?_, ?_⟩
  · have h : (runCalls calm root 0 home foldUp).isSome = true := by decide +kernel
    obtain ⟨f, hf⟩ := Option.isSome_iff_exists.mp h
    rw [hf]
    rfl
  · exact lost_cluster (c := 2) (d := 3) (by decide +kernel) (by decide +kernel) (by decide +kernel) (by decide) (by decide +kernel)

/-- The calls are those of `rename_below_itself`. -/
example : belowStory = some [.fr .ok, .noPath, .noPath] := rename_below_itself

end Verif.Fat
