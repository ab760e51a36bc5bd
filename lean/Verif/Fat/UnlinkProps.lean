import Verif.Fat.UnlinkLemmas

/-!
# FatFs: removing files and directories — properties
-/

namespace Verif.Fat

open Spec (Ty Item named FoundAt Absent alike proper listed NextAt NoneFrom readOnly isDir Chain Files Text Origin Trail Walks Outcome Resolves nameOf Name83 stored legal upper)

/-- The entries of the directory that has the clusters `M` -/
def inside (fs : Fs) (M : List Nat) : List Item := dirOf fs (fs.sec M) (M.length * fs.csize)

/-- The name is gone, its clusters are free, and everything else is as before; all of this is on the disk. -/
structure Gone (fs fs' : Fs) (rt : Root) (cl : Nat) (L : List Nat) (S : Nat → Nat) (n : Nat) (M : List Nat) (O : List (List Nat)) (fn : Nat → BitVec 8) (i : Nat) : Prop where
  /-- the volume has the directory and the other files only -/
  holds : Holds fs' rt cl L S n O
  shape : Shape fs fs'
  entry : dirOf fs' S n = (dirOf fs S n).set i Spec.deleted
  absent : Absent (dirOf fs' S n) fn
  names : ∀ gn, proper gn → ¬ alike gn fn → ∀ j, FoundAt (dirOf fs' S n) gn j ↔ FoundAt (dirOf fs S n) gn j
  /-- the contents of the other files -/
  others : Others fs fs' O
  /-- and the root, if the directory is another one -/
  below : L ≠ [] → Below fs fs'
  freed : ∀ c ∈ M, fs'.entryAt c = 0
  kept : ∀ c, c < fs.nFatent → c ∉ M → fs'.entryAt c = fs.entryAt c
  written : ∀ s, fs'.disk s = fs'.look s

/-- What `f_unlink` is to do with an entry -/
inductive Verdict (fs fs' : Fs) (rt : Root) (cl : Nat) (L : List Nat) (S : Nat → Nat) (n : Nat) (M : List Nat) (O : List (List Nat)) (fn : Nat → BitVec 8) (i : Nat) (e : Item) : Fr → Prop
  /-- read only files stay -/
  | locked : readOnly e → Seen fs fs' → Verdict fs fs' rt cl L S n M O fn i e .denied
  /-- directories with something in them stay -/
  | full {j : Nat} : ¬ readOnly e → isDir e → M ≠ [] → NextAt (inside fs M) 2 j → Seen fs fs' → Verdict fs fs' rt cl L S n M O fn i e .denied
  /-- a directory without clusters is an error of the volume -/
  | broken : ¬ readOnly e → isDir e → M = [] → Seen fs fs' → Verdict fs fs' rt cl L S n M O fn i e .intErr
  | removed : ¬ readOnly e → (isDir e → M ≠ [] ∧ NoneFrom (inside fs M) 2) → Gone fs fs' rt cl L S n M O fn i → Verdict fs fs' rt cl L S n M O fn i e .ok

/-- After the entry `i` with the name `fn` has been found, which is the file or directory with the clusters `M`: it is removed, or the reply tells why not. -/
theorem unlink_entry {env : Env} (hq : Quiet env) (rt : Root) (vol : Nat) {cl n : Nat} {L : List Nat} {S : Nat → Nat} {M : List Nat} {O : List (List Nat)} (fs : Fs) (h : Holds fs rt cl L S n (own M ++ O))
    (hv : fs.ty = .fat32 → vol + 1 < fs.fatbase) (dp : Dir) {i : Nat} (hd : AtItem fs cl L S n dp i) {fn : Nat → BitVec 8} (hp : proper fn) (hf : FoundAt (dirOf fs S n) fn i) {e : Item} (he : (dirOf fs S n)[i]? = some e)
    (hw : ∀ j, j < 32 → fs.win (dp.off + j) = e j) (hs : Spec.start fs.ty e 0 = M.headD 0) :
    ∃ fs' r, unlinkFound env rt vol fs dp = some (fs', r) ∧ Verdict fs fs' rt cl L S n M O fn i e r := by
  have hl := h.ok.layout
  have hin := hd.inside
  unfold unlinkFound
  dsimp only
  rw [hw 11 (by decide), start_entry hw, hs]
  by_cases hr : readOnly e
  · rw [if_pos (show e 11 &&& 0x01 ≠ 0 from hr)]
    exact ⟨fs, _, rfl, .locked hr (Seen.refl h.ok)⟩
  rw [if_neg (show ¬ (e 11 &&& 0x01 ≠ 0) from hr)]
  have check : ∃ f r, (if e 11 &&& 0x10 ≠ 0 then bareDir env rt fs dp (M.headD 0) else some (fs, .ok)) = some (f, r) ∧ Seen fs f ∧
      ((r ≠ .ok ∧ Verdict fs f rt cl L S n M O fn i e r) ∨ (r = .ok ∧ (isDir e → M ≠ [] ∧ NoneFrom (inside fs M) 2))) := by
    by_cases hdir : isDir e
    · rw [if_pos (show e 11 &&& 0x10 ≠ 0 from hdir)]
      have hM : M = [] ∨ M ∈ own L ++ (own M ++ O) := by
        by_cases hM : M = []
        · exact Or.inl hM
        · refine Or.inr (List.mem_append_right _ (List.mem_append_left _ ?_))
          unfold own
          rw [if_neg hM]
          exact List.mem_singleton_self _
      obtain ⟨f, r, a, b, c⟩ := bare_spec hq rt fs h.ok h.pow h.files hM dp
      refine ⟨f, r, a, b, ?_⟩
      rcases c with ⟨rfl, c⟩ | ⟨c1, rfl, j, c2⟩ | ⟨c1, rfl, c2⟩
      · exact Or.inl ⟨by decide, .broken hr hdir c b⟩
      · exact Or.inl ⟨by decide, .full hr hdir c1 c2 b⟩
      · exact Or.inr ⟨rfl, fun _ => ⟨c1, c2⟩⟩
    · rw [if_neg (show ¬ (e 11 &&& 0x10 ≠ 0) from hdir)]
      exact ⟨fs, .ok, rfl, Seen.refl h.ok, Or.inr ⟨rfl, fun x => absurd x hdir⟩⟩
  obtain ⟨f0, r, a, s0, c⟩ := check
  rw [a]
  dsimp only
  rcases c with ⟨c1, c2⟩ | ⟨rfl, hbare⟩
  · rw [if_pos c1]
    exact ⟨f0, r, rfl, c2⟩
  rw [if_neg (by simp)]
  obtain ⟨h0, hD0⟩ := h.seen s0
  obtain ⟨f1, d1, e1, h1, hD1, sh1, en1, ot1, w1, bl1⟩ := erase_at hq rt f0 h0 dp hd.index hd.sclust hd.inside (by rw [hD0]; exact hf)
  rw [e1]
  dsimp only
  rw [if_neg (by simp)]
  obtain ⟨f2, e2, sh2, ok2, out2, en2, F2, w2⟩ := free_spec hq f1 h1.ok (own L) O M h1.files
  rw [e2]
  dsimp only
  rw [if_pos rfl]
  have sh02 : Shape fs f2 := (s0.shape.trans sh1).trans sh2
  have l1 := h1.ok.layout
  have hend := Fs.layout_fatend l1
  have asd : f2.Aside (own L ++ O) f2.winsect := by
    have : f1.Aside (own L ++ O) f2.winsect := by
      rcases w2 with w2 | w2
      · rw [w2, w1]
        exact window_aside O h1.area l1 (by omega)
      · unfold Fs.InTable at w2
        exact Or.inl (by omega)
    unfold Fs.Aside Fs.first at this ⊢
    rw [sh2.2.1, sh2.2.2.2.2.2.2]
    exact this
  obtain ⟨f3, e3, wf3, s3, _⟩ := syncFs_shift hq vol f2 ok2 (own L ++ O) asd (fun x => by rw [sh02.2.2.2.2.2.1]; exact hv (by rw [← sh02.1]; exact x))
  rw [e3]
  have sh3 : Shape f2 f3 := ⟨s3.ty, s3.csize, s3.nFats, s3.nFatent, s3.fsize, s3.fatbase, s3.database⟩
  have hF3 : Files f3.entryAt f3.nFatent (own L ++ O) := by
    rw [s3.nFatent]
    exact files_congr F2 s3.entries
  have out3 : ∀ s, f1.fatbase ≤ s → ¬ f1.InCopies s → ¬ f1.InTable s → f3.look s = f1.look s := fun s k1 k2 k3 => by
      rw [s3.outside s (by rw [sh2.inCopies]; exact k2) (by rw [sh2.inTable]; exact k3), out2 s k2 k3]
      rintro ⟨k4, k5⟩
      have := hv (by rw [← sh02.1]; exact k4)
      have e5 : f1.fatbase = fs.fatbase := (s0.shape.trans sh1).2.2.2.2.2.1
      omega
  obtain ⟨h3, hD3, ot3⟩ := tables_only h1 (sh2.trans sh3) s3.ok out3
    (fun c hc => by rw [s3.entries c (by rw [sh2.2.2.2.1]; exact hc), en2 c hc]) hF3
  have hD : dirOf f3 S n = (dirOf fs S n).set i Spec.deleted := by rw [hD3, hD1, hD0]
  have ent : ∀ c, c < fs.nFatent → f3.entryAt c = if c ∈ M then 0 else fs.entryAt c := by
    intro c hc
    have n1 : f0.nFatent = fs.nFatent := s0.shape.2.2.2.1
    have n2 : f1.nFatent = f0.nFatent := sh1.2.2.2.1
    rw [s3.entries c (by rw [sh2.2.2.2.1]; omega), en2 c (by omega), en1 c (by omega), s0.entries c hc]
  refine ⟨f3, _, rfl, .removed hr hbare ⟨h3, sh02.trans sh3, hD, ?_, ?_, ?_, fun hL => ((s0.below hl).trans (bl1 hL) s0.shape).trans (below_out l1 out3) (s0.shape.trans sh1), ?_, ?_, ?_⟩⟩
  · rw [hD]
    exact deleted_absent hf h.distinct hp
  · rw [hD]
    exact fun gn hg hne j => deleted_others hf gn hg hne j
  · have o0 := others_seen hl h.files s0
    have o1 := others_trans o0 ot1 s0.shape.2.1 s0.shape.2.2.2.2.2.2
    have sh01 := s0.shape.trans sh1
    refine others_trans (fun N hN => o1 N (List.mem_append_right _ hN)) ot3 sh01.2.1 sh01.2.2.2.2.2.2
  · intro c hc
    have hb : c < fs.nFatent := by
      have hM : M ≠ [] := fun x => by rw [x] at hc; cases hc
      obtain ⟨x, hx⟩ := h.files.chains M (List.mem_append_right _ (List.mem_append_left _ (by unfold own; rw [if_neg hM]; exact List.mem_singleton_self _)))
      exact (hx.mem hc).2.1
    rw [ent c hb, if_pos hc]
  · intro c hc hn
    rw [ent c hc, if_neg hn]
  · intro s
    unfold Fs.look
    by_cases k : s = f3.winsect
    · rw [if_pos k, k]
      exact (s3.ok.clean wf3).symm
    · rw [if_neg k]

/-- The reply fits only one of the cases: what the directory has decides. -/
theorem verdict_unique {fs fs' fs'' : Fs} {rt : Root} {cl : Nat} {L : List Nat} {S : Nat → Nat} {n : Nat} {M : List Nat} {O : List (List Nat)} {fn : Nat → BitVec 8} {i : Nat} {e : Item} {r r' : Fr}
    (h : Verdict fs fs' rt cl L S n M O fn i e r) (k : Verdict fs fs'' rt cl L S n M O fn i e r') : r = r' := by
  cases h <;> cases k <;> first | rfl | contradiction | skip
  · rename_i a b c d _ _ f _
    exact absurd (f b).2 (next_none _ _ _ d)
  · rename_i a b c _ _ f _
    exact absurd c (f b).1
  · rename_i _ f _ _ _ a _ d _
    exact absurd (f a).2 (next_none _ _ _ d)
  · rename_i _ f _ _ a b _
    exact absurd b (f a).1

/-- Names in directories without files beyond the first two entries are names of these two, or begin with a dot. -/
theorem bare_names {D : List Item} (h : NoneFrom D 2) {fn : Nat → BitVec 8} (hp : proper fn) (hdot : fn 0 ≠ 0x2E) {i : Nat} (hf : FoundAt D fn i) : i < 2 := by
  refine Nat.lt_of_not_le fun hi => ?_
  obtain ⟨e, h1, h2, h3⟩ := hf.hit
  have e0 := h3 0 (by decide)
  have bits : ∀ a : BitVec 8, a &&& 8 = 0 → a &&& 0x3F ≠ 0x0F ∧ a &&& 0x3F ≠ 0x08 := by decide +kernel
  obtain ⟨k, e', _, k2, k3, k4⟩ := h i e hi h1 ⟨by rw [e0]; exact hp.2, by rw [e0]; exact hdot, bits _ h2⟩
  exact hf.before k k2 e' k3 k4

theorem chain_unique {tbl : Nat → Nat} {n c : Nat} {L L' : List Nat} (h : Chain tbl n c L) (k : Chain tbl n c L') : L = L' := by
  induction h generalizing L' with
  | last a b d =>
    cases k with
    | last => rfl
    | link _ _ _ x _ => omega
  | link a b d x _ ih =>
    cases k with
    | last _ _ y => omega
    | link _ _ _ _ y => rw [ih y]

/-- A directory has only one place. -/
theorem area_unique {fs : Fs} {rt : Root} {cl n n' : Nat} {L L' : List Nat} {S S' : Nat → Nat} (h : Area fs rt cl L S n) (k : Area fs rt cl L' S' n') : L = L' ∧ S = S' ∧ n = n' := by
  cases h with
  | static g1 =>
    cases k with
    | static => exact ⟨rfl, rfl, rfl⟩
    | chain g hc =>
      rcases g with rfl | ⟨_, g, _⟩
      · obtain ⟨L', rfl⟩ := hc.head
        have := (hc.mem (List.mem_cons_self ..)).1
        omega
      · exact absurd g g1
  | chain g hc =>
    have h2 : ∀ {c : Nat} {L : List Nat}, Chain fs.entryAt fs.nFatent c L → 2 ≤ c := fun hc => by
      obtain ⟨L', rfl⟩ := hc.head
      exact (hc.mem (List.mem_cons_self ..)).1
    cases k with
    | static g1 =>
      rcases g with rfl | ⟨_, g, _⟩
      · have := h2 hc
        omega
      · exact absurd g g1
    | chain g' hc' =>
      have a1 := h2 hc
      have a2 := h2 hc'
      have : L = L' := by
        rcases g with rfl | ⟨x, _, z⟩ <;> rcases g' with rfl | ⟨x', _, z'⟩
        · exact chain_unique hc hc'
        · omega
        · omega
        · rw [← z] at hc
          rw [← z'] at hc'
          exact chain_unique hc hc'
      subst this
      exact ⟨rfl, rfl, rfl⟩

/-- What `f_unlink` is to do for a path that leads to `o`, if the directory that it leads to has the place `L`, `S` and `n`, and the clusters of the entry are `M` -/
inductive Judged (fs fs' : Fs) (rt : Root) (dir : Nat → List Item) (fn : Nat → BitVec 8) : Outcome → UnlinkRes → Prop
  | there {cl i n : Nat} {L : List Nat} {S : Nat → Nat} {M : List Nat} {O : List (List Nat)} {e : Item} {r : Fr} : (dir cl)[i]? = some e → Holds fs rt cl L S n (own M ++ O) → Spec.start fs.ty e 0 = M.headD 0 →
      Verdict fs fs' rt cl L S n M O fn i e r → Judged fs fs' rt dir fn (.found cl i) (.fr r)
  | missing {cl : Nat} : Seen fs fs' → Judged fs fs' rt dir fn (.missing cl) (.fr .noFile)
  | noPath : Seen fs fs' → Judged fs fs' rt dir fn .noPath .noPath

/-- Each entry of each directory has its own clusters: the volume is consistent. -/
def Sound (fs : Fs) (rt : Root) (K : Nat → Prop) (dir : Nat → List Item) : Prop :=
  ∀ cl, K cl → ∀ fn i e, proper fn → fn 0 ≠ 0x2E → FoundAt (dir cl) fn i → (dir cl)[i]? = some e →
    ∃ L S n M O, Holds fs rt cl L S n (own M ++ O) ∧ dir cl = dirOf fs S n ∧ Spec.start fs.ty e 0 = M.headD 0

theorem inside_seen {a b : Fs} {F : List (List Nat)} {M : List Nat} (hok : a.Ok) (hF : Files a.entryAt a.nFatent F) (hM : M ∈ F) (hs : Seen a b) : inside b M = inside a M := by
  have e : b.sec M = a.sec M := funext fun i => hs.shape.sec M i
  unfold inside
  rw [e, hs.shape.2.1]
  exact dirOf_seen (sub_area (rt := ⟨0, 0⟩) hF hM).1 hok.layout hs

theorem own_in {L M : List Nat} {O : List (List Nat)} (h : M ≠ []) : M ∈ own L ++ (own M ++ O) :=
  List.mem_append_right _ (List.mem_append_left _ (by unfold own; rw [if_neg h]; exact List.mem_singleton_self _))

/-- Looking at the disk before does not matter. -/
theorem verdict_seen {fs f fs' : Fs} {rt : Root} {cl : Nat} {L : List Nat} {S : Nat → Nat} {n : Nat} {M : List Nat} {O : List (List Nat)} {fn : Nat → BitVec 8} {i : Nat} {e : Item} {r : Fr}
    (h : Holds fs rt cl L S n (own M ++ O)) (hs : Seen fs f) (k : Verdict f fs' rt cl L S n M O fn i e r) : Verdict fs fs' rt cl L S n M O fn i e r := by
  have hin : M ≠ [] → inside f M = inside fs M := fun hM => inside_seen h.ok h.files (own_in hM) hs
  obtain ⟨_, hD⟩ := h.seen hs
  cases k with
  | locked a b => exact .locked a (hs.trans b)
  | full a b c d g => exact .full a b c (by rw [← hin c]; exact d) (hs.trans g)
  | broken a b c d => exact .broken a b c (hs.trans d)
  | removed a b g =>
    refine .removed a (fun x => ⟨(b x).1, by rw [← hin (b x).1]; exact (b x).2⟩) ⟨g.holds, hs.shape.trans g.shape, by rw [← hD]; exact g.entry, g.absent, by rw [← hD]; exact g.names, ?_, fun x => (hs.below h.ok.layout).trans (g.below x) hs.shape, g.freed, ?_, g.written⟩
    · exact others_trans (fun N hN => others_seen h.ok.layout h.files hs N (List.mem_append_right _ hN)) g.others hs.shape.2.1 hs.shape.2.2.2.2.2.2
    · intro c hc hn
      rw [g.kept c (by rw [hs.shape.2.2.2.1]; exact hc) hn, hs.entries c hc]

/-- The directory that a path leads to is one of the volume, and has the last name of the path. -/
theorem resolves_place {fs : Fs} {rt : Root} {K : Nat → Prop} {dir : Nat → List Item} (h : Tree fs rt K dir) {cl : Nat} {ns : List (List (BitVec 8))} {o : Outcome} (hr : Resolves dir fs.ty cl ns o) :
    (∀ n ∈ ns, proper (nameOf n) ∧ nameOf n 0 ≠ 0x2E) → K cl → ∀ cl' i, o = .found cl' i → K cl' ∧ FoundAt (dir cl') (nameOf (ns.getLastD [])) i := by
  induction hr with
  | found hf =>
    intro hn hk cl' i' e
    injection e with e1 e2
    subst e1 e2
    exact ⟨hk, hf⟩
  | missing => intro _ _ _ _ e; cases e
  | lost => intro _ _ _ _ e; cases e
  | file => intro _ _ _ _ e; cases e
  | down hf he hd _ ih =>
    intro hn hk cl' i' e
    exact ih (fun n h => hn n (List.mem_cons_of_mem _ h)) (h.closed _ hk _ _ _ (hn _ (List.mem_cons_self ..)).1 (hn _ (List.mem_cons_self ..)).2 hf he hd) cl' i' e

/-- `f_unlink` removes what the path leads to, or leaves everything as it is and tells why: on a consistent volume, if no read or write fails, for paths of names of the form 8.3 without the letters that `create_name` takes for others (`odd`). -/
theorem unlink_partial {env : Env} (hq : Quiet env) {rt : Root} {K : Nat → Prop} {dir : Nat → List Item} {fs : Fs} (h : Tree fs rt K dir) (hk : Sound fs rt K dir) (vol : Nat) (hv : fs.ty = .fat32 → vol + 1 < fs.fatbase)
    (dp : Dir) (old : Nat → BitVec 8) {path : List (BitVec 8)} {ns : List (List (BitVec 8))} (ht : Text (fun c => ¬ odd c) path ns) :
    ∃ fs' r o, fUnlink env rt vol fs dp old path = some (fs', r) ∧ Resolves dir fs.ty 0 ns o ∧ Judged fs fs' rt dir (nameOf (ns.getLastD [])) o r := by
  obtain ⟨f, d, fn, r, o, a, s, b, c, _⟩ := follow_right_partial hq h dp old ht
  unfold fUnlink
  rw [a]
  dsimp only
  cases o with
  | missing cl =>
    obtain ⟨rfl, _⟩ := c
    exact ⟨f, _, _, rfl, b, .missing s⟩
  | noPath =>
    have c : r = .noPath := c
    subst c
    exact ⟨f, _, _, rfl, b, .noPath s⟩
  | found cl i =>
    obtain ⟨rfl, c⟩ := c
    dsimp only
    rw [if_pos rfl]
    obtain ⟨hcl, hf⟩ := resolves_place h b (text_names ht) h.root cl i rfl
    obtain ⟨hp, hdot⟩ := text_proper ht
    obtain ⟨e, he, _⟩ := hf.hit
    obtain ⟨L, S, n, M, O, k1, k2, k3⟩ := hk cl hcl _ i e hp hdot hf he
    obtain ⟨k4, k5⟩ := k1.seen s
    obtain ⟨L', S', n', p1, p2, p3⟩ := c.place
    obtain ⟨rfl, rfl, rfl⟩ := area_unique p1 k4.area
    obtain ⟨fs', r, q1, q2⟩ := unlink_entry hq rt vol f k4 (by rw [s.shape.1, s.shape.2.2.2.2.2.1]; exact hv) d p2 hp (by rw [← p3]; exact hf) (by rw [← p3]; exact he) (c.entry e he) (by rw [s.shape.1]; exact k3)
    rw [q1]
    exact ⟨fs', _, _, rfl, b, .there he k1 k3 (verdict_seen k1 s q2)⟩

/-- Finding: for the path of the root the code reads at a null pointer before it gives up. -/
theorem root_undefined {env : Env} (hq : Quiet env) {rt : Root} {K : Nat → Prop} {dir : Nat → List Item} {fs : Fs} (h : Tree fs rt K dir) (vol : Nat) (dp : Dir) (old : Nat → BitVec 8) {path : List (BitVec 8)} (ho : Origin path) :
    ∃ fs', fUnlink env rt vol fs dp old path = some (fs', .undefined) ∧ Seen fs fs' := by
  obtain ⟨f, d, a, s, _⟩ := root_path hq h dp old ho
  unfold fUnlink
  rw [a]
  exact ⟨f, rfl, s⟩

/-- Paths that end without a proper name remove nothing. -/
theorem unlink_refused_partial {env : Env} (hq : Quiet env) {rt : Root} {K : Nat → Prop} {dir : Nat → List Item} {fs : Fs} (h : Tree fs rt K dir) (vol : Nat) (dp : Dir) (old : Nat → BitVec 8) {path : List (BitVec 8)}
    {ns : List (List (BitVec 8))} (ht : Trail (fun c => ¬ odd c) path ns) (ho : ¬ Origin path) :
    ∃ fs' r, fUnlink env rt vol fs dp old path = some (fs', r) ∧ Seen fs fs' ∧ (((∃ cl', Walks dir fs.ty 0 ns cl') ∧ r = .invalidName) ∨ ((¬ ∃ cl', Walks dir fs.ty 0 ns cl') ∧ r = .noPath)) := by
  obtain ⟨f, d, fn, r, a, s, c⟩ := refused_partial hq h dp old ht ho
  unfold fUnlink
  rw [a]
  rcases c with ⟨c, rfl⟩ | ⟨c, rfl⟩
  · exact ⟨f, _, rfl, s, Or.inl ⟨c, rfl⟩⟩
  · exact ⟨f, _, rfl, s, Or.inr ⟨c, rfl⟩⟩

/-! ## An example -/

/-- A volume with the file `A` (cluster 3), the directory `SUB` (cluster 2) and the read only file `R` (no clusters) in the root (sector 5), and in `SUB` (sector 10) the entries `.` and `..` and the file `B` (cluster 4) -/
def home : Fs :=
  { empty with
    win := fun i => if i < 10 then 255#8 else 0#8
    disk := fun s i =>
      if s = 1 ∨ s = 3 then (if i < 10 then 255#8 else 0#8)
      else if s = 5 then (if i < 32 then itemOf [65] 0x20 3 i else if i < 64 then itemOf [83, 85, 66] 0x10 2 (i - 32) else if i < 96 then itemOf [82] 0x21 0 (i - 64) else 0)
      else if s = 10 then
        (if i < 32 then itemOf [46] 0x10 2 i else if i < 64 then itemOf [46, 46] 0x10 0 (i - 32) else if i < 96 then itemOf [66] 0x20 4 (i - 64) else 0)
      else 0 }

/-- The reply to removing a path, and the table's entries of the clusters 2, 3 and 4 -/
def drop (fs : Fs) (path : List (BitVec 8)) : Option (Fs × UnlinkRes) := fUnlink calm root 0 fs ⟨0, 0, 0, 0, 0⟩ (fun _ => 0) path

/-- the clusters that are free -/
def freeOf (x : Fs × UnlinkRes) : UnlinkRes × List Bool := (x.2, [2, 3, 4].map fun c => x.1.entryAt c = 0)

/-- `a` is removed, `r` is read only, `sub` is not empty, `x` is not there; for `/` the code reads at a null pointer. -/
example : (drop home [0x61]).map freeOf = some (.fr .ok, [false, true, false]) ∧ (drop home [0x72]).map freeOf = some (.fr .denied, [false, false, false]) ∧
    (drop home [0x73, 0x75, 0x62]).map freeOf = some (.fr .denied, [false, false, false]) ∧ (drop home [0x78]).map freeOf = some (.fr .noFile, [false, false, false]) ∧
    (drop home [0x2F]).map freeOf = some (.undefined, [false, false, false]) := by decide +kernel

/-- `sub/b`, then `sub` -/
example : ((drop home [0x73, 0x75, 0x62, 0x2F, 0x62]).bind fun x => drop x.1 [0x73, 0x75, 0x62]).map freeOf = some (.fr .ok, [true, false, true]) := by decide +kernel

theorem home_ok : home.Ok := by
  refine ⟨⟨by decide, by decide, by decide, by decide, by decide, by decide, by decide⟩, fun _ => ?_, ?_, by decide⟩
  · funext i
    simp [home, empty, vol]
  · unfold Fs.InCopies
    decide

/-- The directories of `home` -/
def homes (cl : Nat) : List Item := dirOf home (if cl = 0 then fun i => root.dirbase + i else home.sec [2]) 1

theorem home_order (S : Nat → Nat) (h1 : ∀ i, i < 16 → ∀ j, j < 16 → i ≤ j → entryOf home S i 0 = 0 → entryOf home S j 0 = 0)
    (h2 : ∀ i, i < 16 → ∀ j, j < 16 → entryOf home S i 0 ≠ 0 → entryOf home S i 0 = entryOf home S j 0 → entryOf home S i 1 = entryOf home S j 1 → i = j) : Spec.Tidy (dirOf home S 1) ∧ Spec.Distinct (dirOf home S 1) := by
  have get : ∀ {i : Nat} {e : Item}, (dirOf home S 1)[i]? = some e → i < 16 ∧ e = entryOf home S i := by
    intro i e h
    rw [dirOf_get] at h
    by_cases hi : i < 16 * 1 ∧ i < 65536
    · rw [if_pos hi] at h
      exact ⟨by omega, (Option.some.inj h).symm⟩
    · rw [if_neg hi] at h
      cases h
  constructor
  · intro i j e e' hij a b c
    obtain ⟨a1, rfl⟩ := get a
    obtain ⟨b1, rfl⟩ := get b
    exact h1 i a1 j b1 hij c
  · intro fn i j e e' a b c _ _ n1 n2
    obtain ⟨a1, rfl⟩ := get a
    obtain ⟨b1, rfl⟩ := get b
    exact h2 i a1 j b1 c ((n1.2 0 (by decide)).trans (n2.2 0 (by decide)).symm) ((n1.2 1 (by decide)).trans (n2.2 1 (by decide)).symm)

theorem home_files (F : List (List Nat)) (h1 : ∀ L ∈ F, L = [2] ∨ L = [3] ∨ L = [4]) (h2 : F.flatten.Nodup) (h3 : 2 ∈ F.flatten ∧ 3 ∈ F.flatten ∧ 4 ∈ F.flatten) : Files home.entryAt home.nFatent F := by
  refine ⟨fun L hL => ?_, h2, fun c a b d => ?_⟩
  · rcases h1 L hL with rfl | rfl | rfl
    · exact ⟨2, .last (by decide) (by decide) (by decide +kernel)⟩
    · exact ⟨3, .last (by decide) (by decide) (by decide +kernel)⟩
    · exact ⟨4, .last (by decide) (by decide) (by decide +kernel)⟩
  · have := (by decide +kernel : ∀ c, c < 500 → 2 ≤ c → home.entryAt c ≠ 0 → c = 2 ∨ c = 3 ∨ c = 4) c b a d
    rcases this with rfl | rfl | rfl
    · exact h3.1
    · exact h3.2.1
    · exact h3.2.2

theorem home_root {M : List Nat} {O : List (List Nat)} (h : Files home.entryAt home.nFatent (own [] ++ (own M ++ O))) : Holds home root 0 [] (fun i => root.dirbase + i) 1 (own M ++ O) :=
  have z := home_order (fun i => root.dirbase + i) (by decide +kernel) (by decide +kernel)
  ⟨Area.static (fs := home) (rt := root) (by decide) (by decide) (by decide) (by decide) (by decide), home_ok, ⟨0, by decide, by decide⟩, h, z.1, z.2⟩

theorem home_sub : Holds home root 2 [2] (home.sec [2]) 1 (own [4] ++ [[3]]) :=
  have z := home_order (home.sec [2]) (by decide +kernel) (by decide +kernel)
  ⟨Area.chain (fs := home) (rt := root) (cl := 2) (c := 2) (L := [2]) (Or.inl rfl) (.last (by decide) (by decide) (by decide +kernel)), home_ok, ⟨0, by decide, by decide⟩,
    home_files _ (by decide) (by decide) (by decide), z.1, z.2⟩

theorem home_tree : Tree home root (fun cl => cl = 0 ∨ cl = 2) homes := by
  have key : ∀ (S : Nat → Nat), (∀ i, i < 16 → entryOf home S i 11 &&& 0x10 = 0 ∨ Spec.start .fat16 (entryOf home S i) 0 = 0 ∨ Spec.start .fat16 (entryOf home S i) 0 = 2) →
      ∀ fn i e, proper fn → fn 0 ≠ 0x2E → FoundAt (dirOf home S 1) fn i → (dirOf home S 1)[i]? = some e → isDir e → Spec.start home.ty e 0 = 0 ∨ Spec.start home.ty e 0 = 2 := by
    intro S h fn i e _ _ _ h1 h2
    rw [dirOf_get] at h1
    by_cases hi : i < 16 * 1 ∧ i < 65536
    · rw [if_pos hi] at h1
      rw [← Option.some.inj h1] at h2 ⊢
      exact (h i (by omega)).resolve_left h2
    · rw [if_neg hi] at h1
      cases h1
  refine ⟨home_ok, ⟨0, by decide, by decide⟩, Or.inl rfl, fun cl hc => ?_, fun cl hc => ?_⟩
  · rcases hc with rfl | rfl
    · exact ⟨[], fun i => root.dirbase + i, 1, Area.static (fs := home) (rt := root) (by decide) (by decide) (by decide) (by decide) (by decide), rfl⟩
    · exact ⟨[2], home.sec [2], 1, home_sub.area, rfl⟩
  · rcases hc with rfl | rfl
    · exact key _ (by decide +kernel)
    · exact key _ (by decide +kernel)

theorem home_sound : Sound home root (fun cl => cl = 0 ∨ cl = 2) homes := by
  intro cl hc fn i e hp hdot hf he
  have get : ∀ S : Nat → Nat, (dirOf home S 1)[i]? = some e → i < 16 ∧ e = entryOf home S i := by
    intro S h
    rw [dirOf_get] at h
    by_cases hi : i < 16 * 1 ∧ i < 65536
    · rw [if_pos hi] at h
      exact ⟨by omega, (Option.some.inj h).symm⟩
    · rw [if_neg hi] at h
      cases h
  obtain ⟨e', he', hn⟩ := hf.hit
  rw [he] at he'
  injection he' with he'
  subst he'
  have n0 := hn.2 0 (by decide)
  have e0 := hf.before i (Nat.le_refl _) e he
  rcases hc with rfl | rfl
  · obtain ⟨hi, rfl⟩ := get (fun i => root.dirbase + i) he
    have := (by decide +kernel : ∀ i, i < 16 → entryOf home (fun i => root.dirbase + i) i 0 ≠ 0 → i = 0 ∨ i = 1 ∨ i = 2) i hi e0
    rcases this with rfl | rfl | rfl
    · exact ⟨_, _, _, [3], [[2], [4]], home_root (home_files _ (by decide) (by decide) (by decide)), rfl, by decide +kernel⟩
    · exact ⟨_, _, _, [2], [[3], [4]], home_root (home_files _ (by decide) (by decide) (by decide)), rfl, by decide +kernel⟩
    · exact ⟨_, _, _, [], [[2], [3], [4]], home_root (home_files _ (by decide) (by decide) (by decide)), rfl, by decide +kernel⟩
  · obtain ⟨hi, rfl⟩ := get (home.sec [2]) he
    have := (by decide +kernel : ∀ i, i < 16 → entryOf home (home.sec [2]) i 0 ≠ 0 → entryOf home (home.sec [2]) i 0 ≠ 0x2E → i = 2) i hi e0 (by rw [n0]; exact hdot)
    subst this
    exact ⟨_, _, _, [4], [[3]], home_sub, rfl, by decide +kernel⟩

/-- The theorem holds for `home` and the path `a`. -/
example : ∃ fs' r o, drop home [0x61] = some (fs', r) ∧ Resolves homes home.ty 0 [stored [0x61] []] o ∧ Judged home fs' root homes (nameOf (stored [0x61] [])) o r :=
  unlink_partial calm_quiet home_tree home_sound 0 (by decide) _ _ (.last (seps := []) (s := [0x61]) (tail := []) (body := [0x61]) (ext := []) (by simp) ⟨Or.inl ⟨rfl, rfl⟩, by decide, by decide⟩ (by decide) (by simp))

/-- `a` is there, so it is gone. -/
example : ∃ fs', drop home [0x61] = some (fs', .fr .ok) ∧ ∃ L S n M O, Gone home fs' root 0 L S n M O (nameOf (stored [0x61] [])) 0 := by
  obtain ⟨fs', r, o, h1, h2, h3⟩ := unlink_partial calm_quiet home_tree home_sound 0 (by decide) ⟨0, 0, 0, 0, 0⟩ (fun _ => 0)
    (.last (seps := []) (s := [0x61]) (tail := []) (body := [0x61]) (ext := []) (by simp) ⟨Or.inl ⟨rfl, rfl⟩, by decide, by decide⟩ (by decide) (by simp))
  have hr : (drop home [0x61]).map (·.2) = some (.fr .ok) := by decide +kernel
  unfold drop at hr ⊢
  simp only [List.nil_append, List.append_nil] at h1
  rw [h1] at hr
  obtain rfl : r = .fr .ok := Option.some.inj hr
  have o2 : Resolves homes home.ty 0 [stored [0x61] []] (.found 0 0) :=
    .found ⟨⟨_, rfl, by decide +kernel, by decide +kernel⟩, fun j hj e he => by
      obtain rfl : j = 0 := by omega
      rw [← Option.some.inj ((show (homes 0)[0]? = some (entryOf home (fun i => root.dirbase + i) 0) from rfl).symm.trans he)]
      decide +kernel, fun j hj => by omega⟩
  obtain rfl := resolves_unique h2 o2
  refine ⟨fs', h1, ?_⟩
  cases h3 with
  | there a b c d =>
    cases d with
    | removed _ _ g => exact ⟨_, _, _, _, _, g⟩

end Verif.Fat
