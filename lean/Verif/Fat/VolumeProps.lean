import Verif.Fat.MoveProps

/-!
# FatFs: consistent volumes — properties

What the theorems on paths assume of a volume (`Tree`, `Whole`, `Joint`) follows from one statement about all of it.
-/

namespace Verif.Fat

open Spec (Ty Item named FoundAt Absent Full alike proper isDir Chain Files Text Origin Outcome Resolves nameOf stored moved Adopted)

/-- There is a file or directory at entry `i` of the directory `cl`, with the entry `e`; `.` and `..` are not meant. -/
def Object (dir : Nat → List Item) (cl i : Nat) (e : Item) : Prop := ∃ fn, proper fn ∧ fn 0 ≠ 0x2E ∧ FoundAt (dir cl) fn i ∧ (dir cl)[i]? = some e

/-- A consistent volume: its chains of clusters are `F`; `K` are its directories, each given by the first cluster; these are a tree. -/
structure Volume (fs : Fs) (rt : Root) (K : Nat → Prop) (dir : Nat → List Item) (clus : Nat → List Nat) (sect : Nat → Nat → Nat) (len : Nat → Nat) (depth : Nat → Nat) (F : List (List Nat)) : Prop where
  ok : fs.Ok
  power : ∃ p, p ≤ 7 ∧ fs.csize = 2 ^ p
  files : Files fs.entryAt fs.nFatent F
  root : K 0
  area : ∀ cl, K cl → Area fs rt cl (clus cl) (sect cl) (len cl)
  held : ∀ cl, K cl → ∀ X ∈ own (clus cl), X ∈ F
  entries : ∀ cl, K cl → dir cl = dirOf fs (sect cl) (len cl)
  tidy : ∀ cl, K cl → Spec.Tidy (dir cl)
  distinct : ∀ cl, K cl → Spec.Distinct (dir cl)
  /-- what entries lead to is a directory if they say so, -/
  closed : ∀ cl, K cl → ∀ fn i e, proper fn → fn 0 ≠ 0x2E → FoundAt (dir cl) fn i → (dir cl)[i]? = some e → isDir e → K (Spec.start fs.ty e 0)
  /-- and else a chain that is long enough -/
  chains : ∀ cl i e, K cl → Object dir cl i e → ∃ M, (∀ X ∈ own M, X ∈ F) ∧ Spec.start fs.ty e 0 = M.headD 0 ∧ (isDir e → M ≠ []) ∧ (¬ isDir e → Spec.size e 0 ≤ 512 * (M.length * fs.csize))
  /-- no two entries lead to the same clusters, -/
  single : ∀ cl i e cl' i' e', K cl → K cl' → Object dir cl i e → Object dir cl' i' e' → Spec.start fs.ty e 0 = Spec.start fs.ty e' 0 → Spec.start fs.ty e 0 ≠ 0 → cl = cl' ∧ i = i'
  /-- none to those of the root, -/
  top : ∀ cl i e, K cl → Object dir cl i e → Spec.start fs.ty e 0 ≠ 0 → Spec.start fs.ty e 0 ≠ (clus 0).headD 0
  /-- there is one for each directory, -/
  up : ∀ cl, K cl → cl ≠ 0 → ∃ p i e, K p ∧ Object dir p i e ∧ isDir e ∧ Spec.start fs.ty e 0 = cl
  /-- no directory is in itself, -/
  down : ∀ cl i e, K cl → Object dir cl i e → isDir e → depth (Spec.start fs.ty e 0) = depth cl + 1
  /-- and the first two entries of a directory that is not the root are `.` and `..`, or at least have names that begin with a dot. -/
  dots : ∀ cl, K cl → cl ≠ 0 → ∃ a b, a 0 = 0x2E ∧ b 0 = 0x2E ∧ FoundAt (dir cl) a 0 ∧ FoundAt (dir cl) b 1
  /-- No clusters are lost: each chain is that of a directory or of a file. -/
  reached : ∀ X ∈ F, (∃ cl, K cl ∧ clus cl = X) ∨ ∃ cl i e, K cl ∧ Object dir cl i e ∧ Spec.start fs.ty e 0 = X.headD 0

theorem files_perm {t : Nat → Nat} {n : Nat} {F G : List (List Nat)} (h : Files t n F) (p : F.Perm G) : Files t n G := by
  have q := p.flatten
  exact ⟨fun L hL => h.chains L (p.mem_iff.mpr hL), q.nodup_iff.mp h.apart, fun c a b d => q.mem_iff.mp (h.used c a b d)⟩

/-- One of the chains is taken out. -/
theorem take_out {t : Nat → Nat} {n : Nat} {A O : List (List Nat)} {X : List Nat} (h : Files t n (A ++ O)) (hX : ∀ Y ∈ own X, Y ∈ O) : ∃ O', Files t n (A ++ (own X ++ O')) ∧ ∀ Y ∈ O, Y ≠ X → Y ∈ O' := by
  by_cases hx : X = []
  · exact ⟨O, by rw [hx]; exact h, fun Y hY _ => hY⟩
  · rw [own_cons hx] at hX ⊢
    have hm := hX X (by simp)
    refine ⟨O.erase X, files_perm h ((List.perm_cons_erase hm).append_left A), fun Y hY hne => (List.mem_erase_of_ne hne).mpr hY⟩

variable {fs : Fs} {rt : Root} {K : Nat → Prop} {dir : Nat → List Item} {clus : Nat → List Nat} {sect : Nat → Nat → Nat} {len : Nat → Nat} {depth : Nat → Nat} {F : List (List Nat)}

/-- A directory that is not the root begins with its cluster. -/
theorem Volume.begins (v : Volume fs rt K dir clus sect len depth F) {cl : Nat} (hk : K cl) (h0 : cl ≠ 0) : clus cl ≠ [] ∧ (clus cl).headD 0 = cl := by
  have a := v.area cl hk
  generalize clus cl = L at a ⊢
  generalize sect cl = S at a
  generalize len cl = n at a
  cases a with
  | static => exact absurd rfl h0
  | chain g hc =>
    obtain ⟨L', rfl⟩ := hc.head
    rcases g with g | g
    · exact ⟨by simp, g.symm⟩
    · exact absurd g.1 h0

theorem Volume.member (v : Volume fs rt K dir clus sect len depth F) {X : List Nat} (h : X ∈ F) : 2 ≤ X.headD 0 := by
  obtain ⟨c, hc⟩ := v.files.chains X h
  obtain ⟨L, rfl⟩ := hc.head
  exact (hc.mem (List.mem_cons_self ..)).1

/-- The objects of a directory that is not the root are after the first two entries. -/
theorem Volume.after (v : Volume fs rt K dir clus sect len depth F) {c j : Nat} {z : Item} (hk : K c) (h0 : c ≠ 0) (ho : Object dir c j z) : 2 ≤ j := by
  obtain ⟨gn, _, o2, o3, _⟩ := ho
  obtain ⟨a, b, a0, b0, fa, fb⟩ := v.dots c hk h0
  obtain ⟨y, y1, y2⟩ := o3.hit
  refine Nat.le_of_not_lt fun hj => ?_
  obtain rfl | rfl : j = 0 ∨ j = 1 := by omega
  · obtain ⟨x, x1, x2⟩ := fa.hit
    cases x1.symm.trans y1
    exact o2 ((y2.2 0 (by decide)).symm.trans ((x2.2 0 (by decide)).trans a0))
  · obtain ⟨x, x1, x2⟩ := fb.hit
    cases x1.symm.trans y1
    exact o2 ((y2.2 0 (by decide)).symm.trans ((x2.2 0 (by decide)).trans b0))

/-- Two directories do not share clusters. -/
theorem Volume.apart (v : Volume fs rt K dir clus sect len depth F) {a b : Nat} (ha : K a) (hb : K b) (hne : a ≠ b) (h : clus a ≠ []) : clus a ≠ clus b := by
  intro e
  have key : ∀ c, K c → c ≠ 0 → clus 0 ≠ clus c := by
    intro c hc h0 e
    obtain ⟨_, b2⟩ := v.begins hc h0
    obtain ⟨p, i, x, u1, u2, _, u4⟩ := v.up c hc h0
    exact v.top p i x u1 u2 (by rw [u4]; exact h0) (by rw [u4, e, b2])
  by_cases h0 : a = 0
  · subst h0
    exact key b hb (fun x => hne x.symm) e
  by_cases h1 : b = 0
  · subst h1
    exact key a ha h0 e.symm
  have e1 := (v.begins ha h0).2
  have e2 := (v.begins hb h1).2
  rw [e] at e1
  exact hne (e1.symm.trans e2)

/-- An object shares clusters with a directory only if it is this directory. -/
theorem Volume.itself (v : Volume fs rt K dir clus sect len depth F) {cl i c : Nat} {e : Item} (hk : K cl) (ho : Object dir cl i e) (hc : K c) {M : List Nat} (hM : M ≠ []) (hF : ∀ X ∈ own M, X ∈ F) (hs : Spec.start fs.ty e 0 = M.headD 0) (h : M = clus c) :
    isDir e ∧ Spec.start fs.ty e 0 = c := by
  have h2 : 2 ≤ M.headD 0 := v.member (hF M (by rw [own_cons hM]; simp))
  by_cases h0 : c = 0
  · subst h0
    exact absurd (by rw [hs, h]) (v.top cl i e hk ho (by omega))
  · have b := (v.begins hc h0).2
    have hse : Spec.start fs.ty e 0 = c := by rw [hs, h, b]
    obtain ⟨p, k, x, u1, u2, u3, u4⟩ := v.up c hc h0
    obtain ⟨rfl, rfl⟩ := v.single cl i e p k x hk u1 ho u2 (hse.trans u4.symm) (by omega)
    obtain ⟨_, _, _, _, o1⟩ := ho
    obtain ⟨_, _, _, _, o2⟩ := u2
    obtain rfl := Option.some.inj (o1.symm.trans o2)
    exact ⟨u3, hse⟩

/-- **Consistent volumes** meet what the theorems on paths assume: the directories can be read, -/
theorem volume_tree (v : Volume fs rt K dir clus sect len depth F) : Tree fs rt K dir :=
  ⟨v.ok, v.power, v.root, fun cl hk => ⟨_, _, _, v.area cl hk, v.entries cl hk⟩, v.closed⟩

theorem Volume.holds (v : Volume fs rt K dir clus sect len depth F) {cl : Nat} (hk : K cl) {O : List (List Nat)} (h : Files fs.entryAt fs.nFatent (own (clus cl) ++ O)) : Holds fs rt cl (clus cl) (sect cl) (len cl) O :=
  ⟨v.area cl hk, v.ok, v.power, h, by rw [← v.entries cl hk]; exact v.tidy cl hk, by rw [← v.entries cl hk]; exact v.distinct cl hk⟩

/-- The chain of an object is not the one of the directory it is in. -/
theorem Volume.inside (v : Volume fs rt K dir clus sect len depth F) {cl i : Nat} {e : Item} (hk : K cl) (ho : Object dir cl i e) {M : List Nat} (hF : ∀ X ∈ own M, X ∈ F) (hs : Spec.start fs.ty e 0 = M.headD 0) : M ≠ [] → M ≠ clus cl := by
  intro hM h
  obtain ⟨d, s⟩ := v.itself hk ho hk hM hF hs h
  have := v.down cl i e hk ho d
  rw [s] at this
  omega

/-- each object has its clusters apart from those of its directory, -/
theorem volume_whole (v : Volume fs rt K dir clus sect len depth F) : Whole fs rt K dir := by
  refine ⟨fun cl hk => ?_, fun cl hk fn i e hp hd hf he => ?_⟩
  · obtain ⟨O, h, _⟩ := take_out (A := []) v.files (v.held cl hk)
    exact ⟨_, _, _, O, v.holds hk h, v.entries cl hk⟩
  · have ho : Object dir cl i e := ⟨fn, hp, hd, hf, he⟩
    obtain ⟨M, m1, m2, m3, m4⟩ := v.chains cl i e hk ho
    obtain ⟨O, h, k⟩ := take_out (A := []) v.files (v.held cl hk)
    obtain ⟨O', h', _⟩ := take_out (X := M) (O := O) h fun Y hY => k Y (m1 Y hY) (by
      obtain ⟨rfl, y⟩ := own_mem hY
      exact v.inside hk ho m1 m2 y)
    exact ⟨_, _, _, M, O', v.holds hk h', v.entries cl hk, m2, m4⟩

/-- and so are those of another directory, unless this is the object. -/
theorem volume_joint (v : Volume fs rt K dir clus sect len depth F) {cl i cl2 : Nat} {e : Item} (hk : K cl) (hk2 : K cl2) (ho : Object dir cl i e) (hne : cl2 ≠ cl) (hself : ¬ (isDir e ∧ Spec.start fs.ty e 0 = cl2)) :
    ∃ M O, Joint fs rt dir cl cl2 e (clus cl) (sect cl) (len cl) (clus cl2) (sect cl2) (len cl2) M O := by
  obtain ⟨M, m1, m2, m3, m4⟩ := v.chains cl i e hk ho
  obtain ⟨O, h, k⟩ := take_out (A := []) v.files (v.held cl hk)
  obtain ⟨O2, h2, k2⟩ := take_out (X := clus cl2) (O := O) h fun Y hY => by
    obtain ⟨rfl, y⟩ := own_mem hY
    exact k _ (v.held cl2 hk2 _ hY) (v.apart hk2 hk hne y)
  have h2' : Files fs.entryAt fs.nFatent ((own (clus cl) ++ own (clus cl2)) ++ O2) := by
    rw [List.append_assoc]
    exact h2
  obtain ⟨O3, h3, _⟩ := take_out (X := M) (O := O2) h2' fun Y hY => by
    obtain ⟨rfl, y⟩ := own_mem hY
    refine k2 _ (k _ (m1 _ hY) (v.inside hk ho m1 m2 y)) fun z => hself (v.itself hk ho hk2 y m1 m2 z)
  rw [List.append_assoc] at h3
  exact ⟨M, O3, v.holds hk h3, v.entries cl hk, v.holds hk2 (files_swap h3), v.entries cl2 hk2, m2, m3⟩

/-- **Renaming and moving on a consistent volume.** As `move_partial`, for every object that is not moved into itself. -/
theorem move_volume_partial {env : Env} (hq : Quiet env) (v : Volume fs rt K dir clus sect len depth F) (vol : Nat) (hv : fs.ty = .fat32 → vol + 1 < fs.fatbase)
    (dp : Dir) (old : Nat → BitVec 8) {path path' : List (BitVec 8)} {ns ns' : List (List (BitVec 8))} (ht : Text (fun c => ¬ odd c) path ns) (ht' : Text (fun c => ¬ odd c) path' ns')
    (hself : ∀ cl i cl2 e, Resolves dir fs.ty 0 ns (.found cl i) → Resolves dir fs.ty 0 ns' (.missing cl2) → (dir cl)[i]? = some e → ¬ (isDir e ∧ Spec.start fs.ty e 0 = cl2)) :
    ∃ fs' r o, fRename env rt vol fs dp old path path' = some (fs', r) ∧ Resolves dir fs.ty 0 ns o ∧ Moves fs fs' rt dir (nameOf (ns.getLastD [])) (nameOf (ns'.getLastD [])) ns' o r := by
  have h := volume_tree v
  refine move_partial hq h (volume_whole v) vol hv dp old ht ht' fun cl i cl2 e r1 r2 hne he => ?_
  obtain ⟨hcl, hf⟩ := resolves_place h r1 (text_names ht) h.root cl i rfl
  obtain ⟨hcl2, _⟩ := resolves_missing h r2 (text_names ht') h.root cl2 rfl
  obtain ⟨hp, hdot⟩ := text_proper ht
  obtain ⟨M, O, j⟩ := volume_joint v hcl hcl2 ⟨_, hp, hdot, hf, he⟩ hne (hself cl i cl2 e r1 r2 he)
  exact ⟨_, _, _, _, _, _, M, O, j⟩

/-! ## An example -/

theorem home_object {cl i : Nat} {e : Item} (hc : cl = 0 ∨ cl = 2) (h : Object homes cl i e) :
    (cl = 0 ∧ (i = 0 ∨ i = 1 ∨ i = 2) ∧ e = entryOf home (fun i => root.dirbase + i) i) ∨ (cl = 2 ∧ i = 2 ∧ e = entryOf home (home.sec [2]) i) := by
  obtain ⟨fn, hp, hdot, hf, he⟩ := h
  have get : ∀ S : Nat → Nat, (dirOf home S 1)[i]? = some e → i < 16 ∧ e = entryOf home S i := by
    intro S h
    rw [dirOf_get] at h
    by_cases hi : i < 16 * 1 ∧ i < 65536
    · rw [if_pos hi] at h
      exact ⟨by omega, (Option.some.inj h).symm⟩
    · rw [if_neg hi] at h
      cases h
  obtain ⟨e', he', hn⟩ := hf.hit
  rw [he] at he'
  injection he' with he'
  subst he'
  have n0 := hn.2 0 (by decide)
  have e0 := hf.before i (Nat.le_refl _) e he
  rcases hc with rfl | rfl
  · obtain ⟨hi, rfl⟩ := get (fun i => root.dirbase + i) he
    exact Or.inl ⟨rfl, (by decide +kernel : ∀ i, i < 16 → entryOf home (fun i => root.dirbase + i) i 0 ≠ 0 → i = 0 ∨ i = 1 ∨ i = 2) i hi e0, rfl⟩
  · obtain ⟨hi, rfl⟩ := get (home.sec [2]) he
    exact Or.inr ⟨rfl, (by decide +kernel : ∀ i, i < 16 → entryOf home (home.sec [2]) i 0 ≠ 0 → entryOf home (home.sec [2]) i 0 ≠ 0x2E → i = 2) i hi e0 (by rw [n0]; exact hdot), rfl⟩

/-- `home` is a consistent volume. -/
theorem home_volume : Volume home root (fun cl => cl = 0 ∨ cl = 2) homes (fun cl => if cl = 0 then [] else [2]) (fun cl => if cl = 0 then fun i => root.dirbase + i else home.sec [2]) (fun _ => 1)
    (fun cl => if cl = 0 then 0 else 1) [[2], [3], [4]] := by
  have f := home_files [[2], [3], [4]] (by decide) (by decide) (by decide)
  have r := home_root (M := [2]) (O := [[3], [4]]) f
  have q := home_sub
  have s0 : Spec.start home.ty (entryOf home (fun i => root.dirbase + i) 0) 0 = 3 := by decide +kernel
  have s1 : Spec.start home.ty (entryOf home (fun i => root.dirbase + i) 1) 0 = 2 := by decide +kernel
  have s2 : Spec.start home.ty (entryOf home (fun i => root.dirbase + i) 2) 0 = 0 := by decide +kernel
  have s3 : Spec.start home.ty (entryOf home (home.sec [2]) 2) 0 = 4 := by decide +kernel
  have d0 : ¬ isDir (entryOf home (fun i => root.dirbase + i) 0) := fun h => h (by decide +kernel)
  have d1 : isDir (entryOf home (fun i => root.dirbase + i) 1) := fun h => absurd h (by decide +kernel)
  have d2 : ¬ isDir (entryOf home (fun i => root.dirbase + i) 2) := fun h => h (by decide +kernel)
  have d3 : ¬ isDir (entryOf home (home.sec [2]) 2) := fun h => h (by decide +kernel)
  refine ⟨home_ok, ⟨0, by decide, by decide⟩, f, Or.inl rfl, ?_, ?_, fun cl _ => rfl, ?_, ?_, home_tree.closed, ?_, ?_, ?_, ?_, ?_, ?_, ?_⟩
  · rintro cl (rfl | rfl)
    · exact r.area
    · exact q.area
  · rintro cl (rfl | rfl) X hX
    · cases hX
    · obtain ⟨rfl, _⟩ := own_mem hX
      decide
  · rintro cl (rfl | rfl)
    · exact r.tidy
    · exact q.tidy
  · rintro cl (rfl | rfl)
    · exact r.distinct
    · exact q.distinct
  · intro cl i e hk ho
    rcases home_object hk ho with ⟨rfl, rfl | rfl | rfl, rfl⟩ | ⟨rfl, rfl, rfl⟩
    · exact ⟨[3], by decide, s0, fun h => absurd h d0, fun _ => by decide +kernel⟩
    · exact ⟨[2], by decide, s1, fun _ => by decide, fun h => absurd d1 h⟩
    · exact ⟨[], by decide, s2, fun h => absurd h d2, fun _ => by decide +kernel⟩
    · exact ⟨[4], by decide, s3, fun h => absurd h d3, fun _ => by decide +kernel⟩
  · intro cl i e cl' i' e' hk hk' ho ho' h h0
    rcases home_object hk ho with ⟨rfl, rfl | rfl | rfl, rfl⟩ | ⟨rfl, rfl, rfl⟩ <;>
      rcases home_object hk' ho' with ⟨rfl, rfl | rfl | rfl, rfl⟩ | ⟨rfl, rfl, rfl⟩ <;>
      simp only [s0, s1, s2, s3] at h h0 ⊢ <;> first | omega | exact ⟨trivial, trivial⟩ | simp_all
  · intro cl i e _ _ h0
    exact h0
  · rintro cl (rfl | rfl) h0
    · exact absurd rfl h0
    · refine ⟨0, 1, _, Or.inl rfl, ⟨nameOf (stored [0x73, 0x75, 0x62] []), ⟨by decide +kernel, by decide +kernel⟩, by decide +kernel, ?_, rfl⟩, d1, s1⟩
      exact home_at 0 1 _ (by decide) ⟨by decide +kernel, by decide +kernel⟩ (by decide +kernel) (by decide +kernel)
  · intro cl i e hk ho hd
    rcases home_object hk ho with ⟨rfl, rfl | rfl | rfl, rfl⟩ | ⟨rfl, rfl, rfl⟩
    · exact absurd hd d0
    · rw [s1]; rfl
    · exact absurd hd d2
    · exact absurd hd d3
  · rintro cl (rfl | rfl) h0
    · exact absurd rfl h0
    · have get : ∀ k, k < 16 → (homes 2)[k]? = some (entryOf home (home.sec [2]) k) := fun k hk => by
        unfold homes
        rw [dirOf_get, if_pos ⟨by omega, by omega⟩]
        rfl
      have at' : ∀ (a : Nat → BitVec 8) (i : Nat), i < 16 → named a (entryOf home (home.sec [2]) i) → (∀ k, k ≤ i → entryOf home (home.sec [2]) k 0 ≠ 0) → (∀ k, k < i → entryOf home (home.sec [2]) k 1 ≠ a 1) → FoundAt (homes 2) a i := by
        refine fun a i hi h1 h2 h3 => ⟨⟨_, get i hi, h1⟩, fun k hk e he => ?_, fun k hk e he hn => ?_⟩
        · rw [get k (by omega)] at he
          rw [← Option.some.inj he]
          exact h2 k hk
        · rw [get k (by omega)] at he
          rw [← Option.some.inj he] at hn
          exact h3 k hk (hn.2 1 (by decide))
      exact ⟨Spec.dot, Spec.dotDot, rfl, rfl, at' _ 0 (by decide) ⟨by decide +kernel, by decide +kernel⟩ (by decide +kernel) (by decide +kernel),
        at' _ 1 (by decide) ⟨by decide +kernel, by decide +kernel⟩ (by decide +kernel) (by decide +kernel)⟩
  · intro X hX
    simp only [List.mem_cons, List.not_mem_nil, or_false] at hX
    rcases hX with rfl | rfl | rfl
    · exact Or.inl ⟨2, Or.inr rfl, rfl⟩
    · refine Or.inr ⟨0, 0, _, Or.inl rfl, ⟨nameOf (stored [0x61] []), ⟨by decide +kernel, by decide +kernel⟩, by decide +kernel, ?_, rfl⟩, s0⟩
      exact home_at 0 0 _ (by decide) ⟨by decide +kernel, by decide +kernel⟩ (by decide +kernel) (by decide +kernel)
    · refine Or.inr ⟨2, 2, _, Or.inr rfl, ⟨nameOf (stored [0x62] []), ⟨by decide +kernel, by decide +kernel⟩, by decide +kernel, ?_, rfl⟩, s3⟩
      exact home_at 2 2 _ (by decide) ⟨by decide +kernel, by decide +kernel⟩ (by decide +kernel) (by decide +kernel)

/-- `a` can be moved to `sub/x`: -/
example : ∃ fs' r o, fRename calm root 0 home ⟨0, 0, 0, 0, 0⟩ (fun _ => 0) ([] ++ [0x61] ++ []) ([] ++ [0x73, 0x75, 0x62] ++ 0x2F :: ([] ++ [0x78] ++ [])) = some (fs', r) ∧
    Resolves homes home.ty 0 [stored [0x61] []] o ∧ Moves home fs' root homes (nameOf (stored [0x61] [])) (nameOf (stored [0x78] [])) [stored [0x73, 0x75, 0x62] [], stored [0x78] []] o r := by
  refine move_volume_partial calm_quiet home_volume 0 (by decide) ⟨0, 0, 0, 0, 0⟩ (fun _ => 0)
    (.last (seps := []) (s := [0x61]) (tail := []) (body := [0x61]) (ext := []) (by simp) ⟨Or.inl ⟨rfl, rfl⟩, by decide, by decide⟩ (by decide) (by simp))
    (.more (seps := []) (s := [0x73, 0x75, 0x62]) (body := [0x73, 0x75, 0x62]) (ext := []) (by simp) ⟨Or.inl ⟨rfl, rfl⟩, by decide, by decide⟩ (by decide) (Or.inl rfl)
      (.last (seps := []) (s := [0x78]) (tail := []) (body := [0x78]) (ext := []) (by simp) ⟨Or.inl ⟨rfl, rfl⟩, by decide, by decide⟩ (by decide) (by simp))) ?_
  intro cl i cl2 e r1 r2 he
  have a1 : FoundAt (homes 0) (nameOf (stored [0x61] [])) 0 := home_at 0 0 _ (by decide) ⟨by decide +kernel, by decide +kernel⟩ (by decide +kernel) (by decide +kernel)
  obtain ⟨rfl, rfl⟩ := Outcome.found.inj (resolves_unique r1 (.found a1))
  rw [← Option.some.inj ((show (homes 0)[0]? = some (entryOf home (fun i => root.dirbase + i) 0) from rfl).symm.trans he)]
  exact fun x => x.1 (by decide +kernel)

end Verif.Fat
