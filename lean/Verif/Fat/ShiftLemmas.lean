import Verif.Fat.GrowLemmas

/-!
# FatFs: an object gets another place on a consistent volume — lemmas
-/

namespace Verif.Fat

open Spec (Ty Item named FoundAt Absent Full alike proper isDir Chain Files Text Origin Outcome Resolves nameOf stored moved Adopted)

variable {fs fs' : Fs} {rt : Root} {K : Nat → Prop} {dir : Nat → List Item} {clus : Nat → List Nat} {sect : Nat → Nat → Nat} {len : Nat → Nat} {depth : Nat → Nat} {F : List (List Nat)}

/-- The object `e`, at entry `i` of the directory `a`, is at entry `j` of the directory `b` then, with the entry `x`. All else is in its place. -/
theorem carried (v : Volume fs rt K dir clus sect len depth F) {dir' : Nat → List Item} {clus' : Nat → List Nat} {sect' : Nat → Nat → Nat} {len' : Nat → Nat} {depth' : Nat → Nat} {F' : List (List Nat)} {a i b j : Nat} {e x : Item} (ka : K a) (kb : K b)
    (hs : Shape fs fs') (hok : fs'.Ok) (hF : Files fs'.entryAt fs'.nFatent F') (area : ∀ c, K c → Area fs' rt c (clus' c) (sect' c) (len' c)) (held : ∀ c, K c → ∀ X ∈ own (clus' c), X ∈ F')
    (entries : ∀ c, K c → dir' c = dirOf fs' (sect' c) (len' c)) (tidy : ∀ c, K c → Spec.Tidy (dir' c)) (distinct : ∀ c, K c → Spec.Distinct (dir' c)) (ob : Object dir a i e) (obx : Object dir' b j x) (al : Alike fs.ty e x)
    (obj : ∀ c k y, K c → Object dir' c k y → (Object dir c k y ∧ ¬ (c = a ∧ k = i)) ∨ (c = b ∧ k = j ∧ y = x)) (obj' : ∀ c k y, K c → Object dir c k y → ¬ (c = a ∧ k = i) → Object dir' c k y)
    (hch : ∀ c k y, K c → Object dir c k y → ∃ M, (∀ X ∈ own M, X ∈ F') ∧ Spec.start fs.ty y 0 = M.headD 0 ∧ (isDir y → M ≠ []) ∧ (¬ isDir y → Spec.size y 0 ≤ 512 * (M.length * fs.csize)))
    (head0 : (clus' 0).headD 0 = (clus 0).headD 0) (dots : ∀ c, K c → c ≠ 0 → ∃ p q, p 0 = 0x2E ∧ q 0 = 0x2E ∧ FoundAt (dir' c) p 0 ∧ FoundAt (dir' c) q 1)
    (down : ∀ c k y, K c → Object dir c k y → ¬ (c = a ∧ k = i) → isDir y → depth' (Spec.start fs.ty y 0) = depth' c + 1) (down' : isDir e → depth' (Spec.start fs.ty e 0) = depth' b + 1)
    (reached : ∀ X ∈ F', (∃ c, K c ∧ clus' c = X) ∨ ∃ c k y, K c ∧ Object dir c k y ∧ Spec.start fs.ty y 0 = X.headD 0) :
    Volume fs' rt K dir' clus' sect' len' depth' F' := by
  have lead : ∀ {c k : Nat} {y : Item}, K c → Object dir c k y → isDir y → K (Spec.start fs.ty y 0) := by
    rintro c k y hc ⟨gn, o1, o2, o3, o4⟩ hd
    exact v.closed c hc gn k y o1 o2 o3 o4 hd
  refine ⟨hok, by rw [hs.2.1]; exact v.power, hF, v.root, area, held, entries, tidy, distinct, fun c hc gn k y f1 f2 hf hy hd => ?_, fun c k y hc ho => ?_, ?_, ?_, ?_, ?_, dots, fun X hX => ?_⟩
  · rw [hs.1]
    rcases obj c k y hc ⟨gn, f1, f2, hf, hy⟩ with ⟨o, _⟩ | ⟨_, _, rfl⟩
    · exact lead hc o hd
    · rw [al.1]
      exact lead ka ob (al.2.1.mp hd)
  · rw [hs.1, hs.2.1]
    rcases obj c k y hc ho with ⟨o, _⟩ | ⟨_, _, rfl⟩
    · exact hch c k y hc o
    · rw [al.1, al.2.1, al.2.2]
      exact hch a i e ka ob
  · intro c k y c' k' y' hc hc' ho ho' eq h0
    rw [hs.1] at eq h0
    rcases obj c k y hc ho with ⟨o, n⟩ | ⟨z1, z2, z3⟩ <;> rcases obj c' k' y' hc' ho' with ⟨o', n'⟩ | ⟨w1, w2, w3⟩
    · exact v.single c k y c' k' y' hc hc' o o' eq h0
    · exact absurd (v.single c k y a i e hc ka o ob (by rw [eq, w3, al.1]) h0) n
    · refine absurd (v.single c' k' y' a i e hc' ka o' ob (by rw [← eq, z3, al.1]) (by rw [← eq]; exact h0)) n'
    · exact ⟨z1.trans w1.symm, z2.trans w2.symm⟩
  · intro c k y hc ho h0
    rw [hs.1] at h0 ⊢
    rw [head0]
    rcases obj c k y hc ho with ⟨o, _⟩ | ⟨_, _, rfl⟩
    · exact v.top c k y hc o h0
    · rw [al.1] at h0 ⊢
      exact v.top a i e ka ob h0
  · intro c hc h0
    obtain ⟨p, k, y, u1, u2, u3, u4⟩ := v.up c hc h0
    rw [hs.1]
    by_cases z : p = a ∧ k = i
    · obtain ⟨rfl, rfl⟩ := z
      obtain rfl : y = e := by
        obtain ⟨_, _, _, _, q⟩ := u2
        obtain ⟨_, _, _, _, q'⟩ := ob
        exact Option.some.inj (q.symm.trans q')
      exact ⟨b, j, x, kb, obx, al.2.1.mpr u3, by rw [al.1]; exact u4⟩
    · exact ⟨p, k, y, u1, obj' p k y u1 u2 z, u3, u4⟩
  · intro c k y hc ho hd
    rw [hs.1]
    rcases obj c k y hc ho with ⟨o, n⟩ | ⟨rfl, _, rfl⟩
    · exact down c k y hc o n hd
    · rw [al.1]
      exact down' (al.2.1.mp hd)
  · rw [hs.1]
    rcases reached X hX with q | ⟨p, k, y, u1, u2, u3⟩
    · exact Or.inl q
    · by_cases z : p = a ∧ k = i
      · obtain ⟨rfl, rfl⟩ := z
        obtain rfl : y = e := by
          obtain ⟨_, _, _, _, q⟩ := u2
          obtain ⟨_, _, _, _, q'⟩ := ob
          exact Option.some.inj (q.symm.trans q')
        exact Or.inr ⟨b, j, x, kb, obx, by rw [al.1]; exact u3⟩
      · exact Or.inr ⟨p, k, y, u1, obj' p k y u1 u2 z, u3⟩

theorem moved_alike (ty : Ty) (e : Item) (fn : Nat → BitVec 8) : Alike ty e (moved e fn) := by
  have k : ∀ a : BitVec 8, (a ||| 0x20) &&& 0x10 = a &&& 0x10 := by decide +kernel
  refine ⟨rfl, ?_, rfl⟩
  unfold isDir
  rw [show moved e fn 11 = e 11 ||| 0x20 from rfl, k]

theorem hit_alike {D : List Item} {a b : Nat → BitVec 8} {i : Nat} (h : FoundAt D a i) (k : FoundAt D b i) : alike a b := by
  obtain ⟨q, q1, q2⟩ := h.hit
  obtain ⟨q', q3, q4⟩ := k.hit
  cases q1.symm.trans q3
  exact fun k hk => (q2.2 k hk).symm.trans (q4.2 k hk)

/-- An object gets another name in its directory. -/
theorem renamed_volume (v : Volume fs rt K dir clus sect len depth F) {cl i j n n' : Nat} {L L' : List Nat} {S S' : Nat → Nat} {O : List (List Nat)} {e : Item} {old new : Nat → BitVec 8} (hk : K cl) (hp : proper old) (hdot : old 0 ≠ 0x2E)
    (hp' : proper new) (hdot' : new 0 ≠ 0x2E) (hf : FoundAt (dir cl) old i) (he : (dir cl)[i]? = some e) (habs : Absent (dir cl) new) (h : Holds fs rt cl L S n O) (g : Renamed fs fs' rt cl S n L' S' n' O old new i j e) :
    ∃ dir' clus' sect' len' F', Volume fs' rt K dir' clus' sect' len' depth F' := by
  obtain ⟨rfl, rfl, rfl⟩ := area_unique h.area (v.area cl hk)
  have hF := g.holds.files
  have headL : L'.headD 0 = (clus cl).headD 0 := by rw [area_first g.holds.area, area_first h.area, g.shape.1]
  have split : ∀ X, X ∈ F → X = clus cl ∨ X ∈ O := by
    intro X hX
    rcases List.mem_append.mp (files_same v.files h.files hX) with q | q
    · exact Or.inl (own_mem q).1
    · exact Or.inr q
  have inO : ∀ {X}, X ∈ O → X ∈ own L' ++ O := fun q => List.mem_append_right _ q
  have inL : ∀ {X}, X ∈ own L' → X ∈ own L' ++ O := fun q => List.mem_append_left _ q
  have outer : ∀ c, K c → c ≠ cl → ∀ X ∈ own (clus c), X ∈ O := by
    intro c hc hne X hX
    refine (split X (v.held c hc X hX)).resolve_left fun q => ?_
    obtain ⟨rfl, y⟩ := own_mem hX
    exact v.apart hc hk hne y q
  have away : ∀ c, K c → c ≠ cl → Area fs' rt c (clus c) (sect c) (len c) ∧ dirOf fs' (sect c) (len c) = dir c := by
    intro c hc hne
    refine v.aside hc g.shape g.holds.ok hF (fun X hX => inO (outer c hc hne X hX)) (others_sub g.others (outer c hc hne)) fun z => g.below fun y => ?_
    have c0 := v.rootless hc z
    have a := g.holds.area
    rw [y] at a
    generalize cl = d at a hne
    cases a with
    | static => exact hne c0
    | chain _ hc => obtain ⟨_, e⟩ := hc.head; cases e
  have dotted : ∀ {a b : Nat → BitVec 8}, a 0 = 0x2E → b 0 ≠ 0x2E → proper a ∧ ¬ alike a b := fun {a b} h k => ⟨⟨by rw [h]; decide, by rw [h]; decide⟩, fun x => k ((x 0 (by decide)).symm.trans h)⟩
  have de := v.entries cl hk
  have obx : Object (fun c => if c = cl then dirOf fs' S' n' else dir c) cl j (moved e new) := ⟨new, hp', hdot', by dsimp only; rw [if_pos rfl]; exact g.found, by dsimp only; rw [if_pos rfl]; exact g.entry⟩
  refine ⟨fun c => if c = cl then dirOf fs' S' n' else dir c, fun c => if c = cl then L' else clus c, fun c => if c = cl then S' else sect c, fun c => if c = cl then n' else len c, own L' ++ O,
    carried v (a := cl) (i := i) (b := cl) (j := j) (e := e) (x := moved e new) hk hk g.shape g.holds.ok hF (fun c hc => ?_) (fun c hc => ?_) (fun c hc => ?_) (fun c hc => ?_) (fun c hc => ?_) ⟨old, hp, hdot, hf, he⟩ obx
      (moved_alike _ _ _) ?_ ?_ (fun c k y hc ob => ?_) ?_ (fun c hc h0 => ?_) (fun c k y hc ob _ hd => v.down c k y hc ob hd) (fun hd => v.down cl i e hk ⟨old, hp, hdot, hf, he⟩ hd) (fun X hX => ?_)⟩
  · by_cases z : c = cl
    · subst z
      rw [if_pos rfl, if_pos rfl, if_pos rfl]
      exact g.holds.area
    · rw [if_neg z, if_neg z, if_neg z]
      exact (away c hc z).1
  · by_cases z : c = cl
    · subst z
      rw [if_pos rfl]
      exact fun X => inL
    · rw [if_neg z]
      exact fun X hX => inO (outer c hc z X hX)
  · by_cases z : c = cl
    · subst z
      rw [if_pos rfl, if_pos rfl, if_pos rfl]
    · rw [if_neg z, if_neg z, if_neg z]
      exact (away c hc z).2.symm
  · by_cases z : c = cl
    · subst z
      rw [if_pos rfl]
      exact g.holds.tidy
    · rw [if_neg z]
      exact v.tidy c hc
  · by_cases z : c = cl
    · subst z
      rw [if_pos rfl]
      exact g.holds.distinct
    · rw [if_neg z]
      exact v.distinct c hc
  · rintro c k y hc ⟨gn, o1, o2, o3, o4⟩
    dsimp only at o3 o4
    by_cases z : c = cl
    · subst z
      rw [if_pos rfl] at o3 o4
      by_cases w : alike gn new
      · obtain rfl := found_unique (found_alike w o3) g.found
        exact Or.inr ⟨rfl, rfl, Option.some.inj (o4.symm.trans g.entry)⟩
      · have w' : ¬ alike gn old := fun w' => found_absent (found_alike w' o3) g.gone
        have o5 := (g.names gn o1 w' w k).mp o3
        rw [← de] at o5
        have ki : k ≠ i := by
          rintro rfl
          exact w' (hit_alike o5 hf)
        have kj : k ≠ j := by
          rintro rfl
          exact w (hit_alike o3 g.found)
        obtain ⟨q, q1, _⟩ := id o5.hit
        rw [g.beside k (by rw [← de]; exact (List.getElem?_eq_some_iff.mp q1).1) ki kj, ← de] at o4
        exact Or.inl ⟨⟨gn, o1, o2, o5, o4⟩, fun x => ki x.2⟩
    · rw [if_neg z] at o3 o4
      exact Or.inl ⟨⟨gn, o1, o2, o3, o4⟩, fun x => z x.1⟩
  · rintro c k y hc ⟨gn, o1, o2, o3, o4⟩ hn
    by_cases z : c = cl
    · subst z
      have ki : k ≠ i := fun x => hn ⟨rfl, x⟩
      have w' : ¬ alike gn old := fun w' => ki (found_unique (found_alike w' o3) hf)
      have w : ¬ alike gn new := fun w => found_absent (found_alike w o3) habs
      have o5 : FoundAt (dirOf fs' S' n') gn k := (g.names gn o1 w' w k).mpr (by rw [← de]; exact o3)
      have kj : k ≠ j := by
        rintro rfl
        exact w (hit_alike o5 g.found)
      refine ⟨gn, o1, o2, ?_, ?_⟩
      · dsimp only
        rw [if_pos rfl]
        exact o5
      · dsimp only
        rw [if_pos rfl, g.beside k (by rw [← de]; exact (List.getElem?_eq_some_iff.mp o4).1) ki kj, ← de]
        exact o4
    · refine ⟨gn, o1, o2, ?_, ?_⟩ <;> dsimp only <;> rw [if_neg z] <;> assumption
  · obtain ⟨M, m1, m2, m3, m4⟩ := v.chains c k y hc ob
    by_cases z : M ≠ [] ∧ M = clus cl
    · obtain ⟨z1, z2⟩ := z
      obtain ⟨i1, i2⟩ := v.itself hc ob hk z1 m1 m2 z2
      have l : L' ≠ [] := fun q => by
        have := v.member (m1 M (by rw [own_cons z1]; exact List.mem_singleton_self _))
        rw [q, ← z2] at headL
        change 0 = _ at headL
        omega
      exact ⟨L', fun X => inL, by rw [m2, headL, z2], fun _ => l, fun q => absurd i1 q⟩
    · refine ⟨M, fun X hX => ?_, m2, m3, m4⟩
      refine inO ((split X (m1 X hX)).resolve_left fun q => z ?_)
      obtain ⟨rfl, q'⟩ := own_mem hX
      exact ⟨q', q⟩
  · by_cases z : 0 = cl
    · subst z
      rw [if_pos rfl]
      exact headL
    · rw [if_neg z]
  · obtain ⟨p, q, p0, q0, fp, fq⟩ := v.dots c hc h0
    refine ⟨p, q, p0, q0, ?_⟩
    by_cases z : c = cl
    · subst z
      rw [if_pos rfl]
      rw [de] at fp fq
      exact ⟨(g.names p (dotted p0 hdot).1 (dotted p0 hdot).2 (dotted p0 hdot').2 0).mpr fp, (g.names q (dotted q0 hdot).1 (dotted q0 hdot).2 (dotted q0 hdot').2 1).mpr fq⟩
    · rw [if_neg z]
      exact ⟨fp, fq⟩
  · rcases List.mem_append.mp hX with q | q
    · exact Or.inl ⟨cl, hk, by rw [if_pos rfl]; exact (own_mem q).1.symm⟩
    · have hXF : X ∈ F := files_same h.files v.files (List.mem_append_right _ q)
      rcases v.reached X hXF with ⟨c, c1, c2⟩ | r
      · refine Or.inl ⟨c, c1, ?_⟩
        rw [if_neg fun w => ?_]
        · exact c2
        · subst w
          have := v.member hXF
          rw [← c2] at q
          rw [← c2, own_apart h.files q] at this
          exact absurd this (by decide)
      · exact Or.inr r

/-! ## To another directory -/

/-- The directory is `t` or below it. -/
inductive Under (K : Nat → Prop) (dir : Nat → List Item) (ty : Ty) (t : Nat) : Nat → Prop
  | self : Under K dir ty t t
  | down {c k : Nat} {y : Item} : Under K dir ty t c → K c → Object dir c k y → isDir y → Under K dir ty t (Spec.start ty y 0)

theorem Volume.lead (v : Volume fs rt K dir clus sect len depth F) {c k : Nat} {y : Item} (hc : K c) (ho : Object dir c k y) (hd : isDir y) : K (Spec.start fs.ty y 0) ∧ Spec.start fs.ty y 0 ≠ 0 := by
  obtain ⟨M, m1, m2, m3, _⟩ := v.chains c k y hc ho
  have := v.member (m1 M (by rw [own_cons (m3 hd)]; exact List.mem_singleton_self _))
  obtain ⟨gn, o1, o2, o3, o4⟩ := ho
  exact ⟨v.closed c hc gn k y o1 o2 o3 o4 hd, by omega⟩

theorem Under.deep (v : Volume fs rt K dir clus sect len depth F) {t c : Nat} (h : Under K dir fs.ty t c) : depth t ≤ depth c := by
  induction h with
  | self => exact Nat.le_refl _
  | down _ hc ho hd ih =>
    have := v.down _ _ _ hc ho hd
    omega

/-- What is below an object is so by the directory that it is in, if it is not the object itself. -/
theorem Under.back (v : Volume fs rt K dir clus sect len depth F) {a i c k : Nat} {e y : Item} (ka : K a) (ob : Object dir a i e) (hc : K c) (ho : Object dir c k y) (hd : isDir y) (hn : ¬ (c = a ∧ k = i))
    (h : Under K dir fs.ty (Spec.start fs.ty e 0) (Spec.start fs.ty y 0)) : Under K dir fs.ty (Spec.start fs.ty e 0) c := by
  have h0 := (v.lead hc ho hd).2
  generalize eq : Spec.start fs.ty y 0 = s at h
  cases h with
  | self => exact absurd (v.single c k y a i e hc ka ho ob eq h0) hn
  | down u kc o d =>
    obtain ⟨rfl, _⟩ := v.single c k y _ _ _ hc kc ho o eq h0
    exact u

/-- A directory that has a new parent has the same names, and the same entries after the second one. -/
theorem adopted_same {D D' : List Item} {p : Nat} (h : Adopted D D' p) : (∀ gn k, FoundAt D' gn k ↔ FoundAt D gn k) ∧ (∀ k, k ≠ 1 → D'[k]? = D[k]?) ∧ (Spec.Tidy D → Spec.Tidy D') ∧ (Spec.Distinct D → Spec.Distinct D') := by
  obtain ⟨x, hx, rfl⟩ := h
  by_cases z : x 1 = 0x2E
  · rw [if_pos z]
    have l : ∀ m, m < 12 → Spec.leadsTo x p m = x m := fun m hm => by
      unfold Spec.leadsTo
      rw [if_neg (by omega), if_neg (by omega)]
    have hn : ∀ gn, named gn (Spec.leadsTo x p) ↔ named gn x := fun gn => by
      unfold named
      rw [l 11 (by decide)]
      exact and_congr_right fun _ => ⟨fun h j hj => by rw [← l j (by omega)]; exact h j hj, fun h j hj => by rw [l j (by omega)]; exact h j hj⟩
    refine ⟨same_found hx (l 0 (by decide)) hn, fun k hk => ?_, same_tidy hx (l 0 (by decide)) hn, same_distinct hx (l 0 (by decide)) hn⟩
    rw [List.getElem?_set, if_neg (fun q => hk q.symm)]
  · rw [if_neg z]
    exact ⟨fun _ _ => Iff.rfl, fun _ _ => rfl, id, id⟩

open Classical in
/-- An object gets another place, which is not below it. -/
theorem moved_volume (v : Volume fs rt K dir clus sect len depth F) {a b i j n n2 n2' : Nat} {L L2 L2' M : List Nat} {S S2 S2' : Nat → Nat} {O : List (List Nat)} {e : Item} {old new : Nat → BitVec 8} (ka : K a) (kb : K b) (hne : b ≠ a)
    (hp : proper old) (hdot : old 0 ≠ 0x2E) (hp' : proper new) (hdot' : new 0 ≠ 0x2E) (hf : FoundAt (dir a) old i) (he : (dir a)[i]? = some e) (habs : Absent (dir b) new) (jt : Joint fs rt dir a b e L S n L2 S2 n2 M O)
    (hu : isDir e → ¬ Under K dir fs.ty (Spec.start fs.ty e 0) b) (g : MovedTo fs fs' rt a L S n b S2 n2 L2' S2' n2' M O old new i j e) :
    ∃ dir' clus' sect' len' depth' F', Volume fs' rt K dir' clus' sect' len' depth' F' := by
  obtain ⟨hA, da, hB, db, hst, hdM⟩ := jt
  obtain ⟨rfl, rfl, rfl⟩ := area_unique hA.area (v.area a ka)
  obtain ⟨rfl, rfl, rfl⟩ := area_unique hB.area (v.area b kb)
  have ob : Object dir a i e := ⟨old, hp, hdot, hf, he⟩
  have hF := g.source.files
  have headL : L2'.headD 0 = (clus b).headD 0 := by rw [area_first g.target.area, area_first hB.area, g.shape.1]
  have mF : ∀ X ∈ own M, X ∈ F := fun X hX => files_same hA.files v.files (List.mem_append_right _ (List.mem_append_right _ (List.mem_append_left _ hX)))
  have split : ∀ X, X ∈ F → X = clus a ∨ X = clus b ∨ X ∈ own M ∨ X ∈ O := by
    intro X hX
    rcases List.mem_append.mp (files_same v.files hA.files hX) with q | q
    · exact Or.inl (own_mem q).1
    · rcases List.mem_append.mp q with q | q
      · exact Or.inr (Or.inl (own_mem q).1)
      · exact Or.inr (Or.inr (List.mem_append.mp q))
  have inO : ∀ {X}, X ∈ O → X ∈ own (clus a) ++ (own L2' ++ (own M ++ O)) := fun q => List.mem_append_right _ (List.mem_append_right _ (List.mem_append_right _ q))
  have inM : ∀ {X}, X ∈ own M → X ∈ own (clus a) ++ (own L2' ++ (own M ++ O)) := fun q => List.mem_append_right _ (List.mem_append_right _ (List.mem_append_left _ q))
  have inL : ∀ {X}, X ∈ own L2' → X ∈ own (clus a) ++ (own L2' ++ (own M ++ O)) := fun q => List.mem_append_right _ (List.mem_append_left _ q)
  have inA : ∀ {X}, X ∈ own (clus a) → X ∈ own (clus a) ++ (own L2' ++ (own M ++ O)) := fun q => List.mem_append_left _ q
  -- a directory whose clusters are those of the object is the object
  have isT : ∀ c, K c → ∀ X ∈ own (clus c), X ∈ own M → isDir e ∧ c = Spec.start fs.ty e 0 := by
    intro c hc X hX q
    obtain ⟨rfl, y⟩ := own_mem q
    obtain ⟨i1, i2⟩ := v.itself ka ob hc y mF hst (own_mem hX).1
    exact ⟨i1, i2.symm⟩
  have outer : ∀ c, K c → c ≠ a → c ≠ b → ¬ (isDir e ∧ c = Spec.start fs.ty e 0) → ∀ X ∈ own (clus c), X ∈ O := by
    intro c hc na nb nt X hX
    rcases split X (v.held c hc X hX) with q | q | q | q
    · obtain ⟨rfl, y⟩ := own_mem hX
      exact absurd q (v.apart hc ka na y)
    · obtain ⟨rfl, y⟩ := own_mem hX
      exact absurd q (v.apart hc kb nb y)
    · exact absurd (isT c hc X hX q) nt
    · exact q
  have away : ∀ c, K c → c ≠ a → c ≠ b → ¬ (isDir e ∧ c = Spec.start fs.ty e 0) → Area fs' rt c (clus c) (sect c) (len c) ∧ dirOf fs' (sect c) (len c) = dir c := by
    intro c hc na nb nt
    refine v.aside hc g.shape g.source.ok hF (fun X hX => inO (outer c hc na nb nt X hX)) (others_sub g.others (outer c hc na nb nt)) fun z => ?_
    have c0 := v.rootless hc z
    refine g.below (fun y => na (c0.trans (v.rootless ka y).symm)) fun y => ?_
    have r := g.target.area
    rw [y] at r
    generalize b = d at r nb
    cases r with
    | static => exact nb c0
    | chain _ hc => obtain ⟨_, e⟩ := hc.head; cases e
  have nta : ¬ (isDir e ∧ a = Spec.start fs.ty e 0) := fun x => by
    have := v.down a i e ka ob x.1
    rw [← x.2] at this
    omega
  have ntb : ¬ (isDir e ∧ b = Spec.start fs.ty e 0) := fun x => hu x.1 (by rw [← x.2]; exact .self)
  -- the object itself, if it is a directory
  have itself : isDir e → clus (Spec.start fs.ty e 0) = M ∧ Area fs' rt (Spec.start fs.ty e 0) M (sect (Spec.start fs.ty e 0)) (len (Spec.start fs.ty e 0)) ∧
      Adopted (dir (Spec.start fs.ty e 0)) (dirOf fs' (sect (Spec.start fs.ty e 0)) (len (Spec.start fs.ty e 0))) (if fs.ty = .fat32 ∧ b = rt.dirbase then 0 else b) := fun hd => by
    obtain ⟨kt, t0⟩ := v.lead ka ob hd
    have hm : M ∈ own M := by rw [own_cons (hdM hd)]; exact List.mem_singleton_self _
    have a1 := (sub_area (rt := rt) v.files (mF M hm)).1
    have a2 := (sub_area (rt := rt) hF (inM hm)).1
    rw [← hst] at a1 a2
    obtain ⟨q1, q2, q3⟩ := area_unique a1 (v.area _ kt)
    have f := g.folder hd
    rw [show fs'.sec M = fs.sec M from funext (g.shape.sec M), g.shape.2.1] at a2
    rw [v.entries _ kt, ← q2, ← q3]
    exact ⟨q1.symm, a2, f⟩
  have dotted : ∀ {p q : Nat → BitVec 8}, p 0 = 0x2E → q 0 ≠ 0x2E → proper p ∧ ¬ alike p q := fun {p q} h k => ⟨⟨by rw [h]; decide, by rw [h]; decide⟩, fun x => k ((x 0 (by decide)).symm.trans h)⟩
  -- the entries of all directories then
  generalize hS : (fun c => if c = b then S2' else sect c) = sect'
  generalize hN : (fun c => if c = b then n2' else len c) = len'
  generalize hC : (fun c => if c = b then L2' else clus c) = clus'
  have sb : dirOf fs' (sect' b) (len' b) = dirOf fs' S2' n2' := by rw [← hS, ← hN]; dsimp only; rw [if_pos rfl, if_pos rfl]
  have sc : ∀ c, c ≠ b → sect' c = sect c ∧ len' c = len c ∧ clus' c = clus c := fun c hc => by rw [← hS, ← hN, ← hC]; dsimp only; rw [if_neg hc, if_neg hc, if_neg hc]; exact ⟨rfl, rfl, rfl⟩
  have sa : dirOf fs' (sect' a) (len' a) = dirOf fs' (sect a) (len a) := by rw [(sc a (fun q => hne q.symm)).1, (sc a (fun q => hne q.symm)).2.1]
  have cb : clus' b = L2' ∧ sect' b = S2' ∧ len' b = n2' := by rw [← hC, ← hS, ← hN]; dsimp only; rw [if_pos rfl, if_pos rfl, if_pos rfl]; exact ⟨rfl, rfl, rfl⟩
  have so : ∀ c, K c → c ≠ a → c ≠ b → ¬ (isDir e ∧ c = Spec.start fs.ty e 0) → dirOf fs' (sect' c) (len' c) = dir c := fun c hc na nb nt => by
    rw [(sc c nb).1, (sc c nb).2.1]
    exact (away c hc na nb nt).2
  have stt : isDir e → Adopted (dir (Spec.start fs.ty e 0)) (dirOf fs' (sect' (Spec.start fs.ty e 0)) (len' (Spec.start fs.ty e 0))) (if fs.ty = .fat32 ∧ b = rt.dirbase then 0 else b) := fun hd => by
    have nb : Spec.start fs.ty e 0 ≠ b := fun q => ntb ⟨hd, q.symm⟩
    rw [(sc _ nb).1, (sc _ nb).2.1]
    exact (itself hd).2.2
  have four : ∀ c, K c → c = b ∨ c = a ∨ (isDir e ∧ c = Spec.start fs.ty e 0) ∨ (c ≠ a ∧ c ≠ b ∧ ¬ (isDir e ∧ c = Spec.start fs.ty e 0)) := by
    intro c _
    by_cases z1 : c = b
    · exact Or.inl z1
    · by_cases z2 : c = a
      · exact Or.inr (Or.inl z2)
      · by_cases z3 : isDir e ∧ c = Spec.start fs.ty e 0
        · exact Or.inr (Or.inr (Or.inl z3))
        · exact Or.inr (Or.inr (Or.inr ⟨z2, z1, z3⟩))
  have obx : Object (fun c => dirOf fs' (sect' c) (len' c)) b j (moved e new) := ⟨new, hp', hdot', by dsimp only; rw [sb]; exact g.found, by dsimp only; rw [sb]; exact g.entry⟩
  refine ⟨fun c => dirOf fs' (sect' c) (len' c), clus', sect', len', fun c => if isDir e ∧ Under K dir fs.ty (Spec.start fs.ty e 0) c then depth c - depth (Spec.start fs.ty e 0) + (depth b + 1) else depth c, own (clus a) ++ (own L2' ++ (own M ++ O)),
    carried v (a := a) (i := i) (b := b) (j := j) (e := e) (x := moved e new) ka kb g.shape g.source.ok hF (fun c hc => ?_) (fun c hc => ?_) (fun c hc => rfl) (fun c hc => ?_) (fun c hc => ?_) ob obx
      (moved_alike _ _ _) ?_ ?_ (fun c k y hc o => ?_) ?_ (fun c hc h0 => ?_) (fun c k y hc o nn hd => ?_) (fun hd => ?_) (fun X hX => ?_)⟩
  · rcases four c hc with rfl | rfl | ⟨hd, rfl⟩ | ⟨na, nb, nt⟩
    · rw [cb.1, cb.2.1, cb.2.2]
      exact g.target.area
    · rw [(sc c (fun q => hne q.symm)).1, (sc c (fun q => hne q.symm)).2.1, (sc c (fun q => hne q.symm)).2.2]
      exact g.source.area
    · have nb : Spec.start fs.ty e 0 ≠ b := fun q => ntb ⟨hd, q.symm⟩
      rw [(sc _ nb).1, (sc _ nb).2.1, (sc _ nb).2.2, (itself hd).1]
      exact (itself hd).2.1
    · rw [(sc c nb).1, (sc c nb).2.1, (sc c nb).2.2]
      exact (away c hc na nb nt).1
  · rcases four c hc with rfl | rfl | ⟨hd, rfl⟩ | ⟨na, nb, nt⟩
    · rw [cb.1]
      exact fun X => inL
    · rw [(sc c (fun q => hne q.symm)).2.2]
      exact fun X => inA
    · have nb : Spec.start fs.ty e 0 ≠ b := fun q => ntb ⟨hd, q.symm⟩
      rw [(sc _ nb).2.2, (itself hd).1]
      exact fun X => inM
    · rw [(sc c nb).2.2]
      exact fun X hX => inO (outer c hc na nb nt X hX)
  · rcases four c hc with rfl | rfl | ⟨hd, rfl⟩ | ⟨na, nb, nt⟩
    · rw [sb]
      exact g.target.tidy
    · rw [sa]
      exact g.source.tidy
    · exact (adopted_same (stt hd)).2.2.1 (v.tidy _ hc)
    · rw [so c hc na nb nt]
      exact v.tidy c hc
  · rcases four c hc with rfl | rfl | ⟨hd, rfl⟩ | ⟨na, nb, nt⟩
    · rw [sb]
      exact g.target.distinct
    · rw [sa]
      exact g.source.distinct
    · exact (adopted_same (stt hd)).2.2.2 (v.distinct _ hc)
    · rw [so c hc na nb nt]
      exact v.distinct c hc
  · rintro c k y hc ⟨gn, o1, o2, o3, o4⟩
    dsimp only at o3 o4
    rcases four c hc with rfl | rfl | ⟨hd, rfl⟩ | ⟨na, nb, nt⟩
    · rw [sb] at o3 o4
      by_cases w : alike gn new
      · obtain rfl := found_unique (found_alike w o3) g.found
        exact Or.inr ⟨rfl, rfl, Option.some.inj (o4.symm.trans g.entry)⟩
      · have o5 := (g.names gn o1 w k).mp o3
        have kj : k ≠ j := by
          rintro rfl
          exact w (hit_alike o3 g.found)
        obtain ⟨q, q1, _⟩ := id o5.hit
        rw [g.beside k (List.getElem?_eq_some_iff.mp q1).1 kj, ← db] at o4
        rw [← db] at o5
        exact Or.inl ⟨⟨gn, o1, o2, o5, o4⟩, fun x => hne x.1⟩
    · rw [sa] at o3 o4
      have w : ¬ alike gn old := fun w => found_absent (found_alike w o3) g.gone
      have o5 := (g.leftNames gn o1 w k).mp o3
      rw [← da] at o5
      have ki : k ≠ i := by
        rintro rfl
        exact w (hit_alike o5 hf)
      rw [g.left, List.getElem?_set, if_neg (fun q => ki q.symm), ← da] at o4
      exact Or.inl ⟨⟨gn, o1, o2, o5, o4⟩, fun x => ki x.2⟩
    · obtain ⟨n1, n2, _⟩ := adopted_same (stt hd)
      have o5 := (n1 gn k).mp o3
      obtain ⟨q, q1, _⟩ := id o5.hit
      have k2 := v.after hc (v.lead ka ob hd).2 ⟨gn, o1, o2, o5, q1⟩
      rw [n2 k (by omega)] at o4
      exact Or.inl ⟨⟨gn, o1, o2, o5, o4⟩, fun x => nta ⟨hd, x.1.symm⟩⟩
    · rw [so c hc na nb nt] at o3 o4
      exact Or.inl ⟨⟨gn, o1, o2, o3, o4⟩, fun x => na x.1⟩
  · rintro c k y hc ⟨gn, o1, o2, o3, o4⟩ nn
    refine ⟨gn, o1, o2, ?_⟩
    dsimp only
    rcases four c hc with rfl | rfl | ⟨hd, rfl⟩ | ⟨na, nb, nt⟩
    · have w : ¬ alike gn new := fun w => found_absent (found_alike w o3) habs
      rw [db] at o3 o4
      have o5 := (g.names gn o1 w k).mpr o3
      have kj : k ≠ j := by
        rintro rfl
        exact w (hit_alike o5 g.found)
      rw [sb, g.beside k (List.getElem?_eq_some_iff.mp o4).1 kj]
      exact ⟨o5, o4⟩
    · have ki : k ≠ i := fun x => nn ⟨rfl, x⟩
      have w : ¬ alike gn old := fun w => ki (found_unique (found_alike w o3) hf)
      rw [da] at o3 o4
      rw [sa]
      refine ⟨(g.leftNames gn o1 w k).mpr o3, ?_⟩
      rw [g.left, List.getElem?_set, if_neg (fun q => ki q.symm)]
      exact o4
    · obtain ⟨n1, n2, _⟩ := adopted_same (stt hd)
      have k2 := v.after hc (v.lead ka ob hd).2 ⟨gn, o1, o2, o3, o4⟩
      exact ⟨(n1 gn k).mpr o3, by rw [n2 k (by omega)]; exact o4⟩
    · rw [so c hc na nb nt]
      exact ⟨o3, o4⟩
  · obtain ⟨N, m1, m2, m3, m4⟩ := v.chains c k y hc o
    by_cases z : N ≠ [] ∧ N = clus b
    · obtain ⟨z1, z2⟩ := z
      obtain ⟨i1, i2⟩ := v.itself hc o kb z1 m1 m2 z2
      have l : L2' ≠ [] := fun q => by
        have := v.member (m1 N (by rw [own_cons z1]; exact List.mem_singleton_self _))
        rw [q, ← z2] at headL
        change 0 = _ at headL
        omega
      exact ⟨L2', fun X => inL, by rw [m2, headL, z2], fun _ => l, fun q => absurd i1 q⟩
    · refine ⟨N, fun X hX => ?_, m2, m3, m4⟩
      rcases split X (m1 X hX) with q | q | q | q
      · obtain ⟨rfl, q'⟩ := own_mem hX
        refine inA ?_
        rw [← q]
        exact hX
      · obtain ⟨rfl, q'⟩ := own_mem hX
        exact absurd ⟨q', q⟩ z
      · exact inM q
      · exact inO q
  · by_cases z : 0 = b
    · subst z
      rw [cb.1]
      exact headL
    · rw [(sc 0 z).2.2]
  · obtain ⟨p, q, p0, q0, fp, fq⟩ := v.dots c hc h0
    refine ⟨p, q, p0, q0, ?_⟩
    rcases four c hc with rfl | rfl | ⟨hd, rfl⟩ | ⟨na, nb, nt⟩
    · rw [sb]
      rw [db] at fp fq
      exact ⟨(g.names p (dotted p0 hdot').1 (dotted p0 hdot').2 0).mpr fp, (g.names q (dotted q0 hdot').1 (dotted q0 hdot').2 1).mpr fq⟩
    · rw [sa]
      rw [da] at fp fq
      exact ⟨(g.leftNames p (dotted p0 hdot).1 (dotted p0 hdot).2 0).mpr fp, (g.leftNames q (dotted q0 hdot).1 (dotted q0 hdot).2 1).mpr fq⟩
    · obtain ⟨n1, _⟩ := adopted_same (stt hd)
      exact ⟨(n1 p 0).mpr fp, (n1 q 1).mpr fq⟩
    · rw [so c hc na nb nt]
      exact ⟨fp, fq⟩
  · have dd := v.down c k y hc o hd
    by_cases z : isDir e ∧ Under K dir fs.ty (Spec.start fs.ty e 0) c
    · have dp := z.2.deep v
      rw [if_pos z, if_pos ⟨z.1, z.2.down hc o hd⟩]
      omega
    · rw [if_neg z, if_neg fun w => z ⟨w.1, w.2.back v ka ob hc o hd nn⟩]
      exact dd
  · rw [if_pos ⟨hd, .self⟩, if_neg fun w => hu hd w.2]
    omega
  · rcases List.mem_append.mp hX with q | q
    · exact Or.inl ⟨a, ka, by rw [(sc a (fun q => hne q.symm)).2.2]; exact (own_mem q).1.symm⟩
    · rcases List.mem_append.mp q with q | q
      · exact Or.inl ⟨b, kb, by rw [cb.1]; exact (own_mem q).1.symm⟩
      · rcases List.mem_append.mp q with q | q
        · exact Or.inr ⟨a, i, e, ka, ob, by rw [(own_mem q).1]; exact hst⟩
        · have hXF : X ∈ F := files_same hB.files v.files (List.mem_append_right _ (List.mem_append_right _ (List.mem_append_right _ q)))
          rcases v.reached X hXF with ⟨c, c1, c2⟩ | r
          · refine Or.inl ⟨c, c1, ?_⟩
            rw [(sc c fun w => ?_).2.2]
            · exact c2
            · subst w
              have := v.member hXF
              rw [← c2] at q
              rw [← c2, own_apart hB.files (List.mem_append_right _ (List.mem_append_right _ q))] at this
              exact absurd this (by decide)
          · exact Or.inr r

/-! ## Paths to directories -/

theorem text_length {P : BitVec 8 → Prop} {path : List (BitVec 8)} {ns : List (List (BitVec 8))} (h : Text P path ns) : ∀ n ∈ ns, n.length = 11 := by
  have k : ∀ {s body ext : List (BitVec 8)}, Spec.Name83 s body ext → (stored body ext).length = 11 := by
    intro s body ext hn
    obtain ⟨_, h1, _⟩ := hn.body
    have h2 := hn.ext.1
    unfold stored
    simp only [List.length_append, List.length_map, List.length_replicate]
    omega
  induction h with
  | last _ hn _ _ =>
    intro n h
    rw [List.mem_singleton] at h
    rw [h]
    exact k hn
  | more _ hn _ _ _ ih =>
    intro n h
    rcases List.mem_cons.mp h with rfl | h
    · exact k hn
    · exact ih n h

theorem same_name {n m : List (BitVec 8)} (hn : n.length = 11) (hm : m.length = 11) (h : alike (nameOf n) (nameOf m)) : n = m := by
  refine List.ext_getElem (hn.trans hm.symm) fun j h1 h2 => ?_
  have := h j (by omega)
  unfold nameOf at this
  rwa [List.getD_eq_getElem?_getD, List.getD_eq_getElem?_getD, List.getElem?_eq_getElem h1, List.getElem?_eq_getElem h2] at this

/-- The path to a directory, with the last name at the end -/
inductive Way (K : Nat → Prop) (dir : Nat → List Item) (ty : Ty) : List (List (BitVec 8)) → Nat → Prop
  | root : Way K dir ty [] 0
  | snoc {ps : List (List (BitVec 8))} {n : List (BitVec 8)} {c k : Nat} {y : Item} : Way K dir ty ps c → K c → n.length = 11 → proper (nameOf n) → nameOf n 0 ≠ 0x2E → FoundAt (dir c) (nameOf n) k → (dir c)[k]? = some y → isDir y →
      Way K dir ty (ps ++ [n]) (Spec.start ty y 0)

/-- A directory has only one path. -/
theorem Way.unique (v : Volume fs rt K dir clus sect len depth F) {ps : List (List (BitVec 8))} {t : Nat} (h : Way K dir fs.ty ps t) : ∀ {qs}, Way K dir fs.ty qs t → ps = qs := by
  induction h with
  | root =>
    intro qs k
    generalize eq : 0 = z at k
    cases k with
    | root => rfl
    | snoc k1 k2 k3 k4 k5 k6 k7 k8 => exact absurd eq.symm (v.lead k2 ⟨_, k4, k5, k6, k7⟩ k8).2
  | snoc h1 h2 h3 h4 h5 h6 h7 h8 ih =>
    intro qs k
    have h0 := (v.lead h2 ⟨_, h4, h5, h6, h7⟩ h8).2
    generalize eq : Spec.start fs.ty _ 0 = z at k
    cases k with
    | root => exact absurd eq h0
    | snoc k1 k2 k3 k4 k5 k6 k7 k8 =>
      obtain ⟨rfl, rfl⟩ := v.single _ _ _ _ _ _ h2 k2 ⟨_, h4, h5, h6, h7⟩ ⟨_, k4, k5, k6, k7⟩ eq h0
      rw [ih k1, same_name h3 k3 (hit_alike h6 k6)]

/-- The path to a directory is the beginning of the paths to all below it. -/
theorem Under.begins (v : Volume fs rt K dir clus sect len depth F) {ps : List (List (BitVec 8))} {t b : Nat} (h : Way K dir fs.ty ps t) (u : Under K dir fs.ty t b) : ∀ {qs}, Way K dir fs.ty qs b → ps <+: qs := by
  induction u with
  | self =>
    intro qs k
    rw [h.unique v k]
    exact List.prefix_refl _
  | down _ h2 ho hd ih =>
    intro qs k
    have h0 := (v.lead h2 ho hd).2
    generalize eq : Spec.start fs.ty _ 0 = z at k
    cases k with
    | root => exact absurd eq h0
    | snoc k1 k2 k3 k4 k5 k6 k7 k8 =>
      obtain ⟨rfl, rfl⟩ := v.single _ _ _ _ _ _ h2 k2 ho ⟨_, k4, k5, k6, k7⟩ eq h0
      exact (ih k1).trans (List.prefix_append _ _)

/-- The names before the last one are the path to the directory. -/
theorem resolves_way (v : Volume fs rt K dir clus sect len depth F) {cl : Nat} {ns : List (List (BitVec 8))} {o : Outcome} (hr : Resolves dir fs.ty cl ns o) :
    (∀ n ∈ ns, (proper (nameOf n) ∧ nameOf n 0 ≠ 0x2E) ∧ n.length = 11) → K cl → ∀ ps, Way K dir fs.ty ps cl → ∀ d, (o = .missing d ∨ ∃ i, o = .found d i) → Way K dir fs.ty (ps ++ ns.dropLast) d := by
  induction hr with
  | found =>
    intro _ _ ps w d hd
    rcases hd with hd | ⟨_, hd⟩
    · cases hd
    · cases hd
      simpa using w
  | missing =>
    intro _ _ ps w d hd
    rcases hd with hd | ⟨_, hd⟩
    · cases hd
      simpa using w
    · cases hd
  | lost =>
    intro _ _ ps w d hd
    rcases hd with hd | ⟨_, hd⟩ <;> cases hd
  | file =>
    intro _ _ ps w d hd
    rcases hd with hd | ⟨_, hd⟩ <;> cases hd
  | down hf he hdir _ ih =>
    intro hn hk ps w d hd
    obtain ⟨⟨n1, n2⟩, n3⟩ := hn _ (List.mem_cons_self ..)
    have := ih (fun n h => hn n (List.mem_cons_of_mem _ h)) (v.lead hk ⟨_, n1, n2, hf, he⟩ hdir).1 _ (.snoc w hk n3 n1 n2 hf he hdir) d hd
    rw [List.append_assoc] at this
    exact this

end Verif.Fat
