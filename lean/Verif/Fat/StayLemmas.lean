import Verif.Fat.VolumeProps

/-!
# FatFs: consistent volumes stay consistent — lemmas
-/

namespace Verif.Fat

open Spec (Ty Item named FoundAt Absent Full alike proper isDir Chain Files Text Origin Outcome Resolves nameOf stored)

/-! ## The table tells the chains -/

theorem chain_next {t : Nat → Nat} {n c b : Nat} {X : List Nat} (h : Chain t n c X) (hb : b ∈ X) (ht : t b < n) : t b ∈ X.tail := by
  induction h with
  | last _ _ h3 =>
    rw [List.mem_singleton] at hb
    subst hb
    omega
  | link h1 h2 h3 h4 hc ih =>
    rcases List.mem_cons.mp hb with rfl | hb
    · obtain ⟨L', rfl⟩ := hc.head
      exact List.mem_cons_self ..
    · exact List.mem_of_mem_tail (ih hb)

theorem chain_prev {t : Nat → Nat} {n d c : Nat} {Y : List Nat} (h : Chain t n d Y) (hc : c ∈ Y) : c = d ∨ ∃ b ∈ Y, t b = c := by
  induction h with
  | last =>
    rw [List.mem_singleton] at hc
    exact Or.inl hc
  | link h1 h2 h3 h4 hl ih =>
    rcases List.mem_cons.mp hc with hc | hc
    · exact Or.inl hc
    · rcases ih hc with rfl | ⟨b, hb, e⟩
      · exact Or.inr ⟨_, List.mem_cons_self .., rfl⟩
      · exact Or.inr ⟨b, List.mem_cons_of_mem _ hb, e⟩

theorem flatten_once {F : List (List Nat)} (h : F.flatten.Nodup) {X Z : List Nat} (hX : X ∈ F) (hZ : Z ∈ F) {c : Nat} (cX : c ∈ X) (cZ : c ∈ Z) : X = Z := by
  induction F with
  | nil => cases hX
  | cons A F ih =>
    rw [List.flatten_cons, List.nodup_append] at h
    obtain ⟨_, h2, h3⟩ := h
    rcases List.mem_cons.mp hX with rfl | xX <;> rcases List.mem_cons.mp hZ with rfl | zZ
    · rfl
    · exact absurd rfl (h3 c cX c (List.mem_flatten.mpr ⟨Z, zZ, cZ⟩))
    · exact absurd rfl (h3 c cZ c (List.mem_flatten.mpr ⟨X, xX, cX⟩))
    · exact ih h2 xX zZ

theorem flatten_nodup {F : List (List Nat)} (h : F.flatten.Nodup) {X : List Nat} (hX : X ∈ F) : X.Nodup :=
  List.Nodup.sublist (List.sublist_flatten_of_mem hX) h

/-- There is only one way to cut the used clusters into chains. -/
theorem files_same {t : Nat → Nat} {n : Nat} {F G : List (List Nat)} (hF : Files t n F) (hG : Files t n G) {X : List Nat} (hX : X ∈ F) : X ∈ G := by
  obtain ⟨c, hc⟩ := hF.chains X hX
  obtain ⟨L, eL⟩ := hc.head
  have cX : c ∈ X := by rw [eL]; exact List.mem_cons_self ..
  have c2 := hc.mem cX
  obtain ⟨Y, hY, cY⟩ := List.mem_flatten.mp (hG.used c c2.1 c2.2.1 (by omega))
  obtain ⟨d, hd⟩ := hG.chains Y hY
  rcases chain_prev hd cY with rfl | ⟨b, hb, e⟩
  · rw [chain_unique hc hd]
    exact hY
  · have b2 := hd.mem hb
    obtain ⟨Z, hZ, bZ⟩ := List.mem_flatten.mp (hF.used b b2.1 b2.2.1 (by omega))
    obtain ⟨z, hz⟩ := hF.chains Z hZ
    have k := chain_next hz bZ (by rw [e]; exact c2.2.1)
    rw [e] at k
    obtain rfl := flatten_once hF.apart hX hZ cX (List.mem_of_mem_tail k)
    have nd := flatten_nodup hF.apart hX
    rw [eL] at nd k
    exact absurd k (List.nodup_cons.mp nd).1

theorem used_of {t : Nat → Nat} {n c : Nat} {F : List (List Nat)} {X : List Nat} (h : Files t n F) (hX : X ∈ F) (hc : c ∈ X) : t c ≠ 0 := by
  obtain ⟨d, hd⟩ := h.chains X hX
  have := hd.mem hc
  omega

theorem head_mem {X : List Nat} (h : X ≠ []) : X.headD 0 ∈ X := by
  cases X with
  | nil => exact absurd rfl h
  | cons a X => exact List.mem_cons_self ..

theorem own_apart {t : Nat → Nat} {n : Nat} {A : List Nat} {O : List (List Nat)} (h : Files t n (own A ++ O)) (hA : A ∈ O) : A = [] := by
  refine Decidable.byContradiction fun z => ?_
  have k := h.apart
  rw [own_cons z, List.singleton_append, List.flatten_cons, List.nodup_append] at k
  exact absurd rfl (k.2.2 _ (head_mem z) _ (List.mem_flatten.mpr ⟨A, hA, head_mem z⟩))

/-! ## Volumes -/

variable {fs fs' : Fs} {rt : Root} {K : Nat → Prop} {dir : Nat → List Item} {clus : Nat → List Nat} {sect : Nat → Nat → Nat} {len : Nat → Nat} {depth : Nat → Nat} {F : List (List Nat)}

/-- A directory whose sectors stay is as before. -/
theorem Volume.aside (v : Volume fs rt K dir clus sect len depth F) {c : Nat} (hk : K c) (hs : Shape fs fs') (hok : fs'.Ok) {G : List (List Nat)} (hG : Files fs'.entryAt fs'.nFatent G) (hin : ∀ X ∈ own (clus c), X ∈ G)
    (ho : Others fs fs' (own (clus c))) (hb : clus c = [] → Below fs fs') : Area fs' rt c (clus c) (sect c) (len c) ∧ dirOf fs' (sect c) (len c) = dir c := by
  obtain ⟨O, h, _⟩ := take_out (A := []) v.files (v.held c hk)
  obtain ⟨Q, q, _⟩ := take_out (A := []) hG hin
  obtain ⟨b1, b2⟩ := bystander (v.holds hk h) hs hok q ho hb
  exact ⟨b1.area, b2.trans (v.entries c hk).symm⟩

/-- Only the root may be without clusters. -/
theorem Volume.rootless (v : Volume fs rt K dir clus sect len depth F) {c : Nat} (hk : K c) (h : clus c = []) : c = 0 :=
  Decidable.byContradiction fun x => (v.begins hk x).1 h

/-- What only looks at the disk leaves a consistent volume. -/
theorem volume_seen (v : Volume fs rt K dir clus sect len depth F) (s : Seen fs fs') : Volume fs' rt K dir clus sect len depth F := by
  refine ⟨s.ok, by rw [s.shape.2.1]; exact v.power, files_seen s v.files, v.root, fun c hk => (v.area c hk).seen s, v.held, fun c hk => ?_, v.tidy, v.distinct, ?_, ?_, ?_, ?_, ?_, ?_, v.dots, ?_⟩
  · rw [dirOf_seen (v.area c hk) v.ok.layout s]
    exact v.entries c hk
  all_goals rw [s.shape.1]
  · exact v.closed
  · rw [s.shape.2.1]
    exact v.chains
  · exact v.single
  · exact v.top
  · exact v.up
  · exact v.down
  · exact v.reached

/-- Two entries lead to the same, and both are files or both directories. -/
def Alike (ty : Ty) (e x : Item) : Prop := Spec.start ty x 0 = Spec.start ty e 0 ∧ (isDir x ↔ isDir e) ∧ Spec.size x 0 = Spec.size e 0

/-- An entry is changed, but neither its name nor what it leads to: the volume stays consistent. -/
theorem changed_volume (v : Volume fs rt K dir clus sect len depth F) {cl i n : Nat} {L : List Nat} {S : Nat → Nat} {O : List (List Nat)} {e x : Item} (hk : K cl) (he : (dir cl)[i]? = some e) (h : Holds fs rt cl L S n O)
    (hx : Alike fs.ty e x) (g : Changed fs fs' rt cl L S n O i x) : Volume fs' rt K (fun c => if c = cl then (dir cl).set i x else dir c) clus sect len depth F := by
  obtain ⟨rfl, rfl, rfl⟩ := area_unique h.area (v.area cl hk)
  have hF : Files fs'.entryAt fs'.nFatent F := by
    rw [g.shape.2.2.2.1]
    exact files_congr v.files g.entries
  have away : ∀ c, K c → c ≠ cl → Area fs' rt c (clus c) (sect c) (len c) ∧ dirOf fs' (sect c) (len c) = dir c := by
    intro c hc hne
    refine v.aside hc g.shape g.holds.ok hF (v.held c hc) (others_sub g.others fun X hX => ?_) fun z => g.below fun y => hne ((v.rootless hc z).trans (v.rootless hk y).symm)
    obtain ⟨rfl, y⟩ := own_mem hX
    rcases List.mem_append.mp (files_same v.files h.files (v.held c hc _ hX)) with q | q
    · exact absurd (own_mem q).1 (v.apart hc hk hne y)
    · exact q
  have dcl : (if cl = cl then (dir cl).set i x else dir cl) = dirOf fs' (sect cl) (len cl) := by rw [if_pos rfl, g.dir, ← v.entries cl hk]
  have found : ∀ (c : Nat) gn (j : Nat), K c → (FoundAt (if c = cl then (dir cl).set i x else dir c) gn j ↔ FoundAt (dir c) gn j) := by
    intro c gn j hc
    by_cases z : c = cl
    · subst z
      rw [dcl, v.entries c hc]
      exact g.names gn j
    · rw [if_neg z]
  have entry : ∀ (c j : Nat) (y : Item), (if c = cl then (dir cl).set i x else dir c)[j]? = some y → ∃ z, (dir c)[j]? = some z ∧ Alike fs.ty z y := by
    intro c j y hy
    by_cases z : c = cl
    · subst z
      rw [if_pos rfl, List.getElem?_set] at hy
      by_cases w : i = j
      · subst w
        rw [if_pos rfl] at hy
        split at hy
        · cases hy
          exact ⟨e, he, hx⟩
        · cases hy
      · rw [if_neg w] at hy
        exact ⟨y, hy, rfl, Iff.rfl, rfl⟩
    · rw [if_neg z] at hy
      exact ⟨y, hy, rfl, Iff.rfl, rfl⟩
  have entry' : ∀ (c j : Nat) (z : Item), (dir c)[j]? = some z → ∃ y, (if c = cl then (dir cl).set i x else dir c)[j]? = some y ∧ Alike fs.ty z y := by
    intro c j z hz
    by_cases w : c = cl
    · subst w
      rw [if_pos rfl, List.getElem?_set]
      by_cases w : i = j
      · subst w
        have := List.getElem?_eq_some_iff.mp he
        rw [if_pos rfl, if_pos this.1]
        cases he.symm.trans hz
        exact ⟨x, rfl, hx⟩
      · rw [if_neg w]
        exact ⟨z, hz, rfl, Iff.rfl, rfl⟩
    · rw [if_neg w]
      exact ⟨z, hz, rfl, Iff.rfl, rfl⟩
  have obj : ∀ c j y, K c → Object (fun c => if c = cl then (dir cl).set i x else dir c) c j y → ∃ z, Object dir c j z ∧ Alike fs.ty z y := by
    rintro c j y hc ⟨fn, o1, o2, o3, o4⟩
    obtain ⟨z, z1, z2⟩ := entry c j y o4
    exact ⟨z, ⟨fn, o1, o2, (found c fn j hc).mp o3, z1⟩, z2⟩
  refine ⟨g.holds.ok, by rw [g.shape.2.1]; exact v.power, hF, v.root, fun c hc => ?_, v.held, fun c hc => ?_, fun c hc => ?_, fun c hc => ?_, fun c hc fn j y f1 f2 hf hy hd => ?_, fun c j y hc ho => ?_, ?_, ?_, ?_, ?_, fun c hc h0 => ?_, fun X hX => ?_⟩
  · by_cases z : c = cl
    · subst z
      exact g.holds.area
    · exact (away c hc z).1
  · by_cases z : c = cl
    · subst z
      exact dcl
    · rw [if_neg z]
      exact (away c hc z).2.symm
  · by_cases z : c = cl
    · subst z
      rw [dcl]
      exact g.holds.tidy
    · rw [if_neg z]
      exact v.tidy c hc
  · by_cases z : c = cl
    · subst z
      rw [dcl]
      exact g.holds.distinct
    · rw [if_neg z]
      exact v.distinct c hc
  · obtain ⟨z, z1, z2⟩ := entry c j y hy
    rw [g.shape.1, z2.1]
    exact v.closed c hc fn j z f1 f2 ((found c fn j hc).mp hf) z1 (z2.2.1.mp hd)
  · obtain ⟨z, z1, z2⟩ := obj c j y hc ho
    rw [g.shape.1, g.shape.2.1, z2.1, z2.2.1, z2.2.2]
    exact v.chains c j z hc z1
  · intro c j y c' j' y' hc hc' ho ho' hs h0
    obtain ⟨z, z1, z2⟩ := obj c j y hc ho
    obtain ⟨z', q1, q2⟩ := obj c' j' y' hc' ho'
    rw [g.shape.1] at hs h0
    rw [z2.1] at hs h0
    rw [q2.1] at hs
    exact v.single c j z c' j' z' hc hc' z1 q1 hs h0
  · intro c j y hc ho h0
    obtain ⟨z, z1, z2⟩ := obj c j y hc ho
    rw [g.shape.1, z2.1] at h0 ⊢
    exact v.top c j z hc z1 h0
  · intro c hc h0
    obtain ⟨p, j, z, u1, ⟨fn, o1, o2, o3, o4⟩, u3, u4⟩ := v.up c hc h0
    obtain ⟨y, y1, y2⟩ := entry' p j z o4
    exact ⟨p, j, y, u1, ⟨fn, o1, o2, (found p fn j u1).mpr o3, y1⟩, y2.2.1.mpr u3, by rw [g.shape.1, y2.1]; exact u4⟩
  · intro c j y hc ho hd
    obtain ⟨z, z1, z2⟩ := obj c j y hc ho
    rw [g.shape.1, z2.1]
    exact v.down c j z hc z1 (z2.2.1.mp hd)
  · obtain ⟨a, b, a0, b0, fa, fb⟩ := v.dots c hc h0
    exact ⟨a, b, a0, b0, (found c a 0 hc).mpr fa, (found c b 1 hc).mpr fb⟩
  · rcases v.reached X hX with q | ⟨p, j, z, u1, ⟨fn, o1, o2, o3, o4⟩, u3⟩
    · exact Or.inl q
    · obtain ⟨y, y1, y2⟩ := entry' p j z o4
      exact Or.inr ⟨p, j, y, u1, ⟨fn, o1, o2, (found p fn j u1).mpr o3, y1⟩, by rw [g.shape.1, y2.1]; exact u3⟩

theorem listed_named {gn : Nat → BitVec 8} {z : Item} (hp : proper gn) (hd : gn 0 ≠ 0x2E) (h : named gn z) : Spec.listed z := by
  have k : ∀ a : BitVec 8, a &&& 8 = 0 → a &&& 0x3F ≠ 0x0F ∧ a &&& 0x3F ≠ 0x08 := by decide +kernel
  obtain ⟨k1, k2⟩ := k _ h.1
  have e := h.2 0 (by decide)
  exact ⟨by rw [e]; exact hp.2, by rw [e]; exact hd, k1, k2⟩

/-- A file or an empty directory is removed: the volume stays consistent. -/
theorem gone_volume (v : Volume fs rt K dir clus sect len depth F) {cl i n : Nat} {L M : List Nat} {S : Nat → Nat} {O : List (List Nat)} {e : Item} {fn : Nat → BitVec 8} (hk : K cl) (hp : proper fn) (hdot : fn 0 ≠ 0x2E)
    (hf : FoundAt (dir cl) fn i) (he : (dir cl)[i]? = some e) (h : Holds fs rt cl L S n (own M ++ O)) (hs : Spec.start fs.ty e 0 = M.headD 0) (hd : isDir e → M ≠ [] ∧ Spec.NoneFrom (inside fs M) 2)
    (g : Gone fs fs' rt cl L S n M O fn i) :
    Volume fs' rt (fun c => K c ∧ ¬ (isDir e ∧ c = Spec.start fs.ty e 0)) (fun c => if c = cl then (dir cl).set i Spec.deleted else dir c) clus sect len depth (own (clus cl) ++ O) := by
  obtain ⟨rfl, rfl, rfl⟩ := area_unique h.area (v.area cl hk)
  have ob : Object dir cl i e := ⟨fn, hp, hdot, hf, he⟩
  have mF : ∀ X ∈ own M, X ∈ F := fun X hX => files_same h.files v.files (List.mem_append_right _ (List.mem_append_left _ hX))
  have m2 : M ≠ [] → 2 ≤ Spec.start fs.ty e 0 := fun hM => by
    rw [hs]
    exact v.member (mF M (by rw [own_cons hM]; simp))
  have hcl : ¬ (isDir e ∧ cl = Spec.start fs.ty e 0) := fun x => by
    have := v.down cl i e hk ob x.1
    rw [← x.2] at this
    omega
  have hF := g.holds.files
  have split : ∀ X, X ∈ F → X ∈ own M ∨ X ∈ own (clus cl) ++ O := by
    intro X hX
    rcases List.mem_append.mp (files_same v.files h.files hX) with q | q
    · exact Or.inr (List.mem_append_left _ q)
    · rcases List.mem_append.mp q with q | q
      · exact Or.inl q
      · exact Or.inr (List.mem_append_right _ q)
  have held : ∀ c, K c → ¬ (isDir e ∧ c = Spec.start fs.ty e 0) → ∀ X ∈ own (clus c), X ∈ own (clus cl) ++ O := by
    intro c hc hn X hX
    refine (split X (v.held c hc X hX)).resolve_left fun q => ?_
    obtain ⟨rfl, y⟩ := own_mem q
    obtain ⟨i1, i2⟩ := v.itself hk ob hc y mF hs (own_mem hX).1
    exact hn ⟨i1, i2.symm⟩
  have away : ∀ c, K c → ¬ (isDir e ∧ c = Spec.start fs.ty e 0) → c ≠ cl → Area fs' rt c (clus c) (sect c) (len c) ∧ dirOf fs' (sect c) (len c) = dir c := by
    intro c hc hn hne
    refine v.aside hc g.shape g.holds.ok hF (held c hc hn) (others_sub g.others fun X hX => ?_) fun z => g.below fun y => hne ((v.rootless hc z).trans (v.rootless hk y).symm)
    have q := held c hc hn X hX
    obtain ⟨rfl, y⟩ := own_mem hX
    rcases List.mem_append.mp q with q | q
    · exact absurd (own_mem q).1 (v.apart hc hk hne y)
    · exact q
  have dcl : (if cl = cl then (dir cl).set i Spec.deleted else dir cl) = dirOf fs' (sect cl) (len cl) := by rw [if_pos rfl, g.entry, ← v.entries cl hk]
  have obj : ∀ c j y, K c → Object (fun c => if c = cl then (dir cl).set i Spec.deleted else dir c) c j y → Object dir c j y ∧ ¬ (c = cl ∧ j = i) := by
    rintro c j y hc ⟨gn, o1, o2, o3, o4⟩
    by_cases z : c = cl
    · subst z
      dsimp only at o3 o4
      have w : ¬ alike gn fn := fun w => by
        rw [dcl] at o3
        exact found_absent (found_alike w o3) g.absent
      have o5 := o3
      rw [dcl, g.names gn o1 w, ← v.entries c hc] at o5
      have ne : j ≠ i := by
        rintro rfl
        obtain ⟨q, q1, q2⟩ := o3.hit
        rw [if_pos rfl, List.getElem?_set, if_pos rfl] at q1
        split at q1
        · cases q1
          exact o1.2 (q2.2 0 (by decide)).symm
        · cases q1
      rw [if_pos rfl, List.getElem?_set, if_neg (fun x => ne x.symm)] at o4
      exact ⟨⟨gn, o1, o2, o5, o4⟩, fun x => ne x.2⟩
    · dsimp only at o3 o4
      rw [if_neg z] at o3 o4
      exact ⟨⟨gn, o1, o2, o3, o4⟩, fun x => z x.1⟩
  have obj' : ∀ c j y, K c → Object dir c j y → ¬ (c = cl ∧ j = i) → Object (fun c => if c = cl then (dir cl).set i Spec.deleted else dir c) c j y := by
    rintro c j y hc ⟨gn, o1, o2, o3, o4⟩ hn
    by_cases z : c = cl
    · subst z
      have ne : j ≠ i := fun x => hn ⟨rfl, x⟩
      refine ⟨gn, o1, o2, ?_, ?_⟩
      · dsimp only
        rw [dcl, g.names gn o1 (fun w => ne (found_unique (found_alike w o3) hf)), ← v.entries c hc]
        exact o3
      · dsimp only
        rw [if_pos rfl, List.getElem?_set, if_neg (fun x => ne x.symm)]
        exact o4
    · refine ⟨gn, o1, o2, ?_, ?_⟩ <;> dsimp only <;> rw [if_neg z] <;> assumption
  have only : ∀ c j y, K c → Object dir c j y → Spec.start fs.ty y 0 = Spec.start fs.ty e 0 → M ≠ [] → c = cl ∧ j = i := by
    intro c j y hc ho hst hM
    exact v.single c j y cl i e hc hk ho ob hst (by have := m2 hM; omega)
  have empty : isDir e → ∀ j z, ¬ Object dir (Spec.start fs.ty e 0) j z := by
    rintro hde j z ho
    obtain ⟨hM, hN⟩ := hd hde
    have h2 := m2 hM
    have kd := v.closed cl hk fn i e hp hdot hf he hde
    have hj := v.after kd (by omega) ho
    have hFM : M ∈ F := mF M (by rw [own_cons hM]; simp)
    have a1 : Area fs rt (Spec.start fs.ty e 0) M (fs.sec M) (M.length * fs.csize) := by
      obtain ⟨c, hc⟩ := v.files.chains M hFM
      obtain ⟨L', eL⟩ := hc.head
      exact .chain (Or.inl (by rw [hs, eL]; rfl)) hc
    obtain ⟨_, q2, q3⟩ := area_unique a1 (v.area _ kd)
    have ed : dir (Spec.start fs.ty e 0) = inside fs M := by
      rw [v.entries _ kd, ← q2, ← q3]
      rfl
    obtain ⟨gn, o1, o2, o3, o4⟩ := ho
    obtain ⟨z', z1, z2⟩ := o3.hit
    cases o4.symm.trans z1
    rw [ed] at o3 o4
    obtain ⟨k, y, _, k2, k3, k4⟩ := hN j z hj o4 (listed_named o1 o2 z2)
    exact o3.before k k2 y k3 k4
  refine ⟨g.holds.ok, by rw [g.shape.2.1]; exact v.power, hF, ⟨v.root, fun x => ?_⟩, fun c hc => ?_, fun c hc => held c hc.1 hc.2, fun c hc => ?_, fun c hc => ?_, fun c hc => ?_, fun c hc gn j y f1 f2 hg hy hdy => ?_, fun c j y hc ho => ?_,
    ?_, ?_, ?_, ?_, fun c hc h0 => ?_, fun X hX => ?_⟩
  · have := m2 (hd x.1).1
    omega
  · by_cases z : c = cl
    · subst z
      exact g.holds.area
    · exact (away c hc.1 hc.2 z).1
  · by_cases z : c = cl
    · subst z
      exact dcl
    · rw [if_neg z]
      exact (away c hc.1 hc.2 z).2.symm
  · by_cases z : c = cl
    · subst z
      rw [dcl]
      exact g.holds.tidy
    · rw [if_neg z]
      exact v.tidy c hc.1
  · by_cases z : c = cl
    · subst z
      rw [dcl]
      exact g.holds.distinct
    · rw [if_neg z]
      exact v.distinct c hc.1
  · obtain ⟨o1, o2⟩ := obj c j y hc.1 ⟨gn, f1, f2, hg, hy⟩
    rw [g.shape.1]
    obtain ⟨gn', o3, o4, o5, o6⟩ := id o1
    exact ⟨v.closed c hc.1 gn' j y o3 o4 o5 o6 hdy, fun x => o2 (only c j y hc.1 o1 x.2 (hd x.1).1)⟩
  · obtain ⟨o1, o2⟩ := obj c j y hc.1 ho
    rw [g.shape.1, g.shape.2.1]
    obtain ⟨N, n1, n2, n3, n4⟩ := v.chains c j y hc.1 o1
    refine ⟨N, fun X hX => (split X (n1 X hX)).resolve_left fun q => ?_, n2, n3, n4⟩
    obtain ⟨rfl, y'⟩ := own_mem q
    obtain ⟨rfl, _⟩ := own_mem hX
    exact o2 (only c j y hc.1 o1 (n2.trans hs.symm) y')
  · intro c j y c' j' y' hc hc' ho ho' hst h0
    rw [g.shape.1] at hst h0
    exact v.single c j y c' j' y' hc.1 hc'.1 (obj c j y hc.1 ho).1 (obj c' j' y' hc'.1 ho').1 hst h0
  · intro c j y hc ho h0
    rw [g.shape.1] at h0 ⊢
    exact v.top c j y hc.1 (obj c j y hc.1 ho).1 h0
  · intro c hc h0
    obtain ⟨p, j, z, u1, u2, u3, u4⟩ := v.up c hc.1 h0
    have hpj : ¬ (p = cl ∧ j = i) := by
      rintro ⟨rfl, rfl⟩
      obtain ⟨_, _, _, _, o⟩ := u2
      cases o.symm.trans he
      exact hc.2 ⟨u3, u4.symm⟩
    exact ⟨p, j, z, ⟨u1, fun x => empty x.1 j z (by rw [← x.2]; exact u2)⟩, obj' p j z u1 u2 hpj, u3, by rw [g.shape.1]; exact u4⟩
  · intro c j y hc ho hdy
    rw [g.shape.1]
    exact v.down c j y hc.1 (obj c j y hc.1 ho).1 hdy
  · obtain ⟨a, b, a0, b0, fa, fb⟩ := v.dots c hc.1 h0
    refine ⟨a, b, a0, b0, ?_⟩
    by_cases z : c = cl
    · subst z
      rw [dcl]
      have dotted : ∀ {a : Nat → BitVec 8}, a 0 = 0x2E → proper a ∧ ¬ alike a fn := fun {a} h => ⟨⟨by rw [h]; decide, by rw [h]; decide⟩, fun x => hdot ((x 0 (by decide)).symm.trans h)⟩
      rw [g.names a (dotted a0).1 (dotted a0).2, g.names b (dotted b0).1 (dotted b0).2, ← v.entries c hk]
      exact ⟨fa, fb⟩
    · rw [if_neg z]
      exact ⟨fa, fb⟩
  · have hXF : X ∈ F := files_same h.files v.files (by
      rcases List.mem_append.mp hX with q | q
      · exact List.mem_append_left _ q
      · exact List.mem_append_right _ (List.mem_append_right _ q))
    have h2 := v.member hXF
    have hX0 : X ≠ [] := fun q => by
      rw [q] at h2
      exact absurd h2 (by decide)
    have nM : X.headD 0 ≠ Spec.start fs.ty e 0 := fun q => by
      have hM : M ≠ [] := fun w => by
        rw [q, hs, w] at h2
        exact absurd h2 (by decide)
      refine used_of hF hX (head_mem hX0) (g.freed _ ?_)
      rw [q, hs]
      exact head_mem hM
    rcases v.reached X hXF with ⟨c, c1, c2⟩ | ⟨p, j, z, u1, u2, u3⟩
    · refine Or.inl ⟨c, ⟨c1, fun w => nM ?_⟩, c2⟩
      rw [← c2, ← w.2]
      exact (v.begins c1 (fun w' => by have := m2 (hd w.1).1; omega)).2
    · have hpj : ¬ (p = cl ∧ j = i) := by
        rintro ⟨rfl, rfl⟩
        obtain ⟨_, _, _, _, o⟩ := u2
        cases o.symm.trans he
        exact nM u3.symm
      exact Or.inr ⟨p, j, z, ⟨u1, fun x => empty x.1 j z (by rw [← x.2]; exact u2)⟩, obj' p j z u1 u2 hpj, by rw [g.shape.1]; exact u3⟩

end Verif.Fat
