import Verif.Fat.MkdirProps
import Verif.Fat.StayLemmas

/-!
# FatFs: a new object on a consistent volume — lemmas
-/

namespace Verif.Fat

open Spec (Ty Item named FoundAt Absent Full alike proper isDir Chain Files Text Origin Outcome Resolves nameOf stored)

/-- A function changed at two places -/
def put {α : Type} (a b : Nat) (x y : α) (f : Nat → α) (c : Nat) : α := if c = a then x else if c = b then y else f c

theorem put_a {α : Type} {a b : Nat} {x y : α} {f : Nat → α} : put a b x y f a = x := if_pos rfl
theorem put_b {α : Type} {a b : Nat} {x y : α} {f : Nat → α} (h : b ≠ a) : put a b x y f b = y := by unfold put; rw [if_neg h, if_pos rfl]
theorem put_c {α : Type} {a b c : Nat} {x y : α} {f : Nat → α} (h : c ≠ a) (k : c ≠ b) : put a b x y f c = f c := by unfold put; rw [if_neg h, if_neg k]

variable {fs fs' : Fs} {rt : Root} {K : Nat → Prop} {dir : Nat → List Item} {clus : Nat → List Nat} {sect : Nat → Nat → Nat} {len : Nat → Nat} {depth : Nat → Nat} {F : List (List Nat)}

theorem area_first {cl n : Nat} {L : List Nat} {S : Nat → Nat} (h : Area fs rt cl L S n) : L.headD 0 = if cl = 0 then (if fs.ty = .fat32 then rt.dirbase else 0) else cl := by
  cases h with
  | static g1 => rw [if_pos rfl, if_neg g1]; rfl
  | chain g hc =>
    obtain ⟨L', rfl⟩ := hc.head
    have := (hc.mem (List.mem_cons_self ..)).1
    rcases g with rfl | ⟨rfl, g1, g2⟩
    · rw [if_neg (by omega)]
      rfl
    · rw [if_pos rfl, if_pos g1, g2]
      rfl

/-- There is one more object: a file, or an empty directory `t`. The volume stays consistent. -/
theorem added_volume (v : Volume fs rt K dir clus sect len depth F) {cl i n n' t : Nat} {L L' N : List Nat} {S S' : Nat → Nat} {O : List (List Nat)} {x : Item} {fn : Nat → BitVec 8} (hk : K cl) (hp : proper fn) (hdot : fn 0 ≠ 0x2E)
    (habs : Absent (dirOf fs S n) fn) (h : Holds fs rt cl L S n O) (hs : Shape fs fs') (hh : Holds fs' rt cl L' S' n' (own N ++ O)) (ho : Others fs fs' O) (hb : L' ≠ [] → Below fs fs') (hf : FoundAt (dirOf fs' S' n') fn i) (he : (dirOf fs' S' n')[i]? = some x)
    (hn : ∀ gn, proper gn → ¬ alike gn fn → ∀ j, FoundAt (dirOf fs' S' n') gn j ↔ FoundAt (dirOf fs S n) gn j) (hbe : Spec.Beside (dirOf fs S n) (dirOf fs' S' n') i) (hst : Spec.start fs.ty x 0 = N.headD 0)
    (hfree : ∀ c ∈ N, fs.entryAt c = 0) (hdN : isDir x → N ≠ [] ∧ N.headD 0 = t) (hsz : ¬ isDir x → Spec.size x 0 ≤ 512 * (N.length * fs.csize))
    (hnew : isDir x → Spec.Tidy (inside fs' N) ∧ Spec.Distinct (inside fs' N) ∧ (∀ gn j, proper gn → gn 0 ≠ 0x2E → ¬ FoundAt (inside fs' N) gn j) ∧ ∃ a b, a 0 = 0x2E ∧ b 0 = 0x2E ∧ FoundAt (inside fs' N) a 0 ∧ FoundAt (inside fs' N) b 1)
    (htK : ¬ K t) (ht0 : t ≠ 0) :
    Volume fs' rt (fun c => K c ∨ (isDir x ∧ c = t)) (put cl t (dirOf fs' S' n') (inside fs' N) dir) (put cl t L' N clus) (put cl t S' (fs'.sec N) sect) (put cl t n' (N.length * fs'.csize) len) (fun c => if c = t then depth cl + 1 else depth c)
      (own L' ++ (own N ++ O)) := by
  obtain ⟨rfl, rfl, rfl⟩ := area_unique h.area (v.area cl hk)
  have hF := hh.files
  have tcl : t ≠ cl := fun z => htK (by rw [z]; exact hk)
  have ne : ∀ {c}, K c → c ≠ t := fun hc z => htK (by rw [← z]; exact hc)
  have headL : L'.headD 0 = (clus cl).headD 0 := by rw [area_first hh.area, area_first h.area, hs.1]
  have split : ∀ X, X ∈ F → X = clus cl ∨ X ∈ O := by
    intro X hX
    rcases List.mem_append.mp (files_same v.files h.files hX) with q | q
    · exact Or.inl (own_mem q).1
    · exact Or.inr q
  have inO : ∀ {X}, X ∈ O → X ∈ own L' ++ (own N ++ O) := fun q => List.mem_append_right _ (List.mem_append_right _ q)
  have inL : ∀ {X}, X ∈ own L' → X ∈ own L' ++ (own N ++ O) := fun q => List.mem_append_left _ q
  have inN : ∀ {X}, X ∈ own N → X ∈ own L' ++ (own N ++ O) := fun q => List.mem_append_right _ (List.mem_append_left _ q)
  have outer : ∀ c, K c → c ≠ cl → ∀ X ∈ own (clus c), X ∈ O := by
    intro c hc hne X hX
    refine (split X (v.held c hc X hX)).resolve_left fun q => ?_
    obtain ⟨rfl, y⟩ := own_mem hX
    exact v.apart hc hk hne y q
  have away : ∀ c, K c → c ≠ cl → Area fs' rt c (clus c) (sect c) (len c) ∧ dirOf fs' (sect c) (len c) = dir c := by
    intro c hc hne
    refine v.aside hc hs hh.ok hF (fun X hX => inO (outer c hc hne X hX)) (others_sub ho (outer c hc hne)) fun z => hb fun y => ?_
    have c0 := v.rootless hc z
    have a := hh.area
    rw [y] at a
    generalize cl = d at a hne
    cases a with
    | static => exact hne c0
    | chain _ hc => obtain ⟨_, e⟩ := hc.head; cases e
  have newArea : isDir x → Area fs' rt t N (fs'.sec N) (N.length * fs'.csize) := fun hd => by
    obtain ⟨d1, d2⟩ := hdN hd
    have := (sub_area (rt := rt) hF (inN (by rw [own_cons d1]; exact List.mem_singleton_self _))).1
    rwa [d2] at this
  -- the objects
  have fresh : ∀ {c j : Nat} {y : Item}, K c → Object dir c j y → Spec.start fs.ty y 0 = Spec.start fs.ty x 0 → Spec.start fs.ty y 0 = 0 := by
    intro c j y hc ob e
    refine Decidable.byContradiction fun z => ?_
    obtain ⟨M, m1, m2, _⟩ := v.chains c j y hc ob
    have hM : M ≠ [] := fun q => z (by rw [m2, q]; rfl)
    have hN : N ≠ [] := fun q => z (by rw [e, hst, q]; rfl)
    refine used_of v.files (m1 M (by rw [own_cons hM]; exact List.mem_singleton_self _)) (head_mem hM) (hfree _ ?_)
    rw [← m2, e, hst]
    exact head_mem hN
  have obj : ∀ {c j : Nat} {y : Item}, (K c ∨ (isDir x ∧ c = t)) → Object (put cl t (dirOf fs' S' n') (inside fs' N) dir) c j y → (K c ∧ Object dir c j y) ∨ (c = cl ∧ j = i ∧ y = x) := by
    rintro c j y hc ⟨gn, o1, o2, o3, o4⟩
    by_cases z : c = cl
    · subst z
      rw [put_a] at o3 o4
      by_cases w : alike gn fn
      · obtain rfl := found_unique (found_alike w o3) hf
        exact Or.inr ⟨rfl, rfl, Option.some.inj (o4.symm.trans he)⟩
      · have o5 := (hn gn o1 w j).mp o3
        have ji : j ≠ i := by
          rintro rfl
          obtain ⟨q, q1, q2⟩ := o3.hit
          obtain ⟨q', q3, q4⟩ := hf.hit
          cases q1.symm.trans q3
          exact w fun k hk => (q2.2 k hk).symm.trans (q4.2 k hk)
        obtain ⟨q, q1, _⟩ := id o5.hit
        rw [hbe j (List.getElem?_eq_some_iff.mp q1).1 ji] at o4
        rw [← v.entries c hk] at o4 o5
        exact Or.inl ⟨hk, gn, o1, o2, o5, o4⟩
    · rcases hc with hc | ⟨hd, rfl⟩
      · rw [put_c z (ne hc)] at o3 o4
        exact Or.inl ⟨hc, gn, o1, o2, o3, o4⟩
      · rw [put_b z] at o3
        exact absurd o3 ((hnew hd).2.2.1 gn j o1 o2)
  have obj' : ∀ {c j : Nat} {y : Item}, K c → Object dir c j y → Object (put cl t (dirOf fs' S' n') (inside fs' N) dir) c j y := by
    rintro c j y hc ⟨gn, o1, o2, o3, o4⟩
    by_cases z : c = cl
    · subst z
      rw [v.entries c hk] at o3 o4
      have w : ¬ alike gn fn := fun w => found_absent (found_alike w o3) habs
      have o5 := (hn gn o1 w j).mpr o3
      have ji : j ≠ i := by
        rintro rfl
        obtain ⟨q, q1, q2⟩ := o5.hit
        obtain ⟨q', q3, q4⟩ := hf.hit
        cases q1.symm.trans q3
        exact w fun k hk => (q2.2 k hk).symm.trans (q4.2 k hk)
      refine ⟨gn, o1, o2, ?_, ?_⟩
      · rw [put_a]
        exact o5
      · rw [put_a, hbe j (List.getElem?_eq_some_iff.mp o4).1 ji]
        exact o4
    · refine ⟨gn, o1, o2, ?_, ?_⟩ <;> rw [put_c z (ne hc)] <;> assumption
  have obx : Object (put cl t (dirOf fs' S' n') (inside fs' N) dir) cl i x := ⟨fn, hp, hdot, by rw [put_a]; exact hf, by rw [put_a]; exact he⟩
  have lead : ∀ {c j : Nat} {y : Item}, K c → Object dir c j y → isDir y → K (Spec.start fs.ty y 0) := by
    rintro c j y hc ⟨gn, o1, o2, o3, o4⟩ hd
    exact v.closed c hc gn j y o1 o2 o3 o4 hd
  have xt : isDir x → Spec.start fs.ty x 0 = t := fun hd => hst.trans (hdN hd).2
  have own1 : ∀ {X : List Nat}, X ≠ [] → X ∈ own X := fun h => by rw [own_cons h]; exact List.mem_singleton_self _
  have head0 : (put cl t L' N clus 0).headD 0 = (clus 0).headD 0 := by
    by_cases z : 0 = cl
    · subst z
      rw [put_a]
      exact headL
    · rw [put_c z (fun q => ht0 q.symm)]
  refine ⟨hh.ok, by rw [hs.2.1]; exact v.power, hF, Or.inl v.root, fun c hc => ?_, fun c hc => ?_, fun c hc => ?_, fun c hc => ?_, fun c hc => ?_, fun c hc gn j y f1 f2 hg hy hdy => ?_, fun c j y hc ho => ?_,
    ?_, ?_, ?_, ?_, fun c hc h0 => ?_, fun X hX => ?_⟩
  · by_cases z : c = cl
    · subst z
      rw [put_a, put_a, put_a]
      exact hh.area
    · rcases hc with hc | ⟨hd, rfl⟩
      · rw [put_c z (ne hc), put_c z (ne hc), put_c z (ne hc)]
        exact (away c hc z).1
      · rw [put_b z, put_b z, put_b z]
        exact newArea hd
  · by_cases z : c = cl
    · subst z
      rw [put_a]
      exact fun X => inL
    · rcases hc with hc | ⟨hd, rfl⟩
      · rw [put_c z (ne hc)]
        exact fun X hX => inO (outer c hc z X hX)
      · rw [put_b z]
        exact fun X => inN
  · by_cases z : c = cl
    · subst z
      rw [put_a, put_a, put_a]
    · rcases hc with hc | ⟨hd, rfl⟩
      · rw [put_c z (ne hc), put_c z (ne hc), put_c z (ne hc)]
        exact (away c hc z).2.symm
      · rw [put_b z, put_b z, put_b z]
        rfl
  · by_cases z : c = cl
    · subst z
      rw [put_a]
      exact hh.tidy
    · rcases hc with hc | ⟨hd, rfl⟩
      · rw [put_c z (ne hc)]
        exact v.tidy c hc
      · rw [put_b z]
        exact (hnew hd).1
  · by_cases z : c = cl
    · subst z
      rw [put_a]
      exact hh.distinct
    · rcases hc with hc | ⟨hd, rfl⟩
      · rw [put_c z (ne hc)]
        exact v.distinct c hc
      · rw [put_b z]
        exact (hnew hd).2.1
  · rw [hs.1]
    rcases obj hc ⟨gn, f1, f2, hg, hy⟩ with ⟨hc, ob⟩ | ⟨rfl, rfl, rfl⟩
    · exact Or.inl (lead hc ob hdy)
    · exact Or.inr ⟨hdy, xt hdy⟩
  · rw [hs.1, hs.2.1]
    rcases obj hc ho with ⟨hc, ob⟩ | ⟨rfl, rfl, rfl⟩
    · obtain ⟨M, m1, m2, m3, m4⟩ := v.chains c j y hc ob
      by_cases z : M ≠ [] ∧ M = clus cl
      · obtain ⟨z1, z2⟩ := z
        obtain ⟨i1, i2⟩ := v.itself hc ob hk z1 m1 m2 z2
        have l : L' ≠ [] := fun q => by
          have := v.member (m1 M (own1 z1))
          rw [q, ← z2] at headL
          change 0 = _ at headL
          omega
        exact ⟨L', fun X => inL, by rw [m2, headL, z2], fun _ => l, fun q => absurd i1 q⟩
      · refine ⟨M, fun X hX => ?_, m2, m3, m4⟩
        refine inO ((split X (m1 X hX)).resolve_left fun q => z ?_)
        obtain ⟨rfl, q'⟩ := own_mem hX
        exact ⟨q', q⟩
    · exact ⟨N, fun X => inN, hst, fun hd => (hdN hd).1, hsz⟩
  · intro c j y c' j' y' hc hc' ho ho' eq h0
    rw [hs.1] at eq h0
    rcases obj hc ho with ⟨kc, ob⟩ | ⟨z1, z2, z3⟩ <;> rcases obj hc' ho' with ⟨kc', ob'⟩ | ⟨w1, w2, w3⟩
    · exact v.single c j y c' j' y' kc kc' ob ob' eq h0
    · exact absurd (fresh kc ob (by rw [eq, w3])) h0
    · exact absurd (eq.trans (fresh kc' ob' (by rw [← eq, z3]))) h0
    · exact ⟨z1.trans w1.symm, z2.trans w2.symm⟩
  · intro c j y hc ho h0
    rw [hs.1] at h0 ⊢
    rw [head0]
    rcases obj hc ho with ⟨hc, ob⟩ | ⟨rfl, rfl, rfl⟩
    · exact v.top c j y hc ob h0
    · intro q
      have z : clus 0 ≠ [] := fun z => h0 (by rw [q, z]; rfl)
      have hN : N ≠ [] := fun z => h0 (by rw [hst, z]; rfl)
      refine used_of v.files (v.held 0 v.root _ (own1 z)) (head_mem z) (hfree _ ?_)
      rw [← q, hst]
      exact head_mem hN
  · intro c hc h0
    rcases hc with hc | ⟨hd, rfl⟩
    · obtain ⟨p, j, y, u1, u2, u3, u4⟩ := v.up c hc h0
      exact ⟨p, j, y, Or.inl u1, obj' u1 u2, u3, by rw [hs.1]; exact u4⟩
    · exact ⟨cl, i, x, Or.inl hk, obx, hd, by rw [hs.1]; exact xt hd⟩
  · intro c j y hc ho hd
    rw [hs.1]
    rcases obj hc ho with ⟨hc, ob⟩ | ⟨rfl, rfl, rfl⟩
    · rw [if_neg (ne (lead hc ob hd)), if_neg (ne hc)]
      exact v.down c j y hc ob hd
    · rw [xt hd, if_pos rfl, if_neg (ne hk)]
  · by_cases z : c = cl
    · subst z
      rw [put_a]
      have dotted : ∀ {a : Nat → BitVec 8}, a 0 = 0x2E → proper a ∧ ¬ alike a fn := fun {a} h => ⟨⟨by rw [h]; decide, by rw [h]; decide⟩, fun x => hdot ((x 0 (by decide)).symm.trans h)⟩
      obtain ⟨a, b, a0, b0, fa, fb⟩ := v.dots c hk h0
      rw [v.entries c hk] at fa fb
      exact ⟨a, b, a0, b0, (hn a (dotted a0).1 (dotted a0).2 0).mpr fa, (hn b (dotted b0).1 (dotted b0).2 1).mpr fb⟩
    · rcases hc with hc | ⟨hd, rfl⟩
      · rw [put_c z (ne hc)]
        exact v.dots c hc h0
      · rw [put_b z]
        exact (hnew hd).2.2.2
  · rw [hs.1]
    rcases List.mem_append.mp hX with q | q
    · exact Or.inl ⟨cl, Or.inl hk, by rw [put_a]; exact (own_mem q).1.symm⟩
    · rcases List.mem_append.mp q with q | q
      · exact Or.inr ⟨cl, i, x, Or.inl hk, obx, by rw [(own_mem q).1]; exact hst⟩
      · have hXF : X ∈ F := files_same h.files v.files (List.mem_append_right _ q)
        rcases v.reached X hXF with ⟨c, c1, c2⟩ | ⟨p, j, z, u1, u2, u3⟩
        · refine Or.inl ⟨c, Or.inl c1, ?_⟩
          rw [put_c (fun w => ?_) (ne c1)]
          · exact c2
          · subst w
            have := v.member hXF
            rw [← c2] at q
            rw [← c2, own_apart h.files q] at this
            exact absurd this (by decide)
        · exact Or.inr ⟨p, j, z, Or.inl u1, obj' u1 u2, u3⟩

/-- A new directory -/
theorem founded_volume (v : Volume fs rt K dir clus sect len depth F) {cl n n' i c tm : Nat} {L L' : List Nat} {S S' : Nat → Nat} {O : List (List Nat)} {fn : Nat → BitVec 8} (hk : K cl) (hp : proper fn) (hdot : fn 0 ≠ 0x2E)
    (habs : Absent (dirOf fs S n) fn) (h : Holds fs rt cl L S n O) (g : NewDir fs fs' rt cl S n L' S' n' O fn i c tm) :
    ∃ K' dir' clus' sect' len' depth' F', Volume fs' rt K' dir' clus' sect' len' depth' F' := by
  obtain ⟨u1, u2, u3, u4, u5⟩ := new_dir_usable g
  obtain ⟨f1, f2, f3⟩ := g.free
  have c0 : c ≠ 0 := by omega
  have attr : ∀ (nm : Nat → BitVec 8) (d : Nat), Spec.folder nm d tm 11 &&& 8 = 0 := fun nm d => by
    unfold Spec.folder
    rw [if_neg (by decide), if_pos rfl]
    decide
  have e0 : (inside fs' [c])[0]? = some (Spec.folder Spec.dot c tm) := by rw [g.empty]; rfl
  have e1 : (inside fs' [c])[1]? = some (Spec.folder Spec.dotDot (if fs.ty = .fat32 ∧ cl = rt.dirbase then 0 else cl) tm) := by rw [g.empty]; rfl
  refine ⟨_, _, _, _, _, _, _, added_volume v (N := [c]) (t := c) hk hp hdot habs h g.shape g.holds g.others g.below g.found g.entry g.names g.beside u3 (fun x hx => ?_) (fun _ => ⟨by simp, rfl⟩) (fun q => absurd u1 q)
    (fun _ => ⟨u4.tidy, u4.distinct, fun gn j q1 q2 q3 => ?_, Spec.dot, Spec.dotDot, rfl, rfl, ⟨⟨_, e0, attr _ _, fun k hk => ?_⟩, fun j hj e he => ?_, fun j hj => absurd hj (by omega)⟩, ⟨⟨_, e1, attr _ _, fun k hk => ?_⟩, fun j hj e he => ?_, fun j hj e he hn => ?_⟩⟩)
    (fun q => ?_) c0⟩
  · rw [List.mem_singleton] at hx
    rw [hx]
    exact f3
  · obtain ⟨z, z1, z2⟩ := id q3.hit
    match j, z1 with
    | 0, z1 =>
      cases z1.symm.trans e0
      exact q2 (z2.2 0 (by decide)).symm
    | 1, z1 =>
      cases z1.symm.trans e1
      exact q2 (z2.2 0 (by decide)).symm
    | j + 2, z1 =>
      obtain ⟨k, y, _, k2, k3, k4⟩ := u5 (j + 2) z (by omega) z1 (listed_named q1 q2 z2)
      exact q3.before k k2 y k3 k4
  · unfold Spec.folder
    rw [if_pos hk]
  · obtain rfl : j = 0 := by omega
    cases he.symm.trans e0
    exact (by decide : (0x2E : BitVec 8) ≠ 0)
  · unfold Spec.folder
    rw [if_pos hk]
  · obtain rfl | rfl : j = 0 ∨ j = 1 := by omega
    · cases he.symm.trans e0
      exact (by decide : (0x2E : BitVec 8) ≠ 0)
    · cases he.symm.trans e1
      exact (by decide : (0x2E : BitVec 8) ≠ 0)
  · obtain rfl : j = 0 := by omega
    cases he.symm.trans e0
    exact absurd (hn.2 1 (by decide)) (by decide : (0x20 : BitVec 8) ≠ 0x2E)
  · obtain ⟨b1, b2⟩ := v.begins q c0
    refine used_of v.files (v.held c q _ (by rw [own_cons b1]; exact List.mem_singleton_self _)) (head_mem b1) ?_
    rw [b2]
    exact f3

theorem emptied_plain (ty : Ty) (e : Item) (tm : Nat) : Spec.start ty (Spec.emptied e tm) 0 = 0 ∧ ¬ isDir (Spec.emptied e tm) ∧ Spec.size (Spec.emptied e tm) 0 = 0 := by
  refine ⟨?_, fun h => h ?_, rfl⟩
  · cases ty <;> rfl
  · unfold Spec.emptied
    rw [if_pos rfl]
    decide

/-- A number that is not the cluster of a directory -/
theorem Volume.spare (v : Volume fs rt K dir clus sect len depth F) : ∃ t, t ≠ 0 ∧ ¬ K t := by
  refine ⟨1, by decide, fun h => ?_⟩
  obtain ⟨b1, b2⟩ := v.begins h (by decide)
  have := v.member (v.held 1 h _ (by rw [own_cons b1]; exact List.mem_singleton_self _))
  omega

/-- A new file -/
theorem made_volume (v : Volume fs rt K dir clus sect len depth F) {cl n n' i tm : Nat} {L L' : List Nat} {S S' : Nat → Nat} {O : List (List Nat)} {fn : Nat → BitVec 8} {m : Mode} {fp : Fil} {sl : Slot} (hk : K cl) (hp : proper fn) (hdot : fn 0 ≠ 0x2E)
    (habs : Absent (dirOf fs S n) fn) (h : Holds fs rt cl L S n O) (g : EmptyFile fs fs' rt cl L' S' n' O i m fp sl) (hf : FoundAt (dirOf fs' S' n') fn i) (he : (dirOf fs' S' n')[i]? = some (Spec.emptied (Spec.fresh fn) tm))
    (hn : ∀ gn, proper gn → ¬ alike gn fn → ∀ j, FoundAt (dirOf fs' S' n') gn j ↔ FoundAt (dirOf fs S n) gn j) (hbe : Spec.Beside (dirOf fs S n) (dirOf fs' S' n') i) :
    ∃ K' dir' clus' sect' len' depth' F', Volume fs' rt K' dir' clus' sect' len' depth' F' := by
  obtain ⟨t, t0, tK⟩ := v.spare
  obtain ⟨a1, a2, a3⟩ := emptied_plain fs.ty (Spec.fresh fn) tm
  exact ⟨_, _, _, _, _, _, _, added_volume v (N := []) (t := t) hk hp hdot habs h g.shape g.holds g.others g.below hf he hn hbe a1 (fun c hc => absurd hc (by simp)) (fun q => absurd q a2) (fun _ => by rw [a3]; omega) (fun q => absurd q a2) tK t0⟩

/-- Only other sectors than those of directories and files are written. -/
theorem unmoved_volume (v : Volume fs rt K dir clus sect len depth F) {cl n : Nat} {L : List Nat} {S : Nat → Nat} {O : List (List Nat)} (hk : K cl) (h : Holds fs rt cl L S n O) (g : Unmoved fs fs' rt cl L S n O) :
    Volume fs' rt K dir clus sect len depth F := by
  obtain ⟨rfl, rfl, rfl⟩ := area_unique h.area (v.area cl hk)
  have hF : Files fs'.entryAt fs'.nFatent F := by
    rw [g.shape.2.2.2.1]
    exact files_congr v.files g.entries
  have all : ∀ c, K c → Area fs' rt c (clus c) (sect c) (len c) ∧ dirOf fs' (sect c) (len c) = dir c := by
    intro c hc
    by_cases z : c = cl
    · subst z
      exact ⟨g.holds.area, g.same.trans (v.entries c hk).symm⟩
    · refine v.aside hc g.shape g.holds.ok hF (v.held c hc) (others_sub g.others fun X hX => ?_) fun _ => g.below
      obtain ⟨rfl, y⟩ := own_mem hX
      rcases List.mem_append.mp (files_same v.files h.files (v.held c hc _ hX)) with q | q
      · exact absurd (own_mem q).1 (v.apart hc hk z y)
      · exact q
  refine ⟨g.holds.ok, by rw [g.shape.2.1]; exact v.power, hF, v.root, fun c hc => (all c hc).1, v.held, fun c hc => (all c hc).2.symm, v.tidy, v.distinct, ?_, ?_, ?_, ?_, ?_, ?_, v.dots, ?_⟩
  all_goals rw [g.shape.1]
  · exact v.closed
  · rw [g.shape.2.1]
    exact v.chains
  · exact v.single
  · exact v.top
  · exact v.up
  · exact v.down
  · exact v.reached

/-- A file loses its bytes. -/
theorem emptied_volume (v : Volume fs rt K dir clus sect len depth F) {cl i n tm : Nat} {L M : List Nat} {S : Nat → Nat} {O : List (List Nat)} {e : Item} {fn : Nat → BitVec 8} {m : Mode} {fp : Fil} {sl : Slot} (hk : K cl) (hp : proper fn) (hdot : fn 0 ≠ 0x2E)
    (hf : FoundAt (dir cl) fn i) (he : (dir cl)[i]? = some e) (h : Holds fs rt cl L S n (own M ++ O)) (hs : Spec.start fs.ty e 0 = M.headD 0) (hd : ¬ isDir e) (g : EmptyFile fs fs' rt cl L S n O i m fp sl)
    (hdir : dirOf fs' S n = (dirOf fs S n).set i (Spec.emptied e tm)) (hn : ∀ gn j, FoundAt (dirOf fs' S n) gn j ↔ FoundAt (dirOf fs S n) gn j) (hfree : ∀ c ∈ M, fs'.entryAt c = 0) :
    Volume fs' rt K (fun c => if c = cl then (dir cl).set i (Spec.emptied e tm) else dir c) clus sect len depth (own (clus cl) ++ O) := by
  obtain ⟨rfl, rfl, rfl⟩ := area_unique h.area (v.area cl hk)
  obtain ⟨a1, a2, a3⟩ := emptied_plain fs.ty e tm
  generalize Spec.emptied e tm = x at *
  have ob : Object dir cl i e := ⟨fn, hp, hdot, hf, he⟩
  have mF : ∀ X ∈ own M, X ∈ F := fun X hX => files_same h.files v.files (List.mem_append_right _ (List.mem_append_left _ hX))
  have hF := g.holds.files
  have split : ∀ X, X ∈ F → X ∈ own M ∨ X ∈ own (clus cl) ++ O := by
    intro X hX
    rcases List.mem_append.mp (files_same v.files h.files hX) with q | q
    · exact Or.inr (List.mem_append_left _ q)
    · rcases List.mem_append.mp q with q | q
      · exact Or.inl q
      · exact Or.inr (List.mem_append_right _ q)
  have held : ∀ c, K c → ∀ X ∈ own (clus c), X ∈ own (clus cl) ++ O := by
    intro c hc X hX
    refine (split X (v.held c hc X hX)).resolve_left fun q => ?_
    obtain ⟨rfl, y⟩ := own_mem q
    exact hd (v.itself hk ob hc y mF hs (own_mem hX).1).1
  have away : ∀ c, K c → c ≠ cl → Area fs' rt c (clus c) (sect c) (len c) ∧ dirOf fs' (sect c) (len c) = dir c := by
    intro c hc hne
    refine v.aside hc g.shape g.holds.ok hF (held c hc) (others_sub g.others fun X hX => ?_) fun z => g.below fun y => hne ((v.rootless hc z).trans (v.rootless hk y).symm)
    have q := held c hc X hX
    obtain ⟨rfl, y⟩ := own_mem hX
    rcases List.mem_append.mp q with q | q
    · exact absurd (own_mem q).1 (v.apart hc hk hne y)
    · exact q
  have dcl : (if cl = cl then (dir cl).set i x else dir cl) = dirOf fs' (sect cl) (len cl) := by rw [if_pos rfl, hdir, ← v.entries cl hk]
  have found : ∀ (c : Nat) gn (j : Nat), K c → (FoundAt (if c = cl then (dir cl).set i x else dir c) gn j ↔ FoundAt (dir c) gn j) := by
    intro c gn j hc
    by_cases z : c = cl
    · subst z
      rw [dcl, v.entries c hc]
      exact hn gn j
    · rw [if_neg z]
  have entry : ∀ (c j : Nat), ¬ (c = cl ∧ j = i) → (if c = cl then (dir cl).set i x else dir c)[j]? = (dir c)[j]? := by
    intro c j hne
    by_cases z : c = cl
    · subst z
      rw [if_pos rfl, List.getElem?_set, if_neg (fun w => hne ⟨rfl, w.symm⟩)]
    · rw [if_neg z]
  have ati : (if cl = cl then (dir cl).set i x else dir cl)[i]? = some x := by
    rw [if_pos rfl, List.getElem?_set, if_pos rfl, if_pos (List.getElem?_eq_some_iff.mp he).1]
  have obj : ∀ c j y, K c → Object (fun c => if c = cl then (dir cl).set i x else dir c) c j y → (Object dir c j y ∧ ¬ (c = cl ∧ j = i)) ∨ y = x := by
    rintro c j y hc ⟨gn, o1, o2, o3, o4⟩
    by_cases z : c = cl ∧ j = i
    · obtain ⟨rfl, rfl⟩ := z
      exact Or.inr (Option.some.inj (o4.symm.trans ati))
    · have o5 := (entry c j z).symm.trans o4
      exact Or.inl ⟨⟨gn, o1, o2, (found c gn j hc).mp o3, o5⟩, z⟩
  refine ⟨g.holds.ok, by rw [g.shape.2.1]; exact v.power, hF, v.root, fun c hc => ?_, held, fun c hc => ?_, fun c hc => ?_, fun c hc => ?_, fun c hc gn j y f1 f2 hf hy hdy => ?_, fun c j y hc ho => ?_, ?_, ?_, ?_, ?_, fun c hc h0 => ?_, fun X hX => ?_⟩
  · by_cases z : c = cl
    · subst z
      exact g.holds.area
    · exact (away c hc z).1
  · by_cases z : c = cl
    · subst z
      exact dcl
    · rw [if_neg z]
      exact (away c hc z).2.symm
  · by_cases z : c = cl
    · subst z
      rw [dcl]
      exact g.holds.tidy
    · rw [if_neg z]
      exact v.tidy c hc
  · by_cases z : c = cl
    · subst z
      rw [dcl]
      exact g.holds.distinct
    · rw [if_neg z]
      exact v.distinct c hc
  · rw [g.shape.1]
    rcases obj c j y hc ⟨gn, f1, f2, hf, hy⟩ with ⟨⟨gn', o1, o2, o3, o4⟩, _⟩ | rfl
    · exact v.closed c hc gn' j y o1 o2 o3 o4 hdy
    · exact absurd hdy a2
  · rw [g.shape.1, g.shape.2.1]
    rcases obj c j y hc ho with ⟨o1, o2⟩ | rfl
    · obtain ⟨N, n1, n2, n3, n4⟩ := v.chains c j y hc o1
      refine ⟨N, fun X hX => (split X (n1 X hX)).resolve_left fun q => ?_, n2, n3, n4⟩
      obtain ⟨rfl, y'⟩ := own_mem q
      obtain ⟨rfl, _⟩ := own_mem hX
      have := v.member (mF _ q)
      exact o2 (v.single c j y cl i e hc hk o1 ob (n2.trans hs.symm) (by omega))
    · exact ⟨[], fun X hX => absurd rfl (own_mem hX).2, a1, fun q => absurd q a2, fun _ => by rw [a3]; omega⟩
  · intro c j y c' j' y' hc hc' ho ho' hst h0
    rw [g.shape.1] at hst h0
    rcases obj c j y hc ho with ⟨o1, _⟩ | rfl
    · rcases obj c' j' y' hc' ho' with ⟨o2, _⟩ | rfl
      · exact v.single c j y c' j' y' hc hc' o1 o2 hst h0
      · exact absurd (hst.trans a1) h0
    · exact absurd a1 h0
  · intro c j y hc ho h0
    rw [g.shape.1] at h0 ⊢
    rcases obj c j y hc ho with ⟨o1, _⟩ | rfl
    · exact v.top c j y hc o1 h0
    · exact absurd a1 h0
  · intro c hc h0
    obtain ⟨p, j, z, u1, ⟨gn, o1, o2, o3, o4⟩, u3, u4⟩ := v.up c hc h0
    have hpj : ¬ (p = cl ∧ j = i) := by
      rintro ⟨rfl, rfl⟩
      cases o4.symm.trans he
      exact hd u3
    exact ⟨p, j, z, u1, ⟨gn, o1, o2, (found p gn j u1).mpr o3, (entry p j hpj).trans o4⟩, u3, by rw [g.shape.1]; exact u4⟩
  · intro c j y hc ho hdy
    rw [g.shape.1]
    rcases obj c j y hc ho with ⟨o1, _⟩ | rfl
    · exact v.down c j y hc o1 hdy
    · exact absurd hdy a2
  · obtain ⟨a, b, a0, b0, fa, fb⟩ := v.dots c hc h0
    exact ⟨a, b, a0, b0, (found c a 0 hc).mpr fa, (found c b 1 hc).mpr fb⟩
  · have hXF : X ∈ F := files_same h.files v.files (by
      rcases List.mem_append.mp hX with q | q
      · exact List.mem_append_left _ q
      · exact List.mem_append_right _ (List.mem_append_right _ q))
    have h2 := v.member hXF
    have hX0 : X ≠ [] := fun q => by
      rw [q] at h2
      exact absurd h2 (by decide)
    have nM : X.headD 0 ≠ Spec.start fs.ty e 0 := fun q => by
      have hM : M ≠ [] := fun w => by
        rw [q, hs, w] at h2
        exact absurd h2 (by decide)
      refine used_of hF hX (head_mem hX0) (hfree _ ?_)
      rw [q, hs]
      exact head_mem hM
    rcases v.reached X hXF with q | ⟨p, j, z, u1, ⟨gn, o1, o2, o3, o4⟩, u3⟩
    · exact Or.inl q
    · have hpj : ¬ (p = cl ∧ j = i) := by
        rintro ⟨rfl, rfl⟩
        cases o4.symm.trans he
        exact nM u3.symm
      exact Or.inr ⟨p, j, z, u1, ⟨gn, o1, o2, (found p gn j u1).mpr o3, (entry p j hpj).trans o4⟩, by rw [g.shape.1]; exact u3⟩

end Verif.Fat
