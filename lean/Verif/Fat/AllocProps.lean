import Verif.Fat.AllocLemmas

/-!
# FatFs: chains of clusters — properties

C121: the chains of the files are kept apart. A new cluster comes from no file, a longer file is the old one with the new cluster at its end, a removed file gives back its
clusters and no others, and the number of free clusters is right. All of it for any number of files, clusters and steps.
-/

namespace Verif.Fat

open Spec (Ty Chain Files order freeCount)

/-- The mark of the last cluster, as it is in the table -/
def lastMark (ty : Ty) : Nat := 0x0FFFFFFF % Spec.range ty

theorem lastMark_ge {fs : Fs} (h : fs.Ok) : fs.nFatent ≤ lastMark fs.ty ∧ lastMark fs.ty ≠ 0 := by
  have := h.layout.ents
  cases hty : fs.ty <;> rw [hty] at this <;> unfold Spec.range at this <;> unfold lastMark Spec.range <;> dsimp only at * <;> omega

/-- The entries after cluster `ncl` has been taken and linked to `clst` -/
def linked (f : Nat → Nat) (mark clst ncl : Nat) (c : Nat) : Nat := if c = clst ∧ clst ≠ 0 then ncl else if c = ncl then mark else f c

theorem link_spec {env : Env} (hq : Quiet env) (fs : Fs) (h : fs.Ok) (clst ncl : Nat) (h1 : 2 ≤ ncl) (h2 : ncl < fs.nFatent) (hc : clst = 0 ∨ (2 ≤ clst ∧ clst < fs.nFatent))
    (hf : fs.entryAt ncl = 0) (hu : clst = 0 ∨ fs.entryAt clst ≠ 0) :
    ∃ fs', fs.link env clst ncl = (fs', ncl) ∧ Step fs fs' (linked fs.entryAt (lastMark fs.ty) clst ncl) ∧ fs'.lastClust = ncl ∧ (fs.Counted → fs'.Counted) := by
  unfold Fs.link
  have hent := Fs.ents_lt h
  have hmark := lastMark_ge h
  obtain ⟨f1, p1, p2, p3, p4⟩ := fs.put_step hq h ncl 0x0FFFFFFF h1 h2 (by decide)
  rw [p1]
  dsimp only
  obtain ⟨f2, e2, s2, g3⟩ : ∃ f2, (if Fr.ok = Fr.ok ∧ clst ≠ 0 then f1.putFat env clst ncl else (f1, Fr.ok)) = (f2, .ok) ∧
      Step fs f2 (linked fs.entryAt (lastMark fs.ty) clst ncl) ∧ f2.freeClust = fs.freeClust := by
    rcases hc with rfl | ⟨c1, c2⟩
    · rw [if_neg (by simp)]
      refine ⟨f1, rfl, p2.congr fun c _ => ?_, p3⟩
      unfold linked lastMark
      simp
    · rw [if_pos ⟨rfl, by omega⟩]
      obtain ⟨f2, q1, q2, q3, q4⟩ := f1.put_step hq p2.ok clst ncl c1 (by rw [p2.nFatent]; exact c2) (by omega)
      refine ⟨f2, q1, (p2.trans q2).congr fun c hc => ?_, q3.trans p3⟩
      unfold linked lastMark
      rw [p2.entries c hc, p2.ty]
      by_cases e : c = clst
      · have hr := h.layout.ents.2
        rw [if_pos e, if_pos ⟨e, by omega⟩, Nat.mod_eq_of_lt (by omega)]
      · rw [if_neg e, if_neg (show ¬ (c = clst ∧ clst ≠ 0) from fun k => e k.1)]
  rw [e2]
  dsimp only
  rw [if_pos rfl]
  have cnt : ∀ f3 : Fs, f3.nFatent = f2.nFatent → f3.entryAt = f2.entryAt → (fs.freeClust ≠ 0xFFFFFFFF → f3.freeClust = sub32 fs.freeClust 1) →
      (fs.freeClust = 0xFFFFFFFF → f3.freeClust = 0xFFFFFFFF) → fs.Counted → f3.Counted := by
    intro f3 hn hfe k1 k2 hcnt
    unfold Fs.Counted at hcnt ⊢
    rcases hcnt with he | he
    · exact Or.inl (k2 he)
    · right
      have e1 : freeCount f3.entryAt f3.nFatent = freeCount (fun x => if x = ncl then lastMark fs.ty else fs.entryAt x) fs.nFatent := by
        rw [hn, s2.nFatent, hfe]
        have : ∀ x, x < fs.nFatent → f2.entryAt x = linked fs.entryAt (lastMark fs.ty) clst ncl x := s2.entries
        unfold freeCount
        apply List.countP_congr
        intro x hx
        rw [List.mem_range'_1] at hx
        rw [this x (by omega)]
        unfold linked
        by_cases e : x = clst ∧ clst ≠ 0
        · rw [if_pos e]
          have hx0 : fs.entryAt x ≠ 0 := by
            rcases hu with hu | hu
            · exact absurd hu e.2
            · rw [e.1]; exact hu
          have hxn : x ≠ ncl := fun e' => hx0 (e' ▸ hf)
          show (ncl == 0) = true ↔ ((if x = ncl then lastMark fs.ty else fs.entryAt x) == 0) = true
          rw [if_neg hxn]
          simp only [beq_iff_eq]
          omega
        · rw [if_neg e]
      have e2 := freeCount_take (f := fs.entryAt) h1 h2 hf hmark.2
      have e3 := freeCount_le fs.entryAt fs.nFatent
      rw [e1, k1 (by omega), he]
      unfold sub32
      rw [show freeCount fs.entryAt fs.nFatent + 4294967296 - 1 = (freeCount fs.entryAt fs.nFatent - 1) + 4294967296 by omega]
      unfold u32
      rw [Nat.add_mod_right, Nat.mod_eq_of_lt (by omega)]
      omega
  by_cases he : f2.freeClust = 0xFFFFFFFF
  · rw [if_neg (by simp [he])]
    refine ⟨_, rfl, (s2.trans (Step.counters s2.ok _ _ _)).congr fun c hc => s2.entries c hc, rfl, cnt _ rfl rfl (fun k => ?_) (fun _ => he)⟩
    rw [g3] at he
    exact absurd he k
  · rw [if_pos he]
    refine ⟨_, rfl, (s2.trans (Step.counters s2.ok _ _ _)).congr fun c hc => s2.entries c hc, rfl, cnt _ rfl rfl (fun _ => ?_) (fun k => ?_)⟩
    · show sub32 f2.freeClust 1 = _
      rw [g3]
    · rw [g3] at he
      exact absurd k he

theorem find_free {l : List Nat} {f : Nat → Nat} (h : ∀ c ∈ l, f c ≠ 1) : l.find? (fun c => decide (f c < 2)) = l.find? (fun c => decide (f c = 0)) := by
  induction l with
  | nil => rfl
  | cons a l ih =>
    have ha := h a (List.mem_cons_self ..)
    rw [List.find?_cons, List.find?_cons, ih fun c hc => h c (List.mem_cons_of_mem _ hc)]
    have : decide (f a < 2) = decide (f a = 0) := by
      by_cases e : f a = 0
      · simp [e]
      · simp [e]; omega
    rw [this]

theorem allocate_spec {env : Env} (hq : Quiet env) (fs : Fs) (h : fs.Ok) (scl clst : Nat) (h1 : 1 ≤ scl) (h2 : scl < fs.nFatent)
    (hc : clst = 0 ∨ (2 ≤ clst ∧ clst < fs.nFatent)) (hu : clst = 0 ∨ fs.entryAt clst ≠ 0) (hno : ∀ c, 2 ≤ c → c < fs.nFatent → fs.entryAt c ≠ 1) :
    match (order fs.nFatent scl).find? (fun c => decide (fs.entryAt c = 0)) with
    | none => ∃ fs', fs.allocate env scl clst = some (fs', 0) ∧ Step fs fs' fs.entryAt ∧ fs'.freeClust = fs.freeClust ∧ fs'.lastClust = fs.lastClust
    | some ncl => ∃ fs', fs.allocate env scl clst = some (fs', ncl) ∧ Step fs fs' (linked fs.entryAt (lastMark fs.ty) clst ncl) ∧ fs'.lastClust = ncl ∧ (fs.Counted → fs'.Counted) := by
  obtain ⟨f1, s1, s2, s3, s4⟩ := fs.search_spec hq scl fs.nFatent h scl h1 h2 h1 h2 (by rw [rest_order, order_length h1 h2]; omega)
  rw [rest_order, find_free fun c hc => hno c ((mem_order h1 h2).mp hc).1 ((mem_order h1 h2).mp hc).2] at s1
  unfold Fs.allocate
  rw [s1]
  cases hf : (order fs.nFatent scl).find? (fun c => decide (fs.entryAt c = 0)) with
  | none => exact ⟨f1, rfl, s2, s3, s4⟩
  | some ncl =>
    have hm := (mem_order h1 h2).mp (List.mem_of_find?_eq_some hf)
    have h0 : fs.entryAt ncl = 0 := by simpa using List.find?_some hf
    dsimp only
    rw [if_pos h0]
    dsimp only
    have en := s2.nFatent
    obtain ⟨f2, l1, l2, l3, l4⟩ := link_spec hq f1 s2.ok clst ncl hm.1 (by omega) (by omega) (by rw [s2.entries ncl hm.2]; exact h0) (by
      rcases hc with hc | hc
      · exact Or.inl hc
      · rw [s2.entries clst hc.2]; exact hu)
    refine ⟨f2, by rw [l1], (s2.trans l2).congr fun c hc => ?_, l3, fun k => l4 ?_⟩
    · unfold linked
      rw [s2.entries c hc, s2.ty]
    · unfold Fs.Counted at k ⊢
      rw [s3, en, freeCount_congr fun c _ hc => s2.entries c hc]
      exact k

/-! ## Theorems -/

/-- In a table with the files `F` no entry is 1, and a cluster is in use exactly if its entry is not 0. -/
theorem files_entries {f : Nat → Nat} {n : Nat} {F : List (List Nat)} (h : Files f n F) (c : Nat) (h1 : 2 ≤ c) (h2 : c < n) : f c ≠ 1 ∧ (f c = 0 ↔ c ∉ F.flatten) := by
  have key : c ∈ F.flatten → 2 ≤ f c := by
    intro hm
    obtain ⟨L, hL, hc⟩ := List.mem_flatten.mp hm
    obtain ⟨x, hx⟩ := h.chains L hL
    exact (hx.mem hc).2.2
  constructor
  · intro e
    have := key (h.used c h1 h2 (by omega))
    omega
  · constructor
    · intro e hm
      have := key hm
      omega
    · intro hm
      cases e : f c with
      | zero => rfl
      | succ k => exact absurd (h.used c h1 h2 (by omega)) hm

/-- Where `create_chain` starts to search for a new chain -/
def start (fs : Fs) : Nat := if fs.lastClust = 0 ∨ fs.lastClust ≥ fs.nFatent then 1 else fs.lastClust

theorem start_range {fs : Fs} (h : fs.Ok) : 1 ≤ start fs ∧ start fs < fs.nFatent := by
  have := h.layout.ents.1
  unfold start
  split <;> omega

theorem files_new {f : Nat → Nat} {n mark ncl : Nat} {F : List (List Nat)} (h : Files f n F) (h1 : 2 ≤ ncl) (h2 : ncl < n) (h0 : f ncl = 0) (hm : n ≤ mark)
    {g : Nat → Nat} (hg : ∀ c, c < n → g c = linked f mark 0 ncl c) : Files g n ([ncl] :: F) := by
  have hnot := ((files_entries h ncl h1 h2).2).mp h0
  have hg' : ∀ c, c < n → g c = if c = ncl then mark else f c := fun c hc => by
    rw [hg c hc]
    unfold linked
    simp
  refine ⟨fun L hL => ?_, ?_, fun c c1 c2 hc => ?_⟩
  · rcases List.mem_cons.mp hL with hL0 | hLF
    · rw [hL0]
      exact ⟨ncl, .last h1 h2 (by rw [hg' ncl h2, if_pos rfl]; exact hm)⟩
    · obtain ⟨x, hx⟩ := h.chains L hLF
      refine ⟨x, hx.congr fun y hy => ?_⟩
      rw [hg' y (hx.mem hy).2.1, if_neg]
      rintro rfl
      exact hnot (List.mem_flatten.mpr ⟨L, hLF, hy⟩)
  · rw [List.flatten_cons, List.singleton_append]
    exact List.nodup_cons.mpr ⟨hnot, h.apart⟩
  · rw [hg' c c2] at hc
    rw [List.flatten_cons, List.singleton_append, List.mem_cons]
    by_cases e : c = ncl
    · exact Or.inl e
    · rw [if_neg e] at hc
      exact Or.inr (h.used c c1 c2 hc)

/-- A new chain: the first free cluster after the last one that was taken, going around, becomes a file of its own; the other files and everything outside of the table
stay. Without a free cluster the result is 0 and nothing changes. -/
theorem create_new {env : Env} (hq : Quiet env) (fs : Fs) (h : fs.Ok) (F : List (List Nat)) (hF : Files fs.entryAt fs.nFatent F) :
    match (order fs.nFatent (start fs)).find? (fun c => decide (c ∉ F.flatten)) with
    | none => ∃ fs', fs.createChain env 0 = some (fs', 0) ∧ Step fs fs' fs.entryAt ∧ (fs.Counted → fs'.Counted)
    | some ncl => ∃ fs', fs.createChain env 0 = some (fs', ncl) ∧ Step fs fs' (fun c => if c = ncl then lastMark fs.ty else fs.entryAt c) ∧
        Files fs'.entryAt fs'.nFatent ([ncl] :: F) ∧ fs'.lastClust = ncl ∧ (fs.Counted → fs'.Counted) := by
  have hs := start_range h
  have hfind : (order fs.nFatent (start fs)).find? (fun c => decide (c ∉ F.flatten)) = (order fs.nFatent (start fs)).find? (fun c => decide (fs.entryAt c = 0)) := by
    have hm : ∀ c ∈ order fs.nFatent (start fs), 2 ≤ c ∧ c < fs.nFatent := fun c hc => (mem_order hs.1 hs.2).mp hc
    generalize order fs.nFatent (start fs) = l at hm
    induction l with
    | nil => rfl
    | cons a l ih =>
      have ha := hm a (List.mem_cons_self ..)
      rw [List.find?_cons, List.find?_cons, ih fun c hc => hm c (List.mem_cons_of_mem _ hc)]
      have : decide (a ∉ F.flatten) = decide (fs.entryAt a = 0) := decide_eq_decide.mpr (files_entries hF a ha.1 ha.2).2.symm
      rw [this]
  have key := allocate_spec hq fs h (start fs) 0 hs.1 hs.2 (Or.inl rfl) (Or.inl rfl) fun c h1 h2 => (files_entries hF c h1 h2).1
  have e : fs.createChain env 0 = fs.allocate env (start fs) 0 := rfl
  rw [hfind]
  cases hf : (order fs.nFatent (start fs)).find? (fun c => decide (fs.entryAt c = 0)) with
  | none =>
    rw [hf] at key
    obtain ⟨fs', k1, k2, k3, _⟩ := key
    refine ⟨fs', e.trans k1, k2, fun k => ?_⟩
    unfold Fs.Counted at k ⊢
    rw [k3, k2.nFatent, freeCount_congr fun c _ hc => k2.entries c hc]
    exact k
  | some ncl =>
    rw [hf] at key
    obtain ⟨fs', k1, k2, k3, k4⟩ := key
    have hm := (mem_order hs.1 hs.2).mp (List.mem_of_find?_eq_some hf)
    have h0 : fs.entryAt ncl = 0 := by simpa using List.find?_some hf
    refine ⟨fs', e.trans k1, k2.congr fun c _ => ?_, ?_, k3, k4⟩
    · unfold linked
      simp
    · rw [k2.nFatent]
      exact files_new hF hm.1 hm.2 h0 (lastMark_ge h).1 k2.entries

theorem mem_insert {A B : List (List Nat)} {L : List Nat} {c : Nat} : c ∈ (A ++ L :: B).flatten ↔ c ∈ A.flatten ∨ c ∈ L ∨ c ∈ B.flatten := by
  rw [List.flatten_append, List.mem_append, List.flatten_cons, List.mem_append]

theorem nodup_parts {A B : List (List Nat)} {L : List Nat} (h : (A ++ L :: B).flatten.Nodup) :
    L.Nodup ∧ (A ++ B).flatten.Nodup ∧ ∀ x ∈ L, x ∉ (A ++ B).flatten := by
  rw [List.flatten_append, List.flatten_cons] at h
  rw [List.flatten_append]
  rw [List.nodup_append] at h ⊢
  obtain ⟨a, b, c⟩ := h
  rw [List.nodup_append] at b
  obtain ⟨b1, b2, b3⟩ := b
  refine ⟨b1, ⟨a, b2, fun x hx y hy => c x hx y (List.mem_append_right _ hy)⟩, fun x hx hm => ?_⟩
  rcases List.mem_append.mp hm with hm | hm
  · exact c x hm x (List.mem_append_left _ hx) rfl
  · exact b3 x hx x hm rfl

theorem nodup_whole {A B : List (List Nat)} {L : List Nat} (h1 : L.Nodup) (h2 : (A ++ B).flatten.Nodup) (h3 : ∀ x ∈ L, x ∉ (A ++ B).flatten) : (A ++ L :: B).flatten.Nodup := by
  rw [List.flatten_append] at h2 h3
  rw [List.flatten_append, List.flatten_cons]
  rw [List.nodup_append] at h2 ⊢
  obtain ⟨a, b, c⟩ := h2
  refine ⟨a, ?_, fun x hx y hy e => ?_⟩
  · rw [List.nodup_append]
    exact ⟨h1, b, fun x hx y hy e => h3 x hx (List.mem_append_right _ (e ▸ hy))⟩
  · rcases List.mem_append.mp hy with hy | hy
    · exact h3 y hy (List.mem_append_left _ (e ▸ hx))
    · exact c x hx y hy e

/-- A longer file: the first free cluster after its last one, going around, becomes its last one; nothing else changes. Without a free cluster the result is 0. -/
theorem create_extend {env : Env} (hq : Quiet env) (fs : Fs) (h : fs.Ok) (A B : List (List Nat)) (L : List Nat) (x : Nat)
    (hF : Files fs.entryAt fs.nFatent (A ++ (L ++ [x]) :: B)) :
    match (order fs.nFatent x).find? (fun c => decide (c ∉ (A ++ (L ++ [x]) :: B).flatten)) with
    | none => ∃ fs', fs.createChain env x = some (fs', 0) ∧ Step fs fs' fs.entryAt ∧ (fs.Counted → fs'.Counted)
    | some ncl => ∃ fs', fs.createChain env x = some (fs', ncl) ∧
        Step fs fs' (fun c => if c = x then ncl else if c = ncl then lastMark fs.ty else fs.entryAt c) ∧
        Files fs'.entryAt fs'.nFatent (A ++ (L ++ [x] ++ [ncl]) :: B) ∧ fs'.lastClust = ncl ∧ (fs.Counted → fs'.Counted) := by
  obtain ⟨c0, hc0⟩ := hF.chains (L ++ [x]) (by simp)
  obtain ⟨hx1, hx2, hx3⟩ := hc0.last_val
  have hent := Fs.ents_lt h
  have hfind : (order fs.nFatent x).find? (fun c => decide (c ∉ (A ++ (L ++ [x]) :: B).flatten)) = (order fs.nFatent x).find? (fun c => decide (fs.entryAt c = 0)) := by
    have hm : ∀ c ∈ order fs.nFatent x, 2 ≤ c ∧ c < fs.nFatent := fun c hc => (mem_order (by omega) hx3).mp hc
    generalize order fs.nFatent x = l at hm
    induction l with
    | nil => rfl
    | cons a l ih =>
      have ha := hm a (List.mem_cons_self ..)
      rw [List.find?_cons, List.find?_cons, ih fun c hc => hm c (List.mem_cons_of_mem _ hc)]
      have : decide (a ∉ (A ++ (L ++ [x]) :: B).flatten) = decide (fs.entryAt a = 0) := decide_eq_decide.mpr (files_entries hF a ha.1 ha.2).2.symm
      rw [this]
  have hlt := fs.entryAt_lt x
  obtain ⟨f1, g1, g2, g3, g4⟩ := fs.get_step hq h x hx2 hx3
  have e : fs.createChain env x = f1.allocate env x x := by
    unfold Fs.createChain
    rw [if_neg (by omega), g1]
    dsimp only
    rw [if_neg (by omega), if_neg (by omega), if_neg (by rw [g2.nFatent]; omega)]
  have en := g2.nFatent
  have key := allocate_spec hq f1 g2.ok x x (by omega) (by omega) (Or.inr ⟨hx2, by omega⟩) (Or.inr (by rw [g2.entries x hx3]; omega))
    fun c h1 h2 => by rw [g2.entries c (by omega)]; exact (files_entries hF c h1 (by omega)).1
  have hfind2 : (order f1.nFatent x).find? (fun c => decide (f1.entryAt c = 0)) = (order fs.nFatent x).find? (fun c => decide (fs.entryAt c = 0)) := by
    rw [en]
    have hm : ∀ c ∈ order fs.nFatent x, c < fs.nFatent := fun c hc => ((mem_order (by omega) hx3).mp hc).2
    generalize order fs.nFatent x = l at hm
    induction l with
    | nil => rfl
    | cons a l ih => rw [List.find?_cons, List.find?_cons, ih fun c hc => hm c (List.mem_cons_of_mem _ hc), g2.entries a (hm a (List.mem_cons_self ..))]
  have hcnt : fs.Counted → f1.Counted := fun k => by
    unfold Fs.Counted at k ⊢
    rw [g3, en, freeCount_congr fun c _ hc => g2.entries c hc]
    exact k
  rw [hfind]
  rw [hfind2] at key
  cases hf : (order fs.nFatent x).find? (fun c => decide (fs.entryAt c = 0)) with
  | none =>
    rw [hf] at key
    obtain ⟨fs', k1, k2, k3, _⟩ := key
    have st : Step fs fs' fs.entryAt := (g2.trans k2).congr fun c hc => g2.entries c hc
    refine ⟨fs', e.trans k1, st, fun k => ?_⟩
    unfold Fs.Counted at k ⊢
    rw [k3, g3, st.nFatent, freeCount_congr fun c _ hc => st.entries c hc]
    exact k
  | some ncl =>
    rw [hf] at key
    obtain ⟨fs', k1, k2, k3, k4⟩ := key
    have hm := (mem_order (by omega) hx3).mp (List.mem_of_find?_eq_some hf)
    have h0 : fs.entryAt ncl = 0 := by simpa using List.find?_some hf
    have hnot := ((files_entries hF ncl hm.1 hm.2).2).mp h0
    have st : Step fs fs' (fun c => if c = x then ncl else if c = ncl then lastMark fs.ty else fs.entryAt c) := (g2.trans k2).congr fun c hc => by
      unfold linked
      rw [g2.entries c hc, g2.ty]
      by_cases ecx : c = x
      · rw [if_pos ⟨ecx, by omega⟩, if_pos ecx]
      · rw [if_neg (by omega), if_neg ecx]
    refine ⟨fs', e.trans k1, st, ?_, k3, fun k => k4 (hcnt k)⟩
    rw [st.nFatent]
    rw [mem_insert] at hnot
    obtain ⟨n1, n2, n3⟩ := nodup_parts hF.apart
    have hxL : ∀ z ∈ L, z ≠ x := by
      rintro z hz rfl
      exact (List.nodup_append.mp n1).2.2 z hz z (List.mem_singleton.mpr rfl) rfl
    refine ⟨fun M hM => ?_, ?_, fun c c1 c2 hc => ?_⟩
    · rcases List.mem_append.mp hM with hM | hM
      · obtain ⟨y, hy⟩ := hF.chains M (List.mem_append_left _ hM)
        refine ⟨y, hy.congr fun z hz => ?_⟩
        have hz' : z ∈ A.flatten := List.mem_flatten.mpr ⟨M, hM, hz⟩
        rw [st.entries z (hy.mem hz).2.1, if_neg, if_neg]
        · rintro rfl; exact hnot (Or.inl hz')
        · rintro rfl
          exact n3 z (List.mem_append_right _ (List.mem_singleton.mpr rfl)) (by rw [List.flatten_append]; exact List.mem_append_left _ hz')
      · rcases List.mem_cons.mp hM with rfl | hM
        · refine ⟨c0, hc0.extend (fun hm' => hnot (Or.inr (Or.inl hm'))) hm.1 hm.2 ?_ ?_ fun z hz => ?_⟩
          · rw [st.entries ncl hm.2, if_neg (by rintro rfl; exact hnot (Or.inr (Or.inl (by simp)))), if_pos rfl]
            exact (lastMark_ge h).1
          · rw [st.entries x hx3, if_pos rfl]
          · have hz2 := hc0.mem (List.mem_append_left _ hz)
            rw [st.entries z hz2.2.1, if_neg (hxL z hz), if_neg]
            rintro rfl
            exact hnot (Or.inr (Or.inl (List.mem_append_left _ hz)))
        · obtain ⟨y, hy⟩ := hF.chains M (List.mem_append_right _ (List.mem_cons_of_mem _ hM))
          refine ⟨y, hy.congr fun z hz => ?_⟩
          have hz' : z ∈ B.flatten := List.mem_flatten.mpr ⟨M, hM, hz⟩
          rw [st.entries z (hy.mem hz).2.1, if_neg, if_neg]
          · rintro rfl; exact hnot (Or.inr (Or.inr hz'))
          · rintro rfl
            exact n3 z (List.mem_append_right _ (List.mem_singleton.mpr rfl)) (by rw [List.flatten_append]; exact List.mem_append_right _ hz')
    · refine nodup_whole ?_ n2 fun z hz hm' => ?_
      · rw [List.nodup_append]
        refine ⟨n1, List.nodup_singleton _, fun a ha b hb e => ?_⟩
        rw [List.mem_singleton] at hb
        exact hnot (Or.inr (Or.inl (hb ▸ e ▸ ha)))
      · rcases List.mem_append.mp hz with hz | hz
        · exact n3 z hz hm'
        · rw [List.mem_singleton] at hz
          rw [hz, List.flatten_append, List.mem_append] at hm'
          rcases hm' with hm' | hm'
          · exact hnot (Or.inl hm')
          · exact hnot (Or.inr (Or.inr hm'))
    · rw [mem_insert]
      by_cases ec : c = ncl
      · exact Or.inr (Or.inl (by simp [ec]))
      · by_cases ecx : c = x
        · exact Or.inr (Or.inl (by simp [ecx]))
        · rw [st.entries c c2, if_neg ecx, if_neg ec] at hc
          have := hF.used c c1 c2 hc
          rw [mem_insert] at this
          rcases this with t | t | t
          · exact Or.inl t
          · exact Or.inr (Or.inl (List.mem_append_left _ t))
          · exact Or.inr (Or.inr t)

/-- In the middle of a file the next cluster is returned, and nothing changes. -/
theorem create_inside {env : Env} (hq : Quiet env) (fs : Fs) (h : fs.Ok) (c x y : Nat) (A B : List Nat) (hc : Chain fs.entryAt fs.nFatent c (A ++ x :: y :: B)) :
    ∃ fs', fs.createChain env x = some (fs', y) ∧ Step fs fs' fs.entryAt ∧ fs'.freeClust = fs.freeClust ∧ fs'.lastClust = fs.lastClust := by
  obtain ⟨e, h1, h2, h3, h4⟩ := hc.next_val
  have hent := Fs.ents_lt h
  obtain ⟨f1, g1, g2, g3, g4⟩ := fs.get_step hq h x h1 h2
  refine ⟨f1, ?_, g2, g3, g4⟩
  unfold Fs.createChain
  rw [if_neg (by omega), g1]
  dsimp only
  rw [if_neg (by omega), if_neg (by omega), if_pos (by rw [g2.nFatent]; omega), e]

theorem files_remove {f g : Nat → Nat} {n : Nat} {A B : List (List Nat)} {L : List Nat} (h : Files f n (A ++ L :: B))
    (hg : ∀ c, c < n → g c = if c ∈ L then 0 else f c) : Files g n (A ++ B) := by
  obtain ⟨n1, n2, n3⟩ := nodup_parts h.apart
  refine ⟨fun M hM => ?_, n2, fun c c1 c2 hc => ?_⟩
  · have hM' : M ∈ A ++ L :: B := by
      rcases List.mem_append.mp hM with k | k
      · exact List.mem_append_left _ k
      · exact List.mem_append_right _ (List.mem_cons_of_mem _ k)
    obtain ⟨y, hy⟩ := h.chains M hM'
    refine ⟨y, hy.congr fun z hz => ?_⟩
    rw [hg z (hy.mem hz).2.1, if_neg]
    intro hzL
    exact n3 z hzL (List.mem_flatten.mpr ⟨M, hM, hz⟩)
  · rw [hg c c2] at hc
    by_cases hcL : c ∈ L
    · rw [if_pos hcL] at hc
      exact absurd rfl hc
    · rw [if_neg hcL] at hc
      have := h.used c c1 c2 hc
      rw [mem_insert] at this
      rw [List.flatten_append, List.mem_append]
      rcases this with t | t | t
      · exact Or.inl t
      · exact absurd t hcL
      · exact Or.inr t

/-- A removed file gives back its clusters, and nothing else changes. -/
theorem remove_file {env : Env} (hq : Quiet env) (fs : Fs) (h : fs.Ok) (A B : List (List Nat)) (c : Nat) (L : List Nat)
    (hF : Files fs.entryAt fs.nFatent (A ++ (c :: L) :: B)) :
    ∃ fs', fs.removeChain env c = some (fs', .ok) ∧ Step fs fs' (fun x => if x ∈ c :: L then 0 else fs.entryAt x) ∧
      Files fs'.entryAt fs'.nFatent (A ++ B) ∧ fs'.lastClust = fs.lastClust ∧ (fs.Counted → fs'.Counted) := by
  obtain ⟨x, hx⟩ := hF.chains (c :: L) (by simp)
  obtain ⟨L', e⟩ := hx.head
  injection e with e1 e2
  subst e1
  have hm := hx.mem (List.mem_cons_self ..)
  have hlen := hx.length
  unfold Fs.removeChain
  rw [if_neg (by omega)]
  obtain ⟨fs', r1, r2, r3, r4⟩ := fs.removeLoop_chain hq fs.nFatent h hx (by omega)
  refine ⟨fs', r1, r2, ?_, r3, r4⟩
  rw [r2.nFatent]
  exact files_remove hF r2.entries

/-- The end of a file is given back: what `f_truncate` does with the clusters after `x`, ff.c:3999-4006. -/
theorem remove_tail {env : Env} (hq : Quiet env) (fs : Fs) (h : fs.Ok) (A B : List (List Nat)) (L M : List Nat) (x y : Nat)
    (hF : Files fs.entryAt fs.nFatent (A ++ (L ++ x :: y :: M) :: B)) :
    ∃ f1 fs', fs.putFat env x 0x0FFFFFFF = (f1, .ok) ∧ f1.removeChain env y = some (fs', .ok) ∧
      Step fs fs' (fun c => if c ∈ y :: M then 0 else if c = x then lastMark fs.ty else fs.entryAt c) ∧
      Files fs'.entryAt fs'.nFatent (A ++ (L ++ [x]) :: B) ∧ (fs.Counted → fs'.Counted) := by
  obtain ⟨c0, hc0⟩ := hF.chains _ (List.mem_append_right A (List.mem_cons_self ..))
  obtain ⟨e1, x1, x2, y1, y2⟩ := hc0.next_val
  obtain ⟨n1, n2, n3⟩ := nodup_parts hF.apart
  have hmark := lastMark_ge h
  obtain ⟨f1, p1, p2, p3, p4⟩ := fs.put_step hq h x 0x0FFFFFFF x1 x2 (by decide)
  obtain ⟨nL, nxy, nLx⟩ := List.nodup_append.mp n1
  obtain ⟨nx, nym⟩ := List.nodup_cons.mp nxy
  have hLx : ∀ z ∈ L, z ≠ x := fun z hz e => nLx z hz x (List.mem_cons_self ..) e
  -- the tail as a file of its own
  have hF1 : Files f1.entryAt f1.nFatent (A ++ (L ++ [x]) :: (y :: M) :: B) := by
    rw [p2.nFatent]
    have other : ∀ N ∈ A ++ B, ∃ c, Chain f1.entryAt fs.nFatent c N := by
      intro N hN
      have hN' : N ∈ A ++ (L ++ x :: y :: M) :: B := by
        rcases List.mem_append.mp hN with k | k
        · exact List.mem_append_left _ k
        · exact List.mem_append_right _ (List.mem_cons_of_mem _ k)
      obtain ⟨c, hc⟩ := hF.chains N hN'
      refine ⟨c, hc.congr fun z hz => ?_⟩
      rw [p2.entries z (hc.mem hz).2.1, if_neg]
      rintro rfl
      exact n3 z (by simp) (List.mem_flatten.mpr ⟨N, hN, hz⟩)
    have tail : Chain f1.entryAt fs.nFatent y (y :: M) := by
      obtain ⟨A', B', e, k⟩ := hc0.suffix (x := y) (by simp)
      have e2 : B' = y :: M := by
        obtain ⟨B'', eB⟩ := k.head
        subst eB
        have e' : L ++ [x] ++ y :: M = A' ++ y :: B'' := by rw [← e]; simp
        have hy1 : y ∉ L ++ [x] := by
          intro hm
          rcases List.mem_append.mp hm with hm | hm
          · exact nLx y hm y (by simp) rfl
          · rw [List.mem_singleton] at hm
            exact nx (hm ▸ List.mem_cons_self ..)
        have nd : (A' ++ y :: B'').Nodup := by rw [← e]; exact n1
        have hy2 : y ∉ A' := fun hm => (List.nodup_append.mp nd).2.2 y hm y (List.mem_cons_self ..) rfl
        have aux : ∀ (P Q R S : List Nat), y ∉ P → y ∉ R → P ++ y :: Q = R ++ y :: S → Q = S := by
          intro P
          induction P with
          | nil =>
            intro Q R S _ h2 h3
            cases R with
            | nil => simpa using h3
            | cons r R =>
              injection h3 with h4 h5
              exact absurd (h4 ▸ List.mem_cons_self ..) h2
          | cons p P ih =>
            intro Q R S h1 h2 h3
            cases R with
            | nil =>
              injection h3 with h4 h5
              exact absurd (h4 ▸ List.mem_cons_self ..) h1
            | cons r R =>
              injection h3 with h4 h5
              exact ih Q R S (fun k => h1 (List.mem_cons_of_mem _ k)) (fun k => h2 (List.mem_cons_of_mem _ k)) h5
        rw [aux _ _ _ _ hy1 hy2 e']
      subst e2
      refine k.congr fun z hz => ?_
      rw [p2.entries z (k.mem hz).2.1, if_neg]
      rintro rfl
      exact nx hz
    refine ⟨fun N hN => ?_, ?_, fun c c1 c2 hc => ?_⟩
    · rcases List.mem_append.mp hN with hN | hN
      · exact other N (List.mem_append_left _ hN)
      rcases List.mem_cons.mp hN with rfl | hN
      · refine ⟨c0, hc0.cut ?_ fun z hz => ?_⟩
        · rw [p2.entries x x2, if_pos rfl]
          exact hmark.1
        · rw [p2.entries z (hc0.mem (List.mem_append_left _ hz)).2.1, if_neg (hLx z hz)]
      rcases List.mem_cons.mp hN with rfl | hN
      · exact ⟨y, tail⟩
      · exact other N (List.mem_append_right _ hN)
    · have : (A ++ (L ++ [x]) :: (y :: M) :: B).flatten = (A ++ (L ++ x :: y :: M) :: B).flatten := by
        rw [List.flatten_append, List.flatten_append, List.flatten_cons, List.flatten_cons, List.flatten_cons]
        simp
      rw [this]
      exact hF.apart
    · have hc' : c ∈ (A ++ (L ++ x :: y :: M) :: B).flatten := by
        rw [p2.entries c c2] at hc
        by_cases e : c = x
        · rw [mem_insert]
          exact Or.inr (Or.inl (by simp [e]))
        · rw [if_neg e] at hc
          exact hF.used c c1 c2 hc
      rw [mem_insert] at hc'
      rw [mem_insert, List.flatten_cons, List.mem_append (s := y :: M)]
      rcases hc' with t | t | t
      · exact Or.inl t
      · rcases List.mem_append.mp t with t | t
        · exact Or.inr (Or.inl (List.mem_append_left _ t))
        · rcases List.mem_cons.mp t with t | t
          · exact Or.inr (Or.inl (by simp [t]))
          · exact Or.inr (Or.inr (Or.inl t))
      · exact Or.inr (Or.inr (Or.inr t))
  have hF2 : Files f1.entryAt f1.nFatent ((A ++ [L ++ [x]]) ++ (y :: M) :: B) := by
    rw [List.append_assoc]
    exact hF1
  obtain ⟨fs', r1, r2, r3, r4, r5⟩ := remove_file hq f1 p2.ok _ _ _ _ hF2
  refine ⟨f1, fs', p1, r1, (p2.trans r2).congr fun c hc => ?_, ?_, fun k => r5 ?_⟩
  · rw [p2.entries c hc]
    rfl
  · rw [List.append_assoc] at r3
    exact r3
  · unfold Fs.Counted at k ⊢
    rw [p3, p2.nFatent]
    have : freeCount f1.entryAt fs.nFatent = freeCount fs.entryAt fs.nFatent := by
      unfold freeCount
      apply List.countP_congr
      intro z hz
      rw [List.mem_range'_1] at hz
      rw [p2.entries z (by omega)]
      by_cases e : z = x
      · rw [if_pos e, e, e1]
        simp only [beq_iff_eq]
        have := hmark.2
        unfold lastMark at this
        omega
      · rw [if_neg e]
    rw [this]
    exact k

/-- `remove_chain` ends on every table, also if the clusters form a ring or run into each other. -/
theorem remove_ends {env : Env} (hq : Quiet env) (fs : Fs) (h : fs.Ok) (c : Nat) : fs.removeChain env c ≠ none := by
  unfold Fs.removeChain
  have := h.layout.ents.1
  split
  · simp
  · exact fs.removeLoop_ends hq _ h c (by omega) (by omega)

/-- `create_chain` ends on every table. -/
theorem create_ends {env : Env} (hq : Quiet env) (fs : Fs) (h : fs.Ok) (c : Nat) : fs.createChain env c ≠ none := by
  have al : ∀ f : Fs, f.Ok → ∀ scl clst, 1 ≤ scl → scl < f.nFatent → f.allocate env scl clst ≠ none := by
    intro f hf scl clst h1 h2
    obtain ⟨f1, s1, _⟩ := f.search_spec hq scl f.nFatent hf scl h1 h2 h1 h2 (by rw [rest_order, order_length h1 h2]; omega)
    unfold Fs.allocate
    obtain ⟨fd, hfd⟩ : ∃ fd, f.search env scl f.nFatent scl = some (f1, fd) := ⟨_, s1⟩
    rw [hfd]
    cases fd <;> simp
  unfold Fs.createChain
  by_cases h0 : c = 0
  · rw [if_pos h0]
    exact al fs h _ _ (start_range h).1 (start_range h).2
  · rw [if_neg h0]
    by_cases hc : c < 2 ∨ fs.nFatent ≤ c
    · rw [(refused env fs c 0 hc).1]
      simp
    · obtain ⟨f1, g1, g2, _, _⟩ := fs.get_step hq h c (by omega) (by omega)
      rw [g1]
      dsimp only
      have := g2.nFatent
      split
      · simp
      · split
        · simp
        · split
          · simp
          · exact al f1 g2.ok c c (by omega) (by omega)

end Verif.Fat
