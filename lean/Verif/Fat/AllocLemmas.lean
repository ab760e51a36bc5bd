import Verif.Fat.Props
import Verif.Fat.AllocModel
import Verif.Fat.AllocSpec
import Mathlib.Data.List.Perm.Subperm
import Mathlib.Data.List.Nodup

/-!
# FatFs: lemmas on chains of clusters
-/

namespace Verif.Fat

open Spec (Ty Chain Files order freeCount)

/-- What an operation on the table does: the volume is the same, the entries are those of `f`, nothing is seen to change outside of the table. -/
structure Step (fs fs' : Fs) (f : Nat → Nat) : Prop where
  ty : fs'.ty = fs.ty
  csize : fs'.csize = fs.csize
  nFats : fs'.nFats = fs.nFats
  nFatent : fs'.nFatent = fs.nFatent
  fsize : fs'.fsize = fs.fsize
  fatbase : fs'.fatbase = fs.fatbase
  database : fs'.database = fs.database
  ok : fs'.Ok
  copies : fs.Copies → fs'.Copies
  outside : ∀ s, ¬ fs.InCopies s → ¬ fs.InTable s → fs'.look s = fs.look s
  entries : ∀ c, c < fs.nFatent → fs'.entryAt c = f c
  wins : fs'.winsect = fs.winsect ∨ fs.InTable fs'.winsect

theorem Step.inCopies {a b : Fs} {f : Nat → Nat} (h : Step a b f) (s : Nat) : b.InCopies s ↔ a.InCopies s := by
  unfold Fs.InCopies
  rw [h.fatbase, h.fsize, h.nFats]

theorem Step.inTable {a b : Fs} {f : Nat → Nat} (h : Step a b f) (s : Nat) : b.InTable s ↔ a.InTable s := by
  unfold Fs.InTable
  rw [h.fatbase, h.fsize]

theorem Step.trans {a b c : Fs} {f g : Nat → Nat} (h : Step a b f) (k : Step b c g) : Step a c g := by
  refine ⟨k.ty.trans h.ty, k.csize.trans h.csize, k.nFats.trans h.nFats, k.nFatent.trans h.nFatent, k.fsize.trans h.fsize, k.fatbase.trans h.fatbase,
    k.database.trans h.database, k.ok, fun x => k.copies (h.copies x), fun s h1 h2 => ?_, fun x hx => k.entries x (by rw [h.nFatent]; exact hx), ?_⟩
  rotate_left
  · rcases k.wins with e | e
    · rw [e]; exact h.wins
    · exact Or.inr ((h.inTable _).mp e)
  rw [k.outside s (by rw [h.inCopies]; exact h1) (by rw [h.inTable]; exact h2), h.outside s h1 h2]

theorem Step.congr {a b : Fs} {f g : Nat → Nat} (h : Step a b f) (e : ∀ c, c < a.nFatent → f c = g c) : Step a b g :=
  ⟨h.ty, h.csize, h.nFats, h.nFatent, h.fsize, h.fatbase, h.database, h.ok, h.copies, h.outside, fun c hc => (h.entries c hc).trans (e c hc), h.wins⟩

theorem Step.refl {a : Fs} (h : a.Ok) : Step a a a.entryAt := ⟨rfl, rfl, rfl, rfl, rfl, rfl, rfl, h, id, fun _ _ _ => rfl, fun _ _ => rfl, Or.inl rfl⟩

theorem Eff.step {a b : Fs} {T : Nat → BitVec 8} (h : Eff a b T) (l : a.Layout) {f : Nat → Nat} (hf : ∀ c, c < a.nFatent → Spec.entry a.ty T c = f c)
    (hw : a.InTable b.winsect) : Step a b f :=
  ⟨h.same.ty, h.same.csize, h.same.nFats, h.same.nFatent, h.same.fsize, h.same.fatbase, h.same.database, h.ok, h.copies, h.outside,
    fun c hc => (h.entry l hc).trans (hf c hc), Or.inr hw⟩

/-- The counters of the volume may change. -/
theorem Step.counters {a : Fs} (h : a.Ok) (x : BitVec 8) (y z : Nat) : Step a { a with fsiFlag := x, lastClust := y, freeClust := z } a.entryAt :=
  ⟨rfl, rfl, rfl, rfl, rfl, rfl, rfl, ⟨⟨h.layout.fats, h.layout.base, h.layout.area, h.layout.data, h.layout.table, h.layout.ents, h.layout.clus⟩, h.clean, h.away, h.small⟩,
    id, fun _ _ _ => rfl, fun _ _ => rfl, Or.inl rfl⟩

theorem Fs.get_step {env : Env} (hq : Quiet env) (fs : Fs) (h : fs.Ok) (c : Nat) (h2 : 2 ≤ c) (hc : c < fs.nFatent) :
    ∃ fs', fs.getFat env c = (fs', fs.entryAt c) ∧ Step fs fs' fs.entryAt ∧ fs'.freeClust = fs.freeClust ∧ fs'.lastClust = fs.lastClust := by
  obtain ⟨e, f, w⟩ := fs.get_eff hq h c h2 hc
  exact ⟨(fs.getFat env c).1, Prod.ext rfl e, f.step h.layout (fun _ _ => rfl) w, f.same.freeClust, f.same.lastClust⟩

theorem Fs.put_step {env : Env} (hq : Quiet env) (fs : Fs) (h : fs.Ok) (c val : Nat) (h2 : 2 ≤ c) (hc : c < fs.nFatent) (hv : val < 268435456) :
    ∃ fs', fs.putFat env c val = (fs', .ok) ∧ Step fs fs' (fun c' => if c' = c then val % Spec.range fs.ty else fs.entryAt c') ∧
      fs'.freeClust = fs.freeClust ∧ fs'.lastClust = fs.lastClust := by
  obtain ⟨e, f, w⟩ := fs.put_eff hq h c val h2 hc
  exact ⟨(fs.putFat env c val).1, Prod.ext rfl e, f.step h.layout (fun c' _ => entry_written _ _ _ _ _ hv) w, f.same.freeClust, f.same.lastClust⟩

/-! ## Chains -/

theorem Spec.Chain.head {tbl : Nat → Nat} {n c : Nat} {L : List Nat} (h : Chain tbl n c L) : ∃ L', L = c :: L' := by
  cases h
  · exact ⟨_, rfl⟩
  · exact ⟨_, rfl⟩

theorem Spec.Chain.det {tbl : Nat → Nat} {n c : Nat} {L L' : List Nat} (h : Chain tbl n c L) (h' : Chain tbl n c L') : L = L' := by
  induction h generalizing L' with
  | last h1 h2 h3 =>
    cases h'
    · rfl
    · omega
  | link h1 h2 h3 h4 h5 ih =>
    cases h' with
    | last g1 g2 g3 => omega
    | link g1 g2 g3 g4 g5 => rw [ih g5]

theorem Spec.Chain.suffix {tbl : Nat → Nat} {n c x : Nat} {L : List Nat} (h : Chain tbl n c L) (hx : x ∈ L) : ∃ A B, L = A ++ B ∧ Chain tbl n x B := by
  induction h with
  | last h1 h2 h3 =>
    rw [List.mem_singleton] at hx
    subst hx
    exact ⟨[], _, rfl, .last h1 h2 h3⟩
  | @link c L h1 h2 h3 h4 h5 ih =>
    rcases List.mem_cons.mp hx with rfl | hx
    · exact ⟨[], _, rfl, .link h1 h2 h3 h4 h5⟩
    · obtain ⟨A, B, e, k⟩ := ih hx
      exact ⟨c :: A, B, by rw [e]; rfl, k⟩

theorem Spec.Chain.nodup {tbl : Nat → Nat} {n c : Nat} {L : List Nat} (h : Chain tbl n c L) : L.Nodup := by
  induction h with
  | last => exact List.nodup_singleton _
  | @link c L h1 h2 h3 h4 h5 ih =>
    refine List.nodup_cons.mpr ⟨fun hm => ?_, ih⟩
    obtain ⟨A, B, e, k⟩ := h5.suffix hm
    have e2 := congrArg List.length (k.det (.link h1 h2 h3 h4 h5))
    have e3 := congrArg List.length e
    simp only [List.length_append, List.length_cons] at e2 e3
    omega

theorem Spec.Chain.mem {tbl : Nat → Nat} {n c : Nat} {L : List Nat} (h : Chain tbl n c L) {x : Nat} (hx : x ∈ L) : 2 ≤ x ∧ x < n ∧ 2 ≤ tbl x := by
  induction h with
  | @last c h1 h2 h3 =>
    rw [List.mem_singleton] at hx
    subst hx
    omega
  | @link c L h1 h2 h3 h4 h5 ih =>
    rcases List.mem_cons.mp hx with rfl | hx
    · omega
    · exact ih hx

/-- A chain is read from its own clusters only. -/
theorem Spec.Chain.congr {tbl tbl' : Nat → Nat} {n c : Nat} {L : List Nat} (h : Chain tbl n c L) (e : ∀ x, x ∈ L → tbl' x = tbl x) : Chain tbl' n c L := by
  induction h with
  | @last c h1 h2 h3 => exact .last h1 h2 (by rw [e c (List.mem_singleton.mpr rfl)]; exact h3)
  | @link c L h1 h2 h3 h4 h5 ih =>
    have e0 := e c (List.mem_cons_self ..)
    refine .link h1 h2 (by omega) (by omega) ?_
    rw [e0]
    exact ih fun x hx => e x (List.mem_cons_of_mem _ hx)

theorem Spec.Chain.length {tbl : Nat → Nat} {n c : Nat} {L : List Nat} (h : Chain tbl n c L) : L.length ≤ n - 2 := by
  have hs : L ⊆ List.range' 2 (n - 2) := fun x hx => by
    rw [List.mem_range'_1]
    have := h.mem hx
    omega
  have := (List.subperm_of_subset h.nodup hs).length_le
  rwa [List.length_range'] at this

/-- The end of a chain -/
theorem Spec.Chain.last_val {tbl : Nat → Nat} {n c x : Nat} {L : List Nat} (h : Chain tbl n c (L ++ [x])) : n ≤ tbl x ∧ 2 ≤ x ∧ x < n := by
  induction L generalizing c with
  | nil =>
    cases h with
    | last h1 h2 h3 => exact ⟨h3, h1, h2⟩
    | link h1 h2 h3 h4 h5 => cases h5
  | cons y L ih =>
    cases hL : L ++ [x] with
    | nil => simp at hL
    | cons z M =>
      rw [List.cons_append, hL] at h
      cases h with
      | link h1 h2 h3 h4 h5 =>
        rw [← hL] at h5
        exact ih h5

/-- The next cluster of a chain -/
theorem Spec.Chain.next_val {tbl : Nat → Nat} {n c x y : Nat} {A B : List Nat} (h : Chain tbl n c (A ++ x :: y :: B)) : tbl x = y ∧ 2 ≤ x ∧ x < n ∧ 2 ≤ y ∧ y < n := by
  induction A generalizing c with
  | nil =>
    rw [List.nil_append] at h
    cases h with
    | link h1 h2 h3 h4 h5 =>
      obtain ⟨L', e⟩ := h5.head
      injection e with e1 e2
      omega
  | cons z A ih =>
    cases hA : A ++ x :: y :: B with
    | nil => simp at hA
    | cons w M =>
      rw [List.cons_append, hA] at h
      cases h with
      | link h1 h2 h3 h4 h5 =>
        rw [← hA] at h5
        exact ih h5

/-- A chain becomes longer. -/
theorem Spec.Chain.extend {tbl tbl' : Nat → Nat} {n c x y : Nat} {L : List Nat} (h : Chain tbl n c (L ++ [x])) (hy : y ∉ L ++ [x]) (hy1 : 2 ≤ y) (hy2 : y < n)
    (ey : n ≤ tbl' y) (ex : tbl' x = y) (e : ∀ z, z ∈ L → tbl' z = tbl z) : Chain tbl' n c (L ++ [x] ++ [y]) := by
  induction L generalizing c with
  | nil =>
    cases h with
    | last h1 h2 h3 => exact .link h1 h2 (by omega) (by omega) (by rw [ex]; exact .last hy1 hy2 ey)
    | link h1 h2 h3 h4 h5 => cases h5
  | cons w L ih =>
    cases hL : L ++ [x] with
    | nil => simp at hL
    | cons z M =>
      rw [List.cons_append, hL] at h
      cases h with
      | link h1 h2 h3 h4 h5 =>
        rw [← hL] at h5
        have e0 := e w (List.mem_cons_self ..)
        have k := ih h5 (fun hm => hy (by rw [List.cons_append]; exact List.mem_cons_of_mem _ hm)) fun z hz => e z (List.mem_cons_of_mem _ hz)
        refine .link h1 h2 (by omega) (by omega) ?_
        rw [e0]
        exact k

/-- A chain is cut after `x`. -/
theorem Spec.Chain.cut {tbl tbl' : Nat → Nat} {n c x : Nat} {A B : List Nat} (h : Chain tbl n c (A ++ x :: B)) (ex : n ≤ tbl' x)
    (e : ∀ z, z ∈ A → tbl' z = tbl z) : Chain tbl' n c (A ++ [x]) := by
  induction A generalizing c with
  | nil =>
    obtain ⟨L', e'⟩ := h.head
    injection e' with e1 e2
    subst e1
    have := h.mem (List.mem_cons_self ..)
    exact .last this.1 this.2.1 ex
  | cons w A ih =>
    cases hA : A ++ x :: B with
    | nil => simp at hA
    | cons z M =>
      rw [List.cons_append, hA] at h
      cases h with
      | link h1 h2 h3 h4 h5 =>
        rw [← hA] at h5
        have e0 := e w (List.mem_cons_self ..)
        refine .link h1 h2 (by omega) (by omega) ?_
        rw [e0]
        exact ih h5 fun z hz => e z (List.mem_cons_of_mem _ hz)

/-! ## Counting -/

theorem countP_more {l : List Nat} {p q : Nat → Bool} {c : Nat} (hn : l.Nodup) (hc : c ∈ l) (hp : p c = false) (hq : q c = true) (e : ∀ x, x ≠ c → q x = p x) :
    l.countP q = l.countP p + 1 := by
  induction l with
  | nil => cases hc
  | cons a l ih =>
    obtain ⟨ha, hn'⟩ := List.nodup_cons.mp hn
    by_cases h : a = c
    · subst h
      rw [List.countP_cons_of_pos hq, List.countP_cons_of_neg (by rw [hp]; decide)]
      congr 1
      apply List.countP_congr
      intro x hx
      rw [e x (fun e => ha (e ▸ hx))]
    · have hc' : c ∈ l := by
        rcases List.mem_cons.mp hc with rfl | hc
        · exact absurd rfl h
        · exact hc
      rw [List.countP_cons, List.countP_cons, ih hn' hc', e a h]
      omega

theorem freeCount_congr {f g : Nat → Nat} {n : Nat} (h : ∀ c, 2 ≤ c → c < n → f c = g c) : freeCount f n = freeCount g n := by
  unfold freeCount
  apply List.countP_congr
  intro x hx
  rw [List.mem_range'_1] at hx
  rw [h x (by omega) (by omega)]

/-- A cluster becomes free. -/
theorem freeCount_free {f : Nat → Nat} {n c : Nat} (h1 : 2 ≤ c) (h2 : c < n) (hc : f c ≠ 0) :
    freeCount (fun x => if x = c then 0 else f x) n = freeCount f n + 1 := by
  unfold freeCount
  refine countP_more (c := c) List.nodup_range' (by rw [List.mem_range'_1]; omega) (by simp [hc]) (by simp) fun x hx => by simp [hx]

/-- A cluster is taken. -/
theorem freeCount_take {f : Nat → Nat} {n c v : Nat} (h1 : 2 ≤ c) (h2 : c < n) (hc : f c = 0) (hv : v ≠ 0) :
    freeCount (fun x => if x = c then v else f x) n + 1 = freeCount f n := by
  unfold freeCount
  refine (countP_more (c := c) List.nodup_range' (by rw [List.mem_range'_1]; omega) (by simp [hv]) (by simp [hc]) fun x hx => by simp [hx]).symm

theorem freeCount_le (f : Nat → Nat) (n : Nat) : freeCount f n ≤ n - 2 := by
  have := List.countP_le_length (p := fun c => f c == 0) (l := List.range' 2 (n - 2))
  rwa [List.length_range'] at this

/-! ## `remove_chain` -/

/-- What is counted is the number of free clusters, if it is known. -/
def Fs.Counted (fs : Fs) : Prop := fs.freeClust = 0xFFFFFFFF ∨ fs.freeClust = freeCount fs.entryAt fs.nFatent

theorem Fs.freed_step (fs : Fs) (h : fs.Ok) : Step fs fs.freed fs.entryAt ∧ fs.freed.lastClust = fs.lastClust ∧
    (fs.freed.freeClust = if fs.freeClust = 0xFFFFFFFF then 0xFFFFFFFF else u32 (fs.freeClust + 1)) := by
  unfold Fs.freed
  by_cases he : fs.freeClust = 0xFFFFFFFF
  · rw [if_neg (by simp [he]), if_pos he]
    exact ⟨Step.refl h, rfl, he⟩
  · rw [if_pos he, if_neg he]
    exact ⟨Step.counters h _ _ _, rfl, rfl⟩

theorem Fs.ents_lt {fs : Fs} (h : fs.Ok) : fs.nFatent < 268435456 ∧ 3 ≤ fs.nFatent := by
  have h1 := h.layout.ents
  have h2 := range_le fs.ty
  omega

theorem Fs.entryAt_lt (fs : Fs) (c : Nat) : fs.entryAt c < 268435456 := Nat.lt_of_lt_of_le (entry_lt fs.ty fs.tab c) (range_le fs.ty)

theorem Fs.removeLoop_chain {env : Env} (hq : Quiet env) {L : List Nat} {c : Nat} (k : Nat) (fs : Fs) (h : fs.Ok) (hc : Chain fs.entryAt fs.nFatent c L) (hk : L.length < k) :
    ∃ fs', fs.removeLoop env k c = some (fs', .ok) ∧ Step fs fs' (fun x => if x ∈ L then 0 else fs.entryAt x) ∧ fs'.lastClust = fs.lastClust ∧
      (fs.Counted → fs'.Counted) := by
  induction L generalizing k fs c with
  | nil => obtain ⟨L', e⟩ := hc.head; cases e
  | cons y L ih =>
    obtain ⟨L', e⟩ := hc.head
    injection e with e1 e2
    subst e1
    have hm := hc.mem (List.mem_cons_self ..)
    cases k with
    | zero => omega
    | succ k =>
      unfold Fs.removeLoop
      rw [if_pos hm.2.1]
      obtain ⟨f1, g1, g2, g3, g4⟩ := fs.get_step hq h y hm.1 hm.2.1
      rw [g1]
      dsimp only
      rw [if_neg (by omega), if_neg (by omega), if_neg (by have := fs.entryAt_lt y; omega)]
      obtain ⟨f2, p1, p2, p3, p4⟩ := f1.put_step hq g2.ok y 0 hm.1 (by rw [g2.nFatent]; exact hm.2.1) (by decide)
      rw [p1]
      dsimp only
      rw [if_neg (by simp)]
      obtain ⟨q1, q2, q3⟩ := f2.freed_step p2.ok
      have s12 := (g2.trans p2).trans q1
      have st : Step fs f2.freed (fun x => if x = y then 0 else fs.entryAt x) := s12.congr fun x hx => by
        rw [p2.entries x (by rw [g2.nFatent]; exact hx)]
        by_cases hxy : x = y
        · simp [hxy]
        · simp only [hxy, if_false]
          exact g2.entries x hx
      have cnt : fs.Counted → f2.freed.Counted := by
        intro hcnt
        unfold Fs.Counted at hcnt ⊢
        rw [q3, p3, g3, st.nFatent]
        rcases hcnt with he | he
        · left
          rw [if_pos he]
        · right
          have e1 : freeCount f2.freed.entryAt fs.nFatent = freeCount fs.entryAt fs.nFatent + 1 := by
            rw [← freeCount_free hm.1 hm.2.1 (show fs.entryAt y ≠ 0 by omega)]
            exact freeCount_congr fun x _ hx => st.entries x hx
          have e2 := freeCount_le fs.entryAt fs.nFatent
          have e3 := Fs.ents_lt h
          rw [e1, he, if_neg (by omega), u32_of (by omega)]
      cases hc with
      | last h1 h2 h3 =>
        cases k with
        | zero => simp at hk
        | succ k =>
          unfold Fs.removeLoop
          rw [if_neg (by rw [st.nFatent]; omega)]
          refine ⟨_, rfl, st.congr fun x _ => by simp, ?_, cnt⟩
          rw [q2, p4, g4]
      | link h1 h2 h3 h4 h5 =>
        have hnot : y ∉ L := fun hm' => by
          have hn := (Chain.link h1 h2 h3 h4 h5).nodup
          exact (List.nodup_cons.mp hn).1 hm'
        have h5' : Chain f2.freed.entryAt f2.freed.nFatent (fs.entryAt y) L := by
          rw [st.nFatent]
          refine h5.congr fun x hx => ?_
          have hx2 := h5.mem hx
          rw [st.entries x hx2.2.1, if_neg (fun (e : x = y) => hnot (e ▸ hx))]
        obtain ⟨fs', r1, r2, r3, r4⟩ := ih k f2.freed st.ok h5' (by simp at hk; omega)
        refine ⟨fs', r1, (st.trans r2).congr fun x hx => ?_, by rw [r3, q2, p4, g4], fun hc => r4 (cnt hc)⟩
        by_cases hxy : x = y
        · subst hxy
          rw [if_neg hnot, st.entries x hx]
          simp
        · by_cases hxL : x ∈ L
          · simp [hxL]
          · rw [if_neg hxL, st.entries x hx]
            simp [hxy, hxL]

/-- Every turn of the loop frees a cluster that was in use: it ends on any table. -/
theorem Fs.removeLoop_ends {env : Env} (hq : Quiet env) (k : Nat) (fs : Fs) (h : fs.Ok) (c : Nat) (h2 : 2 ≤ c) (hk : fs.nFatent - 2 - freeCount fs.entryAt fs.nFatent < k) :
    fs.removeLoop env k c ≠ none := by
  induction k generalizing fs c with
  | zero => omega
  | succ k ih =>
    unfold Fs.removeLoop
    by_cases hc : c < fs.nFatent
    · rw [if_pos hc]
      obtain ⟨f1, g1, g2, g3, g4⟩ := fs.get_step hq h c h2 hc
      rw [g1]
      dsimp only
      by_cases e0 : fs.entryAt c = 0
      · rw [if_pos e0]; simp
      rw [if_neg e0]
      by_cases e1 : fs.entryAt c = 1
      · rw [if_pos e1]; simp
      rw [if_neg e1, if_neg (by have := fs.entryAt_lt c; omega)]
      obtain ⟨f2, p1, p2, p3, p4⟩ := f1.put_step hq g2.ok c 0 h2 (by rw [g2.nFatent]; exact hc) (by decide)
      rw [p1]
      dsimp only
      rw [if_neg (by simp)]
      obtain ⟨q1, q2, q3⟩ := f2.freed_step p2.ok
      have s12 := (g2.trans p2).trans q1
      have st : Step fs f2.freed (fun x => if x = c then 0 else fs.entryAt x) := s12.congr fun x hx => by
        rw [p2.entries x (by rw [g2.nFatent]; exact hx)]
        by_cases hxy : x = c
        · simp [hxy]
        · simp only [hxy, if_false]
          exact g2.entries x hx
      have e1 : freeCount f2.freed.entryAt fs.nFatent = freeCount fs.entryAt fs.nFatent + 1 := by
        rw [← freeCount_free h2 hc e0]
        exact freeCount_congr fun x _ hx => st.entries x hx
      have e2 := freeCount_le f2.freed.entryAt fs.nFatent
      refine ih f2.freed st.ok _ (by omega) ?_
      rw [st.nFatent]
      omega
    · rw [if_neg hc]
      simp

/-! ## `create_chain` -/

/-- The clusters that the search has still to look at after `ncl` -/
def rest (n scl ncl : Nat) : List Nat :=
  if scl ≤ ncl then List.range' (ncl + 1) (n - 1 - ncl) ++ List.range' 2 (scl - 1) else List.range' (ncl + 1) (scl - ncl)

theorem rest_step {n scl ncl : Nat} (h1 : 1 ≤ scl) (h2 : scl < n) (h3 : 1 ≤ ncl) (h4 : ncl < n) (hn : 3 ≤ n) :
    (ncl + 1 ≥ n ∧ 2 > scl → rest n scl ncl = []) ∧
    (¬ (ncl + 1 ≥ n ∧ 2 > scl) → rest n scl ncl = (if ncl + 1 ≥ n then 2 else ncl + 1) ::
      (if (if ncl + 1 ≥ n then 2 else ncl + 1) = scl then [] else rest n scl (if ncl + 1 ≥ n then 2 else ncl + 1))) := by
  unfold rest
  constructor
  · rintro ⟨a, b⟩
    rw [if_pos (by omega), show n - 1 - ncl = 0 by omega, show scl - 1 = 0 by omega]
    rfl
  · intro hh
    by_cases a : ncl + 1 ≥ n
    · rw [if_pos (show scl ≤ ncl by omega), if_pos a, show n - 1 - ncl = 0 by omega]
      obtain ⟨m, hm⟩ : ∃ m, scl = m + 2 := ⟨scl - 2, by omega⟩
      subst hm
      rw [show m + 2 - 1 = m + 1 by omega, List.range'_zero, List.nil_append, List.range'_succ]
      congr 1
      by_cases b : 2 = m + 2
      · rw [if_pos b, show m = 0 by omega]
        rfl
      · rw [if_neg b, if_neg (by omega)]
        congr 1
    · rw [if_neg a]
      by_cases b : scl ≤ ncl
      · rw [if_pos b, if_neg (by omega), if_pos (by omega)]
        obtain ⟨m, hm⟩ : ∃ m, n - 1 - ncl = m + 1 := ⟨n - 2 - ncl, by omega⟩
        rw [hm, List.range'_succ, show n - 1 - (ncl + 1) = m by omega]
        rfl
      · rw [if_neg b]
        obtain ⟨m, hm⟩ : ∃ m, scl - ncl = m + 1 := ⟨scl - ncl - 1, by omega⟩
        rw [hm, List.range'_succ]
        congr 1
        by_cases e : ncl + 1 = scl
        · rw [if_pos e, show m = 0 by omega]
          rfl
        · rw [if_neg e, if_neg (by omega), show scl - (ncl + 1) = m by omega]

theorem Fs.search_spec {env : Env} (hq : Quiet env) (scl k : Nat) (fs : Fs) (h : fs.Ok) (ncl : Nat) (h1 : 1 ≤ scl) (h2 : scl < fs.nFatent) (h3 : 1 ≤ ncl)
    (h4 : ncl < fs.nFatent) (hk : (rest fs.nFatent scl ncl).length < k) :
    ∃ fs', fs.search env scl k ncl = some (fs', match (rest fs.nFatent scl ncl).find? (fun c => decide (fs.entryAt c < 2)) with
        | none => .stop 0
        | some c => if fs.entryAt c = 0 then .free c else .stop 1) ∧ Step fs fs' fs.entryAt ∧ fs'.freeClust = fs.freeClust ∧ fs'.lastClust = fs.lastClust := by
  induction k generalizing fs ncl with
  | zero => omega
  | succ k ih =>
    have hn := Fs.ents_lt h
    obtain ⟨r1, r2⟩ := rest_step h1 h2 h3 h4 hn.2
    unfold Fs.search
    rw [u32_of (by omega)]
    dsimp only
    by_cases hw : ncl + 1 ≥ fs.nFatent ∧ 2 > scl
    · rw [r1 hw]
      simp only [hw.1, decide_true, if_true, hw.2, Bool.and_self]
      exact ⟨fs, rfl, Step.refl h, rfl, rfl⟩
    · have r2 := r2 hw
      generalize hnx : (if ncl + 1 ≥ fs.nFatent then 2 else ncl + 1) = nx at r2
      have hnx1 : (if decide (ncl + 1 ≥ fs.nFatent) = true then 2 else ncl + 1) = nx := by
        rw [← hnx]
        by_cases a : ncl + 1 ≥ fs.nFatent <;> simp [a]
      rw [hnx1]
      have hlo : 2 ≤ nx ∧ nx < fs.nFatent := by
        rw [← hnx]
        split <;> omega
      have hcond : ¬ ((decide (ncl + 1 ≥ fs.nFatent) && decide (nx > scl)) = true) := by
        intro hh
        rw [Bool.and_eq_true, decide_eq_true_eq, decide_eq_true_eq] at hh
        apply hw
        refine ⟨hh.1, ?_⟩
        have := hh.2
        rw [← hnx, if_pos hh.1] at this
        exact this
      rw [if_neg hcond]
      obtain ⟨f1, g1, g2, g3, g4⟩ := fs.get_step hq h nx hlo.1 hlo.2
      rw [g1]
      dsimp only
      have hlt := fs.entryAt_lt nx
      rw [r2, List.find?_cons]
      by_cases e0 : fs.entryAt nx = 0
      · rw [if_pos e0, show decide (fs.entryAt nx < 2) = true by simp [e0]]
        dsimp only
        rw [if_pos e0]
        exact ⟨f1, rfl, g2, g3, g4⟩
      rw [if_neg e0]
      by_cases e1 : fs.entryAt nx = 1
      · rw [if_pos (Or.inr e1), show decide (fs.entryAt nx < 2) = true by simp [e1]]
        dsimp only
        rw [if_neg e0, e1]
        exact ⟨f1, rfl, g2, g3, g4⟩
      rw [if_neg (by omega), show decide (fs.entryAt nx < 2) = false by simp; omega]
      dsimp only
      by_cases es : nx = scl
      · rw [if_pos es, if_pos es]
        exact ⟨f1, rfl, g2, g3, g4⟩
      · rw [if_neg es, if_neg es]
        rw [r2, if_neg es, List.length_cons] at hk
        have e := g2.nFatent
        obtain ⟨fs', s1, s2, s3, s4⟩ := ih f1 g2.ok nx (by omega) (by omega) (by omega) (by rw [e]; omega)
        have hx : ∀ c ∈ rest fs.nFatent scl nx, c < fs.nFatent := by
          intro c hc
          unfold rest at hc
          split at hc
          · simp only [List.mem_append, List.mem_range'_1] at hc
            omega
          · simp only [List.mem_range'_1] at hc
            omega
        have hfind : (rest fs.nFatent scl nx).find? (fun c => decide (f1.entryAt c < 2)) = (rest fs.nFatent scl nx).find? (fun c => decide (fs.entryAt c < 2)) := by
          clear s1 ih
          generalize rest fs.nFatent scl nx = l at hx
          induction l with
          | nil => rfl
          | cons a l ih =>
            rw [List.find?_cons, List.find?_cons, g2.entries a (hx a (List.mem_cons_self ..)), ih fun c hc => hx c (List.mem_cons_of_mem _ hc)]
        rw [e, hfind] at s1
        refine ⟨fs', ?_, (g2.trans s2).congr fun c hc => g2.entries c hc, s3.trans g3, s4.trans g4⟩
        rw [s1]
        cases hf : (rest fs.nFatent scl nx).find? (fun c => decide (fs.entryAt c < 2)) with
        | none => rfl
        | some c =>
          dsimp only
          rw [g2.entries c (hx c (List.mem_of_find?_eq_some hf))]

theorem rest_order (n scl : Nat) : rest n scl scl = order n scl := by
  unfold rest order
  rw [if_pos (Nat.le_refl _)]

theorem mem_order {n scl c : Nat} (h1 : 1 ≤ scl) (h2 : scl < n) : c ∈ order n scl ↔ 2 ≤ c ∧ c < n := by
  unfold order
  simp only [List.mem_append, List.mem_range'_1]
  omega

theorem order_length {n scl : Nat} (h1 : 1 ≤ scl) (h2 : scl < n) : (order n scl).length = n - 2 := by
  unfold order
  simp only [List.length_append, List.length_range']
  omega

end Verif.Fat
