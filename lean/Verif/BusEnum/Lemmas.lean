import Verif.BusEnum.Model
import Mathlib.Data.List.Basic

namespace Verif.BusEnum

/-! ## strcmp is a linear order -/

theorem strcmp_eq_zero : ∀ a b : Name, strcmp a b = 0 ↔ a = b
  | [], [] => by simp [strcmp]
  | [], _ :: _ => by simp [strcmp]
  | _ :: _, [] => by simp [strcmp]
  | x :: xs, y :: ys => by
    unfold strcmp
    split
    · rename_i h; rw [strcmp_eq_zero xs ys]; simp [h]
    · rename_i h; simp [h]; omega

theorem strcmp_swap : ∀ a b : Name, (0 < strcmp a b ↔ strcmp b a < 0)
  | [], [] => by simp [strcmp]
  | [], _ :: _ => by simp [strcmp]
  | _ :: _, [] => by simp [strcmp]
  | x :: xs, y :: ys => by
    unfold strcmp
    by_cases h : x = y
    · rw [if_pos h, if_pos h.symm]; exact strcmp_swap xs ys
    · rw [if_neg h, if_neg (Ne.symm h)]; omega

theorem strcmp_trans : ∀ a b c : Name, 0 < strcmp a b → 0 ≤ strcmp b c → 0 < strcmp a c
  | [], [], _, h, _ => by simp [strcmp] at h
  | [], _ :: _, _, h, _ => by simp [strcmp] at h
  | _ :: _, [], [], _, _ => by simp [strcmp]
  | _ :: _, [], _ :: _, _, h => by simp [strcmp] at h
  | _ :: _, _ :: _, [], _, _ => by simp [strcmp]
  | x :: xs, y :: ys, z :: zs, h1, h2 => by
    unfold strcmp at *
    by_cases hxy : x = y
    · subst hxy
      rw [if_pos rfl] at h1
      by_cases hyz : x = z
      · rw [if_pos hyz] at h2 ⊢
        exact strcmp_trans xs ys zs h1 h2
      · rw [if_neg hyz] at h2 ⊢; omega
    · rw [if_neg hxy] at h1
      by_cases hyz : y = z
      · subst hyz; rw [if_neg hxy]; exact h1
      · rw [if_neg hyz] at h2
        rw [if_neg (by omega)]; omega

theorem strcmp_trans' (a b c : Name) (h1 : 0 ≤ strcmp a b) (h2 : 0 < strcmp b c) : 0 < strcmp a c := by
  rcases Int.lt_or_eq_of_le h1 with h | h
  · exact strcmp_trans a b c h (by omega)
  · rw [(strcmp_eq_zero a b).mp h.symm]; exact h2

theorem strcmp_le_trans (a b c : Name) (h1 : strcmp a b ≤ 0) (h2 : strcmp b c ≤ 0) : strcmp a c ≤ 0 := by
  by_contra h
  have h : 0 < strcmp a c := by omega
  have h3 : 0 ≤ strcmp c b := by
    have := strcmp_swap b c
    have h' := strcmp_swap c b
    by_contra h4
    have := this.mpr (by omega)
    omega
  have := strcmp_trans a c b h h3
  omega

/-! ## Binary search -/

/-- `cmp` decreases along the table: the table is sorted with respect to the key. -/
structure Mono (t : List Entry) (cmp : Entry → Int) : Prop where
  neg : ∀ i j (hi : i < t.length) (hj : j < t.length), i ≤ j → cmp t[i] < 0 → cmp t[j] < 0
  pos : ∀ i j (hi : i < t.length) (hj : j < t.length), i ≤ j → 0 < cmp t[j] → 0 < cmp t[i]

theorem midpoint_bounds {a b : Nat} (h : a < b) : a ≤ midpoint a b ∧ midpoint a b < b := by
  unfold midpoint; rw [if_pos h]; omega

theorem findLoop_spec (t : List Entry) (cmp : Entry → Int) (hm : Mono t cmp) :
    ∀ (fuel imin imax : Nat), imax ≤ t.length → imax - imin ≤ fuel →
      (∀ i (h : i < t.length), i < imin → 0 < cmp t[i]) →
      (∀ i (h : i < t.length), imax ≤ i → cmp t[i] < 0) →
      (∃ i, ∃ h : i < t.length, findLoop t cmp fuel imin imax = .ok i ∧ cmp t[i] = 0) ∨
      (findLoop t cmp fuel imin imax = .ok indexNotFound ∧ ∀ e ∈ t, cmp e ≠ 0) := by
  intro fuel
  induction fuel with
  | zero =>
    intro imin imax h1 h2 h3 h4
    right
    unfold findLoop
    rw [if_neg (by omega)]
    refine ⟨rfl, ?_⟩
    intro e he
    obtain ⟨i, hi, rfl⟩ := List.mem_iff_getElem.mp he
    by_cases hlt : i < imin
    · have := h3 i hi hlt; omega
    · have := h4 i hi (by omega); omega
  | succ fuel ih =>
    intro imin imax h1 h2 h3 h4
    unfold findLoop
    by_cases hlt : imax > imin
    · rw [if_pos hlt]
      obtain ⟨hm1, hm2⟩ := midpoint_bounds hlt
      have hl : midpoint imin imax < t.length := by omega
      simp only [List.getElem?_eq_getElem hl]
      by_cases hz : cmp t[midpoint imin imax] = 0
      · left
        exact ⟨_, hl, by rw [if_pos hz], hz⟩
      · rw [if_neg hz]
        by_cases hp : cmp t[midpoint imin imax] > 0
        · rw [if_pos hp]
          apply ih _ _ h1 (by omega) _ h4
          intro i hi hlt'
          exact hm.pos i _ hi hl (by omega) hp
        · rw [if_neg hp]
          apply ih _ _ (by omega) (by omega) h3
          intro i hi hge
          exact hm.neg _ i hl hi hge (by omega)
    · rw [if_neg hlt]
      right
      refine ⟨rfl, ?_⟩
      intro e he
      obtain ⟨i, hi, rfl⟩ := List.mem_iff_getElem.mp he
      by_cases hlt : i < imin
      · have := h3 i hi hlt; omega
      · have := h4 i hi (by omega); omega

theorem insertLoop_spec (t : List Entry) (cmp : Entry → Int) (hm : Mono t cmp) :
    ∀ (fuel imin imax : Nat), imin ≤ imax → imax ≤ t.length → imax - imin ≤ fuel →
      (∀ i (h : i < t.length), i < imin → 0 < cmp t[i]) →
      (∀ i (h : i < t.length), imax ≤ i → cmp t[i] ≤ 0) →
      ∃ p, insertLoop t cmp fuel imin imax = .ok p ∧ p ≤ t.length ∧
        (∀ i (h : i < t.length), i < p → 0 < cmp t[i]) ∧
        (∀ i (h : i < t.length), p ≤ i → cmp t[i] ≤ 0) := by
  intro fuel
  induction fuel with
  | zero =>
    intro imin imax h0 h1 h2 h3 h4
    unfold insertLoop
    rw [if_neg (by omega)]
    have : imin = imax := by omega
    subst this
    exact ⟨imin, rfl, h1, h3, h4⟩
  | succ fuel ih =>
    intro imin imax h0 h1 h2 h3 h4
    unfold insertLoop
    by_cases hne : imin ≠ imax
    · rw [if_pos hne]
      obtain ⟨hm1, hm2⟩ := midpoint_bounds (show imin < imax by omega)
      have hl : midpoint imin imax < t.length := by omega
      simp only [List.getElem?_eq_getElem hl]
      by_cases hp : cmp t[midpoint imin imax] > 0
      · rw [if_pos hp]
        apply ih _ _ (by omega) h1 (by omega) _ h4
        intro i hi hlt'
        exact hm.pos i _ hi hl (by omega) hp
      · rw [if_neg hp]
        apply ih _ _ (by omega) (by omega) (by omega) h3
        intro i hi hge
        by_contra hc
        exact hp (hm.pos _ i hl hi hge (by omega))
    · rw [if_neg hne]
      have : imin = imax := by omega
      subst this
      exact ⟨imin, rfl, h1, h3, h4⟩

/-! ## Sorted tables -/

def SortedStr (t : List Entry) : Prop := t.Pairwise fun a b => strcmp a.name b.name ≤ 0
def SortedCan (t : List Entry) : Prop := t.Pairwise fun a b => a.can.toNat ≤ b.can.toNat

theorem mono_str {t : List Entry} (h : SortedStr t) (s : Name) : Mono t (cmpStr s) := by
  have key : ∀ i j (hi : i < t.length) (hj : j < t.length), i ≤ j → strcmp t[i].name t[j].name ≤ 0 := by
    intro i j hi hj hij
    rcases Nat.lt_or_eq_of_le hij with hlt | rfl
    · exact List.pairwise_iff_getElem.mp h i j hi hj hlt
    · exact Int.le_of_eq ((strcmp_eq_zero _ _).mpr rfl)
  constructor
  · intro i j hi hj hij hn
    unfold cmpStr at *
    have h1 := (strcmp_swap t[i].name s).mpr hn
    have h2 : 0 ≤ strcmp t[j].name t[i].name := by
      have := strcmp_swap t[i].name t[j].name
      have := key i j hi hj hij
      by_contra hc
      have := (strcmp_swap t[i].name t[j].name).mpr (by omega)
      omega
    exact (strcmp_swap _ _).mp (strcmp_trans' _ _ _ h2 h1)
  · intro i j hi hj hij hp
    unfold cmpStr at *
    have h2 : 0 ≤ strcmp t[j].name t[i].name := by
      have := key i j hi hj hij
      by_contra hc
      have := (strcmp_swap t[i].name t[j].name).mpr (by omega)
      omega
    exact strcmp_trans _ _ _ hp h2

theorem mono_can {t : List Entry} (h : SortedCan t) (id : BitVec 8) : Mono t (cmpCan id) := by
  have key : ∀ i j (hi : i < t.length) (hj : j < t.length), i ≤ j → t[i].can.toNat ≤ t[j].can.toNat := by
    intro i j hi hj hij
    rcases Nat.lt_or_eq_of_le hij with hlt | rfl
    · exact List.pairwise_iff_getElem.mp h i j hi hj hlt
    · exact Nat.le_refl _
  constructor
  · intro i j hi hj hij hn
    have := key i j hi hj hij
    unfold cmpCan at *; omega
  · intro i j hi hj hij hp
    have := key i j hi hj hij
    unfold cmpCan at *; omega

/-- Inserting at the place found keeps a table sorted. -/
theorem insert_sorted {t : List Entry} {r : Entry → Entry → Prop} (h : t.Pairwise r) (p : Nat)
    (hp : p ≤ t.length) (e : Entry)
    (h1 : ∀ i (h : i < t.length), i < p → r t[i] e)
    (h2 : ∀ i (h : i < t.length), p ≤ i → r e t[i]) : (t.take p ++ e :: t.drop p).Pairwise r := by
  rw [List.pairwise_append]
  refine ⟨h.sublist (List.take_sublist _ _), ?_, ?_⟩
  · rw [List.pairwise_cons]
    refine ⟨?_, h.sublist (List.drop_sublist _ _)⟩
    intro x hx
    obtain ⟨i, hi, rfl⟩ := List.mem_iff_getElem.mp hx
    rw [List.getElem_drop]
    exact h2 _ _ (by omega)
  · intro a ha b hb
    obtain ⟨i, hi, rfl⟩ := List.mem_iff_getElem.mp ha
    rw [List.getElem_take]
    simp at hi
    rcases List.mem_cons.mp hb with rfl | hb
    · exact h1 i (by omega) (by omega)
    · obtain ⟨j, hj, rfl⟩ := List.mem_iff_getElem.mp hb
      rw [List.getElem_drop]
      exact List.pairwise_iff_getElem.mp h _ _ _ _ (by omega)

theorem insert_mem {t : List Entry} {p : Nat} {e x : Entry} :
    x ∈ t.take p ++ e :: t.drop p ↔ x = e ∨ x ∈ t := by
  conv => rhs; rw [← List.take_append_drop p t]
  simp only [List.mem_append, List.mem_cons]
  tauto

theorem insert_perm (t : List Entry) (p : Nat) (e : Entry) :
    (t.take p ++ e :: t.drop p).Perm (e :: t) := by
  have := List.perm_middle (a := e) (l₁ := t.take p) (l₂ := t.drop p)
  rwa [List.take_append_drop] at this

theorem insert_length (t : List Entry) (p : Nat) (e : Entry) :
    (t.take p ++ e :: t.drop p).length = t.length + 1 := by
  rw [(insert_perm t p e).length_eq]; rfl

/-! ## The invariant -/

/-- Everything the code relies on, for any call sequence without the id 0xFF. -/
structure Inv (en : En) : Prop where
  capLt : en.cap < 65536
  sortedStr : SortedStr en.str
  sortedCan : SortedCan en.can
  strLe : en.str.length ≤ en.cap
  perm : en.can.Perm (en.str.filter fun e => e.can ≠ notSet)

theorem Inv.canLe {en : En} (h : Inv en) : en.can.length ≤ en.str.length := by
  rw [h.perm.length_eq]; exact List.length_filter_le _ _

theorem init_inv (cap : Nat) (h : cap < 65536) : Inv (init cap) :=
  ⟨h, List.Pairwise.nil, List.Pairwise.nil, Nat.zero_le _, List.Perm.refl _⟩

theorem addNode_spec {en : En} (h : Inv en) (s : Name) (d : Nat) :
    (en.str.length < en.cap ∧ ∃ p, addNode en s d = .ok { en with str := en.str.take p ++ ⟨s, notSet, d⟩ :: en.str.drop p } ∧
      Inv { en with str := en.str.take p ++ ⟨s, notSet, d⟩ :: en.str.drop p }) ∨
    (en.str.length = en.cap ∧ addNode en s d = .ok en) := by
  unfold addNode
  by_cases hl : en.str.length < en.cap
  · left
    refine ⟨hl, ?_⟩
    obtain ⟨p, hp, hple, h1, h2⟩ := insertLoop_spec en.str (cmpStr s) (mono_str h.sortedStr s)
      en.str.length 0 en.str.length (by omega) (by omega) (by omega) (by omega) (by omega)
    refine ⟨p, ?_, ⟨h.capLt, ?_, h.sortedCan, ?_, ?_⟩⟩
    · rw [if_pos hl, hp]
      simp only [insertAt, if_pos hl]
      rfl
    · apply insert_sorted h.sortedStr p hple
      · intro i hi hlt
        have := (strcmp_swap s en.str[i].name).mp (h1 i hi hlt)
        simp only; omega
      · intro i hi hge
        exact h2 i hi hge
    · simp only [insert_length]; omega
    · refine h.perm.trans ?_
      refine List.Perm.trans ?_ ((insert_perm en.str p ⟨s, notSet, d⟩).filter _).symm
      rw [List.filter_cons_of_neg (by simp)]
  · right
    rw [if_neg hl]
    have := h.strLe
    exact ⟨by omega, rfl⟩

/-- Result of the string search. -/
theorem indexByStr_spec {en : En} (h : Inv en) (s : Name) :
    (∃ i, ∃ hi : i < en.str.length, indexByStr en s = .ok i ∧ i ≠ indexNotFound ∧ en.str[i].name = s) ∨
    (indexByStr en s = .ok indexNotFound ∧ ∀ e ∈ en.str, e.name ≠ s) := by
  rcases findLoop_spec en.str (cmpStr s) (mono_str h.sortedStr s) en.str.length 0 en.str.length
    (by omega) (by omega) (by omega) (by omega) with ⟨i, hi, h1, h2⟩ | ⟨h1, h2⟩
  · left
    have := h.strLe; have := h.capLt
    exact ⟨i, hi, h1, by unfold indexNotFound; omega, ((strcmp_eq_zero _ _).mp h2).symm⟩
  · right
    exact ⟨h1, fun e he hn => h2 e he ((strcmp_eq_zero _ _).mpr hn.symm)⟩

theorem indexByCan_spec {en : En} (h : Inv en) (id : BitVec 8) :
    (∃ i, ∃ hi : i < en.can.length, indexByCan en id = .ok i ∧ i ≠ indexNotFound ∧ en.can[i].can = id) ∨
    (indexByCan en id = .ok indexNotFound ∧ ∀ e ∈ en.can, e.can ≠ id) := by
  rcases findLoop_spec en.can (cmpCan id) (mono_can h.sortedCan id) en.can.length 0 en.can.length
    (by omega) (by omega) (by omega) (by omega) with ⟨i, hi, h1, h2⟩ | ⟨h1, h2⟩
  · left
    have := h.strLe; have := h.capLt; have := h.canLe
    refine ⟨i, hi, h1, by unfold indexNotFound; omega, ?_⟩
    unfold cmpCan at h2
    exact BitVec.eq_of_toNat_eq (by omega)
  · right
    refine ⟨h1, fun e he hn => h2 e he ?_⟩
    unfold cmpCan; rw [hn]; omega

/-- Effect of an update: either nothing happens (name unknown, or the entry found is already
discovered), or exactly one undiscovered entry of that name gets the id. -/
theorem updateNode_spec {en : En} (h : Inv en) (s : Name) (id : BitVec 8) (hid : id ≠ notSet) :
    (updateNode en s id = .ok en ∧ ((∀ e ∈ en.str, e.name ≠ s) ∨ ∃ e ∈ en.str, e.name = s ∧ e.can ≠ notSet)) ∨
    (∃ a b d p, en.str = a ++ ⟨s, notSet, d⟩ :: b ∧
      updateNode en s id = .ok { en with str := a ++ ⟨s, id, d⟩ :: b, can := en.can.take p ++ ⟨s, id, d⟩ :: en.can.drop p } ∧
      Inv { en with str := a ++ ⟨s, id, d⟩ :: b, can := en.can.take p ++ ⟨s, id, d⟩ :: en.can.drop p }) := by
  rcases indexByStr_spec h s with ⟨i, hi, h1, h2, h3⟩ | ⟨h1, h2⟩
  · by_cases hc : en.str[i].can = notSet
    · right
      have hsplit : en.str = en.str.take i ++ en.str[i] :: en.str.drop (i + 1) := by
        rw [List.getElem_cons_drop, List.take_append_drop]
      have hei : en.str[i] = ⟨s, notSet, en.str[i].driver⟩ := by
        cases hx : en.str[i] with
        | mk n c d => rw [hx] at h3 hc; simp at h3 hc; simp [h3, hc]
      obtain ⟨p, hp, hple, h4, h5⟩ := insertLoop_spec en.can (cmpCan id) (mono_can h.sortedCan id)
        en.can.length 0 en.can.length (by omega) (by omega) (by omega) (by omega) (by omega)
      have hlt : en.can.length < en.cap := by
        have h6 := h.perm.length_eq
        have h7 : (en.str.filter fun e => e.can ≠ notSet).length < en.str.length := by
          rw [List.length_filter_lt_length_iff_exists]
          exact ⟨en.str[i], List.getElem_mem _, by simp [hc]⟩
        have := h.strLe
        omega
      refine ⟨en.str.take i, en.str.drop (i + 1), en.str[i].driver, p, ?_, ?_, ?_⟩
      · rw [← hei]; exact hsplit
      · unfold updateNode
        have hset : en.str.set i ⟨s, id, en.str[i].driver⟩ = en.str.take i ++ ⟨s, id, en.str[i].driver⟩ :: en.str.drop (i + 1) := by
          rw [List.set_eq_take_append_cons_drop, if_pos hi]
        have he' : ({ en.str[i] with can := id } : Entry) = ⟨s, id, en.str[i].driver⟩ := by simp only [h3]
        rw [h1]
        show (if i ≠ indexNotFound then _ else _) = _
        rw [if_pos h2]
        simp only [List.getElem?_eq_getElem hi, if_pos hc, he', hp, insertAt]
        simp only [if_pos hlt, hset]
        rfl
      · refine ⟨h.capLt, ?_, ?_, ?_, ?_⟩
        · have := h.sortedStr
          rw [hsplit, hei] at this
          unfold SortedStr at this ⊢
          rw [List.pairwise_append, List.pairwise_cons] at this ⊢
          refine ⟨this.1, ⟨fun a ha => this.2.1.1 a ha, this.2.1.2⟩, ?_⟩
          intro a ha b hb
          rcases List.mem_cons.mp hb with rfl | hb
          · exact this.2.2 a ha ⟨s, notSet, en.str[i].driver⟩ (by simp)
          · exact this.2.2 a ha b (by simp [hb])
        · apply insert_sorted h.sortedCan p hple
          · intro j hj hlt'
            have := h4 j hj hlt'
            unfold cmpCan at this
            simp only; omega
          · intro j hj hge
            have := h5 j hj hge
            unfold cmpCan at this
            simp only; omega
        · have := h.strLe
          have h8 : en.str.length = (en.str.take i ++ (⟨s, id, en.str[i].driver⟩ : Entry) :: en.str.drop (i + 1)).length := by
            simp; omega
          simp only; omega
        · simp only
          refine (insert_perm _ _ _).trans ?_
          rw [List.filter_append, List.filter_cons_of_pos (by simpa using hid)]
          refine List.Perm.trans ?_ List.perm_middle.symm
          refine List.Perm.cons _ (h.perm.trans ?_)
          conv => lhs; rw [hsplit, hei]
          rw [List.filter_append, List.filter_cons_of_neg (by simp)]
    · left
      refine ⟨?_, Or.inr ⟨en.str[i], List.getElem_mem _, h3, hc⟩⟩
      unfold updateNode
      rw [h1]
      show (if i ≠ indexNotFound then _ else _) = _
      rw [if_pos h2]
      simp only [List.getElem?_eq_getElem hi, if_neg hc]
      rfl
  · left
    refine ⟨?_, Or.inl h2⟩
    unfold updateNode
    rw [h1]
    rfl

end Verif.BusEnum
