import Verif.Param.Lemmas

namespace Verif.Param

open HeapList

theorem setVal_self {h : Heap} {p : Nat} {x : Val} (hx : h.val p = x) : setVal h p x = h := by
  unfold setVal
  have : upd h.val p x = h.val := by
    funext q
    by_cases hq : q = p
    · subst hq; rw [upd_self, hx]
    · rw [upd_ne _ _ hq]
  rw [this]

/-- The declaration without its default. -/
def Decl.strip : Decl → Decl
  | .scalar j _ => .scalar j none
  | .integer j _ => .integer j none
  | .boolean j _ => .boolean j none
  | .vector b k _ => .vector b k false
  | .varVector b j _ => .varVector b j none
  | .string b j _ => .string b j none

theorem strip_default (d : Decl) : d.strip.default = none := by
  cases d <;> rfl

theorem strip_ok {d : Decl} (h : DeclOK d) : DeclOK d.strip := by
  cases d <;> first | exact h | exact True.intro

theorem strip_valOK (d : Decl) (v : Option AVal) (x : Val) : valOK d.strip v x ↔ valOK d v x := by
  cases d <;> cases x <;> exact Iff.rfl

/-- Declaring without default and then setting to the default is declaring with default. -/
theorem inv_default {l : List Op} {h : Heap} {p n : Nat} {id : Str} {d : Decl} {v : AVal} (hv : d.default = some v)
    (hi : Inv (.set p v :: .declPar p n id d.strip :: l) h) : Inv (.declPar p n id d :: l) h := by
  constructor
  · exact ⟨hi.tree.nsId, hi.tree.parent, hi.tree.subs, hi.tree.plist, hi.tree.parId, hi.tree.parNs⟩
  · intro q hq
    rw [hi.changed q hq]
    simp only [changedOf]
    by_cases he : p = q
    · subst he; simp [hv]
    · simp only [if_neg he]
  · intro q hq
    rw [hi.defined q hq]
    simp only [valueOf]
    by_cases he : p = q
    · subst he; simp [hv]
    · simp only [if_neg he]
  · intro q d' hd'
    simp only [declOf] at hd'
    by_cases he : p = q
    · subst he
      rw [if_pos rfl] at hd'; injection hd' with hd'; subst hd'
      have := hi.val p d.strip (by simp [declOf])
      simp only [valueOf, if_true] at this ⊢
      rw [hv]
      exact (strip_valOK _ _ _).mp this
    · rw [if_neg he] at hd'
      have := hi.val q d' (by simp [declOf, he, hd'])
      simpa only [valueOf, if_neg he] using this
  · intro m hm
    rw [hi.cnt m hm]
    congr 1
    apply List.countP_congr
    intro q _
    simp only [changedOf, nsOf, chain]
    by_cases he : p = q
    · subst he; simp [hv]
    · simp only [if_neg he]

theorem strncpy_length (buf s : Str) : (strncpy buf s).length = buf.length := by
  simp [strncpy]; omega

theorem strncpy_take {buf s : Str} (h : s.length ≤ buf.length) : (strncpy buf s).take s.length = s := by
  unfold strncpy
  rw [List.take_of_length_le h, List.take_append_of_le_length (Nat.le_refl _), List.take_length]

theorem declare_inv {fuel : Nat} {l : List Op} {h : Heap} {p n : Nat} {id : Str} {d : Decl} (hi : Inv l h)
    (hp : Proper (.declPar p n id d :: l)) (hf : l.length + 1 ≤ fuel) :
    ∃ h', declare fuel h p n id d = .ok h' ∧ Inv (.declPar p n id d :: l) h' := by
  have hp' : Proper (.declPar p n id d.strip :: l) := ⟨hp.1, hp.2.1, hp.2.2.1, strip_ok hp.2.2.2.1, hp.2.2.2.2⟩
  -- a declaration without default
  have hnone : ∀ x, valOK d none x → d.default = none →
      Inv (.declPar p n id d :: l) (parDeclare (setVal h p x) p n id) := fun x hx hd =>
    parDeclare_inv hi hp hd hx
  -- with default
  have hsome : ∀ x y v, valOK d none x → d.default = some v → valOK d (some v) y →
      ∃ h', changedSet fuel (setVal (parDeclare (setVal h p x) p n id) p y) p = .ok h' ∧
        Inv (.declPar p n id d :: l) h' := by
    intro x y v hx hd hy
    have h1 := parDeclare_inv (x := x) hi hp' (strip_default d) ((strip_valOK _ _ _).mpr hx)
    obtain ⟨h', hr, hi'⟩ := set_inv (fuel := fuel) (p := p) (v := v) (d := d.strip) (x := y) h1 hp' (by simp [declOf]) (by simpa using hf)
      ((strip_valOK _ _ _).mpr hy)
    exact ⟨h', hr, inv_default hd hi'⟩
  have hval : ∀ x, (parDeclare (setVal h p x) p n id).val p = x := fun x => by simp [parDeclare, setVal, upd_self]
  have hok := hp.2.2.2.1
  cases d with
  | scalar j dd =>
    cases dd with
    | none => exact ⟨_, rfl, hnone _ (fun a h => by cases h) rfl⟩
    | some v =>
      have := hsome (.scalar v) (.scalar v) (.scalar v) (fun a h => by cases h) rfl (fun a h => by injection h with h; exact h.symm)
      rwa [setVal_self (hval _)] at this
  | integer j dd =>
    cases dd with
    | none => exact ⟨_, rfl, hnone _ (fun a h => by cases h) rfl⟩
    | some v =>
      have := hsome (.integer v) (.integer v) (.integer v) (fun a h => by cases h) rfl (fun a h => by injection h with h; exact h.symm)
      rwa [setVal_self (hval _)] at this
  | boolean j dd =>
    cases dd with
    | none => exact ⟨_, rfl, hnone _ (fun a h => by cases h) rfl⟩
    | some v =>
      have := hsome (.boolean v) (.boolean v) (.boolean v) (fun a h => by cases h) rfl (fun a h => by injection h with h; exact h.symm)
      rwa [setVal_self (hval _)] at this
  | vector b k dd =>
    cases dd with
    | false => exact ⟨_, rfl, hnone _ ⟨rfl, rfl, hok, fun a h => by cases h⟩ rfl⟩
    | true =>
      have := hsome (.vector b k) (.vector b k) (.vector (b.take k)) ⟨rfl, rfl, hok, fun a h => by cases h⟩ rfl
        ⟨rfl, rfl, hok, fun a h => by injection h with h; exact h.symm⟩
      rwa [setVal_self (hval _)] at this
  | varVector b j dd =>
    cases dd with
    | none => exact ⟨_, rfl, hnone _ ⟨rfl, fun a h => by cases h⟩ rfl⟩
    | some k =>
      have hk : k ≤ b.length := hok
      have := hsome (.varVector b j) (.varVector b k) (.varVector (b.take k)) ⟨rfl, fun a h => by cases h⟩ rfl
        ⟨rfl, fun a h => ⟨hk, by injection h with h; exact h.symm⟩⟩
      simpa [declare, varVectorDeclare, assert, hk, bind, Except.bind] using this
  | string b j dd =>
    cases dd with
    | none => exact ⟨_, rfl, hnone _ ⟨rfl, fun a h => by cases h⟩ rfl⟩
    | some s =>
      have hk : s.length ≤ b.length := hok.1
      have hm : s.length % 65536 = s.length := Nat.mod_eq_of_lt hok.2
      have := hsome (.string b j) (.string (strncpy b s) s.length) (.string s) ⟨rfl, fun a h => by cases h⟩ rfl
        ⟨strncpy_length _ _, fun a h => ⟨by rw [strncpy_length]; exact hk, by
          injection h with h; rw [strncpy_take hk]; exact h.symm⟩⟩
      simpa [declare, stringDeclare, assert, hm, hk, bind, Except.bind] using this

theorem set_step_inv {fuel : Nat} {l : List Op} {h : Heap} {p : Nat} {v : AVal} (hi : Inv l h)
    (hp : Proper (.set p v :: l)) (hf : l.length ≤ fuel) :
    ∃ h', set fuel h p v = .ok h' ∧ Inv (.set p v :: l) h' := by
  obtain ⟨⟨d, hd, hfit⟩, hp⟩ := hp
  have hset : ∀ x, valOK d (some v) x → ∃ h', changedSet fuel (setVal h p x) p = .ok h' ∧ Inv (.set p v :: l) h' :=
    fun x hx => set_inv hi hp hd hf hx
  have hv := hi.val p d hd
  cases d with
  | scalar j dd =>
    cases v <;> try exact hfit.elim
    cases hx : h.val p <;> rw [hx] at hv <;> try exact hv.elim
    simp only [set, scalarSet, hx]
    exact hset _ (fun a h => by injection h with h; exact h.symm)
  | integer j dd =>
    cases v <;> try exact hfit.elim
    cases hx : h.val p <;> rw [hx] at hv <;> try exact hv.elim
    simp only [set, integerSet, hx]
    exact hset _ (fun a h => by injection h with h; exact h.symm)
  | boolean j dd =>
    cases v <;> try exact hfit.elim
    cases hx : h.val p <;> rw [hx] at hv <;> try exact hv.elim
    simp only [set, booleanSet, hx]
    exact hset _ (fun a h => by injection h with h; exact h.symm)
  | vector b k dd =>
    cases v <;> try exact hfit.elim
    rename_i w
    cases hx : h.val p <;> rw [hx] at hv <;> try exact hv.elim
    rename_i buf dim
    obtain ⟨h1, h2, h3, _⟩ := hv
    have h4 : w.length = k := hfit
    simp only [set, vectorSet, hx, copyTo, if_pos (show dim ≤ w.length ∧ dim ≤ buf.length by omega), bind, Except.bind]
    refine hset _ ⟨h1, ?_, ?_, ?_⟩
    · simp; omega
    · simp; omega
    · intro a h
      injection h with h
      rw [← h]
      congr 1
      have e : w.take dim = w := List.take_of_length_le (by omega)
      rw [e, List.take_append_of_le_length (by omega), e]
  | varVector b k dd =>
    cases v <;> try exact hfit.elim
    rename_i w
    cases hx : h.val p <;> rw [hx] at hv <;> try exact hv.elim
    rename_i buf dim
    obtain ⟨h2, _⟩ := hv
    have h4 : w.length ≤ b.length := hfit
    simp only [set, varVectorSet, hx, copyTo, assert, decide_eq_true (show w.length ≤ buf.length by omega), if_true,
      if_pos (show w.length ≤ w.length ∧ w.length ≤ buf.length by omega), bind, Except.bind]
    refine hset _ ⟨?_, ?_⟩
    · simp; omega
    · intro a h
      injection h with h
      refine ⟨by simp, ?_⟩
      rw [← h]
      congr 1
      rw [List.take_of_length_le (Nat.le_refl _), List.take_append_of_le_length (by omega), List.take_of_length_le (by omega)]
  | string b k dd =>
    cases v <;> try exact hfit.elim
    rename_i w
    cases hx : h.val p <;> rw [hx] at hv <;> try exact hv.elim
    rename_i buf dim
    obtain ⟨h2, _⟩ := hv
    have h4 : w.length ≤ b.length ∧ w.length < 65536 := hfit
    simp only [set, stringSet, Nat.mod_eq_of_lt h4.2, stringSetWLen, hx, copyTo, assert, decide_eq_true (show w.length ≤ buf.length by omega), if_true,
      if_pos (show w.length ≤ w.length ∧ w.length ≤ buf.length by omega), bind, Except.bind]
    refine hset _ ⟨?_, ?_⟩
    · simp; omega
    · intro a h
      injection h with h
      refine ⟨by simp, ?_⟩
      rw [← h]
      congr 1
      rw [List.take_of_length_le (Nat.le_refl _), List.take_append_of_le_length (by omega), List.take_of_length_le (by omega)]

theorem read_spec {l : List Op} {h : Heap} {p : Nat} {v : AVal} (hi : Inv l h) (hp : Proper l) (hv : valueOf p l = some v) :
    read h p = .ok v := by
  have hm : p ∈ pars l := valueOf_pars hp (by rw [hv]; simp)
  obtain ⟨d, hd⟩ := pars_declOf hm
  have hval := hi.val p d hd
  have hdef : h.defined p = true := by rw [hi.defined p hm, hv]; rfl
  rw [hv] at hval
  unfold read
  cases d with
  | scalar j dd =>
    cases hx : h.val p <;> rw [hx] at hval <;> try exact hval.elim
    simp [scalarRead, hx, hdef, assert, bind, Except.bind, pure, Except.pure, hval v rfl]
  | integer j dd =>
    cases hx : h.val p <;> rw [hx] at hval <;> try exact hval.elim
    simp [integerRead, hx, hdef, assert, bind, Except.bind, pure, Except.pure, hval v rfl]
  | boolean j dd =>
    cases hx : h.val p <;> rw [hx] at hval <;> try exact hval.elim
    simp [booleanRead, hx, hdef, assert, bind, Except.bind, pure, Except.pure, hval v rfl]
  | vector b k dd =>
    cases hx : h.val p <;> rw [hx] at hval <;> try exact hval.elim
    obtain ⟨h1, h2, h3, h4⟩ := hval
    simp [vectorRead, hx, hdef, assert, copyFrom, h3, bind, Except.bind, pure, Except.pure, h4 v rfl]
  | varVector b k dd =>
    cases hx : h.val p <;> rw [hx] at hval <;> try exact hval.elim
    obtain ⟨h2, h4⟩ := hval
    obtain ⟨h3, h4⟩ := h4 v rfl
    simp [varVectorRead, hx, hdef, assert, copyFrom, h3, bind, Except.bind, pure, Except.pure, h4]
  | string b k dd =>
    cases hx : h.val p <;> rw [hx] at hval <;> try exact hval.elim
    obtain ⟨h2, h4⟩ := hval
    obtain ⟨h3, h4⟩ := h4 v rfl
    simp [stringRead, hx, hdef, assert, copyFrom, h3, bind, Except.bind, pure, Except.pure, h4]

theorem Proper.tail : ∀ {op : Op} {l : List Op}, Proper (op :: l) → Proper l
  | .declNs _ _ _, _, h => h.2.2.2
  | .declPar _ _ _ _, _, h => h.2.2.2.2
  | .set _ _, _, h => h.2
  | .get _, _, h => h.2

theorem step_inv {fuel : Nat} {l : List Op} {h : Heap} {op : Op} (hi : Inv l h) (hp : Proper (op :: l)) (hf : l.length + 1 ≤ fuel) :
    ∃ h', step fuel h op = .ok h' ∧ Inv (op :: l) h' := by
  cases op with
  | declNs n parent id => exact ⟨_, rfl, nsDeclare_inv hi hp⟩
  | declPar p n id d => exact declare_inv hi hp hf
  | set p v => exact set_step_inv hi hp (by omega)
  | get p =>
    have hm := valueOf_pars hp.2 hp.1
    obtain ⟨h', hr, hi'⟩ := clear_inv (fuel := fuel) hi hp.2 hm (by omega)
    refine ⟨h', ?_, hi'⟩
    obtain ⟨v, hv⟩ := Option.ne_none_iff_exists'.mp hp.1
    have := read_spec (p := p) (v := v) hi' hp hv
    simp only [step, get, hr, this, bind, Except.bind, pure, Except.pure]

theorem run_inv {fuel : Nat} {h0 : Heap} : ∀ {l : List Op}, Proper l → l.length ≤ fuel → ∃ h, run fuel h0 l = .ok h ∧ Inv l h
  | [], _, _ => ⟨h0, rfl, by
      constructor
      · constructor <;> intro _ hm <;> cases hm
      all_goals intros; rename_i hm; cases hm⟩
  | op :: l, hp, hf => by
    have hf : l.length + 1 ≤ fuel := by simpa using hf
    obtain ⟨h, hr, hi⟩ := run_inv (fuel := fuel) (h0 := h0) (Proper.tail hp) (by omega)
    obtain ⟨h', hs, hi'⟩ := step_inv hi hp hf
    exact ⟨h', by simp only [run, hr, bind, Except.bind]; exact hs, hi'⟩

/-! ## Lookup -/

theorem strncmp_prefix : ∀ {q id : Str}, 0 ∉ q → strncmpEq q id = true → q <+: id
  | [], id, _, _ => List.nil_prefix
  | x :: xs, [], h0, h => by
    simp [strncmpEq] at h; simp [h] at h0
  | x :: xs, y :: ys, h0, h => by
    simp only [strncmpEq, Bool.and_eq_true, decide_eq_true_eq] at h
    rw [h.1, List.cons_prefix_cons]
    exact ⟨rfl, strncmp_prefix (fun h => h0 (List.mem_cons_of_mem _ h)) h.2⟩

theorem strncmp_self : ∀ q : Str, strncmpEq q q = true
  | [] => rfl
  | x :: xs => by simp [strncmpEq, strncmp_self xs]

theorem idMatch_spec {q id : Str} (h0 : 0 ∉ q) : idMatch q id = .ok (decide (id = q)) := by
  unfold idMatch
  cases h : strncmpEq q id with
  | true =>
    have hp := strncmp_prefix h0 h
    have hl := hp.length_le
    simp only [if_true, if_pos hl]
    congr 1
    apply decide_eq_decide.mpr
    constructor
    · intro he; exact (hp.eq_of_length he).symm
    · intro he; rw [he]
  | false =>
    have : id ≠ q := by rintro rfl; rw [strncmp_self] at h; cases h
    simp [this]

theorem find_congr {f g : Nat → Bool} : ∀ {l : List Nat}, (∀ x ∈ l, f x = g x) → l.find? f = l.find? g
  | [], _ => rfl
  | x :: l, h => by
    rw [List.find?_cons, List.find?_cons, h x List.mem_cons_self,
      find_congr (fun y hy => h y (List.mem_cons_of_mem _ hy))]

theorem findLoop_spec {next : Nat → Option Nat} {ident : Nat → Str} {q : Str} (h0 : 0 ∉ q) : ∀ {lst : List Nat} {fuel : Nat} {p : Option Nat},
    IsList next p lst → lst.length ≤ fuel →
    findLoop next ident q fuel p = .ok (lst.find? (fun i => decide (ident i = q)))
  | [], fuel, p, h, _ => by
    simp only [IsList] at h; subst h
    cases fuel <;> rfl
  | i :: lst, fuel, p, h, hf => by
    obtain ⟨rfl, h⟩ := h
    cases fuel with
    | zero => simp at hf
    | succ fuel =>
      simp only [findLoop, idMatch_spec h0, bind, Except.bind]
      by_cases he : ident i = q
      · simp [he]
      · simp only [he, decide_false, Bool.false_eq_true, if_false, List.find?_cons_of_neg]
        rw [findLoop_spec h0 h (by simpa using hf), List.find?_cons_of_neg (by simpa using he)]

theorem getSub_spec {fuel : Nat} {l : List Op} {h : Heap} {n : Nat} {q : Str} (ht : Tree l h) (hn : n ∈ nss l) (h0 : 0 ∉ q)
    (hq : q ≠ []) (hf : l.length ≤ fuel) :
    getSub fuel h n q = .ok ((subs n l).find? (fun m => decide (nsIdOf m l = q))) := by
  unfold getSub
  rw [if_neg (by simpa using hq), findLoop_spec h0 (ht.subs n hn) (Nat.le_trans (subs_length n l) hf)]
  congr 1
  apply find_congr
  intro m hm
  rw [ht.nsId m (subs_nss hm)]

theorem getPar_spec {fuel : Nat} {l : List Op} {h : Heap} {n : Nat} {q : Str} (ht : Tree l h) (hn : n ∈ nss l) (h0 : 0 ∉ q)
    (hq : q ≠ []) (hf : l.length ≤ fuel) :
    getPar fuel h n q = .ok ((parsIn n l).find? (fun m => decide (parIdOf m l = q))) := by
  unfold getPar
  rw [if_neg (by simpa using hq), findLoop_spec h0 (ht.plist n hn) (Nat.le_trans (parsIn_length n l) hf)]
  congr 1
  apply find_congr
  intro m hm
  rw [ht.parId m (parsIn_pars hm)]

theorem components_ne : ∀ s : Str, components s ≠ []
  | [] => by simp [components]
  | c :: s => by
    simp only [components]
    split
    · simp
    · split <;> simp

theorem components_split : ∀ s : Str,
    components s = if idSplit s < s.length then s.take (idSplit s) :: components (s.drop (idSplit s + 1)) else [s]
  | [] => by simp [components, idSplit]
  | c :: s => by
    simp only [components, idSplit]
    by_cases hc : c = slash
    · simp [hc]
    · simp only [if_neg hc]
      have ih := components_split s
      by_cases hk : idSplit s < s.length
      · rw [if_pos hk] at ih
        rw [ih]
        simp [hk]
      · rw [if_neg hk] at ih
        rw [ih]
        simp [hk]

theorem idSplit_le : ∀ s : Str, idSplit s ≤ s.length
  | [] => by simp [idSplit]
  | c :: s => by
    simp only [idSplit, List.length_cons]; have := idSplit_le s; split <;> omega

theorem walk_cons {l : List Op} {n : Nat} {c : Str} {cs : List Str} (hc : c ≠ []) :
    walk l n (c :: cs) = match (subs n l).find? (fun m => decide (nsIdOf m l = c)) with
      | none => none
      | some m => walk l m cs := by
  cases c with
  | nil => exact absurd rfl hc
  | cons x xs => rfl

theorem walkPar_cons {l : List Op} {n : Nat} {c : Str} {cs : List Str} (hc : c ≠ []) (hcs : cs ≠ []) :
    walkPar l n (c :: cs) = match (subs n l).find? (fun m => decide (nsIdOf m l = c)) with
      | none => none
      | some m => walkPar l m cs := by
  cases c with
  | nil => exact absurd rfl hc
  | cons x xs =>
    cases cs with
    | nil => exact absurd rfl hcs
    | cons y ys => rfl

theorem nsFindLoop_spec {fuel : Nat} {l : List Op} {h : Heap} (ht : Tree l h) (hf : l.length ≤ fuel) :
    ∀ (f n : Nat) (s : Str), n ∈ nss l → 0 ∉ s → s.length ≤ f → nsFindLoop fuel h f (some n) s = .ok (walk l n (components s))
  | f, n, [], _, _, _ => by cases f <;> simp [nsFindLoop, components, walk]
  | 0, n, c :: s, _, _, hl => by simp at hl
  | f + 1, n, c :: s, hn, h0, hl => by
    simp only [nsFindLoop]
    generalize hss : c :: s = ss at *
    have hlen : 0 < ss.length := by rw [← hss]; simp
    have h0t : ∀ k, 0 ∉ ss.take k := fun k h => h0 (List.mem_of_mem_take h)
    have h0d : ∀ k, 0 ∉ ss.drop k := fun k h => h0 (List.mem_of_mem_drop h)
    have hrec : ∀ m, m ∈ nss l → nsFindLoop fuel h f (some m) (ss.drop (idSplit ss + 1)) = .ok (walk l m (components (ss.drop (idSplit ss + 1)))) :=
      fun m hm => nsFindLoop_spec ht hf f m _ hm (h0d _) (by simp only [List.length_drop]; omega)
    have hcomp : ∀ m, walk l m (components ss) = walk l m (ss.take (idSplit ss) :: components (ss.drop (idSplit ss + 1))) := by
      intro m
      conv => lhs; rw [components_split]
      by_cases hk : idSplit ss < ss.length
      · rw [if_pos hk]
      · rw [if_neg hk]
        have hk' := idSplit_le ss
        rw [List.take_of_length_le (by omega), List.drop_of_length_le (by omega)]
        have hne : ss ≠ [] := by rw [← hss]; simp
        rw [walk_cons hne, walk_cons hne]
        cases (subs m l).find? (fun m => decide (nsIdOf m l = ss)) <;> simp [walk, components]
    rw [hcomp]
    by_cases hq : ss.take (idSplit ss) = []
    · rw [hq]
      have : getSub fuel h n [] = .ok (some n) := by simp [getSub]
      simp only [this, bind, Except.bind]
      rw [hrec n hn]; rfl
    · rw [getSub_spec ht hn (h0t _) hq hf, walk_cons hq]
      simp only [bind, Except.bind]
      cases hfd : (subs n l).find? (fun m => decide (nsIdOf m l = ss.take (idSplit ss))) with
      | none => cases f <;> simp [nsFindLoop]
      | some m => simp only; rw [hrec m (subs_nss (List.mem_of_find?_eq_some hfd))]

theorem parFindLoop_spec {fuel : Nat} {l : List Op} {h : Heap} (ht : Tree l h) (hf : l.length ≤ fuel) :
    ∀ (f n : Nat) (s : Str), n ∈ nss l → 0 ∉ s → s.length ≤ f → parFindLoop fuel h f (some n) s = .ok (walkPar l n (components s)) := by
  intro f
  induction f with
  | zero =>
    intro n s hn h0 hl
    have : s = [] := List.length_eq_zero_iff.mp (by omega)
    subst this
    simp [parFindLoop, idSplit, getPar, components, walkPar]
  | succ f ih =>
    intro n s hn h0 hl
    rw [components_split]
    have h0t : ∀ k, 0 ∉ s.take k := fun k h => h0 (List.mem_of_mem_take h)
    have h0d : ∀ k, 0 ∉ s.drop k := fun k h => h0 (List.mem_of_mem_drop h)
    unfold parFindLoop
    by_cases hk : idSplit s < s.length
    · simp only [hk, if_true]
      have hrec : ∀ m, m ∈ nss l → parFindLoop fuel h f (some m) (s.drop (idSplit s + 1)) = .ok (walkPar l m (components (s.drop (idSplit s + 1)))) :=
        fun m hm => ih m _ hm (h0d _) (by simp only [List.length_drop]; omega)
      by_cases hq : s.take (idSplit s) = []
      · rw [hq]
        have : getSub fuel h n [] = .ok (some n) := by simp [getSub]
        simp only [this, bind, Except.bind]
        rw [hrec n hn]
        obtain ⟨c, cs, hcs⟩ := List.exists_cons_of_ne_nil (components_ne (s.drop (idSplit s + 1)))
        rw [hcs]; rfl
      · rw [getSub_spec ht hn (h0t _) hq hf, walkPar_cons hq (components_ne _)]
        simp only [bind, Except.bind]
        cases hfd : (subs n l).find? (fun m => decide (nsIdOf m l = s.take (idSplit s))) with
        | none => cases f <;> simp [parFindLoop]
        | some m => simp only; rw [hrec m (subs_nss (List.mem_of_find?_eq_some hfd))]
    · simp only [hk, if_false]
      have hk' := idSplit_le s
      rw [List.take_of_length_le (by omega)]
      by_cases hq : s = []
      · subst hq; simp [getPar, walkPar]
      · rw [getPar_spec ht hn h0 hq hf]
        simp [walkPar, hq]

/-! ## Specification lemmas -/

theorem mem_subs {n : Nat} : ∀ {l : List Op} {m : Nat}, Proper l → (m ∈ subs n l ↔ m ∈ nss l ∧ parentOf m l = some n)
  | [], _, _ => by simp [subs, nss]
  | .declNs k parent id :: l, m, hp => by
    have ih := mem_subs (n := n) (m := m) hp.2.2.2
    simp only [subs, nss, parentOf]
    by_cases hk : k = m
    · subst hk
      have : k ∉ subs n l := fun h => hp.1 (subs_nss h)
      by_cases hpn : parent = some n <;> simp [hpn, this]
    · have hk' := Ne.symm hk
      by_cases hpn : parent = some n <;> simp [hpn, hk, hk', ih]
  | .declPar _ _ _ _ :: l, _, hp => mem_subs (l := l) hp.2.2.2.2
  | .set _ _ :: l, _, hp => mem_subs (l := l) hp.2
  | .get _ :: l, _, hp => mem_subs (l := l) hp.2

theorem mem_parsIn {n : Nat} : ∀ {l : List Op} {m : Nat}, Proper l → (m ∈ parsIn n l ↔ m ∈ pars l ∧ nsOf m l = n)
  | [], _, _ => by simp [parsIn, pars]
  | .declPar k q id d :: l, m, hp => by
    have ih := mem_parsIn (n := n) (m := m) hp.2.2.2.2
    simp only [parsIn, pars, nsOf]
    by_cases hk : k = m
    · subst hk
      have : k ∉ parsIn n l := fun h => hp.1 (parsIn_pars h)
      by_cases hpn : q = n <;> simp [hpn, this]
    · have hk' := Ne.symm hk
      by_cases hpn : q = n <;> simp [hpn, hk, hk', ih]
  | .declNs _ _ _ :: l, _, hp => mem_parsIn (l := l) hp.2.2.2
  | .set _ _ :: l, _, hp => mem_parsIn (l := l) hp.2
  | .get _ :: l, _, hp => mem_parsIn (l := l) hp.2

theorem parentOf_nss : ∀ {l : List Op} {m q : Nat}, Proper l → parentOf m l = some q → q ∈ nss l
  | [], _, _, _, h => by simp [parentOf] at h
  | .declNs k parent id :: l, m, q, hp, h => by
    simp only [parentOf] at h
    split at h
    · exact List.mem_cons_of_mem _ (hp.2.1 q h)
    · exact List.mem_cons_of_mem _ (parentOf_nss hp.2.2.2 h)
  | .declPar _ _ _ _ :: l, _, _, hp, h => parentOf_nss (l := l) hp.2.2.2.2 h
  | .set _ _ :: l, _, _, hp, h => parentOf_nss (l := l) hp.2 h
  | .get _ :: l, _, _, hp, h => parentOf_nss (l := l) hp.2 h

theorem chain_unfold : ∀ {l : List Op} {n : Nat}, Proper l → n ∈ nss l →
    chain n l = n :: (match parentOf n l with
      | none => []
      | some q => chain q l)
  | [], _, _, h => by cases h
  | .declNs k parent id :: l, n, hp, h => by
    simp only [chain, parentOf]
    by_cases hk : k = n
    · subst hk
      simp only [if_true]
      cases parent with
      | none => rfl
      | some q =>
        have : k ≠ q := by rintro rfl; exact hp.1 (hp.2.1 k rfl)
        simp [this]
    · have hn : n ∈ nss l := by simpa [nss, Ne.symm hk] using h
      have ih := chain_unfold hp.2.2.2 hn
      simp only [if_neg hk]
      rw [ih]
      cases hpn : parentOf n l with
      | none => rfl
      | some q =>
        have : k ≠ q := by rintro rfl; exact hp.1 (parentOf_nss hp.2.2.2 hpn)
        simp [this]
  | .declPar _ _ _ _ :: l, _, hp, h => chain_unfold (l := l) hp.2.2.2.2 h
  | .set _ _ :: l, _, hp, h => chain_unfold (l := l) hp.2 h
  | .get _ :: l, _, hp, h => chain_unfold (l := l) hp.2 h

theorem chain_under {l : List Op} {a : Nat} (hp : Proper l) : ∀ (k n : Nat), (chain n l).length ≤ k → n ∈ nss l →
    a ∈ chain n l → Under l a n := by
  intro k
  induction k with
  | zero => intro n hk hn ha; rw [List.length_eq_zero_iff.mp (Nat.le_zero.mp hk)] at ha; cases ha
  | succ k ih =>
    intro n hk hn ha
    rw [chain_unfold hp hn] at ha hk
    rcases List.mem_cons.mp ha with rfl | ha
    · exact .self
    · cases hq : parentOf n l with
      | none => rw [hq] at ha; cases ha
      | some q =>
        rw [hq] at ha hk
        exact .child hn hq (ih q (by simpa using hk) (parentOf_nss hp hq) ha)

theorem mem_chain {l : List Op} {a n : Nat} (hp : Proper l) (hn : n ∈ nss l) : a ∈ chain n l ↔ Under l a n := by
  constructor
  · exact chain_under hp _ n (Nat.le_refl _) hn
  · intro h
    induction h with
    | self => rw [chain_unfold hp hn]; exact List.mem_cons_self
    | child hm hq _ ih =>
      rw [chain_unfold hp hm, hq]
      exact List.mem_cons_of_mem _ (ih (parentOf_nss hp hq))

end Verif.Param
