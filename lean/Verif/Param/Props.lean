import Verif.Param.Lemmas2

/-!
# Properties of the parameter tree (C18, C19, C20)

A history lists the calls made on a tree, newest first (`Spec.lean`); `run fuel h0 l` executes it from the memory
`h0`, whose contents are arbitrary. `fuel` bounds the loops; any bound of at least the number of calls will do, so
the loops terminate.
-/

namespace Verif.Param

open HeapList

/-- Every correct history runs without a failed assertion, without undefined behaviour, and terminates. -/
theorem run_ok {fuel : Nat} {h0 : Heap} {l : List Op} (hp : Proper l) (hf : l.length ≤ fuel) : ∃ h, run fuel h0 l = .ok h :=
  let ⟨h, hr, _⟩ := run_inv (h0 := h0) hp hf; ⟨h, hr⟩

theorem run_inv' {fuel : Nat} {h0 h : Heap} {l : List Op} (hp : Proper l) (hf : l.length ≤ fuel) (hr : run fuel h0 l = .ok h) :
    Inv l h := by
  obtain ⟨h', hr', hi⟩ := run_inv (h0 := h0) hp hf
  rw [hr] at hr'; injection hr' with hr'; rw [hr']; exact hi

/-! ## C18 -/

/-- A parameter reports changed iff it was set (or declared with a default) and not read since. -/
theorem changed_iff {fuel : Nat} {h0 h : Heap} {l : List Op} (hp : Proper l) (hf : l.length ≤ fuel) (hr : run fuel h0 l = .ok h)
    {p : Nat} (hm : p ∈ pars l) : parChanged h p = changedOf p l :=
  (run_inv' hp hf hr).changed p hm

/-- `changedOf` in terms of the calls: there is a set, or a declaration with a default, with no get after it. -/
theorem changedOf_iff {l : List Op} (hp : Proper l) {p : Nat} :
    changedOf p l = true ↔ ∃ l1 op l2, l = l1 ++ op :: l2 ∧ Op.get p ∉ l1 ∧
      ((∃ v, op = .set p v) ∨ ∃ n id d, op = .declPar p n id d ∧ d.default ≠ none) := by
  induction l with
  | nil => simp [changedOf]
  | cons op l ih =>
    have ih := ih (Proper.tail hp)
    have hcons : (∃ l1 o l2, op :: l = l1 ++ o :: l2 ∧ Op.get p ∉ l1 ∧
        ((∃ v, o = .set p v) ∨ ∃ n id d, o = .declPar p n id d ∧ d.default ≠ none)) ↔
        (((∃ v, op = .set p v) ∨ ∃ n id d, op = .declPar p n id d ∧ d.default ≠ none) ∨
          (op ≠ .get p ∧ changedOf p l = true)) := by
      rw [ih]
      constructor
      · rintro ⟨l1, o, l2, he, hn, ho⟩
        cases l1 with
        | nil => simp only [List.nil_append, List.cons.injEq] at he; rw [he.1]; exact Or.inl ho
        | cons x l1 =>
          simp only [List.cons_append, List.cons.injEq] at he
          refine Or.inr ⟨?_, l1, o, l2, he.2, fun h => hn (List.mem_cons_of_mem _ h), ho⟩
          rw [he.1]; intro h; exact hn (by rw [h]; exact List.mem_cons_self)
      · rintro (ho | ⟨hne, l1, o, l2, he, hn, ho⟩)
        · exact ⟨[], op, l, rfl, by simp, ho⟩
        · refine ⟨op :: l1, o, l2, by rw [he]; rfl, ?_, ho⟩
          intro h
          rcases List.mem_cons.mp h with h | h
          · exact hne h.symm
          · exact hn h
    rw [hcons]
    cases op with
    | declNs n parent id => simp [changedOf]
    | declPar q n id d =>
      simp only [changedOf]
      by_cases hq : q = p
      · subst hq
        have : changedOf q l = false := by
          cases hc : changedOf q l with
          | false => rfl
          | true => exact absurd (valueOf_pars hp.2.2.2.2 (changed_valueOf hc)) hp.1
        rw [if_pos rfl, Option.isSome_iff_ne_none]
        constructor
        · intro h; exact Or.inl (Or.inr ⟨n, id, d, rfl, h⟩)
        · rintro ((⟨v, h⟩ | ⟨n', id', d', h, hne⟩) | ⟨_, h⟩)
          · cases h
          · injection h with _ _ _ h; rw [h]; exact hne
          · rw [this] at h; cases h
      · simp [hq]
    | set q v =>
      simp only [changedOf]
      by_cases hq : q = p
      · simp [hq]
      · simp [hq]
    | get q =>
      simp only [changedOf]
      by_cases hq : q = p
      · simp [hq]
      · simp [hq]

/-- A namespace reports contains-changed iff some parameter in or anywhere below it is changed. -/
theorem contains_changed_iff {fuel : Nat} {h0 h : Heap} {l : List Op} (hp : Proper l) (hf : l.length ≤ fuel)
    (hr : run fuel h0 l = .ok h) (hsmall : (pars l).length < 2 ^ 32) {n : Nat} (hn : n ∈ nss l) :
    containsChanged h n = true ↔ ∃ p ∈ pars l, changedOf p l = true ∧ Under l n (nsOf p l) := by
  have hc := (run_inv' hp hf hr).cnt n hn
  have hle : count l n < 2 ^ 32 := Nat.lt_of_le_of_lt List.countP_le_length hsmall
  have hnat : (h.cnt n).toNat = count l n := by rw [hc, BitVec.toNat_ofNat, Nat.mod_eq_of_lt hle]
  have hpos : containsChanged h n = true ↔ 0 < count l n := by
    simp only [containsChanged, hnat, decide_eq_true_eq]
  rw [hpos, count, List.countP_pos_iff]
  constructor
  · rintro ⟨p, hm, h⟩
    simp only [Bool.and_eq_true, decide_eq_true_eq] at h
    exact ⟨p, hm, h.1, (mem_chain hp (nsOf_nss hp hm)).mp h.2⟩
  · rintro ⟨p, hm, h1, h2⟩
    refine ⟨p, hm, ?_⟩
    simp only [Bool.and_eq_true, decide_eq_true_eq]
    exact ⟨h1, (mem_chain hp (nsOf_nss hp hm)).mpr h2⟩

/-! ## C19 -/

/-- Namespace lookup, for every path. -/
theorem nsFind_spec {fuel : Nat} {h0 h : Heap} {l : List Op} (hp : Proper l) (hf : l.length ≤ fuel) (hr : run fuel h0 l = .ok h)
    {n : Nat} (hn : n ∈ nss l) {path : Str} (h0p : 0 ∉ path) : nsFind fuel h n path = .ok (walk l n (components path)) :=
  nsFindLoop_spec (run_inv' hp hf hr).tree hf _ n path hn h0p (Nat.le_refl _)

/-- Parameter lookup, for every path. -/
theorem parFind_spec {fuel : Nat} {h0 h : Heap} {l : List Op} (hp : Proper l) (hf : l.length ≤ fuel) (hr : run fuel h0 l = .ok h)
    {n : Nat} (hn : n ∈ nss l) {path : Str} (h0p : 0 ∉ path) : parFind fuel h n path = .ok (walkPar l n (components path)) :=
  parFindLoop_spec (run_inv' hp hf hr).tree hf _ n path hn h0p (Nat.le_refl _)

theorem walk_atPath {l : List Op} (hp : Proper l) : ∀ {cs : List Str} {n m : Nat}, walk l n cs = some m →
    AtPath l n (cs.filter (· ≠ [])) m
  | [], n, m, h => by injection h with h; subst h; exact .nil n
  | [] :: cs, n, m, h => by
    have := walk_atPath hp (cs := cs) h
    simpa using this
  | (x :: xs) :: cs, n, m, h => by
    rw [walk_cons (by simp)] at h
    split at h
    · cases h
    · rename_i k hk
      obtain ⟨h1, h2⟩ := (mem_subs hp).mp (List.mem_of_find?_eq_some hk)
      have h3 : nsIdOf k l = x :: xs := by simpa using List.find?_some hk
      have := AtPath.cons h1 h2 (walk_atPath hp h)
      rw [h3] at this
      simpa using this

theorem atPath_walk {l : List Op} (hp : Proper l) (hd : Distinct l) : ∀ {cs : List Str} {n m : Nat},
    AtPath l n (cs.filter (· ≠ [])) m → walk l n cs = some m
  | [], n, m, h => by cases h; rfl
  | [] :: cs, n, m, h => atPath_walk hp hd (cs := cs) (by simpa using h)
  | (x :: xs) :: cs, n, m, h => by
    have h : AtPath l n ((x :: xs) :: cs.filter (· ≠ [])) m := by simpa using h
    generalize hq : (x :: xs) :: cs.filter (· ≠ []) = q at h
    cases h with
    | nil => cases hq
    | @cons _ k _ cs' hk hpar ht =>
      injection hq with hq1 hq2
      subst hq2
      rw [walk_cons (by simp)]
      have hmem := (mem_subs (n := n) hp).mpr ⟨hk, hpar⟩
      have : (subs n l).find? (fun m => decide (nsIdOf m l = x :: xs)) = some k := by
        cases hfd : (subs n l).find? (fun m => decide (nsIdOf m l = x :: xs)) with
        | none =>
          have := List.find?_eq_none.mp hfd k hmem
          simp [hq1] at this
        | some k' =>
          obtain ⟨h1, h2⟩ := (mem_subs hp).mp (List.mem_of_find?_eq_some hfd)
          have h3 : nsIdOf k' l = x :: xs := by simpa using List.find?_some hfd
          rw [hd.1 k' h1 k hk (by rw [h2]; simp) (h2.trans hpar.symm) (h3.trans hq1)]
      rw [this]
      exact atPath_walk hp hd ht

/-- The namespace found is at the path (empty components, as in `"/a//b"`, are ignored), even if identifiers are
declared twice. -/
theorem nsFind_sound {fuel : Nat} {h0 h : Heap} {l : List Op} (hp : Proper l) (hf : l.length ≤ fuel) (hr : run fuel h0 l = .ok h)
    {n m : Nat} (hn : n ∈ nss l) {path : Str} (h0p : 0 ∉ path) (hfd : nsFind fuel h n path = .ok (some m)) :
    AtPath l n ((components path).filter (· ≠ [])) m := by
  rw [nsFind_spec hp hf hr hn h0p] at hfd
  injection hfd with hfd
  exact walk_atPath hp hfd

/-- With distinct identifiers: found iff declared at that path. -/
theorem nsFind_iff {fuel : Nat} {h0 h : Heap} {l : List Op} (hp : Proper l) (hd : Distinct l) (hf : l.length ≤ fuel)
    (hr : run fuel h0 l = .ok h) {n m : Nat} (hn : n ∈ nss l) {path : Str} (h0p : 0 ∉ path) :
    nsFind fuel h n path = .ok (some m) ↔ AtPath l n ((components path).filter (· ≠ [])) m := by
  rw [nsFind_spec hp hf hr hn h0p]
  constructor
  · intro h; injection h with h; exact walk_atPath hp h
  · intro h; rw [atPath_walk hp hd h]

theorem walkPar_eq {l : List Op} (c : Str) : ∀ (cs : List Str) (n : Nat),
    walkPar l n (cs ++ [c]) = match walk l n cs with
      | none => none
      | some m => if c = [] then none else (parsIn m l).find? (fun p => decide (parIdOf p l = c))
  | [], n => by simp [walkPar, walk]
  | [] :: cs, n => by
    have ih := walkPar_eq (l := l) c cs n
    obtain ⟨y, ys, hy⟩ := List.exists_cons_of_ne_nil (show cs ++ [c] ≠ [] by simp)
    rw [List.cons_append, show walk l n ([] :: cs) = walk l n cs from rfl, ← ih, hy]
    rfl
  | (x :: xs) :: cs, n => by
    rw [List.cons_append, walkPar_cons (by simp) (by simp), walk_cons (by simp)]
    cases (subs n l).find? (fun m => decide (nsIdOf m l = x :: xs)) with
    | none => rfl
    | some m => exact walkPar_eq c cs m

/-- The parameter found has the last component as its identifier and is in a namespace at the path given by the
other components, even if identifiers are declared twice. -/
theorem parFind_sound {fuel : Nat} {h0 h : Heap} {l : List Op} (hp : Proper l) (hf : l.length ≤ fuel) (hr : run fuel h0 l = .ok h)
    {n p : Nat} (hn : n ∈ nss l) {path c : Str} {cs : List Str} (h0p : 0 ∉ path) (hc : components path = cs ++ [c])
    (hfd : parFind fuel h n path = .ok (some p)) :
    c ≠ [] ∧ p ∈ pars l ∧ parIdOf p l = c ∧ AtPath l n (cs.filter (· ≠ [])) (nsOf p l) := by
  rw [parFind_spec hp hf hr hn h0p, hc, walkPar_eq] at hfd
  injection hfd with hfd
  split at hfd
  · cases hfd
  · rename_i m hm
    by_cases hce : c = []
    · rw [if_pos hce] at hfd; cases hfd
    · rw [if_neg hce] at hfd
      obtain ⟨h1, h2⟩ := (mem_parsIn hp).mp (List.mem_of_find?_eq_some hfd)
      refine ⟨hce, h1, by simpa using List.find?_some hfd, ?_⟩
      rw [h2]
      exact walk_atPath hp hm

/-- With distinct identifiers: found iff declared at that path; so the result is NULL exactly when no parameter was
declared there. -/
theorem parFind_iff {fuel : Nat} {h0 h : Heap} {l : List Op} (hp : Proper l) (hd : Distinct l) (hf : l.length ≤ fuel)
    (hr : run fuel h0 l = .ok h) {n p : Nat} (hn : n ∈ nss l) {path c : Str} {cs : List Str} (h0p : 0 ∉ path)
    (hc : components path = cs ++ [c]) :
    parFind fuel h n path = .ok (some p) ↔
      c ≠ [] ∧ p ∈ pars l ∧ parIdOf p l = c ∧ AtPath l n (cs.filter (· ≠ [])) (nsOf p l) := by
  constructor
  · exact parFind_sound hp hf hr hn h0p hc
  · rintro ⟨hce, hm, hid, hpath⟩
    rw [parFind_spec hp hf hr hn h0p, hc, walkPar_eq, atPath_walk hp hd hpath]
    simp only [if_neg hce]
    have hmem := (mem_parsIn hp).mpr ⟨hm, rfl⟩
    cases hfd : (parsIn (nsOf p l) l).find? (fun p => decide (parIdOf p l = c)) with
    | none =>
      have := List.find?_eq_none.mp hfd p hmem
      simp [hid] at this
    | some p' =>
      obtain ⟨h1, h2⟩ := (mem_parsIn hp).mp (List.mem_of_find?_eq_some hfd)
      have h3 : parIdOf p' l = c := by simpa using List.find?_some hfd
      rw [hd.2 p' h1 p hm h2 (h3.trans hid.symm)]

/-- Every string has components, the last of which names the parameter. -/
theorem components_snoc (path : Str) : ∃ cs c, components path = cs ++ [c] :=
  ⟨_, _, (List.dropLast_concat_getLast (components_ne path)).symm⟩

theorem components_single {c : Str} (hc : slash ∉ c) : components c = [c] := by
  rw [components_split]
  have : idSplit c = c.length := by
    induction c with
    | nil => rfl
    | cons x xs ih =>
      have h1 : x ≠ slash := fun h => hc (by simp [h])
      have h2 : slash ∉ xs := fun h => hc (by simp [h])
      simp [idSplit, h1, ih h2]
  simp [this]

/-- A parameter declared later takes precedence over those with the same identifier declared before it. -/
theorem latest_parameter {fuel : Nat} {h0 h : Heap} {l1 l2 : List Op} {p n : Nat} {c : Str} {d : Decl}
    (hp : Proper (l1 ++ .declPar p n c d :: l2)) (hf : (l1 ++ .declPar p n c d :: l2).length ≤ fuel)
    (hr : run fuel h0 (l1 ++ .declPar p n c d :: l2) = .ok h) (hc : c ≠ []) (hs : slash ∉ c)
    (hlast : ∀ q d', .declPar q n c d' ∉ l1) : parFind fuel h n c = .ok (some p) := by
  have hpt : ∀ l, Proper (l ++ .declPar p n c d :: l2) → Proper (.declPar p n c d :: l2) := by
    intro l; induction l with
    | nil => exact id
    | cons op l ih => exact fun h => ih (Proper.tail h)
  have hp2 := hpt _ hp
  have hns : ∀ l, n ∈ nss l2 → n ∈ nss (l ++ .declPar p n c d :: l2) := by
    intro l hn; induction l with
    | nil => exact hn
    | cons op l ih => cases op <;> first | exact List.mem_cons_of_mem _ ih | exact ih
  have h0c : 0 ∉ c := hp2.2.2.1
  rw [parFind_spec hp hf hr (hns l1 hp2.2.1) h0c, components_single hs]
  simp only [walkPar, if_neg hc]
  congr 1
  clear hf hr hpt
  suffices hsuff : (parsIn n (l1 ++ .declPar p n c d :: l2)).find?
      (fun q => decide (parIdOf q (l1 ++ .declPar p n c d :: l2) = c)) = some p ∧
      p ∈ pars (l1 ++ .declPar p n c d :: l2) ∧ parIdOf p (l1 ++ .declPar p n c d :: l2) = c from hsuff.1
  induction l1 with
  | nil => simp [parsIn, parIdOf, pars]
  | cons op l ih =>
    have ih := ih (Proper.tail hp) (fun q d' h => hlast q d' (List.mem_cons_of_mem _ h))
    cases op with
    | declNs k parent id => exact ih
    | set q v => exact ih
    | get q => exact ih
    | declPar q k id dd =>
      obtain ⟨hq, _⟩ := hp
      have hqp : q ≠ p := by rintro rfl; exact hq ih.2.1
      have hcongr : ∀ x ∈ parsIn n (l ++ .declPar p n c d :: l2),
          decide (parIdOf x (.declPar q k id dd :: (l ++ .declPar p n c d :: l2)) = c) =
          decide (parIdOf x (l ++ .declPar p n c d :: l2) = c) := by
        intro x hx
        have hxq : q ≠ x := by rintro rfl; exact hq (parsIn_pars hx)
        simp only [parIdOf, if_neg hxq]
      refine ⟨?_, List.mem_cons_of_mem _ ih.2.1, ?_⟩
      · rw [List.cons_append]
        simp only [parsIn]
        split
        · rename_i hk
          subst hk
          have hid : id ≠ c := by
            rintro rfl
            exact hlast q dd List.mem_cons_self
          rw [List.find?_cons_of_neg (by simpa [parIdOf] using hid), find_congr hcongr]
          exact ih.1
        · rw [find_congr hcongr]; exact ih.1
      · rw [List.cons_append]
        simp only [parIdOf, if_neg hqp]; exact ih.2.2

/-- A namespace declared later takes precedence over those with the same identifier declared before it. -/
theorem latest_namespace {fuel : Nat} {h0 h : Heap} {l1 l2 : List Op} {m n : Nat} {c : Str}
    (hp : Proper (l1 ++ .declNs m (some n) c :: l2)) (hf : (l1 ++ .declNs m (some n) c :: l2).length ≤ fuel)
    (hr : run fuel h0 (l1 ++ .declNs m (some n) c :: l2) = .ok h) (hc : c ≠ []) (hs : slash ∉ c)
    (hlast : ∀ q, .declNs q (some n) c ∉ l1) : nsFind fuel h n c = .ok (some m) := by
  have hpt : ∀ l, Proper (l ++ .declNs m (some n) c :: l2) → Proper (.declNs m (some n) c :: l2) := by
    intro l; induction l with
    | nil => exact id
    | cons op l ih => exact fun h => ih (Proper.tail h)
  have hp2 := hpt _ hp
  have hns : ∀ l, n ∈ nss l2 → n ∈ nss (l ++ .declNs m (some n) c :: l2) := by
    intro l hn; induction l with
    | nil => exact List.mem_cons_of_mem _ hn
    | cons op l ih => cases op <;> first | exact List.mem_cons_of_mem _ ih | exact ih
  have h0c : 0 ∉ c := hp2.2.2.1
  rw [nsFind_spec hp hf hr (hns l1 (hp2.2.1 n rfl)) h0c, components_single hs, walk_cons hc]
  clear hf hr hpt
  have hsuff : (subs n (l1 ++ .declNs m (some n) c :: l2)).find?
      (fun q => decide (nsIdOf q (l1 ++ .declNs m (some n) c :: l2) = c)) = some m ∧
      m ∈ nss (l1 ++ .declNs m (some n) c :: l2) ∧ nsIdOf m (l1 ++ .declNs m (some n) c :: l2) = c := by
    induction l1 with
    | nil => simp [subs, nsIdOf, nss]
    | cons op l ih =>
      have ih := ih (Proper.tail hp) (fun q h => hlast q (List.mem_cons_of_mem _ h))
      cases op with
      | declPar k parent id d => exact ih
      | set q v => exact ih
      | get q => exact ih
      | declNs q k id =>
        obtain ⟨hq, _⟩ := hp
        have hqp : q ≠ m := by rintro rfl; exact hq ih.2.1
        have hcongr : ∀ x ∈ subs n (l ++ .declNs m (some n) c :: l2),
            decide (nsIdOf x (.declNs q k id :: (l ++ .declNs m (some n) c :: l2)) = c) =
            decide (nsIdOf x (l ++ .declNs m (some n) c :: l2) = c) := by
          intro x hx
          have hxq : q ≠ x := by rintro rfl; exact hq (subs_nss hx)
          simp only [nsIdOf, if_neg hxq]
        refine ⟨?_, List.mem_cons_of_mem _ ih.2.1, ?_⟩
        · rw [List.cons_append]
          simp only [subs]
          split
          · rename_i hk
            subst hk
            have hid : id ≠ c := by
              rintro rfl
              exact hlast q List.mem_cons_self
            rw [List.find?_cons_of_neg (by simpa [nsIdOf] using hid), find_congr hcongr]
            exact ih.1
          · rw [find_congr hcongr]; exact ih.1
        · rw [List.cons_append]
          simp only [nsIdOf, if_neg hqp]; exact ih.2.2
  rw [hsuff.1]
  rfl

/-- A path with a NUL character inside, which the `_w_id_len` functions accept, makes the comparison read behind the
end of an identifier: looking up `"a\0b"` next to a parameter `"a"`. -/
theorem embedded_nul_reads_out_of_bounds : ∃ (l : List Op) (path : Str), Proper l ∧ ∀ h0,
    (do let h ← run 2 h0 l; parFind 2 h 0 path) = .error .outOfBounds := by
  refine ⟨[.declPar 5 0 [97] (.scalar 0 none), .declNs 0 none []], [97, 0, 98], ?_, ?_⟩
  · simp [Proper, nss, pars, DeclOK]
  · intro h0
    rfl

/-! ## C20 -/

/-- Reading returns the last value set, or the default. -/
theorem read_last {fuel : Nat} {h0 h : Heap} {l : List Op} (hp : Proper l) (hf : l.length ≤ fuel) (hr : run fuel h0 l = .ok h)
    {p : Nat} {v : AVal} (hv : valueOf p l = some v) : read h p = .ok v :=
  read_spec (run_inv' hp hf hr) hp hv

/-- So does `get`, which clears the flag of this parameter and changes no other parameter's value, flag or
definedness. -/
theorem get_last {fuel : Nat} {h0 h : Heap} {l : List Op} (hp : Proper l) (hf : l.length ≤ fuel) (hr : run fuel h0 l = .ok h)
    {p : Nat} {v : AVal} (hv : valueOf p l = some v) :
    ∃ h', get fuel h p = .ok (h', v) ∧ parChanged h' p = false ∧ h'.val = h.val ∧ h'.defined = h.defined ∧
      ∀ q, q ≠ p → parChanged h' q = parChanged h q := by
  have hi := run_inv' hp hf hr
  have hm := valueOf_pars hp (show valueOf p l ≠ none by rw [hv]; simp)
  have hs := changedClear_spec (fuel := fuel) (h := h) (p := p) (hi.chain hp hm) (chain_nodup hp)
    (Nat.le_trans (chain_length _ _) hf)
  obtain ⟨h'', hr'', hi''⟩ := clear_inv (fuel := fuel) hi hp hm hf
  have hrd := read_spec (p := p) (v := v) hi'' (l := .get p :: l) ⟨by rw [hv]; simp, hp⟩ hv
  have he := hr''
  rw [hs] at he
  injection he with he
  refine ⟨h'', ?_, ?_, ?_, ?_, ?_⟩
  · simp only [get, hr'', hrd, bind, Except.bind, pure, Except.pure]
  · rw [← he]; simp [parChanged, upd_self]
  · rw [← he]
  · rw [← he]
  · intro q hq; rw [← he]; simp [parChanged, upd_ne _ _ hq]

/-- Setting a parameter changes no other parameter's value, flag or definedness. -/
theorem set_frame {fuel : Nat} {h0 h : Heap} {l : List Op} {p : Nat} {v : AVal} (hp : Proper (.set p v :: l))
    (hf : l.length + 1 ≤ fuel) (hr : run fuel h0 l = .ok h) :
    ∃ h', set fuel h p v = .ok h' ∧ read h' p = .ok v ∧ parChanged h' p = true ∧ parDefined h' (some p) = true ∧
      ∀ q ∈ pars l, q ≠ p → (∀ w, valueOf q l = some w → read h' q = .ok w) ∧ parChanged h' q = parChanged h q ∧
        parDefined h' (some q) = parDefined h (some q) := by
  have hi := run_inv' hp.2 (by omega) hr
  obtain ⟨h', hs, hi'⟩ := set_step_inv (fuel := fuel) hi hp (by omega)
  have hm : p ∈ pars l := by obtain ⟨⟨d, hd, _⟩, _⟩ := hp; exact declOf_pars hd
  refine ⟨h', hs, read_spec hi' hp (by simp [valueOf]), ?_, ?_, ?_⟩
  · rw [parChanged, hi'.changed p hm]; simp [changedOf]
  · rw [parDefined, hi'.defined p hm]; simp [valueOf]
  · intro q hq hne
    refine ⟨fun w hw => read_spec hi' hp (by simpa [valueOf, Ne.symm hne] using hw), ?_, ?_⟩
    · rw [parChanged, parChanged, hi'.changed q hq, hi.changed q hq]; simp [changedOf, Ne.symm hne]
    · rw [parDefined, parDefined, hi'.defined q hq, hi.defined q hq]; simp [valueOf, Ne.symm hne]

/-- Defined iff declared with a default or set. -/
theorem defined_iff {fuel : Nat} {h0 h : Heap} {l : List Op} (hp : Proper l) (hf : l.length ≤ fuel) (hr : run fuel h0 l = .ok h)
    {p : Nat} (hm : p ∈ pars l) :
    parDefined h (some p) = true ↔ (∃ v, .set p v ∈ l) ∨ ∃ n id d, .declPar p n id d ∈ l ∧ d.default ≠ none := by
  rw [parDefined, (run_inv' hp hf hr).defined p hm]
  clear hr hf hm
  induction l with
  | nil => simp [valueOf]
  | cons op l ih =>
    have ih := ih (Proper.tail hp)
    cases op with
    | declNs n parent id => simpa [valueOf] using ih
    | get q => simpa [valueOf] using ih
    | set q v =>
      by_cases hq : q = p
      · simp only [valueOf, hq, if_true, Option.isSome_some, true_iff]
        exact Or.inl ⟨v, List.mem_cons_self⟩
      · have hq' := Ne.symm hq
        simpa [valueOf, hq, hq'] using ih
    | declPar q n id d =>
      by_cases hq : q = p
      · subst hq
        simp only [valueOf, if_true]
        constructor
        · intro h
          exact Or.inr ⟨n, id, d, List.mem_cons_self, Option.isSome_iff_ne_none.mp h⟩
        · have hv0 : valueOf q l = none := by
            cases hv : valueOf q l with
            | none => rfl
            | some w => exact absurd (valueOf_pars hp.2.2.2.2 (by rw [hv]; simp)) hp.1
          rw [hv0] at ih
          rintro (⟨v, h⟩ | ⟨n', id', d', h, hne⟩)
          · rcases List.mem_cons.mp h with h | h
            · cases h
            · exact absurd (ih.mpr (Or.inl ⟨v, h⟩)) (by simp)
          · rcases List.mem_cons.mp h with h | h
            · injection h with _ _ _ h; rw [← h]; exact Option.isSome_iff_ne_none.mpr hne
            · exact absurd (ih.mpr (Or.inr ⟨n', id', d', h, hne⟩)) (by simp)
      · have hq' := Ne.symm hq
        simpa [valueOf, hq, hq'] using ih

/-- The buffer given to `parameter_string_read` is written within its size, with a terminator, and receives as much
of the value as fits; the returned length is that of the whole value. -/
theorem string_read_fits {fuel : Nat} {h0 h : Heap} {l : List Op} (hp : Proper l) (hf : l.length ≤ fuel)
    (hr : run fuel h0 l = .ok h) {p : Nat} {s : Str} (hv : valueOf p l = some (.string s)) {outSize : Nat} (hs : 0 < outSize) :
    stringRead h p outSize = .ok (s.length, s.take (outSize - 1) ++ [0]) := by
  have hi := run_inv' hp hf hr
  have hm : p ∈ pars l := valueOf_pars hp (by rw [hv]; simp)
  obtain ⟨d, hd⟩ := pars_declOf hm
  have hval := hi.val p d hd
  have hdef : h.defined p = true := by rw [hi.defined p hm, hv]; rfl
  rw [hv] at hval
  cases d <;> cases hx : h.val p <;> rw [hx] at hval <;> simp only [valOK] at hval <;>
    try (have := hval _ rfl; cases this)
  · have := hval.2.2.2 _ rfl; cases this
  · have := (hval.2 _ rfl).2; cases this
  · rename_i b j dd buf len
    obtain ⟨h2, h4⟩ := hval
    obtain ⟨h3, h4⟩ := h4 _ rfl
    injection h4 with h4
    simp only [stringRead, hx, hdef, assert, if_true, bind, Except.bind, copyFrom, pure, Except.pure]
    have hl : s.length = len := by rw [h4]; simp [h3]
    by_cases hc : len < outSize
    · simp only [if_pos hc, if_pos h3]
      rw [h4, List.take_take, List.length_take, Nat.min_eq_left h3, Nat.min_eq_right (by omega)]
    · simp only [if_neg hc, if_neg (show outSize ≠ 0 by omega), if_pos (show outSize - 1 ≤ buf.length by omega)]
      rw [h4, List.take_take, List.length_take, Nat.min_eq_left h3, Nat.min_eq_left (by omega)]

/-- With a buffer of size zero the copy runs out of bounds. -/
theorem string_read_zero {h : Heap} {p : Nat} {buf : Str} {len : Nat} (hv : h.val p = .string buf len) (hd : h.defined p = true) :
    stringRead h p 0 = .error .outOfBounds := by
  simp [stringRead, hv, hd, assert, bind, Except.bind]

/-- Reading a parameter that has no value, or with the wrong type, fails an assertion, as does setting with the wrong
type or a value that does not fit: nothing is stored. -/
theorem undefined_read_asserts {fuel : Nat} {h0 h : Heap} {l : List Op} (hp : Proper l) (hf : l.length ≤ fuel)
    (hr : run fuel h0 l = .ok h) {p : Nat} (hm : p ∈ pars l) (hv : valueOf p l = none) : read h p = .error .assert := by
  have hi := run_inv' hp hf hr
  have hdef : h.defined p = false := by rw [hi.defined p hm, hv]; rfl
  unfold read
  cases hx : h.val p <;>
    simp [scalarRead, integerRead, booleanRead, vectorRead, varVectorRead, stringRead, hx, hdef, assert, bind, Except.bind]

/-- A default value that does not fit the buffer is refused when the parameter is declared (nothing is copied). -/
theorem long_default_asserts (fuel : Nat) (h : Heap) (p n : Nat) (id : Str) :
    (∀ (buf s : Str) (j : Nat), s.length < 65536 → buf.length < s.length →
      declare fuel h p n id (.string buf j (some s)) = .error .assert) ∧
    (∀ (buf : List W32) (j k : Nat), buf.length < k → declare fuel h p n id (.varVector buf j (some k)) = .error .assert) := by
  constructor
  · intro buf s j h1 h2
    have : ¬ s.length % 65536 ≤ buf.length := by omega
    simp [declare, stringDeclare, assert, this, bind, Except.bind]
  · intro buf j k h1
    have : ¬ k ≤ buf.length := by omega
    simp [declare, varVectorDeclare, assert, this, bind, Except.bind]

theorem wrong_set_asserts {fuel : Nat} {h0 h : Heap} {l : List Op} (hp : Proper l) (hf : l.length ≤ fuel)
    (hr : run fuel h0 l = .ok h) {p : Nat} {d : Decl} (hd : declOf p l = some d) {v : AVal} (hn : ¬ Fits d v)
    (hs : ∀ s, v = .string s → s.length < 65536) (hvec : ∀ w b k dd, v = .vector w → d ≠ .vector b k dd) :
    set fuel h p v = .error .assert := by
  have hi := run_inv' hp hf hr
  have hval := hi.val p d hd
  cases d <;> cases hx : h.val p <;> rw [hx] at hval <;> simp only [valOK] at hval <;> cases v <;>
    simp only [Fits, not_true] at hn <;>
    first
    | (simp [set, scalarSet, integerSet, booleanSet, vectorSet, varVectorSet, stringSet, stringSetWLen, hx]; done)
    | (rename_i w; exact absurd rfl (hvec w _ _ _ rfl))
    | skip
  · rename_i w
    rw [← hval.1] at hn
    simp [set, varVectorSet, hx, assert, hn, bind, Except.bind]
  · rename_i s
    have h1 := hs s rfl
    rw [← hval.1] at hn
    have h2 := fun h => hn ⟨h, h1⟩
    simp [set, stringSet, stringSetWLen, hx, assert, Nat.mod_eq_of_lt h1, bind, Except.bind]
    rw [if_neg h2]

/-- A string of 65536 characters or more is not refused but stored modulo 65536 in length: one of exactly 65536
characters (or a multiple) is stored as the empty string, whatever the size of the buffer. -/
theorem long_string_truncated {fuel : Nat} {h : Heap} {p : Nat} {buf : Str} {len : Nat} (hv : h.val p = .string buf len)
    {s : Str} (hs : s.length % 65536 = 0) : stringSet fuel h p s = changedSet fuel (setVal h p (.string buf 0)) p := by
  unfold stringSet
  rw [hs]
  simp [stringSetWLen, hv, assert, copyTo, bind, Except.bind]

/-! ## A concrete tree: the hypotheses are met -/

/-- `/`, `/a` with scalar `/a/x` (default 7) and string `/s` of 4 bytes, set to "hi"; then `/a/x` read. -/
def demo : List Op :=
  [.get 10, .set 11 (.string [104, 105]), .declPar 11 0 [115] (.string [1, 2, 3, 4] 9 none),
   .declPar 10 1 [120] (.scalar 0 (some 7)), .declNs 1 (some 0) [97], .declNs 0 none []]

theorem demo_proper : Proper demo := by
  simp [demo, Proper, nss, pars, declOf, valueOf, Fits, DeclOK, Decl.default]

theorem demo_distinct : Distinct demo := by
  constructor
  · intro m hm m' hm'
    simp only [demo, nss, List.mem_cons, List.not_mem_nil, or_false] at hm hm'
    rcases hm with rfl | rfl <;> rcases hm' with rfl | rfl <;> decide
  · intro m hm m' hm'
    simp only [demo, pars, List.mem_cons, List.not_mem_nil, or_false] at hm hm'
    rcases hm with rfl | rfl <;> rcases hm' with rfl | rfl <;> decide

/-- Some initial memory. -/
def blank : Heap where
  nsId := fun _ => []
  cnt := fun _ => 7
  parent := fun _ => none
  sub := fun _ => none
  nsNext := fun _ => none
  plist := fun _ => none
  parId := fun _ => []
  parNs := fun _ => 3
  parNext := fun _ => none
  changed := fun _ => true
  defined := fun _ => true
  val := fun _ => .scalar 5

/-- `/a/x` is found and read, and only the root contains changes afterwards. -/
example : (match run 6 blank demo with
    | .error _ => false
    | .ok h => decide ((parFind 6 h 0 [97, 47, 120]).toOption = some (some 10) ∧
      (parFind 6 h 0 [97, 47, 121]).toOption = some none ∧ (nsFind 6 h 0 [47, 97, 47]).toOption = some (some 1) ∧
      (read h 10).toOption = some (.scalar 7) ∧ (read h 11).toOption = some (.string [104, 105]) ∧
      parChanged h 10 = false ∧ parChanged h 11 = true ∧ containsChanged h 0 = true ∧ containsChanged h 1 = false) :
    Bool) = true := by
  decide +kernel

end Verif.Param
