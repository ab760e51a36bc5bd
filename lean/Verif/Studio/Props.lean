import Verif.Studio.Paths

/-!
# Properties of the parameter tree of the studio (C133)

`l` is any correct history of declarations and accesses on the board (`Verif.Param.Spec`), `h` the memory it leads to.
-/

namespace Verif.Studio

open Verif.Param Verif.ParamServer

/-! ## Specification -/

/-- The tree has the value of every parameter on the board under the names of its namespaces and its own name, and nothing else. -/
def Shows (l : List Op) (root : Nat) (t : Tree (Option PyVal)) : Prop :=
  ∀ q v, t.lookup q = some v ↔ ∃ p, IsPath l root p q ∧ v = some (extract (shown .empty (valueOf p l)))

/-- What Python shows for a value on the board: numbers with their sign, texts up to three characters and the first NUL (the server cuts
them, C100), nothing for the other types. -/
def seen : Option AVal → PyVal
  | some (.scalar v) => .float v
  | some (.integer v) => .int v.toInt
  | some (.boolean b) => .bool b
  | some (.string s) => .str ((s.take 3).takeWhile (· ≠ 0))
  | _ => .none

/-- The values in the tree are those on the board. -/
theorem seen_value (v : Option AVal) : extract (shown .empty v) = seen v := by
  rcases v with _ | v
  · rfl
  · cases v with
    | integer v =>
      have h1 := BitVec.le_toInt v
      have h2 := BitVec.toInt_lt (x := v)
      simp only [shown, extract, seen, BitVec.toInt_ofInt]
      congr 1
      exact Int.bmod_eq_of_le (by omega) (by omega)
    | boolean b => cases b <;> rfl
    | _ => rfl

/-- The type in which a declared parameter is shown. -/
def declType : Decl → PyType
  | .scalar _ _ => .float
  | .integer _ _ => .int
  | .boolean _ _ => .bool
  | .string _ _ _ => .str
  | _ => .none

/-- What a user means by a text for a parameter of a type. -/
def Means (pyInt : Str → Option Int) (pyFloat : Str → Option W32) (text : Str) : Decl → AVal → Prop
  | .scalar _ _, .scalar v => pyFloat text = some v
  | .integer _ _, .integer v => pyInt text = some v.toInt
  | .boolean _ _, .boolean b => text = str (if b then "True" else "False")
  | .string _ _ _, .string s => text = s
  | _, _ => False

/-! ## Reading all parameters -/

/-- What the iteration gives for answers up to a timeout or an empty name. -/
theorem collect_until {rs : List Resp} {x : Option Resp} {rest : List (Option Resp)} (h : ∀ r ∈ rs, r.name ≠ [])
    (hx : x = none ∨ ∃ r, x = some r ∧ r.name = []) : collect (rs.map some ++ x :: rest) = some rs := by
  induction rs with
  | nil =>
    rcases hx with rfl | ⟨r, rfl, hr⟩
    · rfl
    · simp [collect, hr]
  | cons r rs ih =>
    rw [List.map_cons, List.cons_append, collect, if_neg (h r List.mem_cons_self), ih (fun s hs => h s (List.mem_cons_of_mem _ hs))]
    rfl

theorem collect_waits {rs : List Resp} (h : ∀ r ∈ rs, r.name ≠ []) : collect (rs.map some) = none := by
  induction rs with
  | nil => rfl
  | cons r rs ih =>
    rw [List.map_cons, collect, if_neg (h r List.mem_cons_self), ih (fun s hs => h s (List.mem_cons_of_mem _ hs))]; rfl

/-- The answers of a board, and the trees made from them. `ps` are the parameters in the order of the indices. Nothing is shown before the
last one has been answered; then the whole tree. If the answer for index `k` does not come, the tree ends there without an error. -/
theorem fetch_tree {fuel : Nat} {h0 h : Heap} {l : List Op} (hp : Proper l) (hd : Distinct l) (hpl : Plain l) (ha : Apart l)
    (hf : l.length ≤ fuel) (hr : run fuel h0 l = .ok h) {root : Nat} (hroot : root ∈ nss l) (htop : parentOf root l = none) :
    ∃ (ps : List Nat) (resp : Nat → Resp), ps.Nodup ∧ (∀ p, p ∈ ps ↔ ∃ q, IsPath l root p q) ∧
      (∀ i, respond fuel h root i = .ok (resp i)) ∧
      (∀ n ≤ ps.length, fetch ((List.range n).map fun i => some (resp i)) = .waiting) ∧
      (∃ t, t.Ok ∧ Shows l root t ∧ ∀ n, ps.length < n → fetch ((List.range n).map fun i => some (resp i)) = .done t) ∧
      (∀ k ≤ ps.length, ∃ t, ∀ rest, fetch (((List.range k).map fun i => some (resp i)) ++ none :: rest) = .done t ∧
        ∀ q v, t.lookup q = some v ↔ ∃ p ∈ ps.take k, IsPath l root p q ∧ v = some (extract (shown .empty (valueOf p l)))) := by
  obtain ⟨ps, hnd, hmem, hresp⟩ := respond_spec hp hd hpl hf hr hroot htop
  obtain ⟨resp, hok⟩ : ∃ resp : Nat → Resp, ∀ i, respond fuel h root i = .ok (resp i) :=
    ⟨fun i => (match respond fuel h root i with | .ok r => r | .error _ => ⟨[], .empty⟩), fun i => by
      rcases hresp i with ⟨-, h⟩ | ⟨p, name, -, h, -⟩ <;> simp only [h]⟩
  have hin : ∀ i p, ps[i]? = some p → (resp i).name ≠ [] ∧ IsPath l root p (pySplit (resp i).name) ∧
      (resp i).value = shown .empty (valueOf p l) := by
    intro i p hi
    rcases hresp i with ⟨h, -⟩ | ⟨p', name, h1, h2, h3, h4, -⟩
    · rw [hi] at h; cases h
    · rw [hi] at h1; cases h1
      rw [hok] at h2
      injection h2 with h2
      rw [h2]; exact ⟨h3, h4, rfl⟩
  have hname : ∀ i, i < ps.length → (resp i).name ≠ [] := fun i hi => (hin i _ (List.getElem?_eq_getElem hi)).1
  have hend : (resp ps.length).name = [] := by
    rcases hresp ps.length with ⟨-, h⟩ | ⟨p, name, h1, -⟩
    · rw [hok] at h; injection h with h; rw [h]
    · simp at h1
  have hfirst : ∀ k, k ≤ ps.length → ∀ r ∈ (List.range k).map resp, r.name ≠ [] := by
    intro k hk r hr
    obtain ⟨i, hi, rfl⟩ := List.mem_map.mp hr
    exact hname i (by have := List.mem_range.mp hi; omega)
  have hfill : ∀ k, k ≤ ps.length → ∃ t, fill ((List.range k).map resp) .nil = some t ∧ t.Ok ∧
      ∀ q v, t.lookup q = some v ↔ ∃ p ∈ ps.take k, IsPath l root p q ∧ v = some (extract (shown .empty (valueOf p l))) := by
    intro k hk
    obtain ⟨t, h1, h2, h3⟩ := fill_spec ((List.range k).map resp) .nil trivial (by
      rw [List.map_map]
      refine List.Pairwise.map _ (R := fun i j => i < j ∧ j < k) ?_ ?_
      · rintro i j ⟨hij, hj⟩
        have hi' := List.getElem?_eq_getElem (show i < ps.length by omega)
        have hj' := List.getElem?_eq_getElem (show j < ps.length by omega)
        have hne : ps[i] ≠ ps[j] := fun e => by
          have := (hnd.getElem_inj_iff (hi := by omega) (hj := by omega)).mp e
          omega
        exact ⟨fun e => hne (isPath_prefix hd ha (hin i _ hi').2.1 (hin j _ hj').2.1 e),
          fun e => hne (isPath_prefix hd ha (hin j _ hj').2.1 (hin i _ hi').2.1 e).symm⟩
      · refine List.Pairwise.imp_of_mem ?_ List.pairwise_lt_range
        intro a b _ hb hab
        exact ⟨hab, List.mem_range.mp hb⟩)
      (fun r hr => ⟨pySplit_ne _, fun q v hq => by rw [Tree.lookup_nil] at hq; cases hq⟩)
    refine ⟨t, h1, h2, fun q v => ?_⟩
    rw [h3, Tree.lookup_nil]
    constructor
    · rintro (h | ⟨r, hr, rfl, rfl⟩)
      · cases h
      · obtain ⟨i, hi, rfl⟩ := List.mem_map.mp hr
        have hi := List.mem_range.mp hi
        have hi' := List.getElem?_eq_getElem (show i < ps.length by omega)
        obtain ⟨-, e1, e2⟩ := hin i _ hi'
        exact ⟨ps[i], List.mem_take_iff_getElem.mpr ⟨i, by omega, rfl⟩, e1, by rw [e2]⟩
    · rintro ⟨p, hpm, hq, rfl⟩
      obtain ⟨i, hi, rfl⟩ := List.mem_take_iff_getElem.mp hpm
      have hi' := List.getElem?_eq_getElem (show i < ps.length by omega)
      obtain ⟨-, e1, e2⟩ := hin i _ hi'
      refine .inr ⟨resp i, List.mem_map_of_mem (List.mem_range.mpr (by omega)), ?_, by rw [e2]⟩
      rw [isPath_unique hp hroot htop hq, isPath_unique hp hroot htop e1]
  have hmap : ∀ k, (List.range k).map (fun i => some (resp i)) = ((List.range k).map resp).map some := fun k => by
    rw [List.map_map]; rfl
  refine ⟨ps, resp, hnd, hmem, hok, fun n hn => ?_, ?_, fun k hk => ?_⟩
  · unfold fetch
    rw [hmap, collect_waits (hfirst n hn)]
  · obtain ⟨t, h1, h2, h3⟩ := hfill ps.length (Nat.le_refl _)
    refine ⟨t, h2, fun q v => ?_, fun n hn => ?_⟩
    · rw [h3, List.take_length]
      constructor
      · rintro ⟨p, -, h⟩; exact ⟨p, h⟩
      · rintro ⟨p, h⟩; exact ⟨p, (hmem p).mpr ⟨q, h.1⟩, h⟩
    · obtain ⟨m, rfl⟩ : ∃ m, n = ps.length + (m + 1) := ⟨n - ps.length - 1, by omega⟩
      unfold fetch
      rw [List.range_add, List.map_append, hmap, List.range_succ_eq_map, List.map_cons, List.map_cons,
        collect_until (hfirst _ (Nat.le_refl _)) (.inr ⟨_, rfl, by rw [Nat.add_zero]; exact hend⟩)]
      dsimp only
      rw [h1]
  · obtain ⟨t, h1, -, h3⟩ := hfill k hk
    refine ⟨t, fun rest => ⟨?_, h3⟩⟩
    unfold fetch
    rw [hmap, collect_until (hfirst k hk) (.inl rfl)]
    dsimp only
    rw [h1]

/-! ## Changing a parameter -/

theorem atPath_set {l : List Op} {p : Nat} {v : AVal} {n k : Nat} {cs : List Str} : AtPath (.set p v :: l) n cs k ↔ AtPath l n cs k := by
  constructor
  · intro h
    induction h with
    | nil n => exact .nil n
    | cons h1 h2 _ ih => exact .cons h1 h2 ih
  · intro h
    induction h with
    | nil n => exact .nil n
    | cons h1 h2 _ ih => exact AtPath.cons (l := .set p v :: l) h1 h2 ih

theorem isPath_set {l : List Op} {p' : Nat} {v : AVal} {root p : Nat} {q : List Str} :
    IsPath (.set p' v :: l) root p q ↔ IsPath l root p q := by
  unfold IsPath
  simp only [atPath_set]; exact Iff.rfl

/-- The keys of a parameter joined by slashes are a name under which the board finds it. -/
theorem join_finds {fuel : Nat} {h0 h : Heap} {l : List Op} (hp : Proper l) (hd : Distinct l) (hpl : Plain l)
    (hf : l.length ≤ fuel) (hr : run fuel h0 l = .ok h) {root : Nat} (hroot : root ∈ nss l) {p : Nat} {q : List Str}
    (hq : IsPath l root p q) : parFind fuel h root (cStr (pyJoin q)) = .ok (some p) ∧ pySplit (pyJoin q) = q := by
  obtain ⟨hm, cs, hcs, rfl⟩ := hq
  have hsl := atPath_ids hcs (P := fun x => slash ∉ x ∧ x ≠ []) hpl.1
  have hnul := atPath_ids hcs (P := fun x => 0 ∉ x) (fun k _ _ => nsIdOf_nul hp)
  have hs : pySplit (render cs (parIdOf p l)) = [] :: cs ++ [parIdOf p l] := by
    rw [pySplit_components]; exact components_render (fun x hx => (hsl x hx).1) (hpl.2 p hm).1
  have hj : pyJoin ([] :: cs ++ [parIdOf p l]) = render cs (parIdOf p l) := by rw [← hs, join_split]
  rw [hj]
  refine ⟨?_, hs⟩
  have h0n : 0 ∉ render cs (parIdOf p l) := by
    unfold render
    intro h
    rcases List.mem_cons.mp h with h | h
    · cases h
    · rcases List.mem_append.mp h with h | h
      · obtain ⟨x, hx, h⟩ := List.mem_flatMap.mp h
        rcases List.mem_append.mp h with h | h
        · exact hnul x hx h
        · simp [slash] at h
      · exact parIdOf_nul hp h
  rw [cStr_self h0n]
  refine (parFind_iff hp hd hf hr hroot h0n (components_render (fun x hx => (hsl x hx).1) (hpl.2 p hm).1)).mpr ⟨(hpl.2 p hm).2, hm, rfl, ?_⟩
  have : ([] :: cs).filter (· ≠ []) = cs := by
    rw [List.filter_cons_of_neg (by simp)]
    exact List.filter_eq_self.mpr (fun x hx => by simpa using (hsl x hx).2)
  rw [this]; exact hcs

/-- Setting the value shown for a parameter. -/
theorem set_shows {l l' : List Op} (hp : Proper l) {root p : Nat} (hroot : root ∈ nss l) (htop : parentOf root l = none)
    {t : Tree (Option PyVal)} (ht : t.Ok) (hs : Shows l root t) {q : List Str} (hq : IsPath l root p q)
    (hpath : ∀ p q, IsPath l' root p q ↔ IsPath l root p q) (hother : ∀ p', p' ≠ p → valueOf p' l' = valueOf p' l) (hd : Distinct l)
    (ha : Apart l) :
    ∃ t', t.setAt (some (extract (shown .empty (valueOf p l')))) q = some t' ∧ t'.Ok ∧ Shows l' root t' := by
  have hqne : q ≠ [] := by obtain ⟨-, cs, -, rfl⟩ := hq; simp
  obtain ⟨t', h1, -⟩ := Tree.setAt_some (some (extract (shown .empty (valueOf p l')))) q t hqne ht (fun q' hq' hne => by
    cases hl : t.lookup q' with
    | none => rfl
    | some v =>
      obtain ⟨p', h', -⟩ := (hs q' v).mp hl
      have := isPath_prefix hd ha h' hq hq'
      subst this
      exact absurd ((isPath_unique hp hroot htop h').trans (isPath_unique hp hroot htop hq).symm) hne)
  obtain ⟨hok, hself, hrest⟩ := Tree.lookup_setAt _ _ _ _ ht h1
  refine ⟨t', h1, hok, fun q' v => ?_⟩
  by_cases hpre : q <+: q'
  · by_cases e : q' = q
    · subst e
      rw [hself]
      constructor
      · intro h; cases h; exact ⟨p, (hpath _ _).mpr hq, rfl⟩
      · rintro ⟨p', h', rfl⟩
        rw [isPath_prefix hd ha hq ((hpath _ _).mp h') (List.prefix_refl _)]
    · rw [Tree.lookup_below hself hpre (fun h => e h.symm)]
      constructor
      · intro h; cases h
      · rintro ⟨p', h', -⟩
        have h' := (hpath _ _).mp h'
        have := isPath_prefix hd ha hq h' hpre
        subst this
        exact absurd ((isPath_unique hp hroot htop h').trans (isPath_unique hp hroot htop hq).symm) e
  · rw [hrest q' hpre, hs]
    have hne : ∀ p', IsPath l root p' q' → p' ≠ p := by
      rintro p' h' rfl
      rw [isPath_unique hp hroot htop h', ← isPath_unique hp hroot htop hq] at hpre
      exact hpre (List.prefix_refl _)
    constructor
    · rintro ⟨p', h', rfl⟩
      exact ⟨p', (hpath _ _).mpr h', by rw [hother p' (hne p' h')]⟩
    · rintro ⟨p', h', rfl⟩
      have h' := (hpath _ _).mp h'
      exact ⟨p', h', by rw [hother p' (hne p' h')]⟩

theorem toParameter_some {v : PyVal} (h : v ≠ .none) : toParameter v = some v := by
  cases v <;> first | rfl | exact absurd rfl h

/-- A new text for a value in the tree. The request names the parameter that is shown there. If the board accepts the value, the parameter
is set to it, and afterwards the tree shows the values that are then on the board; if the board refuses it, everything stays as it is
(unless there is no value). -/
theorem edit_shows {fuel : Nat} {h0 h : Heap} {l : List Op} (hp : Proper l) (hd : Distinct l) (hpl : Plain l) (ha : Apart l)
    (hf : l.length + 1 ≤ fuel) (hr : run fuel h0 l = .ok h) {root : Nat} (hroot : root ∈ nss l) (htop : parentOf root l = none)
    {t : Tree (Option PyVal)} (ht : t.Ok) (hs : Shows l root t) {pyInt : Str → Option Int} {pyFloat : Str → Option W32}
    {keys : List Str} {text : Str} {q : Resp} (hq : request pyInt pyFloat t keys text = some q) :
    ∃ p d, IsPath l root p keys ∧ declOf p l = some d ∧ parFind fuel h root (cStr q.name) = .ok (some p) ∧
      toUavcan pyInt pyFloat text (extract (shown .empty (valueOf p l))).type = some q.value ∧
      (∀ v, meant d q.value = some v → Fits d v → ∃ h' r t', respondSet fuel h root q = .ok (h', r) ∧
        Proper (.set p v :: l) ∧ run fuel h0 (.set p v :: l) = .ok h' ∧ changed t r = some t' ∧ t'.Ok ∧ Shows (.set p v :: l) root t') ∧
      (meant d q.value = none → extract (shown .empty (valueOf p l)) ≠ .none → ∃ r t', respondSet fuel h root q = .ok (h, r) ∧
        changed t r = some t' ∧ t'.Ok ∧ Shows l root t') := by
  unfold request at hq
  cases hl : t.lookup keys with
  | none => rw [hl] at hq; cases hq
  | some o =>
    rw [hl] at hq
    obtain ⟨p, hpath, rfl⟩ := (hs keys o).mp hl
    dsimp only at hq
    cases hu : toUavcan pyInt pyFloat text (extract (shown .empty (valueOf p l))).type with
    | none => rw [hu] at hq; cases hq
    | some u =>
      rw [hu] at hq
      injection hq with hq
      subst hq
      obtain ⟨hfind, hsplit⟩ := join_finds hp hd hpl (by omega) hr hroot hpath
      obtain ⟨d, hdecl⟩ := pars_declOf hpath.1
      refine ⟨p, d, hpath, hdecl, hfind, hu, fun v hv hfit => ?_, fun hv hne => ?_⟩
      · obtain ⟨h', h1, hp', hr'⟩ := assign_sets hp hf hr hfind hdecl hv hfit
        have hread := read_shows hp' (by simpa using hf) hr' (show p ∈ pars (.set p v :: l) from hpath.1)
          (by rw [parFind_set hp' hf hr hr' hroot]; exact hfind) .empty
        have hval : valueOf p (.set p v :: l) = some v := by simp [valueOf]
        obtain ⟨t', h2, h3, h4⟩ := set_shows (l' := .set p v :: l) hp hroot htop ht hs hpath (fun _ _ => isPath_set)
          (fun p' hp' => by simp only [valueOf]; exact if_neg (fun e => hp' e.symm)) hd ha
        refine ⟨h', ⟨pyJoin keys, shown .empty (valueOf p (.set p v :: l))⟩, t', ?_, hp', hr', ?_, h3, h4⟩
        · unfold respondSet
          rw [show assignValue fuel h root (pyJoin keys) u = .ok h' from h1]
          show (readValue fuel h' root (pyJoin keys) .empty >>= _) = _
          rw [hread]; rfl
        · unfold changed
          dsimp only
          rw [hsplit, toParameter_some, h2]
          rw [hval]
          cases d <;> cases u <;> simp only [meant] at hv <;> first | cases hv; done | skip
          · cases hv; simp [shown, extract]
          · split at hv <;> cases hv
            simp [shown, extract]
          · cases hv; simp [shown, extract]
          · cases hv; simp [shown, extract]
      · have hread := read_shows hp (by omega) hr hpath.1 hfind .empty
        obtain ⟨t', h2, h3, h4⟩ := set_shows (l' := l) hp hroot htop ht hs hpath (fun _ _ => Iff.rfl) (fun _ _ => rfl) hd ha
        refine ⟨⟨pyJoin keys, shown .empty (valueOf p l)⟩, t', ?_, ?_, h3, h4⟩
        · unfold respondSet
          rw [show assignValue fuel h root (pyJoin keys) u = .ok h from assign_ignored hp (by omega) hr hfind hdecl hv]
          show (readValue fuel h root (pyJoin keys) .empty >>= _) = _
          rw [hread]; rfl
        · unfold changed
          dsimp only
          rw [hsplit, toParameter_some hne, h2]

/-- The type shown for a parameter with a value is the declared one. -/
theorem shown_type {fuel : Nat} {h0 h : Heap} {l : List Op} (hp : Proper l) (hf : l.length ≤ fuel) (hr : run fuel h0 l = .ok h)
    {p : Nat} {d : Decl} (hd : declOf p l = some d) (hv : valueOf p l ≠ none) :
    (extract (shown .empty (valueOf p l))).type = declType d := by
  have hval := (run_inv' hp hf hr).val p d hd
  cases ho : valueOf p l with
  | none => exact absurd ho hv
  | some a =>
    rw [ho] at hval
    cases d <;> cases hx : h.val p <;> rw [hx] at hval <;> simp only [valOK] at hval
    · rw [hval a rfl]; rfl
    · rw [hval a rfl]; rfl
    · rw [hval a rfl]; rfl
    · rw [hval.2.2.2 a rfl]; rfl
    · rw [(hval.2 a rfl).2]; rfl
    · rw [(hval.2 a rfl).2]; rfl

/-- A text that means a value sets the parameter to this value, if it is not `False` and not one of the two extreme integers. Missing: these,
for which it does not hold (`false_sets_true`, `Verif.ParamServer.extremes_refused`). -/
theorem typed_partial {pyInt : Str → Option Int} {pyFloat : Str → Option W32} {text : Str} {d : Decl} {v : AVal}
    (hm : Means pyInt pyFloat text d v) (hfit : Fits d v) (hfalse : v ≠ .boolean false)
    (hext : ∀ w, v = .integer w → w.toInt ≠ -2147483648 ∧ w.toInt ≠ 2147483647) (hstr : ∀ s, v = .string s → 0 ∉ s) :
    ∃ u, toUavcan pyInt pyFloat text (declType d) = some u ∧ meant d u = some v ∧ Fits d v := by
  cases d <;> cases v <;> simp only [Means] at hm
  · exact ⟨_, by simp only [declType, toUavcan, hm]; rfl, rfl, hfit⟩
  · rename_i j df w
    have h1 := BitVec.toInt_lt (x := w)
    have h2 := BitVec.le_toInt (x := w)
    obtain ⟨h3, h4⟩ := hext w rfl
    have h5 : (BitVec.ofInt 64 w.toInt).toInt = w.toInt := by
      rw [BitVec.toInt_ofInt]; rw [Int.bmod_eq_of_le] <;> omega
    refine ⟨.integer (BitVec.ofInt 64 w.toInt), ?_, ?_, hfit⟩
    · simp only [declType, toUavcan, hm]
      rw [if_pos (by omega)]
    · simp only [meant, h5]
      rw [if_pos (by omega), BitVec.ofInt_toInt]
  · rename_i j df b
    cases b with
    | false => exact absurd rfl hfalse
    | true =>
      refine ⟨.boolean 1, ?_, rfl, hfit⟩
      simp only [declType, toUavcan, hm]
      decide
  · rename_i buf j df s
    refine ⟨.string text, rfl, ?_, hfit⟩
    subst hm
    simp only [meant]
    rw [cStr_self (hstr _ rfl)]

/-- From the text to the board and back: a text that means a value is sent, the parameter has this value, and the tree shows it and all other
values as they are. Missing: the text `False`, the extreme integers and parameters without a value (`typed_partial`, `edit_none`). -/
theorem edit_sets_partial {fuel : Nat} {h0 h : Heap} {l : List Op} (hp : Proper l) (hd : Distinct l) (hpl : Plain l) (ha : Apart l)
    (hf : l.length + 1 ≤ fuel) (hr : run fuel h0 l = .ok h) {root : Nat} (hroot : root ∈ nss l) (htop : parentOf root l = none)
    {t : Tree (Option PyVal)} (ht : t.Ok) (hs : Shows l root t) {pyInt : Str → Option Int} {pyFloat : Str → Option W32}
    {p : Nat} {keys : List Str} (hk : IsPath l root p keys) (hval : valueOf p l ≠ none) {d : Decl} (hdecl : declOf p l = some d)
    {text : Str} {v : AVal} (hm : Means pyInt pyFloat text d v) (hfit : Fits d v) (hfalse : v ≠ .boolean false)
    (hext : ∀ w, v = .integer w → w.toInt ≠ -2147483648 ∧ w.toInt ≠ 2147483647) (hstr : ∀ s, v = .string s → 0 ∉ s) :
    ∃ q h' r t', request pyInt pyFloat t keys text = some q ∧ respondSet fuel h root q = .ok (h', r) ∧
      Proper (.set p v :: l) ∧ run fuel h0 (.set p v :: l) = .ok h' ∧ changed t r = some t' ∧ t'.Ok ∧ Shows (.set p v :: l) root t' := by
  obtain ⟨u, h1, h2, -⟩ := typed_partial hm hfit hfalse hext hstr
  have hl : t.lookup keys = some (some (extract (shown .empty (valueOf p l)))) := (hs _ _).mpr ⟨p, hk, rfl⟩
  have hreq : request pyInt pyFloat t keys text = some ⟨pyJoin keys, u⟩ := by
    unfold request
    rw [hl]
    dsimp only
    rw [shown_type hp (by omega) hr hdecl hval, h1]
  obtain ⟨p', d', h3, h4, -, -, h5, -⟩ := edit_shows hp hd hpl ha hf hr hroot htop ht hs hreq
  obtain rfl := isPath_prefix hd ha h3 hk (List.prefix_refl _)
  rw [hdecl] at h4
  cases h4
  obtain ⟨h', r, t', h6⟩ := h5 v h2 hfit
  exact ⟨_, h', r, t', hreq, h6⟩

/-- No text but the empty one sets a boolean parameter to false. -/
theorem false_sets_true (pyInt : Str → Option Int) (pyFloat : Str → Option W32) (j : Bool) (df : Option Bool) (text : Str) :
    ∃ u, toUavcan pyInt pyFloat text .bool = some u ∧ meant (.boolean j df) u = some (.boolean (decide (text ≠ []))) := by
  refine ⟨_, rfl, ?_⟩
  by_cases h : text = [] <;> simp [meant, h]

/-! ## Findings -/

/-- A board with a parameter and a namespace of the same name: `/a` and `/a/b`. -/
def clashOps : List Op :=
  [.declPar 1 1 (str "b") (.integer 0 (some 5)), .declPar 0 0 (str "a") (.integer 0 (some 4)), .declNs 1 (some 0) (str "a"), .declNs 0 none []]

/-- Then the tree cannot be read. -/
theorem clash_raises : ∃ (h : Heap) (resp : Nat → Resp), Proper clashOps ∧ Distinct clashOps ∧ Plain clashOps ∧ run 4 blank clashOps = .ok h ∧
    (∀ i, i < 3 → respond 4 h 0 i = .ok (resp i)) ∧ fetch ((List.range 3).map fun i => some (resp i)) = .raised := by
  have hp : Proper clashOps := declsOk_proper (by decide +kernel)
  obtain ⟨h, hr⟩ := run_ok (fuel := 4) (h0 := blank) hp (by decide)
  refine ⟨h, fun i => ([⟨str "/a", .integer 4⟩, ⟨str "/a/b", .integer 5⟩, ⟨[], .empty⟩] : List Resp).getD i ⟨[], .empty⟩, hp, ?_, ?_, hr, ?_, ?_⟩
  · unfold Distinct; decide +kernel
  · unfold Plain; decide +kernel
  · have key : (match run 4 blank clashOps with
        | .error _ => false
        | .ok h => (List.range 3).all fun i => decide ((respond 4 h 0 i).toOption = some
          (([⟨str "/a", .integer 4⟩, ⟨str "/a/b", .integer 5⟩, ⟨[], .empty⟩] : List Resp).getD i ⟨[], .empty⟩)) : Bool) = true := by
      decide +kernel
    rw [hr] at key
    replace key := List.all_eq_true.mp key
    intro i hi
    have := of_decide_eq_true (key i (List.mem_range.mpr hi))
    cases hres : respond 4 h 0 i with
    | error e => rw [hres] at this; cases this
    | ok r => rw [hres] at this; injection this with this; rw [this]
  · decide +kernel

/-- A new text for a parameter that shows no value (a vector, for instance) changes nothing on the board, but leaves `None` in the tree;
from then on a new text raises an exception. -/
theorem edit_none {fuel : Nat} {h0 h : Heap} {l : List Op} (hp : Proper l) (hd : Distinct l) (hpl : Plain l)
    (hf : l.length ≤ fuel) (hr : run fuel h0 l = .ok h) {root : Nat} (hroot : root ∈ nss l)
    {t : Tree (Option PyVal)} (ht : t.Ok) (hs : Shows l root t) {pyInt : Str → Option Int} {pyFloat : Str → Option W32}
    {keys : List Str} {p : Nat} (hk : IsPath l root p keys) (hv : shown .empty (valueOf p l) = .empty) (text : Str) {t' : Tree (Option PyVal)}
    {q r : Resp} {h' : Heap} (hq : request pyInt pyFloat t keys text = some q) (hres : respondSet fuel h root q = .ok (h', r))
    (ht' : changed t r = some t') : h' = h ∧ ∀ text', request pyInt pyFloat t' keys text' = none := by
  have hl : t.lookup keys = some (some .none) := (hs _ _).mpr ⟨p, hk, by rw [hv]; rfl⟩
  unfold request at hq
  rw [hl] at hq
  injection hq with hq
  subst hq
  obtain ⟨hfind, hsplit⟩ := join_finds hp hd hpl hf hr hroot hk
  obtain ⟨d, hdecl⟩ := pars_declOf hk.1
  have h1 : assignValue fuel h root (pyJoin keys) .empty = .ok h := assign_ignored hp hf hr hfind hdecl (by cases d <;> rfl)
  unfold respondSet at hres
  rw [h1] at hres
  replace hres : (readValue fuel h root (pyJoin keys) .empty >>= fun v => pure (h, (⟨pyJoin keys, v⟩ : Resp))) = .ok (h', r) := hres
  rw [read_shows hp hf hr hk.1 hfind, hv] at hres
  injection hres with hres
  injection hres with e1 e2
  subst e1; subst e2
  refine ⟨rfl, fun text' => ?_⟩
  unfold changed at ht'
  dsimp only at ht'
  rw [hsplit] at ht'
  unfold request
  rw [(Tree.lookup_setAt _ _ _ _ ht ht').2.1]
  rfl

/-! ## The hypotheses are met -/

theorem beacon_apart : Apart beaconOps := by unfold Apart; decide +kernel

/-- The beacon: its parameters are read into a tree. -/
example : ∃ h, run 30 blank beaconOps = .ok h ∧ ∃ t, t.Ok ∧ Shows beaconOps 0 t := by
  obtain ⟨h, hr⟩ := run_ok (fuel := 30) (h0 := blank) beacon_proper (by decide +kernel)
  obtain ⟨_, _, _, _, _, _, ⟨t, h1, h2, _⟩, _⟩ := fetch_tree beacon_proper beacon_distinct beacon_plain beacon_apart (by decide +kernel) hr
    (root := 0) (by decide +kernel) (by decide +kernel)
  exact ⟨h, hr, t, h1, h2⟩

/-- Two parameters in a namespace, read, and one of them changed. -/
example : (match fetch [some ⟨str "/uwb/pan_id", .integer 10⟩, some ⟨str "/uwb/mac_addr", .integer 3⟩, some ⟨[], .empty⟩] with
    | .done t => decide (t.lookup [[], str "uwb", str "pan_id"] = some (some (.int 10))) &&
      decide (request (fun _ => some 12) (fun _ => none) t [[], str "uwb", str "pan_id"] (str "12") = some ⟨str "/uwb/pan_id", .integer 12⟩) &&
      decide (((changed t ⟨str "/uwb/pan_id", .integer 12⟩).map (fun t' => (t'.lookup [[], str "uwb", str "pan_id"],
        t'.lookup [[], str "uwb", str "mac_addr"]))) = some (some (some (.int 12)), some (some (.int 3))))
    | _ => false) = true := by decide +kernel

/-- A boolean, a number and a string meant by texts. -/
example : Means (fun _ => some 12) (fun _ => none) (str "12") (.integer 0 none) (.integer 12) ∧
    Means (fun _ => none) (fun _ => none) (str "True") (.boolean false none) (.boolean true) ∧
    Means (fun _ => none) (fun _ => none) (str "abc") (.string [0, 0, 0, 0] 0 none) (.string (str "abc")) := by
  refine ⟨?_, rfl, rfl⟩
  show some _ = some _
  decide

end Verif.Studio
