import Verif.Config.Lemmas5

/-!
# Configuration: properties

C101: the generated code and `config_init` give one parameter for every value of the file, at the path of its keys and
with its type, and nothing else. C102: loading the packed file gives every parameter its value.
-/

namespace Verif.Config

open Verif.Param
open HeapList

variable {m : Dict} {P : Prog} {h h0 : Heap} {fuel : Nat}

/-! ## C101: generation -/

/-- Code is generated exactly if every value has a type of parameters. -/
theorem generates_iff (hne : NoEmpty m) (hn : m ≠ .nil) : (∃ P, generate m = .ok P) ↔ Supported m := by
  constructor
  · rintro ⟨P, hg⟩
    rw [generate_eq hne hn] at hg
    cases hi : initCode (tree (whole m) [configName]) with
    | error e => rw [hi] at hg; cases hg
    | ok code => exact supported_whole.mp (initCode_eq hi).2
  · intro hs
    rw [generate_eq hne hn, initCode_ok (supported_whole.mpr hs)]
    exact ⟨_, rfl⟩

/-- With names which are identifiers, not `ns` and without the suffix of the buffers, the generated code compiles. -/
theorem generated_compiles (hne : NoEmpty m) (hn : m ≠ .nil) (hs : Supported m) (hd : DistinctKeys m) (hg : GoodNames m) :
    ∃ P, generate m = .ok P ∧ P.compiles = true := compiles_of hne hn hs hd hg

/-- `config_init` ends. -/
theorem init_ends (hg : generate m = .ok P) (hc : P.compiles = true) (hne : NoEmpty m) (hn : m ≠ .nil) (hf : P.ops.length ≤ fuel) :
    ∃ h, configInit fuel h0 P = .ok h := by
  obtain ⟨h, hi, _⟩ := configInit_spec (h0 := h0) (good_of hg hc hne hn) hf
  exact ⟨h, hi⟩

/-- What is known after `config_init`. -/
theorem init_known (hg : generate m = .ok P) (hc : P.compiles = true) (hne : NoEmpty m) (hn : m ≠ .nil) (hf : P.ops.length ≤ fuel)
    (hi : configInit fuel h0 P = .ok h) : Good (whole m) P ∧ Inv P.ops h ∧ Extra P h := by
  have hG := good_of hg hc hne hn
  obtain ⟨h', h1, h2, h3⟩ := configInit_spec (h0 := h0) hG hf
  rw [hi] at h1
  injection h1 with h1
  subst h1
  exact ⟨hG, h2, h3⟩

/-- C101: `parameter_find(&global_config, path)` finds a parameter exactly if the file has a value at these keys
(separated by `/`, with empty ones ignored), and different values have different parameters. -/
theorem global_find_iff (hg : generate m = .ok P) (hc : P.compiles = true) (hne : NoEmpty m) (hn : m ≠ .nil) (hf : P.ops.length ≤ fuel)
    (hi : configInit fuel h0 P = .ok h) {path k : Str} {cs : List Str} (h0p : 0 ∉ path) (hp : components path = cs ++ [k]) :
    (∃ p, parFind fuel h P.global path = .ok (some p)) ↔ ∃ v, Leaf (.sub masterName m .nil) (cs.filter (· ≠ []) ++ [k]) v := by
  obtain ⟨hG, h2, h3⟩ := init_known hg hc hne hn hf hi
  constructor
  · rintro ⟨p, hp'⟩
    obtain ⟨v, hv, _⟩ := (global_find hG h2.tree h3 hf h0p hp).mp hp'
    exact ⟨v, hv⟩
  · rintro ⟨v, hv⟩
    exact ⟨_, (global_find hG h2.tree h3 hf h0p hp).mpr ⟨v, hv, rfl⟩⟩

/-- C101: likewise from `master_config`, with the keys below `master`. -/
theorem master_find_iff (hg : generate m = .ok P) (hc : P.compiles = true) (hne : NoEmpty m) (hn : m ≠ .nil) (hf : P.ops.length ≤ fuel)
    (hi : configInit fuel h0 P = .ok h) {path k : Str} {cs : List Str} (h0p : 0 ∉ path) (hp : components path = cs ++ [k]) :
    (∃ p, parFind fuel h P.masterCfg path = .ok (some p)) ↔ ∃ v, Leaf m (cs.filter (· ≠ []) ++ [k]) v := by
  obtain ⟨hG, h2, h3⟩ := init_known hg hc hne hn hf hi
  constructor
  · rintro ⟨p, hp'⟩
    obtain ⟨v, hv, _⟩ := (master_find hG h2.tree h3 hf h0p hp).mp hp'
    exact ⟨v, hv⟩
  · rintro ⟨v, hv⟩
    exact ⟨_, (master_find hG h2.tree h3 hf h0p hp).mpr ⟨v, hv, rfl⟩⟩

/-- C101: two paths lead to the same parameter only if they name the same keys. -/
theorem find_injective (hg : generate m = .ok P) (hc : P.compiles = true) (hne : NoEmpty m) (hn : m ≠ .nil) (hf : P.ops.length ≤ fuel)
    (hi : configInit fuel h0 P = .ok h) {path path' k k' : Str} {cs cs' : List Str} (h0p : 0 ∉ path) (h0p' : 0 ∉ path')
    (hp : components path = cs ++ [k]) (hp' : components path' = cs' ++ [k']) {p : Nat} (hq : parFind fuel h P.global path = .ok (some p))
    (hq' : parFind fuel h P.global path' = .ok (some p)) : cs.filter (· ≠ []) = cs'.filter (· ≠ []) ∧ k = k' := by
  obtain ⟨hG, h2, h3⟩ := init_known hg hc hne hn hf hi
  obtain ⟨v, hv, e⟩ := (global_find hG h2.tree h3 hf h0p hp).mp hq
  obtain ⟨v', hv', e'⟩ := (global_find hG h2.tree h3 hf h0p' hp').mp hq'
  have := parCell_inj hG hv hv' (e.symm.trans e')
  rw [List.append_inj_left' this rfl]
  exact ⟨rfl, by simpa using List.append_inj_right' this rfl⟩

/-- C101: the same parameter is found from `global_config` and, below `master`, from `master_config`. -/
theorem master_same (hg : generate m = .ok P) (hc : P.compiles = true) (hne : NoEmpty m) (hn : m ≠ .nil) (hf : P.ops.length ≤ fuel)
    (hi : configInit fuel h0 P = .ok h) {path : Str} (h0p : 0 ∉ path) {p : Nat} :
    parFind fuel h P.masterCfg path = .ok (some p) ↔ parFind fuel h P.global (masterName ++ slash :: path) = .ok (some p) := by
  obtain ⟨hG, h2, h3⟩ := init_known hg hc hne hn hf hi
  obtain ⟨cs, k, hp⟩ := components_snoc path
  have hp' : components (masterName ++ slash :: path) = (masterName :: cs) ++ [k] := by
    rw [components_split]
    have hk : idSplit (masterName ++ slash :: path) = 6 := rfl
    have hl : 6 < (masterName ++ slash :: path).length := by
      rw [List.length_append, List.length_cons, show masterName.length = 6 from by decide]; omega
    rw [hk, if_pos hl, show (masterName ++ slash :: path).take 6 = masterName from rfl,
      show (masterName ++ slash :: path).drop (6 + 1) = path from rfl, hp]
    rfl
  have h0' : 0 ∉ masterName ++ slash :: path := by
    rw [List.mem_append, List.mem_cons]
    rintro (h | h | h)
    · revert h; decide
    · revert h; decide
    · exact h0p h
  rw [master_find hG h2.tree h3 hf h0p hp, global_find hG h2.tree h3 hf h0' hp']
  have hm : masterName ≠ [] := by decide
  simp only [List.filter_cons, decide_eq_true_eq, hm, ne_eq, not_false_eq_true, decide_true, if_true, List.cons_append, leaf_whole]

/-- C101: the parameter has the type of the value, and no value yet. -/
theorem found_type (hg : generate m = .ok P) (hc : P.compiles = true) (hne : NoEmpty m) (hn : m ≠ .nil) (hf : P.ops.length ≤ fuel)
    (hi : configInit fuel h0 P = .ok h) {path k : Str} {cs : List Str} (h0p : 0 ∉ path) (hp : components path = cs ++ [k]) {p : Nat} {v : Scalar}
    (hq : parFind fuel h P.global path = .ok (some p)) (hv : Leaf (.sub masterName m .nil) (cs.filter (· ≠ []) ++ [k]) v) :
    ∃ t, v.ty = some t ∧ HasTy t (h.val p) ∧ h.defined p = false := by
  obtain ⟨hG, h2, h3⟩ := init_known hg hc hne hn hf hi
  obtain ⟨v', hv', e⟩ := (global_find hG h2.tree h3 hf h0p hp).mp hq
  have ht : ∃ t, v.ty = some t := by
    cases v with
    | other => exact absurd hv (hG.supported _)
    | _ => exact ⟨_, rfl⟩
  obtain ⟨t, ht⟩ := ht
  refine ⟨t, ht, ?_, ?_⟩
  · rw [e]; exact hasTy hG h2 hv ht
  · rw [e, h2.defined _ (par_mem hG hv), (changed_decls (ops_decls P) _).2]; rfl

/-- All files of a build give the same program. -/
theorem generateAll_same : ∀ {ds : List Dict} {prev : Option Prog} {P : Prog}, generateAll ds prev = .ok (some P) →
    (∀ d ∈ ds, generate d = .ok P) ∧ (∀ Q, prev = some Q → Q = P)
  | [], prev, P, h => by
    injection h with h
    exact ⟨by simp, fun Q hQ => by rw [hQ] at h; injection h⟩
  | d :: ds, prev, P, h => by
    simp only [generateAll, bind, Except.bind] at h
    cases hd : generate d with
    | error e => rw [hd] at h; cases h
    | ok code =>
      rw [hd] at h
      dsimp only at h
      cases prev with
      | none =>
        obtain ⟨h1, h2⟩ := generateAll_same h
        have := h2 code rfl
        subst this
        refine ⟨?_, by simp⟩
        intro x hx
        rcases List.mem_cons.mp hx with rfl | hx
        · exact hd
        · exact h1 x hx
      | some Q =>
        have h : (if code = Q then generateAll ds (some Q) else .error PyErr.runtimeError) = .ok (some P) := h
        by_cases hq : code = Q
        · rw [if_pos hq] at h
          obtain ⟨h1, h2⟩ := generateAll_same h
          have := h2 Q rfl
          subst this; subst hq
          refine ⟨?_, fun R hR => by injection hR with hR; exact hR.symm⟩
          intro x hx
          rcases List.mem_cons.mp hx with rfl | hx
          · exact hd
          · exact h1 x hx
        · rw [if_neg hq] at h; cases h

/-- C101: if the build succeeds for several files, then they have values at the same keys, of the same types. -/
theorem files_agree {ds : List Dict} (hg : generateAll ds none = .ok (some P)) (hc : P.compiles = true) {d d' : Dict} (hd : d ∈ ds) (hd' : d' ∈ ds)
    (he : NoEmpty d ∧ d ≠ .nil) (he' : NoEmpty d' ∧ d' ≠ .nil) {q : Path} {v : Scalar} (hv : Leaf d q v) : ∃ v', Leaf d' q v' ∧ v'.ty = v.ty := by
  have hs := (generateAll_same hg).1
  have hG := good_of (hs d hd) hc he.1 he.2
  have hG' := good_of (hs d' hd') hc he'.1 he'.2
  have hv1 : Leaf (whole d) (masterName :: q) v := .deep hv
  obtain ⟨q0, k, hq⟩ := (snoc_cases (masterName :: q)).resolve_left (by simp)
  rw [hq] at hv1
  have ht : ∃ t, v.ty = some t := by
    cases v with
    | other => exact absurd hv1 (hG.supported _)
    | _ => exact ⟨_, rfl⟩
  obtain ⟨t, ht⟩ := ht
  obtain ⟨dc, hdc, hop⟩ := par_decl hG hv1 ht
  obtain ⟨q', v', t', h1, h2, h3, h4, h5⟩ := par_decl_inv hG' hdc
  have hqq := nsCell_inj hG (leaf_prefix hv1 rfl) h4
  subst hqq
  rw [← hq] at h1
  refine ⟨v', leaf_whole.mp h1, ?_⟩
  rw [h2, ht]
  rw [← h5] at hop
  cases t <;> cases t' <;> first | rfl | (simp [Prog.op] at hop)

/-! ## C102: loading -/

/-- C102: loading the packed file after `config_init` succeeds without a message; then every value of the file is in
its parameter. The length of the document is bounded by the integers used; allocations succeed. -/
theorem load_all {W : Nat} {en : Msgpack.Env} {doc : List Nat} (hg : generate m = .ok P) (hc : P.compiles = true) (hne : NoEmpty m) (hn : m ≠ .nil)
    (hf : P.ops.length ≤ fuel) (hi : configInit fuel h0 P = .ok h) (hfit : ∀ q v, Leaf m q v → v.fits) (hen : ∀ k, en.alloc k = true)
    (hd : pack (.sub masterName m .nil) = .ok doc) (hlen : doc.length + 16 < 2 ^ 32 - 1) (hW : 2 * doc.length + 16 < W) :
    ∃ s, load W fuel en h P doc = .ok (true, s) ∧ s.errs = 0 ∧
      ∀ path k cs p v, 0 ∉ path → components path = cs ++ [k] → Leaf (.sub masterName m .nil) (cs.filter (· ≠ []) ++ [k]) v →
        parFind fuel s.heap P.global path = .ok (some p) → ∃ w, v.value = some w ∧ Param.read s.heap p = .ok w := by
  obtain ⟨hG, h2, h3⟩ := init_known hg hc hne hn hf hi
  obtain ⟨s, hs, he, hl⟩ := read_place hen (place_global hG h2 h3 hf hfit) (targets_nodup hG) hd hlen hW
  refine ⟨s, hs, he, ?_⟩
  intro path k cs p v h0p hp hv hq
  have hq' : parFind fuel h P.global path = .ok (some p) := by rw [← hq]; exact (parFindLoop_static hl.static _ _ _).symm
  obtain ⟨v', hv', e⟩ := (global_find hG h2.tree h3 hf h0p hp).mp hq'
  have hval : ∃ w, v.value = some w := by
    cases v with
    | other => exact absurd hv (hG.supported _)
    | _ => exact ⟨_, rfl⟩
  obtain ⟨w, hw⟩ := hval
  refine ⟨w, hw, ?_⟩
  have := hl.value _ (mem_targets hv hw [])
  rw [e]
  simpa using this

/-- C102: the load finds the parameters it had before, i.e. the lookups do not change. -/
theorem load_lookup {W : Nat} {en : Msgpack.Env} {doc : List Nat} {s : Msgpack.RS} (hg : generate m = .ok P) (hc : P.compiles = true) (hne : NoEmpty m)
    (hn : m ≠ .nil) (hf : P.ops.length ≤ fuel) (hi : configInit fuel h0 P = .ok h) (hfit : ∀ q v, Leaf m q v → v.fits) (hen : ∀ k, en.alloc k = true)
    (hd : pack (.sub masterName m .nil) = .ok doc) (hlen : doc.length + 16 < 2 ^ 32 - 1) (hW : 2 * doc.length + 16 < W)
    (hs : load W fuel en h P doc = .ok (true, s)) (path : Str) : parFind fuel s.heap P.global path = parFind fuel h P.global path := by
  obtain ⟨hG, h2, h3⟩ := init_known hg hc hne hn hf hi
  obtain ⟨s', hs', _, hl⟩ := read_place hen (place_global hG h2 h3 hf hfit) (targets_nodup hG) hd hlen hW
  have : s' = s := by
    have h1 : Except.ok (true, s') = Except.ok (ε := Err) (true, s) := hs'.symm.trans hs
    injection h1 with h1; injection h1
  subst this
  exact parFindLoop_static hl.static _ _ _

theorem changedClear_ok {p : Nat} (hs : Sound fuel h p) : ∃ h', changedClear fuel h p = .ok h' ∧ Static h h' ∧ h'.val = h.val ∧ h'.defined = h.defined := by
  unfold changedClear
  by_cases hc : h.changed p = true
  · obtain ⟨ch, h1, h2⟩ := hs.chain
    obtain ⟨c', hc'⟩ := addUp_ok (d := -1) ch fuel _ h.cnt h1 h2
    refine ⟨{ h with changed := upd h.changed p false, cnt := c' }, ?_, ⟨rfl, rfl, rfl, rfl, rfl, rfl, rfl, rfl⟩, rfl, rfl⟩
    rw [if_neg (by simp [hc])]
    show (addUp h.parent (-1) fuel (some (h.parNs p)) h.cnt >>= fun c => _) = _
    rw [hc']; rfl
  · exact ⟨{ h with changed := upd h.changed p false }, by rw [if_pos (by simp [hc])], ⟨rfl, rfl, rfl, rfl, rfl, rfl, rfl, rfl⟩, rfl, rfl⟩

theorem read_defined {p : Nat} {w : AVal} (hr : Param.read h p = .ok w) : h.defined p = true := by
  cases hx : h.defined p with
  | true => rfl
  | false =>
    unfold Param.read at hr
    cases hy : h.val p <;> simp [scalarRead, integerRead, booleanRead, vectorRead, varVectorRead, stringRead, hx, hy, assert, bind, Except.bind] at hr

theorem scalar_of_read {p : Nat} {x : W32} (hr : Param.read h p = .ok (.scalar x)) : scalarRead h p = .ok x := by
  have hd := read_defined hr
  unfold Param.read at hr
  cases hy : h.val p <;>
    simp [scalarRead, integerRead, booleanRead, vectorRead, varVectorRead, stringRead, hd, hy, assert, bind, Except.bind, pure, Except.pure] at hr ⊢ <;>
    first | exact hr | (split at hr <;> cases hr)

theorem integer_of_read {p : Nat} {x : W32} (hr : Param.read h p = .ok (.integer x)) : integerRead h p = .ok x := by
  have hd := read_defined hr
  unfold Param.read at hr
  cases hy : h.val p <;>
    simp [scalarRead, integerRead, booleanRead, vectorRead, varVectorRead, stringRead, hd, hy, assert, bind, Except.bind, pure, Except.pure] at hr ⊢ <;>
    first | exact hr | (split at hr <;> cases hr)

theorem boolean_of_read {p : Nat} {x : Bool} (hr : Param.read h p = .ok (.boolean x)) : booleanRead h p = .ok x := by
  have hd := read_defined hr
  unfold Param.read at hr
  cases hy : h.val p <;>
    simp [scalarRead, integerRead, booleanRead, vectorRead, varVectorRead, stringRead, hd, hy, assert, bind, Except.bind, pure, Except.pure] at hr ⊢ <;>
    first | exact hr | (split at hr <;> cases hr)

theorem not_read {p : Nat} (hd : h.defined p = false) :
    scalarRead h p = .error .assert ∧ integerRead h p = .error .assert ∧ booleanRead h p = .error .assert := by
  unfold scalarRead integerRead booleanRead
  cases h.val p <;> simp [hd, assert, bind, Except.bind]

theorem under_trans {l : List Op} {a b c : Nat} (h1 : Under l a b) (h2 : Under l b c) : Under l a c := by
  induction h2 with
  | self => exact h1
  | child hm hp _ ih => exact .child hm hp ih

theorem under_atPath {l : List Op} {n k : Nat} {cs : List Str} (h : AtPath l n cs k) : Under l n k := by
  induction h with
  | nil => exact .self
  | cons hm hp _ ih => exact under_trans (.child hm hp .self) ih

theorem set_changed {p : Nat} {w : AVal} {h' : Heap} (hs : Param.set fuel h p w = .ok h') : ∃ x, changedSet fuel (setVal h p x) p = .ok h' := by
  cases w with
  | scalar w => simp only [Param.set, scalarSet] at hs; split at hs <;> first | exact ⟨_, hs⟩ | cases hs
  | integer w => simp only [Param.set, integerSet] at hs; split at hs <;> first | exact ⟨_, hs⟩ | cases hs
  | boolean w => simp only [Param.set, booleanSet] at hs; split at hs <;> first | exact ⟨_, hs⟩ | cases hs
  | string w =>
    simp only [Param.set, stringSet, stringSetWLen] at hs
    split at hs
    · simp only [assert, bind, Except.bind] at hs
      repeat' split at hs
      all_goals first | exact ⟨_, hs⟩ | cases hs
    · cases hs
  | vector w =>
    simp only [Param.set, vectorSet] at hs
    split at hs
    · simp only [bind, Except.bind] at hs
      repeat' split at hs
      all_goals first | exact ⟨_, hs⟩ | cases hs
    · cases hs
  | varVector w =>
    simp only [Param.set, varVectorSet] at hs
    split at hs
    · simp only [assert, bind, Except.bind] at hs
      repeat' split at hs
      all_goals first | exact ⟨_, hs⟩ | cases hs
    · cases hs

/-- C102: `config_get_scalar`, `config_get_integer` and `config_get_boolean` after the load return what the file says, and do
not change any value. -/
theorem get_after_load {W : Nat} {en : Msgpack.Env} {doc : List Nat} {s : Msgpack.RS} (hg : generate m = .ok P) (hc : P.compiles = true) (hne : NoEmpty m)
    (hn : m ≠ .nil) (hf : P.ops.length ≤ fuel) (hi : configInit fuel h0 P = .ok h) (hfit : ∀ q v, Leaf m q v → v.fits) (hen : ∀ k, en.alloc k = true)
    (hd : pack (.sub masterName m .nil) = .ok doc) (hlen : doc.length + 16 < 2 ^ 32 - 1) (hW : 2 * doc.length + 16 < W)
    (hs : load W fuel en h P doc = .ok (true, s)) {path k : Str} {cs : List Str} (h0p : 0 ∉ path) (hp : components path = cs ++ [k]) :
    (∀ x, Leaf (.sub masterName m .nil) (cs.filter (· ≠ []) ++ [k]) (.float x) → ∃ h', getScalar fuel s.heap P path = .ok (h', x) ∧ ∀ q, Param.read h' q = Param.read s.heap q) ∧
    (∀ i, Leaf (.sub masterName m .nil) (cs.filter (· ≠ []) ++ [k]) (.int i) → ∃ h' w, getInteger fuel s.heap P path = .ok (h', w) ∧ w.toInt = i ∧ ∀ q, Param.read h' q = Param.read s.heap q) ∧
    (∀ b, Leaf (.sub masterName m .nil) (cs.filter (· ≠ []) ++ [k]) (.bool b) → ∃ h', getBoolean fuel s.heap P path = .ok (h', b) ∧ ∀ q, Param.read h' q = Param.read s.heap q) := by
  obtain ⟨hG, h2, h3⟩ := init_known hg hc hne hn hf hi
  obtain ⟨s', hs', _, hl⟩ := read_place hen (place_global hG h2 h3 hf hfit) (targets_nodup hG) hd hlen hW
  have : s' = s := by
    have h1 : Except.ok (true, s') = Except.ok (ε := Err) (true, s) := hs'.symm.trans hs
    injection h1 with h1; injection h1
  subst this
  have key : ∀ v w, Leaf (whole m) (cs.filter (· ≠ []) ++ [k]) v → v.value = some w → ∃ p h', getParam fuel s'.heap P path = .ok p ∧
      changedClear fuel s'.heap p = .ok h' ∧ Param.read h' p = .ok w ∧ ∀ q, Param.read h' q = Param.read s'.heap q := by
    intro v w hv hw
    have hfd := (global_find hG h2.tree h3 hf h0p hp).mpr ⟨v, hv, rfl⟩
    have hfd' : parFind fuel s'.heap P.global path = .ok (some (P.cell (parObj (cs.filter (· ≠ []) ++ [k])))) := by
      rw [← hfd]; exact parFindLoop_static hl.static _ _ _
    have hread := hl.value _ (mem_targets hv hw [])
    simp only [List.nil_append] at hread
    have hdef := read_defined hread
    have hsound : Sound fuel s'.heap (P.cell (parObj (cs.filter (· ≠ []) ++ [k]))) := by
      constructor
      · rw [hl.static.parent, hl.static.parNs]; exact (sound hG h2 hf hv).chain
      · intro _; exact hdef
    obtain ⟨h', c1, _, c3, c4⟩ := changedClear_ok hsound
    have hcong : ∀ q, Param.read h' q = Param.read s'.heap q := fun q => read_congr (by rw [c3]) (by rw [c4])
    refine ⟨_, h', ?_, c1, by rw [hcong]; exact hread, hcong⟩
    unfold getParam
    rw [hfd']; rfl
  refine ⟨?_, ?_, ?_⟩
  · intro x hx
    obtain ⟨p, h', g1, g2, g3, g4⟩ := key _ _ hx rfl
    refine ⟨h', ?_, g4⟩
    have hr : scalarRead h' p = .ok x := scalar_of_read g3
    unfold getScalar
    rw [g1]
    simp only [bind, Except.bind, g2, GetErr.lift, hr, pure, Except.pure]
  · intro i hx
    obtain ⟨p, h', g1, g2, g3, g4⟩ := key _ _ hx rfl
    refine ⟨h', BitVec.ofInt 32 i, ?_, ?_, g4⟩
    · have hr : integerRead h' p = .ok (BitVec.ofInt 32 i) := integer_of_read g3
      unfold getInteger
      rw [g1]
      simp only [bind, Except.bind, g2, GetErr.lift, hr, pure, Except.pure]
    · have hr : -2147483648 ≤ i ∧ i < 2147483648 := by
        cases hx' : (cs.filter (· ≠ []) ++ [k]) with
        | nil => simp at hx'
        | cons a b =>
          rw [hx'] at hx
          cases hx with
          | skipSub hx => cases hx
          | deep hx => exact hfit _ _ hx
      rw [BitVec.toInt_ofInt]
      rw [Int.bmod_def]
      split <;> omega
  · intro b hx
    obtain ⟨p, h', g1, g2, g3, g4⟩ := key _ _ hx rfl
    refine ⟨h', ?_, g4⟩
    have hr : booleanRead h' p = .ok b := boolean_of_read g3
    unfold getBoolean
    rw [g1]
    simp only [bind, Except.bind, g2, GetErr.lift, hr, pure, Except.pure]

/-- C102: a path without a value in the file makes `config_get_*` use a null pointer, before and after any load. -/
theorem get_unknown (hg : generate m = .ok P) (hc : P.compiles = true) (hne : NoEmpty m) (hn : m ≠ .nil) (hf : P.ops.length ≤ fuel)
    (hi : configInit fuel h0 P = .ok h) {path k : Str} {cs : List Str} (h0p : 0 ∉ path) (hp : components path = cs ++ [k])
    (hv : ¬ ∃ v, Leaf (.sub masterName m .nil) (cs.filter (· ≠ []) ++ [k]) v) :
    getScalar fuel h P path = .error .null ∧ getInteger fuel h P path = .error .null ∧ getBoolean fuel h P path = .error .null := by
  obtain ⟨hG, h2, h3⟩ := init_known hg hc hne hn hf hi
  have hnone : parFind fuel h P.global path = .ok none := by
    have e1 : parFind fuel h P.global path = parFind fuel h (P.cell (nsObj [])) path :=
      par_global hG h2.tree h3 hf (Nat.le_trans (ops_two hG) hf) _ _ h0p (Nat.le_refl _)
    have e2 : parFind fuel h (P.cell (nsObj [])) path = .ok (walkPar P.ops (P.cell (nsObj [])) (components path)) :=
      parFindLoop_spec h2.tree hf _ _ _ (root_mem hG) h0p (Nat.le_refl _)
    cases hw : walkPar P.ops (P.cell (nsObj [])) (components path) with
    | none => rw [e1, e2, hw]
    | some p =>
      rw [hw] at e2
      exact absurd ((global_find_iff hg hc hne hn hf hi h0p hp).mp ⟨p, e1.trans e2⟩) hv
  have hgp : getParam fuel h P path = .error .null := by unfold getParam; rw [hnone]; rfl
  unfold getScalar getInteger getBoolean
  rw [hgp]
  exact ⟨rfl, rfl, rfl⟩

/-- C102: before the load, `config_get_scalar` for a value of the file fails in an assertion. -/
theorem get_before_load (hg : generate m = .ok P) (hc : P.compiles = true) (hne : NoEmpty m) (hn : m ≠ .nil) (hf : P.ops.length ≤ fuel)
    (hi : configInit fuel h0 P = .ok h) {path k : Str} {cs : List Str} (h0p : 0 ∉ path) (hp : components path = cs ++ [k]) {v : Scalar}
    (hv : Leaf (.sub masterName m .nil) (cs.filter (· ≠ []) ++ [k]) v) :
    getScalar fuel h P path = .error (.par .assert) ∧ getInteger fuel h P path = .error (.par .assert) ∧ getBoolean fuel h P path = .error (.par .assert) := by
  obtain ⟨hG, h2, h3⟩ := init_known hg hc hne hn hf hi
  have hfd := (global_find hG h2.tree h3 hf h0p hp).mpr ⟨v, hv, rfl⟩
  have hgp : getParam fuel h P path = .ok (P.cell (parObj (cs.filter (· ≠ []) ++ [k]))) := by unfold getParam; rw [hfd]; rfl
  have hdef : h.defined (P.cell (parObj (cs.filter (· ≠ []) ++ [k]))) = false := by
    rw [h2.defined _ (par_mem hG hv), (changed_decls (ops_decls P) _).2]; rfl
  obtain ⟨h', c1, _, _, c4⟩ := changedClear_ok (sound hG h2 hf hv)
  have hdef' : h'.defined (P.cell (parObj (cs.filter (· ≠ []) ++ [k]))) = false := by rw [c4]; exact hdef
  obtain ⟨r1, r2, r3⟩ := not_read hdef'
  unfold getScalar getInteger getBoolean
  rw [hgp]
  simp only [bind, Except.bind, c1, GetErr.lift, r1, r2, r3, and_self]

/-! ## Change counters of the copies -/

/-- Setting a parameter of the file never reaches the counters of `global_config` and `master_config`: these are copies
made before, and the parameters' namespaces point to the originals. The namespace of the file is counted. -/
theorem copies_not_notified (hg : generate m = .ok P) (hc : P.compiles = true) (hne : NoEmpty m) (hn : m ≠ .nil) (hf : P.ops.length ≤ fuel)
    (hi : configInit fuel h0 P = .ok h) {q : Path} {v : Scalar} {w : AVal} {h' : Heap} (hv : Leaf m q v)
    (hs : Param.set fuel h (P.cell (parObj (masterName :: q))) w = .ok h') :
    containsChanged h' P.global = false ∧ containsChanged h' P.masterCfg = false ∧ containsChanged h' (P.cell (nsObj [masterName])) = true := by
  obtain ⟨hG, h2, h3⟩ := init_known hg hc hne hn hf hi
  have hv' : Leaf (whole m) (masterName :: q) v := .deep hv
  obtain ⟨q', k, hqk⟩ := (snoc_cases (masterName :: q)).resolve_left (by simp)
  have hat := (par_at hG (q0 := []) (q := q') (k := k) (.inl rfl) (p := P.cell (parObj (masterName :: q)))).mpr
    ⟨v, by rw [hqk] at hv'; simpa using hv', by rw [hqk]; simp⟩
  have hq' : ∃ q'', q' = masterName :: q'' := by
    cases q' with
    | nil =>
      injection hqk with _ e
      exact absurd e (leaf_ne hv)
    | cons a b => injection hqk with e _; exact ⟨b, by rw [e]⟩
  obtain ⟨q'', rfl⟩ := hq'
  have hpm := hat.1
  generalize P.cell (parObj (masterName :: q)) = p at *
  have hch : h.changed p = false := by rw [h2.changed _ hpm, (changed_decls (ops_decls P) _).1]
  obtain ⟨hns1, hns2⟩ := (atPath_iff hG).mp hat.2.2
  have hmem := ns_mem hG hns1
  have hcnt := set_changed hs
  obtain ⟨x, hcnt⟩ := hcnt
  have hpar : h.parNs p = P.cell (nsObj (masterName :: q'')) := by rw [h2.tree.parNs _ hpm, hns2]
  have hnodup : (chain (P.cell (nsObj (masterName :: q''))) P.ops).Nodup := chain_nodup (proper hG)
  have hadd := addUp_spec (d := 1) (chain (P.cell (nsObj (masterName :: q''))) P.ops) fuel (some (P.cell (nsObj (masterName :: q'')))) h.cnt (h2.tree.parent _ hmem) hnodup
    (Nat.le_trans (chain_length _ _) hf)
  have hcnt' : h'.cnt = fun n => if n ∈ chain (P.cell (nsObj (masterName :: q''))) P.ops then h.cnt n + 1 else h.cnt n := by
    unfold changedSet at hcnt
    rw [if_neg (show ¬ (setVal h p x).changed p = true by show ¬ h.changed p = true; rw [hch]; simp)] at hcnt
    have hcnt : (addUp h.parent 1 fuel (some (h.parNs p)) h.cnt >>= fun c => _) = Except.ok h' := hcnt
    rw [hpar, hadd] at hcnt
    injection hcnt with hcnt
    rw [← hcnt]
  have hout : ∀ n, P.members.length ≤ n → h'.cnt n = h.cnt n := by
    intro n hn
    rw [hcnt']
    simp only
    rw [if_neg]
    intro hm
    have := cell_ops_lt hG (chain_nss hm)
    omega
  refine ⟨?_, ?_, ?_⟩
  · simp only [containsChanged, hout P.global (Nat.le_refl _), h3.cntG]; decide
  · simp only [containsChanged, hout P.masterCfg (by unfold Prog.masterCfg; omega), h3.cntM]; decide
  · have hmm := ns_mem hG (.inr (master_sub m))
    have hzero : h.cnt (P.cell (nsObj [masterName])) = 0 := by
      rw [h2.cnt _ hmm, count_zero (fun p => (changed_decls (ops_decls P) p).1)]; rfl
    have hin : P.cell (nsObj [masterName]) ∈ chain (P.cell (nsObj (masterName :: q''))) P.ops := by
      rw [mem_chain (proper hG) hmem]
      have hpth := (atPath_iff hG).mpr ⟨hns1, rfl⟩
      generalize P.cell (nsObj (masterName :: q'')) = n at hpth
      generalize hpp : masterName :: q'' = pp at hpth
      cases hpth with
      | nil => cases hpp
      | @cons _ mm _ cs h1 h2' h3' =>
        injection hpp with e1 e2
        have : AtPath P.ops (P.cell (nsObj [])) [nsIdOf mm P.ops] mm := .cons h1 h2' (.nil _)
        rw [← e1] at this
        rw [← ((atPath_iff hG).mp this).2]
        exact under_atPath h3'
    simp only [containsChanged, hcnt', if_pos hin, hzero]
    decide

end Verif.Config
