import Verif.ParamServer.Lemmas
import Verif.ParamServer.Boards

/-!
# Properties of parameters over UAVCAN (C99)

`l` is any correct history of declarations and accesses (`Verif.Param.Spec`), `h` the memory it leads to.
-/

namespace Verif.ParamServer

open Verif.Param

/-! ## Enumeration -/

/-- Counting up the index visits every parameter below the root exactly once and then ends: the parameters are a list
without duplicates, index `i` gives its `i`-th element, and NULL behind the end. -/
theorem findByIndex_enumerates {fuel : Nat} {h0 h : Heap} {l : List Op} (hp : Proper l) (hf : l.length ≤ fuel)
    (hr : run fuel h0 l = .ok h) {root : Nat} (hroot : root ∈ nss l) :
    ∃ ps : List Nat, ps.Nodup ∧ (∀ p, p ∈ ps ↔ p ∈ pars l ∧ Under l root (nsOf p l)) ∧
      ∀ i, findByIndex fuel h root i = .ok ps[i]? := by
  have hlen : l.length < fuel + (chain root l).length := by
    rw [chain_unfold hp hroot, List.length_cons]; omega
  refine ⟨order l fuel root, nodup_order hp fuel root hroot hlen, fun p => mem_order hp fuel root hroot hlen, fun i => ?_⟩
  unfold findByIndex
  rw [byIndexFrom_spec (run_inv' hp hf hr).tree hp hf fuel root 0 hroot hlen (Nat.zero_le _)]
  show Except.ok (hit (order l fuel root) i 0).1 = _
  rw [hit_index]

/-- The full name of a parameter is the path from the root, each part preceded by a slash. -/
theorem fullName_path {fuel : Nat} {h0 h : Heap} {l : List Op} (hp : Proper l) (hf : l.length ≤ fuel)
    (hr : run fuel h0 l = .ok h) {root p : Nat} (hroot : root ∈ nss l) (htop : parentOf root l = none) (hm : p ∈ pars l)
    (hu : Under l root (nsOf p l)) :
    ∃ cs, AtPath l root cs (nsOf p l) ∧ fullName fuel h p = .ok (slash :: (cs.flatMap (· ++ [slash]) ++ parIdOf p l)) := by
  have ht := (run_inv' hp hf hr).tree
  refine ⟨_, chain_path hp hroot htop hu, ?_⟩
  have hn := nsOf_nss hp hm
  have hl := ht.parent _ hn
  rw [← ht.parNs p hm] at hl
  have hid : ∀ n ∈ chain (h.parNs p) l, h.nsId n = nsIdOf n l := fun n hn => ht.nsId n (chain_nss hn)
  unfold fullName treeHeight
  rw [heightLoop_spec hl (Nat.le_trans (chain_length _ l) hf)]
  obtain ⟨k, hk⟩ : ∃ k, (chain (h.parNs p) l).length = k + 1 := by
    rw [ht.parNs p hm, chain_unfold hp hn]; exact ⟨_, rfl⟩
  show ((nameLoop h p (0 + (chain (h.parNs p) l).length) [slash]) >>= fun name => pure (name ++ h.parId p)) = _
  rw [Nat.zero_add, hk, nameLoop_spec hl hid k [slash] (by omega)]
  show Except.ok (([slash] ++ pieces l ((chain (h.parNs p) l).take k).reverse) ++ h.parId p) = _
  rw [ht.parId p hm, ht.parNs p hm, List.dropLast_eq_take, ← ht.parNs p hm, hk, Nat.add_sub_cancel]
  rw [List.flatMap_map]
  simp only [pieces, List.append_assoc]; rfl

/-- Identifiers below the root are usable in paths. -/
def Plain (l : List Op) : Prop :=
  (∀ n ∈ nss l, parentOf n l ≠ none → slash ∉ nsIdOf n l ∧ nsIdOf n l ≠ []) ∧
  (∀ p ∈ pars l, slash ∉ parIdOf p l ∧ parIdOf p l ≠ [])

/-- The name given for an index leads back to the parameter with that index. -/
theorem nameByIndex_finds {fuel : Nat} {h0 h : Heap} {l : List Op} (hp : Proper l) (hd : Distinct l) (hpl : Plain l)
    (hf : l.length ≤ fuel) (hr : run fuel h0 l = .ok h) {root : Nat} (hroot : root ∈ nss l) (htop : parentOf root l = none)
    (i : Nat) :
    (findByIndex fuel h root i = .ok none ∧ nameByIndex fuel h root i = .ok none) ∨
    ∃ p name, p ∈ pars l ∧ findByIndex fuel h root i = .ok (some p) ∧ nameByIndex fuel h root i = .ok (some name) ∧
      parFind fuel h root (cStr name) = .ok (some p) := by
  obtain ⟨ps, -, hmem, hidx⟩ := findByIndex_enumerates hp hf hr hroot
  cases hi : ps[i]? with
  | none =>
    left
    have := hidx i
    rw [hi] at this
    exact ⟨this, by unfold nameByIndex; rw [this]; rfl⟩
  | some p =>
    right
    have hfi := hidx i
    rw [hi] at hfi
    obtain ⟨hm, hu⟩ := (hmem p).mp (List.mem_of_getElem? hi)
    obtain ⟨cs, hcs, hname⟩ := fullName_path hp hf hr hroot htop hm hu
    refine ⟨p, _, hm, hfi, by unfold nameByIndex; rw [hfi]; show (fullName fuel h p >>= _) = _; rw [hname]; rfl, ?_⟩
    have hsl := atPath_ids hcs (P := fun x => slash ∉ x ∧ x ≠ []) hpl.1
    have hnul := atPath_ids hcs (P := fun x => 0 ∉ x) (fun k _ _ => nsIdOf_nul hp)
    have h0n : 0 ∉ render cs (parIdOf p l) := by
      unfold render
      intro h
      rcases List.mem_cons.mp h with h | h
      · cases h
      · rcases List.mem_append.mp h with h | h
        · obtain ⟨x, hx, h⟩ := List.mem_flatMap.mp h
          rcases List.mem_append.mp h with h | h
          · exact hnul x hx h
          · simp [slash] at h
        · exact parIdOf_nul hp h
    show parFind fuel h root (cStr (render cs (parIdOf p l))) = _
    rw [cStr_self h0n]
    refine (parFind_iff hp hd hf hr hroot h0n (components_render (fun x hx => (hsl x hx).1) (hpl.2 p hm).1)).mpr ⟨(hpl.2 p hm).2, hm, rfl, ?_⟩
    have : ([] :: cs).filter (· ≠ []) = cs := by
      rw [List.filter_cons_of_neg (by simp)]
      exact List.filter_eq_self.mpr (fun x hx => by simpa using (hsl x hx).2)
    rw [this]; exact hcs

/-- Different indices have different names. -/
theorem nameByIndex_injective {fuel : Nat} {h0 h : Heap} {l : List Op} (hp : Proper l) (hd : Distinct l) (hpl : Plain l)
    (hf : l.length ≤ fuel) (hr : run fuel h0 l = .ok h) {root : Nat} (hroot : root ∈ nss l) (htop : parentOf root l = none)
    {i j : Nat} {name : Str} (hi : nameByIndex fuel h root i = .ok (some name)) (hj : nameByIndex fuel h root j = .ok (some name)) :
    i = j := by
  obtain ⟨ps, hnd, -, hidx⟩ := findByIndex_enumerates hp hf hr hroot
  rcases nameByIndex_finds hp hd hpl hf hr hroot htop i with ⟨_, h1⟩ | ⟨p, n1, -, hp1, h1, hf1⟩
  · rw [hi] at h1; cases h1
  rcases nameByIndex_finds hp hd hpl hf hr hroot htop j with ⟨_, h2⟩ | ⟨q, n2, -, hp2, h2, hf2⟩
  · rw [hj] at h2; cases h2
  rw [hi] at h1; rw [hj] at h2
  injection h1 with h1; injection h1 with h1; subst h1
  injection h2 with h2; injection h2 with h2; subst h2
  rw [hf1] at hf2
  injection hf2 with hf2; injection hf2 with hf2; subst hf2
  rw [hidx] at hp1 hp2
  injection hp1 with hp1; injection hp2 with hp2
  obtain ⟨hi', hi''⟩ := List.getElem?_eq_some_iff.mp hp1
  obtain ⟨hj', hj''⟩ := List.getElem?_eq_some_iff.mp hp2
  exact (hnd.getElem_inj_iff (hi := hi') (hj := hj')).mp (hi''.trans hj''.symm)

/-! ## Setting -/

/-- The value meant by a request for a parameter declared as `d`, if it is of the right type and in range. The range
excludes the largest and the smallest number of 32 bits. -/
def meant : Decl → Value → Option AVal
  | .scalar _ _, .real v => some (.scalar v)
  | .integer _ _, .integer v => if -2147483647 ≤ v.toInt ∧ v.toInt ≤ 2147483646 then some (.integer (BitVec.ofInt 32 v.toInt)) else none
  | .boolean _ _, .boolean v => some (.boolean (decide (v.toNat ≠ 0)))
  | .string _ _ _, .string s => some (.string (cStr s))
  | _, _ => none

theorem find_eq {fuel : Nat} {h0 h : Heap} {l : List Op} (hp : Proper l) (hf : l.length ≤ fuel) (hr : run fuel h0 l = .ok h)
    {root : Nat} (hroot : root ∈ nss l) (name : Str) : ∃ r, parFind fuel h root (cStr name) = .ok r ∧ ∀ p, r = some p → p ∈ pars l := by
  refine ⟨_, parFind_spec hp hf hr hroot (cStr_nul name), ?_⟩
  intro p hw
  obtain ⟨cs, c, hc⟩ := components_snoc (cStr name)
  exact (parFind_sound hp hf hr hroot (cStr_nul name) hc (by rw [parFind_spec hp hf hr hroot (cStr_nul name), hw])).2.1

/-- A request for a name that is not declared changes nothing. -/
theorem assign_unknown {fuel : Nat} {h : Heap} {root : Nat} {name : Str} (hn : parFind fuel h root (cStr name) = .ok none)
    (value : Value) : assignValue fuel h root name value = .ok h := by
  unfold assignValue; rw [hn]; rfl

/-- A request with a value of another type, or an integer out of range, changes nothing. -/
theorem assign_ignored {fuel : Nat} {h0 h : Heap} {l : List Op} (hp : Proper l) (hf : l.length ≤ fuel)
    (hr : run fuel h0 l = .ok h) {root p : Nat} {name : Str} (hn : parFind fuel h root (cStr name) = .ok (some p)) {d : Decl}
    (hd : declOf p l = some d) {value : Value} (hv : meant d value = none) : assignValue fuel h root name value = .ok h := by
  have hval := (run_inv' hp hf hr).val p d hd
  unfold assignValue; rw [hn]
  show (match h.val p, value with
    | .scalar _, .real v => scalarSet fuel h p v
    | .integer _, .integer v =>
      if -2147483648 < v.toInt ∧ v.toInt < 2147483647 then integerSet fuel h p (v.setWidth 32) else .ok h
    | .boolean _, .boolean v => booleanSet fuel h p (v ≠ 0)
    | .string _ _, .string s => stringSet fuel h p (cStr s)
    | _, _ => .ok h) = .ok h
  cases d <;> cases hx : h.val p <;> rw [hx] at hval <;> simp only [valOK] at hval <;> cases value <;>
    first
    | rfl
    | (simp [meant] at hv; done)
    | skip
  rename_i w
  simp only [meant] at hv
  split at hv
  · cases hv
  · rename_i hne
    show (if _ then _ else _) = _
    rw [if_neg (by omega)]

theorem setWidth_toInt (v : BitVec 64) : v.setWidth 32 = BitVec.ofInt 32 v.toInt := by
  apply BitVec.eq_of_toInt_eq
  rw [BitVec.toInt_ofInt, BitVec.toInt_setWidth, BitVec.toInt_eq_toNat_bmod, Int.bmod_bmod_of_dvd (by decide)]

theorem assign_eq_set {fuel : Nat} {h0 h : Heap} {l : List Op} (hp : Proper l) (hf : l.length ≤ fuel)
    (hr : run fuel h0 l = .ok h) {root p : Nat} {name : Str} (hn : parFind fuel h root (cStr name) = .ok (some p)) {d : Decl}
    (hd : declOf p l = some d) {value : Value} {v : AVal} (hv : meant d value = some v) :
    assignValue fuel h root name value = set fuel h p v := by
  have hval := (run_inv' hp hf hr).val p d hd
  unfold assignValue; rw [hn]
  show (match h.val p, value with
    | .scalar _, .real v => scalarSet fuel h p v
    | .integer _, .integer v =>
      if -2147483648 < v.toInt ∧ v.toInt < 2147483647 then integerSet fuel h p (v.setWidth 32) else .ok h
    | .boolean _, .boolean v => booleanSet fuel h p (v ≠ 0)
    | .string _ _, .string s => stringSet fuel h p (cStr s)
    | _, _ => .ok h) = _
  cases d <;> cases hx : h.val p <;> rw [hx] at hval <;> simp only [valOK] at hval <;> cases value <;>
    simp only [meant] at hv <;>
    first
    | (cases hv; done)
    | skip
  · cases hv; rfl
  · rename_i w
    split at hv
    · rename_i hin
      cases hv
      show (if _ then _ else _) = _
      rw [if_pos (by omega), setWidth_toInt]; rfl
    · cases hv
  · cases hv
    show booleanSet _ _ _ _ = booleanSet _ _ _ _
    congr 1
    rename_i w
    rw [decide_eq_decide, ne_eq, ne_eq, ← BitVec.toNat_inj]; rfl
  · cases hv; rfl

/-- A request with an acceptable value is the same as setting the parameter: the history continues with it. -/
theorem assign_sets {fuel : Nat} {h0 h : Heap} {l : List Op} (hp : Proper l) (hf : l.length + 1 ≤ fuel)
    (hr : run fuel h0 l = .ok h) {root p : Nat} {name : Str} (hn : parFind fuel h root (cStr name) = .ok (some p)) {d : Decl}
    (hd : declOf p l = some d) {value : Value} {v : AVal} (hv : meant d value = some v) (hfit : Fits d v) :
    ∃ h', assignValue fuel h root name value = .ok h' ∧ Proper (.set p v :: l) ∧ run fuel h0 (.set p v :: l) = .ok h' := by
  have hp' : Proper (.set p v :: l) := ⟨⟨d, hd, hfit⟩, hp⟩
  obtain ⟨h', hs, _⟩ := set_step_inv (fuel := fuel) (run_inv' hp (by omega) hr) hp' (by omega)
  refine ⟨h', by rw [assign_eq_set hp (by omega) hr hn hd hv, hs], hp', ?_⟩
  show (run fuel h0 l >>= fun h => step fuel h (.set p v)) = _
  rw [hr]; exact hs

/-- A string that does not fit the parameter's buffer is not refused: the request fails an assertion. -/
theorem long_string_asserts {fuel : Nat} {h0 h : Heap} {l : List Op} (hp : Proper l) (hf : l.length ≤ fuel)
    (hr : run fuel h0 l = .ok h) {root p : Nat} {name : Str} (hn : parFind fuel h root (cStr name) = .ok (some p))
    {buf : Str} {j : Nat} {df : Option Str} (hd : declOf p l = some (.string buf j df)) {s : Str} (hs : buf.length < (cStr s).length)
    (hs' : (cStr s).length < 65536) : assignValue fuel h root name (.string s) = .error .assert := by
  rw [assign_eq_set hp hf hr hn hd (v := .string (cStr s)) rfl]
  refine wrong_set_asserts hp hf hr hd ?_ ?_ ?_
  · simp only [Fits]; omega
  · intro t ht; cases ht; exact hs'
  · intro w b k dd hw; cases hw

/-! ## Reading -/

/-- What a client sees of a value; `out` if it sees nothing. -/
def shown (out : Value) : Option AVal → Value
  | some (.scalar v) => .real v
  | some (.integer v) => .integer (BitVec.ofInt 64 v.toInt)
  | some (.boolean b) => .boolean (if b then 1 else 0)
  | some (.string s) => .string (cStr (s.take 3))
  | _ => out

theorem read_unknown {fuel : Nat} {h : Heap} {root : Nat} {name : Str} (hn : parFind fuel h root (cStr name) = .ok none)
    (out : Value) : readValue fuel h root name out = .ok out := by
  unfold readValue; rw [hn]; rfl

theorem signExtend_ofInt (w : W32) : w.signExtend 64 = BitVec.ofInt 64 w.toInt := rfl

theorem cStr_append_nul {s : Str} : cStr (s ++ [0]) = cStr s := by
  induction s with
  | nil => rfl
  | cons x s ih =>
    unfold cStr at ih ⊢
    rw [List.cons_append, List.takeWhile_cons, List.takeWhile_cons, ih]

/-- Reading by name gives the parameter's value (set last, or the default); strings are cut to 3 characters, vectors
and parameters without value are not shown. -/
theorem read_shows {fuel : Nat} {h0 h : Heap} {l : List Op} (hp : Proper l) (hf : l.length ≤ fuel)
    (hr : run fuel h0 l = .ok h) {root p : Nat} {name : Str} (hm : p ∈ pars l) (hn : parFind fuel h root (cStr name) = .ok (some p))
    (out : Value) : readValue fuel h root name out = .ok (shown out (valueOf p l)) := by
  have hi := run_inv' hp hf hr
  have hdef := hi.defined p hm
  obtain ⟨d, hd⟩ := pars_declOf hm
  have hval := hi.val p d hd
  unfold readValue; rw [hn]
  show (if parDefined h (some p) then _ else _) = _
  cases hv : valueOf p l with
  | none =>
    rw [hv] at hdef
    rw [if_neg (by simp [parDefined, hdef])]; rfl
  | some a =>
    rw [hv] at hdef hval
    rw [if_pos (by simp [parDefined, hdef])]
    simp only [Option.isSome_some] at hdef
    cases d <;> cases hx : h.val p <;> rw [hx] at hval <;> simp only [valOK] at hval
    · rw [hval a rfl]; simp [scalarRead, hx, hdef, assert, shown, bind, Except.bind, pure, Except.pure]
    · rw [hval a rfl]; simp [integerRead, hx, hdef, assert, shown, bind, Except.bind, pure, Except.pure, signExtend_ofInt]
    · rw [hval a rfl]; simp [booleanRead, hx, hdef, assert, shown, bind, Except.bind, pure, Except.pure]
    · rw [hval.2.2.2 a rfl]; rfl
    · rw [(hval.2 a rfl).2]; rfl
    · rename_i buf len
      obtain ⟨h1, h2⟩ := hval.2 a rfl
      subst h2
      by_cases hc : len < 4
      · simp only [stringRead, hx, hdef, assert, ptrSize, bind, Except.bind, pure, Except.pure, if_pos hc, copyFrom, if_pos h1, shown,
          cStr_append_nul, List.take_take, Nat.min_eq_right (show len ≤ 3 by omega), if_true]
      · have h3 : 3 ≤ buf.length := by omega
        have hs : stringRead h p ptrSize = .ok (len, buf.take 3 ++ [0]) := by
          simp [stringRead, ptrSize, hx, hdef, assert, copyFrom, hc, h3, bind, Except.bind, pure, Except.pure]
        show (stringRead h p ptrSize >>= fun r => pure (Value.string (cStr r.2))) = _
        rw [hs]
        simp only [bind, Except.bind, pure, Except.pure, shown, cStr_append_nul, List.take_take, Nat.min_eq_left (show 3 ≤ len by omega)]

/-! ## Setting, then reading -/

theorem walkPar_set {l : List Op} {p : Nat} {v : AVal} : ∀ (cs : List Str) (n : Nat), walkPar (.set p v :: l) n cs = walkPar l n cs
  | [], _ => rfl
  | [c], n => rfl
  | [] :: d :: cs, n => walkPar_set (d :: cs) n
  | (x :: xs) :: d :: cs, n => by
    rw [walkPar_cons (by simp) (by simp), walkPar_cons (by simp) (by simp)]
    show (match (subs n l).find? (fun m => decide (nsIdOf m l = x :: xs)) with
      | none => none
      | some m => walkPar (.set p v :: l) m (d :: cs)) = _
    cases (subs n l).find? (fun m => decide (nsIdOf m l = x :: xs)) with
    | none => rfl
    | some m => exact walkPar_set (d :: cs) m

theorem parFind_set {fuel : Nat} {h0 h h' : Heap} {l : List Op} {p : Nat} {v : AVal} (hp : Proper (.set p v :: l)) (hf : l.length + 1 ≤ fuel)
    (hr : run fuel h0 l = .ok h) (hr' : run fuel h0 (.set p v :: l) = .ok h') {root : Nat} (hroot : root ∈ nss l) (name : Str) :
    parFind fuel h' root (cStr name) = parFind fuel h root (cStr name) := by
  rw [parFind_spec hp hf hr' hroot (cStr_nul name), parFind_spec hp.2 (by omega) hr hroot (cStr_nul name), walkPar_set]

/-- What a client reads back after setting a value: numbers come back as they were sent (the boolean as 0 or 1, strings
cut to 3 characters), and every other name reads as before. Missing: the extreme integers and longer strings, for which it is false (`extremes_refused`, `strings_cut`). -/
theorem set_then_read_partial {fuel : Nat} {h0 h : Heap} {l : List Op} (hp : Proper l) (hf : l.length + 1 ≤ fuel)
    (hr : run fuel h0 l = .ok h) {root p : Nat} (hroot : root ∈ nss l) {name : Str}
    (hn : parFind fuel h root (cStr name) = .ok (some p)) {d : Decl} (hd : declOf p l = some d) {value : Value} {v : AVal}
    (hv : meant d value = some v) (hfit : Fits d v) :
    ∃ h', assignValue fuel h root name value = .ok h' ∧
      (∀ out, readValue fuel h' root name out = .ok (match value with
        | .boolean b => .boolean (if b.toNat = 0 then 0 else 1)
        | .string s => .string ((cStr s).take 3)
        | x => x)) ∧
      ∀ name' out, parFind fuel h root (cStr name') ≠ .ok (some p) →
        readValue fuel h' root name' out = readValue fuel h root name' out := by
  obtain ⟨h', ha, hp', hr'⟩ := assign_sets hp hf hr hn hd hv hfit
  refine ⟨h', ha, fun out => ?_, fun name' out hne => ?_⟩
  · have hm : p ∈ pars l := declOf_pars hd
    rw [read_shows hp' (by simpa using hf) hr' (show p ∈ pars (.set p v :: l) from hm)
      (by rw [parFind_set hp' hf hr hr' hroot]; exact hn)]
    rw [show valueOf p (.set p v :: l) = some v by simp [valueOf]]
    cases d <;> cases value <;> simp only [meant] at hv <;> try (cases hv; done)
    · cases hv; rfl
    · rename_i w
      split at hv
      · rename_i hin
        cases hv
        simp only [shown]
        congr 2
        apply BitVec.eq_of_toInt_eq
        rw [BitVec.toInt_ofInt, BitVec.toInt_ofInt, Int.bmod_eq_of_le (m := 2 ^ 32) (by omega) (by omega)]
        exact Int.bmod_eq_of_le (by omega) (by omega)
      · cases hv
    · cases hv
      rename_i b
      simp only [shown]
      by_cases hb : b.toNat = 0 <;> simp [hb]
    · cases hv
      rename_i s
      simp only [shown]
      congr 2
      exact cStr_self (fun hc => cStr_nul s (List.mem_of_mem_take hc))
  · obtain ⟨r, hr1, hr2⟩ := find_eq hp (by omega) hr hroot name'
    have hr3 : parFind fuel h' root (cStr name') = .ok r := by rw [parFind_set hp' hf hr hr' hroot, hr1]
    cases r with
    | none => rw [read_unknown hr1, read_unknown hr3]
    | some q =>
      have hq : q ≠ p := fun e => hne (by rw [hr1, e])
      have hm := hr2 q rfl
      rw [read_shows hp (by omega) hr hm hr1, read_shows hp' (by simpa using hf) hr' (show q ∈ pars (.set p v :: l) from hm) hr3]
      simp [valueOf, Ne.symm hq]

/-! ## The boards -/

/-- Only accesses, no declarations. -/
def Accesses (ch : List Op) : Prop := ∀ op ∈ ch, (∃ p v, op = .set p v) ∨ ∃ p, op = .get p

theorem accesses_same {ch base : List Op} (ha : Accesses ch) :
    nss (ch ++ base) = nss base ∧ pars (ch ++ base) = pars base ∧ (∀ n, subs n (ch ++ base) = subs n base) ∧
    (∀ n, parsIn n (ch ++ base) = parsIn n base) ∧ (∀ n, nsIdOf n (ch ++ base) = nsIdOf n base) ∧
    (∀ p, parIdOf p (ch ++ base) = parIdOf p base) := by
  induction ch with
  | nil => simp
  | cons op ch ih =>
    have ih := ih (fun o ho => ha o (List.mem_cons_of_mem _ ho))
    rcases ha op List.mem_cons_self with ⟨p, v, rfl⟩ | ⟨p, rfl⟩ <;> exact ih

theorem walkPar_accesses {ch base : List Op} (ha : Accesses ch) : ∀ (cs : List Str) (n : Nat),
    walkPar (ch ++ base) n cs = walkPar base n cs := by
  obtain ⟨-, -, h3, h4, h5, h6⟩ := accesses_same (base := base) ha
  intro cs
  induction cs with
  | nil => intro n; rfl
  | cons c cs ih =>
    intro n
    cases cs with
    | nil => simp only [walkPar, h4, h6]
    | cons d cs =>
      cases c with
      | nil => exact ih n
      | cons x xs =>
        rw [walkPar_cons (by simp) (by simp), walkPar_cons (by simp) (by simp), h3]
        simp only [h5]
        cases (subs n base).find? (fun m => decide (nsIdOf m base = x :: xs)) with
        | none => rfl
        | some m => exact ih m

/-- The motor board's table is complete and without errors: whatever was set and read since the declarations, every
name in it is that of a parameter, and every parameter has exactly one index. -/
theorem motor_table {fuel : Nat} {h0 h : Heap} {ch : List Op} (ha : Accesses ch) (hp : Proper (ch ++ motorOps))
    (hf : (ch ++ motorOps).length ≤ fuel) (hr : run fuel h0 (ch ++ motorOps) = .ok h) :
    (∀ i, i < 39 → ∃ name p, motorName i = some name ∧ p ∈ pars motorOps ∧ parFind fuel h 0 (cStr name) = .ok (some p)) ∧
    (∀ i, 39 ≤ i → motorName i = none) ∧
    ∀ p ∈ pars motorOps, ∃ i, (∃ name, motorName i = some name ∧ parFind fuel h 0 (cStr name) = .ok (some p)) ∧
      ∀ j name, motorName j = some name → parFind fuel h 0 (cStr name) = .ok (some p) → j = i := by
  have hroot : 0 ∈ nss (ch ++ motorOps) := by rw [(accesses_same ha).1]; decide +kernel
  have hfind : ∀ name, parFind fuel h 0 (cStr name) = .ok (walkPar motorOps 0 (components (cStr name))) := by
    intro name
    rw [parFind_spec hp hf hr hroot (cStr_nul name), walkPar_accesses ha]
  have hlen : exposed.length = 39 := by decide +kernel
  have hmap : (exposed.map fun name => walkPar motorOps 0 (components (cStr name))).Perm ((pars motorOps).map some) := by
    rw [← List.isPerm_iff]; decide +kernel
  have hnd : (exposed.map fun name => walkPar motorOps 0 (components (cStr name))).Nodup :=
    hmap.nodup_iff.mpr (by decide +kernel)
  refine ⟨fun i hi => ?_, fun i hi => ?_, fun p hp => ?_⟩
  · have hi' : i < exposed.length := by omega
    obtain ⟨p, hp1, hp2⟩ := List.mem_map.mp (hmap.mem_iff.mp (List.mem_map_of_mem (List.getElem_mem hi')))
    exact ⟨exposed[i], p, List.getElem?_eq_getElem hi', hp1, by rw [hfind, hp2]⟩
  · exact List.getElem?_eq_none (by omega)
  · obtain ⟨name, hn1, hn2⟩ := List.mem_map.mp (hmap.mem_iff.mpr (List.mem_map_of_mem (f := some) hp))
    obtain ⟨i, hi, rfl⟩ := List.getElem_of_mem hn1
    refine ⟨i, ⟨_, List.getElem?_eq_getElem hi, by rw [hfind, hn2]⟩, fun j name hj hfj => ?_⟩
    rw [hfind] at hfj
    injection hfj with hfj
    obtain ⟨hj1, hj2⟩ := List.getElem?_eq_some_iff.mp hj
    have : (exposed.map fun name => walkPar motorOps 0 (components (cStr name)))[j]'(by simpa using hj1) =
        (exposed.map fun name => walkPar motorOps 0 (components (cStr name)))[i]'(by simpa using hi) := by
      simp only [List.getElem_map, hn2, hj2, hfj]
    exact (hnd.getElem_inj_iff).mp this

/-- A check of a list of declarations. -/
def declsOk : List Op → Bool
  | [] => true
  | .declNs n parent id :: l => decide (n ∉ nss l) && (parent.all fun m => decide (m ∈ nss l)) && decide (0 ∉ id) && declsOk l
  | .declPar p n id (.scalar _ _) :: l | .declPar p n id (.integer _ _) :: l | .declPar p n id (.boolean _ _) :: l =>
    decide (p ∉ pars l) && decide (n ∈ nss l) && decide (0 ∉ id) && declsOk l
  | _ => false

theorem declsOk_proper : ∀ {l : List Op}, declsOk l = true → Proper l
  | [], _ => True.intro
  | .declNs n parent id :: l, h => by
    simp only [declsOk, Bool.and_eq_true, decide_eq_true_eq] at h
    refine ⟨h.1.1.1, ?_, h.1.2, declsOk_proper h.2⟩
    rintro m rfl
    simpa using h.1.1.2
  | .declPar p n id (.scalar _ _) :: l, h => by
    simp only [declsOk, Bool.and_eq_true, decide_eq_true_eq] at h
    exact ⟨h.1.1.1, h.1.1.2, h.1.2, True.intro, declsOk_proper h.2⟩
  | .declPar p n id (.integer _ _) :: l, h => by
    simp only [declsOk, Bool.and_eq_true, decide_eq_true_eq] at h
    exact ⟨h.1.1.1, h.1.1.2, h.1.2, True.intro, declsOk_proper h.2⟩
  | .declPar p n id (.boolean _ _) :: l, h => by
    simp only [declsOk, Bool.and_eq_true, decide_eq_true_eq] at h
    exact ⟨h.1.1.1, h.1.1.2, h.1.2, True.intro, declsOk_proper h.2⟩

theorem motor_proper : Proper motorOps := declsOk_proper (by decide +kernel)

theorem beacon_proper : Proper beaconOps := declsOk_proper (by decide +kernel)

theorem beacon_distinct : Distinct beaconOps := by
  unfold Distinct; decide +kernel

theorem beacon_plain : Plain beaconOps := by
  unfold Plain; decide +kernel

/-- The names of the motor board fit `Name` of the UAVCAN library (92 characters), are C strings and not empty (an
empty name means access by index). -/
theorem motor_names_fit : ∀ name ∈ exposed, name.length ≤ 92 ∧ 0 ∉ name ∧ name ≠ [] := by decide +kernel

/-- The beacon after its declarations: the names for the indices, in order; behind the last one there is none. -/
def beaconNames : List Str :=
  ["/publish/data_packets", "/publish/tag_positions", "/publish/range", "/publish/attitude", "/publish/imu",
   "/ekf/range_variance", "/ekf/process_variance",
   "/uwb/antenna_delay", "/uwb/pan_id", "/uwb/mac_addr", "/uwb/anchor/advertisement_period_ms", "/uwb/anchor/is_anchor",
   "/uwb/anchor/position/z", "/uwb/anchor/position/y", "/uwb/anchor/position/x", "/ahrs/beta"].map str

/-- The list above is what the code gives (a check on one memory), and the names fit. -/
example : (match run 30 blank beaconOps with
    | .error _ => false
    | .ok h => (List.range 20).all fun i => decide ((nameByIndex 30 h 0 i).toOption = some beaconNames[i]?) : Bool) = true := by
  decide +kernel

example : ∀ name ∈ beaconNames, name.length ≤ 92 := by decide +kernel

/-- The hypotheses of the theorems are met by the beacon. -/
example : ∃ h, run 30 blank beaconOps = .ok h := run_ok beacon_proper (by decide +kernel)

example : 0 ∈ nss beaconOps ∧ parentOf 0 beaconOps = none ∧ Under beaconOps 0 (nsOf 8 beaconOps) ∧ 8 ∈ pars beaconOps := by
  refine ⟨by decide +kernel, by decide +kernel, ?_, by decide +kernel⟩
  exact (mem_chain beacon_proper (by decide +kernel)).mp (by decide +kernel)

/-- `/uwb/pan_id` set to 10, and refused values. -/
example : (match run 30 blank beaconOps with
    | .error _ => false
    | .ok h =>
      let name := str "/uwb/pan_id"
      (match assignValue 30 h 0 name (.integer 10) with
      | .error _ => false
      | .ok h' => decide ((readValue 30 h' 0 name .empty).toOption = some (.integer 10) ∧
          (readValue 30 h' 0 (str "/uwb/mac_addr") .empty).toOption = some (.integer 0))) &&
      (match assignValue 30 h 0 name (.integer 2147483647) with
      | .error _ => false
      | .ok h' => decide ((readValue 30 h' 0 name .empty).toOption = some (.integer 0))) : Bool) = true := by
  decide +kernel

/-- A parameter of 32 bits cannot be set to its largest and smallest value. -/
theorem extremes_refused {fuel : Nat} {h0 h : Heap} {l : List Op} (hp : Proper l) (hf : l.length ≤ fuel)
    (hr : run fuel h0 l = .ok h) {root p : Nat} {name : Str} (hn : parFind fuel h root (cStr name) = .ok (some p)) {j : W32}
    {df : Option W32} (hd : declOf p l = some (.integer j df)) :
    assignValue fuel h root name (.integer (BitVec.ofInt 64 2147483647)) = .ok h ∧
    assignValue fuel h root name (.integer (BitVec.ofInt 64 (-2147483648))) = .ok h :=
  ⟨assign_ignored hp hf hr hn hd (by simp only [meant]; exact if_neg (by decide)),
   assign_ignored hp hf hr hn hd (by simp only [meant]; exact if_neg (by decide))⟩

/-- A string parameter set to "hello" is not read back as such. -/
theorem strings_cut : ∃ (l : List Op) (name s : Str), Proper l ∧ Distinct l ∧ ∀ h0 h, run 3 h0 l = .ok h →
    ∃ h', assignValue 3 h 0 name (.string s) = .ok h' ∧ ∀ out, ∃ t, readValue 3 h' 0 name out = .ok (.string t) ∧ t ≠ s ∧ s.length = 5 := by
  have hp : Proper [.declPar 0 0 (str "s") (.string (List.replicate 10 0) 0 none), .declNs 0 none []] := by
    simp [Proper, nss, pars, DeclOK, str]
  refine ⟨_, str "s", str "hello", hp, ?_, fun h0 h hr => ?_⟩
  · unfold Distinct; decide +kernel
  · have hn : parFind 3 h 0 (cStr (str "s")) = .ok (some 0) := by
      rw [parFind_spec hp (by decide) hr (by decide) (cStr_nul _)]; decide +kernel
    obtain ⟨h', ha, hread, -⟩ := set_then_read_partial (value := .string (str "hello")) hp (by decide) hr (by decide) hn rfl rfl
      (by simp only [Fits]; decide +kernel)
    exact ⟨h', ha, fun out => ⟨_, hread out, by decide +kernel, by decide +kernel⟩⟩

end Verif.ParamServer
