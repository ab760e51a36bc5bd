import Verif.Msgpack.ReadLemmas

/-!
# Properties of saving and loading parameters (C21, C22)

`l` is the history of the tree that is saved, `l'` of the tree that is loaded. `B` bounds the names; the buffer must end
at least `B` bytes before the end of the address space.
-/

namespace Verif.Msgpack

open Verif.Param
open Verif.CmpMem (Mem)

theorem flatMap_congr {f g : Nat → List Nat} : ∀ {l : List Nat}, (∀ x ∈ l, f x = g x) → l.flatMap f = l.flatMap g
  | [], _ => rfl
  | x :: l, h => by
    rw [List.flatMap_cons, List.flatMap_cons, h x List.mem_cons_self, flatMap_congr (fun y hy => h y (List.mem_cons_of_mem _ hy))]

theorem tree_stable {l : List Op} (hp : Proper l) : ∀ (f g n : Nat), n ∈ nss l → l.length < f + (chain n l).length →
    l.length < g + (chain n l).length → Spec.tree l f n = Spec.tree l g n
  | 0, _, n, _, h, _ => by have := chain_length n l; omega
  | _ + 1, 0, n, _, _, h => by have := chain_length n l; omega
  | f + 1, g + 1, n, hn, h, h' => by
    simp only [Spec.tree]
    congr 2
    apply flatMap_congr
    intro m hm
    have hc := chain_child hp hm
    rw [tree_stable hp f g m (subs_nss hm) (by rw [hc]; simp; omega) (by rw [hc]; simp; omega)]

theorem chain_pos {l : List Op} (hp : Proper l) {n : Nat} (hn : n ∈ nss l) : 1 ≤ (chain n l).length := by
  rw [chain_unfold hp hn]; simp

/-- The document of a namespace: a map of its sub-namespaces and of its parameters that have a value. -/
theorem doc_eq {l : List Op} (hp : Proper l) {n : Nat} (hn : n ∈ nss l) :
    Spec.doc l n = Spec.map (Spec.entries l n) ++ (subs n l).flatMap (fun m => Spec.str (nsIdOf m l) ++ Spec.doc l m) ++
      (parsIn n l).flatMap (Spec.par l) := by
  have hpos := chain_pos hp hn
  unfold Spec.doc
  rw [tree_stable hp l.length (l.length + 1) n hn (by omega) (by omega)]
  rfl

theorem floats_wf (v : List W32) (h : v.length < 65536) : Spec.WF (Spec.floats v) := by
  have := Spec.WF.array (v.map Spec.float) (by rw [List.length_map]; omega) (by
    intro x hx
    obtain ⟨w, _, rfl⟩ := List.mem_map.mp hx
    exact .float w)
  rw [List.length_map] at this
  rwa [Spec.floats, List.flatMap_def]

/-- The document is well formed. -/
theorem doc_wf {l : List Op} {B : Nat} (hp : Proper l) (hs : Spec.Sized l B) (hnm : Spec.Named l) (hdim : Spec.Dims l) {n : Nat}
    (hn : n ∈ nss l) : Spec.WF (Spec.doc l n) := by
  suffices h : ∀ (f n : Nat), n ∈ nss l → l.length < f + (chain n l).length → Spec.WF (Spec.tree l f n) from
    h _ n hn (by have := chain_pos hp hn; omega)
  intro f
  induction f with
  | zero => intro n _ h; have := chain_length n l; omega
  | succ f ih =>
    intro n hn hc
    have hval : ∀ p v, valueOf p l = some v → Spec.WF (Spec.value v) := by
      intro p v hv
      cases v with
      | scalar v => exact .float v
      | integer v => exact .int32 v
      | boolean v => exact .bool v
      | vector v => exact floats_wf v (hdim.1 p v hv)
      | varVector v => exact floats_wf v (hdim.2 p v hv)
      | string v =>
        obtain ⟨d, _, hfit⟩ := fits_value hp hv
        refine .str v ?_
        cases d <;> simp only [Fits] at hfit
        omega
    have hm := Spec.WF.map
      ((subs n l).map (fun m => (Spec.str (nsIdOf m l), Spec.tree l f m)) ++
        (parsIn n l).filterMap (fun p => (valueOf p l).map (fun v => (Spec.str (parIdOf p l), Spec.value v))))
      (by
        have : ((parsIn n l).filterMap (fun p => (valueOf p l).map (fun v => (Spec.str (parIdOf p l), Spec.value v)))).length =
            ((parsIn n l).filter (fun p => (valueOf p l).isSome)).length := by
          rw [List.length_filterMap_eq_countP, List.countP_eq_length_filter]
          congr 1; apply List.filter_congr; intro p _; simp
        rw [List.length_append, List.length_map, this]
        exact (hs.1 n hn).2)
      (by
        intro kv hkv
        rcases List.mem_append.mp hkv with h | h
        · obtain ⟨m, hm, rfl⟩ := List.mem_map.mp h
          have := (hnm.1 m (subs_nss hm) (by rw [((mem_subs hp).mp hm).2]; simp)).2.2
          exact .str _ (by omega)
        · obtain ⟨p, hpm, hv⟩ := List.mem_filterMap.mp h
          have := (hnm.2 p (parsIn_pars hpm)).2.2
          cases hv' : valueOf p l with
          | none => rw [hv'] at hv; cases hv
          | some v =>
            rw [hv'] at hv
            simp only [Option.map_some, Option.some.injEq] at hv
            subst hv
            exact .str _ (by omega))
      (by
        intro kv hkv
        rcases List.mem_append.mp hkv with h | h
        · obtain ⟨m, hm, rfl⟩ := List.mem_map.mp h
          exact ih m (subs_nss hm) (by rw [chain_child hp hm]; simp; omega)
        · obtain ⟨p, hpm, hv⟩ := List.mem_filterMap.mp h
          cases hv' : valueOf p l with
          | none => rw [hv'] at hv; cases hv
          | some v =>
            rw [hv'] at hv
            simp only [Option.map_some, Option.some.injEq] at hv
            subst hv
            exact hval p v hv')
    have e1 : ((subs n l).map (fun m => (Spec.str (nsIdOf m l), Spec.tree l f m)) ++
        (parsIn n l).filterMap (fun p => (valueOf p l).map (fun v => (Spec.str (parIdOf p l), Spec.value v)))).length =
        Spec.entries l n := by
      have : ((parsIn n l).filterMap (fun p => (valueOf p l).map (fun v => (Spec.str (parIdOf p l), Spec.value v)))).length =
          ((parsIn n l).filter (fun p => (valueOf p l).isSome)).length := by
        rw [List.length_filterMap_eq_countP, List.countP_eq_length_filter]
        congr 1; apply List.filter_congr; intro p _; simp
      rw [List.length_append, List.length_map, this]; rfl
    have e2 : ∀ ps : List Nat, (ps.filterMap (fun p => (valueOf p l).map (fun v => (Spec.str (parIdOf p l), Spec.value v)))).flatMap
        (fun kv => kv.1 ++ kv.2) = ps.flatMap (Spec.par l) := by
      intro ps
      induction ps with
      | nil => rfl
      | cons p ps ihp =>
        rw [List.flatMap_cons, ← ihp]
        cases hv : valueOf p l with
        | none => rw [List.filterMap_cons_none (by rw [hv]; rfl)]; simp [Spec.par, hv]
        | some v => rw [List.filterMap_cons_some (by rw [hv]; rfl), List.flatMap_cons]; simp [Spec.par, hv]
    rw [e1, List.flatMap_append, e2, List.flatMap_map] at hm
    simp only [Spec.tree, List.append_assoc]
    exact hm

/-! ## Writing -/

section Write

variable {W B fuel : Nat} {h0 h : Heap} {l : List Op} {n : Nat} {buf : List Nat}

theorem write_emits (hp : Proper l) (hf : l.length ≤ fuel) (hr : run fuel h0 l = .ok h) (hs : Spec.Sized l B) (hB : 65536 ≤ B)
    (hn : n ∈ nss l) (hW : buf.length + B < W) :
    ∃ m k, write W fuel h n buf = .ok (m, k) ∧ m.buf.length = buf.length ∧ m.index ≤ buf.length ∧
      ((Spec.doc l n).length ≤ buf.length → m = put (CmpMem.init buf) (Spec.doc l n) ∧ k = 0) := by
  have hi := run_inv' hp hf hr
  have hpos := chain_pos hp hn
  have hst : Spec.tree l fuel n = Spec.doc l n := tree_stable hp _ _ n hn (by omega) (by omega)
  obtain ⟨m, k, h1, h2, h3, h4⟩ := writeSubtree_spec (W := W) hi hp hf hB hs fuel n hn (by omega) (CmpMem.init buf) 0 (Nat.zero_le _) hW
  refine ⟨m, k, h1, h2.1, by rw [← show m.buf.length = buf.length from h2.1]; exact h2.2.2, ?_⟩
  intro hfit
  rw [hst] at h4
  exact h4 (by simpa [CmpMem.init] using hfit)

/-- Saving never leaves the buffer, whatever its size. -/
theorem write_safe (hp : Proper l) (hf : l.length ≤ fuel) (hr : run fuel h0 l = .ok h) (hs : Spec.Sized l B) (hB : 65536 ≤ B)
    (hn : n ∈ nss l) (hW : buf.length + B < W) :
    ∃ m k, write W fuel h n buf = .ok (m, k) ∧ m.buf.length = buf.length ∧ m.index ≤ buf.length := by
  obtain ⟨m, k, h1, h2, h3, _⟩ := write_emits hp hf hr hs hB hn hW
  exact ⟨m, k, h1, h2, h3⟩

/-- If the document fits, no error is reported, the buffer starts with the document, the position is its end and the bytes
behind are unchanged. -/
theorem write_complete (hp : Proper l) (hf : l.length ≤ fuel) (hr : run fuel h0 l = .ok h) (hs : Spec.Sized l B) (hB : 65536 ≤ B)
    (hn : n ∈ nss l) (hW : buf.length + B < W) (hfit : (Spec.doc l n).length ≤ buf.length) :
    write W fuel h n buf = .ok (⟨Spec.doc l n ++ buf.drop (Spec.doc l n).length, (Spec.doc l n).length⟩, 0) := by
  obtain ⟨m, k, h1, _, _, h4⟩ := write_emits hp hf hr hs hB hn hW
  obtain ⟨e1, e2⟩ := h4 hfit
  rw [h1, e1, e2]
  simp [put, CmpMem.init]

/-- Errors are only reported when the document does not fit. -/
theorem error_only_if_too_small (hp : Proper l) (hf : l.length ≤ fuel) (hr : run fuel h0 l = .ok h) (hs : Spec.Sized l B)
    (hB : 65536 ≤ B) (hn : n ∈ nss l) (hW : buf.length + B < W) {m : Mem} {k : Nat} (hw : write W fuel h n buf = .ok (m, k))
    (hk : k ≠ 0) : buf.length < (Spec.doc l n).length := by
  rcases Nat.lt_or_ge buf.length (Spec.doc l n).length with h | h
  · exact h
  · rw [write_complete hp hf hr hs hB hn hW h] at hw
    injection hw with hw; injection hw with _ hw
    exact absurd hw.symm hk

/-- `t` reports an error iff `e` does not fit. -/
def Strict (W B : Nat) (t : Mem × Nat → Except Param.Err (Mem × Nat)) (e : List Nat) : Prop :=
  ∀ (m : Mem) (k : Nat), m.index ≤ m.buf.length → m.buf.length + B < W →
    ∃ m' k', t (m, k) = .ok (m', k') ∧ Ext m m' ∧ k ≤ k' ∧ (k' = k → m.index + e.length ≤ m.buf.length ∧ m' = put m e)

theorem strict_foldl {t : Mem × Nat → Nat → Except Param.Err (Mem × Nat)} {e : Nat → List Nat} :
    ∀ {l : List Nat}, (∀ x ∈ l, Strict W B (fun s => t s x) (e x)) → Strict W B (fun s => l.foldlM t s) (l.flatMap e)
  | [], _ => fun m k hi _ => ⟨m, k, rfl, Ext.refl hi, Nat.le_refl _, fun _ => ⟨by simpa using hi, by simp [put_nil]⟩⟩
  | x :: l, h => by
    intro m k hi hW
    obtain ⟨m1, k1, h1, he, hk, hp⟩ := h x List.mem_cons_self m k hi hW
    obtain ⟨m2, k2, h2, he2, hk2, hp2⟩ := strict_foldl (l := l) (fun y hy => h y (List.mem_cons_of_mem _ hy)) m1 k1 he.2.2
      (by rw [he.1]; exact hW)
    refine ⟨m2, k2, ?_, he.trans he2, Nat.le_trans hk hk2, ?_⟩
    · simp only [List.foldlM_cons, bind, Except.bind]
      have h1' : t (m, k) x = .ok (m1, k1) := h1
      rw [h1']; exact h2
    · intro hkk
      obtain ⟨a1, a2⟩ := hp (by omega)
      obtain ⟨b1, b2⟩ := hp2 (by omega)
      rw [he.1, a2] at b1
      simp only [put] at b1
      have hfit : m.index + (e x ++ l.flatMap e).length ≤ m.buf.length := by rw [List.length_append]; omega
      rw [List.flatMap_cons]
      exact ⟨hfit, by rw [b2, a2, put_put hfit]⟩

theorem writePar_strict (hi : Inv l h) (hp : Proper l) (hB : 65536 ≤ B) (hs : Spec.Sized l B) {p : Nat} (hm : p ∈ pars l) :
    Strict W B (fun s => writePar W h s p) (Spec.par l p) := by
  unfold writePar Spec.par
  rw [hi.defined p hm]
  cases hv : valueOf p l with
  | none => exact fun m k hi _ => ⟨m, k, by simp, Ext.refl hi, Nat.le_refl _, fun _ => ⟨by simpa using hi, by simp [put_nil]⟩⟩
  | some v =>
    simp only [Option.isSome_some, Bool.not_true]
    obtain ⟨d, hd, hfit⟩ := fits_value hp hv
    have hval := hi.val p d hd
    rw [hv] at hval
    rw [hi.tree.parId p hm]
    have hw : IsWriter W B (both (writeStr W (parIdOf p l)) (writeVal W (h.val p))) (Spec.str (parIdOf p l) ++ Spec.value v) := by
      refine both_spec (writeStr_spec (by omega) (hs.2 p hm)) (writeVal_spec (by omega) ?_ hval)
      intro s hsv
      subst hsv
      cases d <;> simp only [Fits] at hfit <;> omega
    intro m k hi' hW
    obtain ⟨b, m', h1, he, hb, hput⟩ := hw.ok hi' hW
    refine ⟨m', if b then k else k + 1, ?_, he, ?_, ?_⟩
    · simp only [h1, bind, Except.bind, pure, Except.pure]; rfl
    · split <;> omega
    · intro hk
      cases b with
      | false => simp at hk
      | true => exact ⟨hb.mp rfl, hput rfl⟩

theorem value_pos (v : AVal) : 1 ≤ (Spec.value v).length := by
  cases v with
  | scalar v => simp [Spec.value, Spec.float]
  | integer v => simp [Spec.value, Spec.int32]
  | boolean v => simp [Spec.value, Spec.bool]
  | string s => have := str_pos s; simp only [Spec.value]; omega
  | vector v =>
    simp only [Spec.value, Spec.floats, Spec.array, List.length_append]
    split
    · simp
    · split <;> simp <;> omega
  | varVector v =>
    simp only [Spec.value, Spec.floats, Spec.array, List.length_append]
    split
    · simp
    · split <;> simp <;> omega

theorem pars_bytes (l : List Op) : ∀ ps : List Nat,
    2 * (ps.filter (fun p => (valueOf p l).isSome)).length ≤ (ps.flatMap (Spec.par l)).length
  | [] => by simp
  | p :: ps => by
    have ih := pars_bytes l ps
    rw [List.flatMap_cons, List.length_append]
    cases hv : valueOf p l with
    | none => rw [List.filter_cons_of_neg (by simp [hv])]; omega
    | some v =>
      rw [List.filter_cons_of_pos (by simp [hv]), List.length_cons]
      have h1 := str_pos (parIdOf p l)
      have h2 := value_pos v
      have : (Spec.par l p).length = (Spec.str (parIdOf p l)).length + (Spec.value v).length := by simp [Spec.par, hv]
      omega

/-- A namespace without sub-namespaces: an error is reported iff the document does not fit. The claim is about any
namespace; what is missing is shown by `nested_error_not_reported` and `empty_error_not_reported`. -/
theorem error_iff_too_small_partial (hp : Proper l) (hf : l.length ≤ fuel) (hr : run fuel h0 l = .ok h) (hs : Spec.Sized l B)
    (hB : 65536 ≤ B) (hn : n ∈ nss l) (hW : buf.length + B < W) (hflat : subs n l = []) (hbuf : buf ≠ []) {m : Mem} {k : Nat}
    (hw : write W fuel h n buf = .ok (m, k)) : k = 0 ↔ (Spec.doc l n).length ≤ buf.length := by
  constructor
  · intro hk
    subst hk
    have hi := run_inv' hp hf hr
    obtain ⟨fuel, rfl⟩ : ∃ f, fuel = f + 1 := ⟨fuel - 1, by
      have := chain_length n l; have := chain_pos hp hn; omega⟩
    have e1 : gather h.nsNext (fuel + 1) (h.sub n) = .ok (subs n l) :=
      gather_spec (hi.tree.subs n hn) (Nat.le_trans (subs_length n l) hf)
    have e2 : gather h.parNext (fuel + 1) (h.plist n) = .ok (parsIn n l) :=
      gather_spec (hi.tree.plist n hn) (Nat.le_trans (parsIn_length n l) hf)
    have e3 : ((subs n l).length + ((parsIn n l).filter h.defined).length) % 2 ^ 32 = Spec.entries l n := by
      rw [entries_eq hi, Nat.mod_eq_of_lt (hs.1 n hn).2]
    have hbl : 0 < buf.length := List.length_pos_iff.mpr hbuf
    obtain ⟨b, m1, r1, he1, hb, hput⟩ := (writeMap_spec (W := W) (B := B) (n := Spec.entries l n) (by omega)).ok (m := CmpMem.init buf)
      (Nat.zero_le _) hW
    obtain ⟨m2, k2, r2, he2, hk2, hst⟩ := strict_foldl (W := W) (B := B) (t := writePar W h) (e := Spec.par l) (l := parsIn n l)
      (fun p hpm => writePar_strict hi hp hB hs (parsIn_pars hpm)) m1 0 he1.2.2 (by rw [he1.1]; exact hW)
    have hrun : write W (fuel + 1) h n buf = .ok (m2, k2) := by
      simp only [write, writeSubtree, e1, e2, e3, bind, Except.bind, r1]
      simp only [hflat, List.foldlM_nil, pure, Except.pure]
      exact r2
    rw [hrun] at hw
    injection hw with hw; injection hw with hm hk
    obtain ⟨hfit, _⟩ := hst hk
    have hbytes := pars_bytes l (parsIn n l)
    have hent : Spec.entries l n = ((parsIn n l).filter (fun p => (valueOf p l).isSome)).length := by simp [Spec.entries, hflat]
    rw [doc_eq hp hn, hflat]
    simp only [List.flatMap_nil, List.append_nil, List.length_append]
    rw [he1.1] at hfit
    simp only [CmpMem.init] at hfit hb
    cases b with
    | true =>
      rw [hput rfl] at hfit
      simp only [put, CmpMem.init] at hfit
      omega
    | false =>
      have hnb : ¬ 0 + (Spec.map (Spec.entries l n)).length ≤ buf.length := fun h => by cases hb.mpr h
      unfold Spec.map at hnb
      by_cases h1 : Spec.entries l n < 16
      · rw [if_pos h1] at hnb; simp only [List.length_cons, List.length_nil] at hnb; omega
      · rw [if_neg h1] at hnb
        by_cases h2 : Spec.entries l n < 65536
        · rw [if_pos h2] at hnb; simp [be_length] at hnb; omega
        · rw [if_neg h2] at hnb; simp [be_length] at hnb; omega
  · intro hfit
    rw [write_complete hp hf hr hs hB hn hW hfit] at hw
    injection hw with hw; injection hw with _ hw
    exact hw.symm

end Write

/-! ## Saving and loading -/

theorem valueOf_sets {l' : List Op} {p : Nat} : ∀ {S : List Op}, (∀ op ∈ S, ∃ q v, op = .set q v) →
    valueOf p (S ++ l') = match S.find? (fun op => match op with | .set q _ => decide (q = p) | _ => false) with
      | some (.set _ v) => some v
      | _ => valueOf p l'
  | [], _ => rfl
  | op :: S, h => by
    obtain ⟨q, v, rfl⟩ := h op List.mem_cons_self
    have ih := valueOf_sets (l' := l') (p := p) (S := S) (fun o ho => h o (List.mem_cons_of_mem _ ho))
    simp only [List.cons_append, valueOf]
    by_cases hq : q = p
    · simp [hq]
    · simp only [hq, if_false, ih]
      rw [List.find?_cons_of_neg (by simp [hq])]

/-- Loading a saved tree: no error, every parameter saved has the value it had, all others keep theirs. -/
theorem load_saved {W B fuel : Nat} {en : Env} {h0' h' : Heap} {l l' : List Op} {n : Nat} {doc : List Nat}
    (halloc : ∀ k, en.alloc k = true) (hp : Proper l) (hp' : Proper l') (hsame : Spec.SameDecls l l') (hd : Distinct l)
    (hnm : Spec.Named l) (hs : Spec.Sized l B) (hroom : Spec.RoomForNul l) (hdim : Spec.Dims l) (hB : 65536 ≤ B) (hn : n ∈ nss l)
    (hr' : run fuel h0' l' = .ok h') (hf : l'.length + (Spec.doc l n).length ≤ fuel) (hW : doc.length + B < W)
    (hdoc : Spec.doc l n <+: doc) :
    ∃ s, read W fuel en h' n doc = .ok (true, s) ∧ s.errs = 0 ∧
      (∀ p v, p ∈ pars l → Under l n (nsOf p l) → valueOf p l = some v → Param.read s.heap p = .ok v) ∧
      (∀ p v, ¬(Under l n (nsOf p l) ∧ valueOf p l ≠ none) → valueOf p l' = some v → Param.read s.heap p = .ok v) := by
  have hc : Ctx W B fuel en l := ⟨halloc, hB, hp, hd, hnm, hs, hroom, hdim.1, hdim.2⟩
  have hi' := run_inv' hp' (by omega) hr'
  obtain ⟨rest, hrest⟩ := hdoc
  have hpos := chain_pos hp hn
  obtain ⟨k, r, hl⟩ := readTree (W := W) hc l.length n hn (by omega) (doc.length + 1) l' ⟨CmpMem.init doc, h', 0⟩ rest
    ⟨by simp only [CmpMem.init, List.drop_zero]; exact hrest.symm, Nat.zero_le _⟩ hW hi' hp' (same_of_decls hsame)
    (by have := congrArg List.length hrest; simp only [Spec.doc, List.length_append] at this; omega) hf
  obtain ⟨k', h2, S, g1, g2, g3, g4, g5, g6, g7, g8⟩ := hl.res
  refine ⟨⟨adv (adv (CmpMem.init doc) k) k', h2, 0⟩, ?_, rfl, ?_, ?_⟩
  · simp only [read, bind, Except.bind]
    rw [show readObject W (CmpMem.init doc) = _ from r]
    exact g1
  · intro p v hpm hu hv
    apply read_spec g3 g4
    rw [valueOf_sets (fun op hop => by obtain ⟨q, w, e, _⟩ := g7 op hop; exact ⟨q, w, e⟩)]
    have hin := g8 p v ⟨hpm, hu⟩ hv
    cases hfd : S.find? (fun op => match op with | .set q _ => decide (q = p) | _ => false) with
    | none => have := List.find?_eq_none.mp hfd _ hin; simp at this
    | some op =>
      obtain ⟨q, w, rfl, hw, _⟩ := g7 op (List.mem_of_find?_eq_some hfd)
      have := List.find?_some hfd
      simp only [decide_eq_true_eq] at this
      subst this
      rw [hv] at hw
      exact hw.symm
  · intro p v hno hv
    apply read_spec g3 g4
    rw [valueOf_sets (fun op hop => by obtain ⟨q, w, e, _⟩ := g7 op hop; exact ⟨q, w, e⟩)]
    cases hfd : S.find? (fun op => match op with | .set q _ => decide (q = p) | _ => false) with
    | none => exact hv
    | some op =>
      obtain ⟨q, w, rfl, hw, _, hu⟩ := g7 op (List.mem_of_find?_eq_some hfd)
      have := List.find?_some hfd
      simp only [decide_eq_true_eq] at this
      subst this
      exact absurd ⟨hu, by rw [hw]; simp⟩ hno

/-- Save, then load into a tree with the same declarations and any values. The buffer is large enough for the document
(see `save_load_flat_partial` for when reported success implies that). Missing with respect to the claim: success of the
write does not always mean that the document was complete (`nested_error_not_reported`), strings as long as their buffer
are refused (`full_string_refused`) and names must be distinct (`duplicate_names_lost`). -/
theorem save_load_partial {W B fuel : Nat} {en : Env} {h0 h h0' h' : Heap} {l l' : List Op} {n : Nat} {buf : List Nat}
    (halloc : ∀ k, en.alloc k = true) (hp : Proper l) (hp' : Proper l') (hsame : Spec.SameDecls l l') (hd : Distinct l)
    (hnm : Spec.Named l) (hs : Spec.Sized l B) (hroom : Spec.RoomForNul l) (hdim : Spec.Dims l) (hB : 65536 ≤ B) (hn : n ∈ nss l)
    (hr : run fuel h0 l = .ok h) (hr' : run fuel h0' l' = .ok h') (hf : l.length ≤ fuel)
    (hf' : l'.length + (Spec.doc l n).length ≤ fuel) (hW : buf.length + B < W) (hfit : (Spec.doc l n).length ≤ buf.length) :
    ∃ m s, write W fuel h n buf = .ok (m, 0) ∧ read W fuel en h' n m.buf = .ok (true, s) ∧ s.errs = 0 ∧
      (∀ p v, p ∈ pars l → Under l n (nsOf p l) → Param.read h p = .ok v → Param.read s.heap p = .ok v) ∧
      (∀ p v, ¬(Under l n (nsOf p l) ∧ valueOf p l ≠ none) → valueOf p l' = some v → Param.read s.heap p = .ok v) := by
  have hw := write_complete hp hf hr hs hB hn hW hfit
  obtain ⟨s, h1, h2, h3, h4⟩ := load_saved (W := W) (B := B) (doc := Spec.doc l n ++ buf.drop (Spec.doc l n).length) halloc hp hp' hsame hd
    hnm hs hroom hdim hB hn hr' hf' (by simp; omega) (List.prefix_append _ _)
  refine ⟨_, s, hw, h1, h2, ?_, h4⟩
  intro p v hpm hu hv
  cases hval : valueOf p l with
  | some w =>
    have := read_spec (run_inv' hp hf hr) hp hval
    rw [this] at hv
    injection hv with hv
    subst hv
    exact h3 p w hpm hu hval
  | none =>
    exfalso
    have hi := run_inv' hp hf hr
    have hdef := hi.defined p hpm
    rw [hval] at hdef
    obtain ⟨d, hd⟩ := pars_declOf hpm
    unfold Param.read at hv
    cases hx : h.val p <;> rw [hx] at hv <;>
      simp [scalarRead, integerRead, booleanRead, vectorRead, varVectorRead, stringRead, hx, hdef, Param.assert, bind, Except.bind] at hv

/-- For a namespace without sub-namespaces success of the write is enough. -/
theorem save_load_flat_partial {W B fuel : Nat} {en : Env} {h0 h h0' h' : Heap} {l l' : List Op} {n : Nat} {buf : List Nat} {m : Mem}
    (halloc : ∀ k, en.alloc k = true) (hp : Proper l) (hp' : Proper l') (hsame : Spec.SameDecls l l') (hd : Distinct l)
    (hnm : Spec.Named l) (hs : Spec.Sized l B) (hroom : Spec.RoomForNul l) (hdim : Spec.Dims l) (hB : 65536 ≤ B) (hn : n ∈ nss l)
    (hr : run fuel h0 l = .ok h) (hr' : run fuel h0' l' = .ok h') (hf : l.length ≤ fuel)
    (hf' : l'.length + (Spec.doc l n).length ≤ fuel) (hW : buf.length + B < W) (hflat : subs n l = []) (hbuf : buf ≠ [])
    (hw : write W fuel h n buf = .ok (m, 0)) :
    ∃ s, read W fuel en h' n m.buf = .ok (true, s) ∧ s.errs = 0 ∧
      (∀ p v, p ∈ pars l → Under l n (nsOf p l) → Param.read h p = .ok v → Param.read s.heap p = .ok v) := by
  have hfit := (error_iff_too_small_partial hp hf hr hs hB hn hW hflat hbuf hw).mp rfl
  obtain ⟨m', s, h1, h2, h3, h4, _⟩ := save_load_partial halloc hp hp' hsame hd hnm hs hroom hdim hB hn hr hr' hf hf' hW hfit
  rw [hw] at h1
  injection h1 with h1; injection h1 with h1 _
  subst h1
  exact ⟨s, h2, h3, h4⟩

/-! ## Examples and witnesses -/

/-- The declarations of `demo`; `/a/x` was set to 3 and `/s` to "abc". -/
def other : List Op :=
  [.set 11 (.string [97, 98, 99]), .set 10 (.scalar 3), .declPar 11 0 [115] (.string [0, 0, 0, 0] 0 none),
   .declPar 10 1 [120] (.scalar 5 none), .declNs 1 (some 0) [97], .declNs 0 none []]

theorem other_proper : Proper other := by
  simp [other, Proper, nss, pars, declOf, valueOf, Fits, DeclOK, Decl.default]

theorem demo_named : Spec.Named demo := by
  constructor
  · intro m hm
    simp only [demo, nss, List.mem_cons, List.not_mem_nil, or_false] at hm
    rcases hm with rfl | rfl
    · intro _; unfold Spec.Name; decide
    · intro h; exact absurd rfl h
  · intro p hp
    simp only [demo, pars, List.mem_cons, List.not_mem_nil, or_false] at hp
    rcases hp with rfl | rfl <;> unfold Spec.Name <;> decide

theorem demo_sized : Spec.Sized demo 65536 := by
  constructor
  · intro m hm
    simp only [demo, nss, List.mem_cons, List.not_mem_nil, or_false] at hm
    rcases hm with rfl | rfl <;> decide
  · intro p hp
    simp only [demo, pars, List.mem_cons, List.not_mem_nil, or_false] at hp
    rcases hp with rfl | rfl <;> decide

theorem demo_value {p : Nat} {v : AVal} (h : valueOf p demo = some v) : (p = 11 ∧ v = .string [104, 105]) ∨ (p = 10 ∧ v = .scalar 7) := by
  simp only [demo, valueOf, Decl.default] at h
  by_cases h1 : 11 = p
  · subst h1; simp at h; exact .inl ⟨rfl, h.symm⟩
  · by_cases h2 : 10 = p
    · subst h2; simp at h; exact .inr ⟨rfl, h.symm⟩
    · simp [h1, h2] at h

theorem demo_room : Spec.RoomForNul demo := by
  intro p s b j d hv hd
  rcases demo_value hv with ⟨rfl, h⟩ | ⟨rfl, h⟩
  · simp only [demo, declOf] at hd
    simp at hd h
    rw [← hd.1, h]; decide
  · cases h

theorem demo_dims : Spec.Dims demo := by
  constructor <;> intro p x hv <;> rcases demo_value hv with ⟨_, h⟩ | ⟨_, h⟩ <;> cases h

theorem ok_of {α ε : Type} {x : Except ε α} (h : x.toBool = true) : ∃ y, x = .ok y := by
  cases x with
  | error _ => cases h
  | ok y => exact ⟨y, rfl⟩

/-- `{"a": {"x": 7 (as raw float)}, "s": "hi"}` -/
example : Spec.doc demo 0 = [0x82, 0xA1, 97, 0x81, 0xA1, 120, 0xCA, 0, 0, 0, 7, 0xA1, 115, 0xA2, 104, 105] := by decide

/-- The hypotheses of `save_load_partial` are met by saving `demo` and loading it into `other`, … -/
example : ∃ h h' m s, run 30 blank demo = .ok h ∧ run 30 blank other = .ok h' ∧ write 4294967296 30 h 0 (List.replicate 20 0) = .ok (m, 0) ∧
    read 4294967296 30 ⟨fun _ => 0, fun _ => true⟩ h' 0 m.buf = .ok (true, s) ∧ s.errs = 0 ∧
    Param.read s.heap 10 = .ok (.scalar 7) ∧ Param.read s.heap 11 = .ok (.string [104, 105]) := by
  obtain ⟨h, hr⟩ : ∃ h, run 30 blank demo = .ok h := ok_of (by decide +kernel)
  obtain ⟨h', hr'⟩ : ∃ h, run 30 blank other = .ok h := ok_of (by decide +kernel)
  obtain ⟨m, s, h1, h2, h3, h4, _⟩ := save_load_partial (W := 4294967296) (B := 65536) (n := 0) (buf := List.replicate 20 0)
    (en := ⟨fun _ => 0, fun _ => true⟩) (fun _ => rfl) demo_proper other_proper (by unfold Spec.SameDecls; decide) demo_distinct
    demo_named demo_sized demo_room demo_dims (Nat.le_refl _) (by decide) hr hr' (by decide) (by decide) (by decide) (by decide)
  refine ⟨h, h', m, s, hr, hr', h1, h2, h3, ?_, ?_⟩
  · refine h4 10 _ (by decide) ?_ (read_spec (run_inv' demo_proper (by decide) hr) demo_proper (by decide))
    exact Under.child (l := demo) (m := 1) (q := 0) (by decide) (by decide) .self
  · exact h4 11 _ (by decide) .self (read_spec (run_inv' demo_proper (by decide) hr) demo_proper (by decide))

/-- … and the model computes the same (also with a buffer one byte short: one error). -/
example : (match run 30 blank demo, run 30 blank other with
    | .ok h, .ok h' =>
      (match write 4294967296 30 h 0 (List.replicate 16 0), write 4294967296 30 h 0 (List.replicate 15 0) with
      | .ok (m, 0), .ok (m', 1) =>
        m.buf == Spec.doc demo 0 && m.index == 16 && m'.buf.length == 15 &&
        (match read 4294967296 30 ⟨fun _ => 0, fun _ => true⟩ h' 0 m.buf with
        | .ok (true, s) => decide (s.errs = 0 ∧ (Param.read s.heap 10).toOption = some (.scalar 7) ∧
            (Param.read s.heap 11).toOption = some (.string [104, 105]))
        | _ => false)
      | _, _ => false)
    | _, _ => false : Bool) = true := by decide +kernel

/-- The hypotheses of `error_iff_too_small_partial`: namespace 1 of `demo` has no sub-namespaces. -/
example : subs 1 demo = [] ∧ 1 ∈ nss demo ∧ (Spec.doc demo 1).length = 8 := by decide

/-- A namespace with an undefined parameter, in a namespace with a long name. -/
def nested : List Op :=
  [.declPar 10 1 [120] (.scalar 0 none), .declNs 1 (some 0) [97, 98, 99, 100], .declNs 0 none []]

/-- The error of a namespace name that does not fit is not reported: the document of 7 bytes does not fit in 3 bytes, the name
is missing and its place holds the next object, still no error is counted. -/
theorem nested_error_not_reported : (Spec.doc nested 0).length = 7 ∧ (match run 9 blank nested with
    | .ok h => (match write 4294967296 9 h 0 [0, 0, 0] with
      | .ok (m, k) => k == 0 && m.buf.take m.index == [0x81, 0xA4, 0x80]
      | _ => false)
    | _ => false : Bool) = true := by
  constructor
  · decide
  · decide +kernel

/-- An empty namespace does not fit in an empty buffer; no error. -/
theorem empty_error_not_reported : (Spec.doc [.declNs 0 none []] 0).length = 1 ∧ (match run 9 blank [.declNs 0 none []] with
    | .ok h => (match write 4294967296 9 h 0 [] with
      | .ok (_, k) => k == 0
      | _ => false)
    | _ => false : Bool) = true := by
  constructor
  · decide
  · decide +kernel

/-- A string which fills its buffer is saved without error and not loaded. -/
def full : List Op := [.set 11 (.string [104, 105]), .declPar 11 0 [115] (.string [1, 2] 0 none), .declNs 0 none []]
def fullEmpty : List Op := [.declPar 11 0 [115] (.string [1, 2] 0 none), .declNs 0 none []]

theorem full_string_refused : Spec.SameDecls full fullEmpty ∧ Proper full ∧ (match run 9 blank full, run 9 blank fullEmpty with
    | .ok h, .ok h' => (match write 4294967296 9 h 0 (List.replicate 9 0) with
      | .ok (m, 0) => (match read 4294967296 9 ⟨fun _ => 0, fun _ => true⟩ h' 0 m.buf with
        | .ok (ok, s) => !ok && s.errs == 2
        | _ => false)
      | _ => false)
    | _, _ => false : Bool) = true := by
  refine ⟨by unfold Spec.SameDecls; decide, by simp [full, Proper, nss, pars, declOf, valueOf, Fits, DeclOK, Decl.default], ?_⟩
  decide +kernel

/-- Two parameters with the same name: loading sets the first one only, to the value of the second. -/
def twins : List Op :=
  [.declPar 11 0 [120] (.scalar 0 (some 2)), .declPar 10 0 [120] (.scalar 0 (some 1)), .declNs 0 none []]

theorem duplicate_names_lost : Proper twins ∧ (match run 9 blank twins with
    | .ok h => (match write 4294967296 9 h 0 (List.replicate 30 0) with
      | .ok (m, 0) => (match read 4294967296 9 ⟨fun _ => 0, fun _ => true⟩ h 0 m.buf with
        | .ok (true, s) => decide (s.errs = 0 ∧ ¬((Param.read h 10).toOption = (Param.read s.heap 10).toOption ∧
            (Param.read h 11).toOption = (Param.read s.heap 11).toOption))
        | _ => false)
      | _ => false)
    | _ => false : Bool) = true :=
  ⟨by simp [twins, Proper, nss, pars, declOf, valueOf, Fits, DeclOK, Decl.default], by decide +kernel⟩

/-- A document announcing an identifier of 2^32 - 1 bytes: the read leaves the buffer (size_t of 32 bits). -/
theorem crafted_identifier_escapes : (match run 9 blank twins with
    | .ok h => (match read 4294967296 9 ⟨fun _ => 0, fun _ => true⟩ h 0 [0x81, 0xDB, 255, 255, 255, 255] with
      | .error .outOfBounds => true
      | _ => false)
    | _ => false : Bool) = true := by
  decide +kernel

end Verif.Msgpack
